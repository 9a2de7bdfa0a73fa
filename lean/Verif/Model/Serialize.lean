import Verif.Model.Parse
/-
The serializer: /repo/src/svdsuite/serialize.py, producing an element tree, and what an XML writer followed by an XML
reader does to that tree.
-/
namespace Svd

/-- serialize.py:51-54 `_append_element`. -/
def leaf (tag text : Str) : XElem := .mk tag (some text) [] []

/-- `if x is not None: element.append(self._append_element(tag, text=f(x)))`. -/
def optLeaf {α : Type} (tag : Str) (f : α → Str) (o : Option α) : List XElem :=
  match o with
  | none => []
  | some a => [leaf tag (f a)]

/-- `if x is not None: element.append(Serializer(x).to_xml())`. -/
def optElem {α : Type} (f : α → XElem) (o : Option α) : List XElem :=
  match o with
  | none => []
  | some a => [f a]

/-- `if x is not None: element.attrib[name] = f(x)`. -/
def optAttrib {α : Type} (name : Str) (f : α → Str) (o : Option α) : List (Str × Str) :=
  match o with
  | none => []
  | some a => [(name, f a)]

/-- serialize.py:57-74 `SVDSauRegionSerializer`. -/
def serSauRegion (r : SSauRegion) : XElem :=
  .mk (s%"region") none
    (optAttrib (s%"enabled") boolStr r.enabled ++ optAttrib (s%"name") id r.name)
    [leaf (s%"base") (hexStr r.base), leaf (s%"limit") (hexStr r.limit), leaf (s%"access") r.access.val]

/-- serialize.py:77-97 `SVDSauRegionsConfigSerializer`. -/
def serSauConfig (c : SSauConfig) : XElem :=
  .mk (s%"sauRegionsConfig") (if c.regions.isEmpty then some [] else none)
    (optAttrib (s%"enabled") boolStr c.enabled ++
      optAttrib (s%"protectionWhenDisabled") Protection.val c.protectionWhenDisabled)
    (c.regions.map serSauRegion)

/-- serialize.py:100-150 `SVDCPUSerializer`. -/
def serCpu (c : SCpu) : XElem :=
  .mk (s%"cpu") none []
    ([leaf (s%"name") c.name.val, leaf (s%"revision") c.revision, leaf (s%"endian") c.endian.val] ++
      optLeaf (s%"mpuPresent") boolStr c.mpuPresent ++
      optLeaf (s%"fpuPresent") boolStr c.fpuPresent ++
      optLeaf (s%"fpuDP") boolStr c.fpuDp ++
      optLeaf (s%"dspPresent") boolStr c.dspPresent ++
      optLeaf (s%"icachePresent") boolStr c.icachePresent ++
      optLeaf (s%"dcachePresent") boolStr c.dcachePresent ++
      optLeaf (s%"itcmPresent") boolStr c.itcmPresent ++
      optLeaf (s%"dtcmPresent") boolStr c.dtcmPresent ++
      optLeaf (s%"vtorPresent") boolStr c.vtorPresent ++
      [leaf (s%"nvicPrioBits") (intStr c.nvicPrioBits),
       leaf (s%"vendorSystickConfig") (boolStr c.vendorSystickConfig)] ++
      optLeaf (s%"deviceNumInterrupts") intStr c.deviceNumInterrupts ++
      optLeaf (s%"sauNumRegions") intStr c.sauNumRegions ++
      optElem serSauConfig c.sauConfig)

/-- serialize.py:153-171 `SVDEnumeratedValueSerializer`. -/
def serEnumValue (v : SEnumValue) : XElem :=
  .mk (s%"enumeratedValue") none []
    ([leaf (s%"name") v.name] ++
      optLeaf (s%"description") id v.description ++
      optLeaf (s%"value") id v.value ++
      optLeaf (s%"isDefault") boolStr v.isDefault)

/-- serialize.py:174-191 `SVDDimArrayIndexSerializer`. -/
def serDimArrayIndex (d : SDimArrayIndex) : XElem :=
  .mk (s%"dimArrayIndex") (if d.headerEnumName.isNone && d.values.isEmpty then some [] else none) []
    (optLeaf (s%"headerEnumName") id d.headerEnumName ++ d.values.map serEnumValue)

/-- serialize.py:194-208 `SVDAddressBlockSerializer`. -/
def serAddressBlock (b : SAddressBlock) : XElem :=
  .mk (s%"addressBlock") none []
    ([leaf (s%"offset") (hexStr b.offset), leaf (s%"size") (hexStr b.size), leaf (s%"usage") b.usage.val] ++
      optLeaf (s%"protection") Protection.val b.protection)

/-- serialize.py:211-225 `SVDInterruptSerializer`. -/
def serInterrupt (i : Interrupt) : XElem :=
  .mk (s%"interrupt") none []
    ([leaf (s%"name") i.name] ++ optLeaf (s%"description") id i.description ++
      [leaf (s%"value") (intStr i.value)])

/-- serialize.py:244-247: the `range` element. -/
def serRange (r : Int × Int) : XElem :=
  .mk (s%"range") none [] [leaf (s%"minimum") (intStr r.1), leaf (s%"maximum") (intStr r.2)]

/-- serialize.py:228-257 `SVDWriteConstraintSerializer`. -/
def serWriteConstraint (c : WriteConstraint) : XElem :=
  .mk (s%"writeConstraint")
    (if c.writeAsRead.isNone && c.useEnumeratedValues.isNone && c.range.isNone then some [] else none) []
    (optLeaf (s%"writeAsRead") boolStr c.writeAsRead ++
      optLeaf (s%"useEnumeratedValues") boolStr c.useEnumeratedValues ++
      optElem serRange c.range)

/-- serialize.py:260-286 `SVDEnumeratedValueContainerSerializer`. -/
def serEnumContainer (c : SEnumContainer) : XElem :=
  .mk (s%"enumeratedValues")
    (if c.name.isNone && c.headerEnumName.isNone && c.usage.isNone && c.values.isEmpty then some [] else none)
    (optAttrib (s%"derivedFrom") id c.derivedFrom)
    (optLeaf (s%"name") id c.name ++ optLeaf (s%"headerEnumName") id c.headerEnumName ++
      optLeaf (s%"usage") Usage.val c.usage ++ c.values.map serEnumValue)

/-- The dim group: serialize.py:299-312, 358-371, 437-450, 499-512. -/
def serDim (d : SDim) : List XElem :=
  optLeaf (s%"dim") intStr d.dim ++ optLeaf (s%"dimIncrement") intStr d.dimIncrement ++
  optLeaf (s%"dimIndex") id d.dimIndex ++ optLeaf (s%"dimName") id d.dimName ++
  optElem serDimArrayIndex d.dimArrayIndex

/-- The property group: serialize.py:389-402, 465-478, 542-555, 621-634. -/
def serProps (p : Props) : List XElem :=
  optLeaf (s%"size") intStr p.size ++ optLeaf (s%"access") Access.val p.access ++
  optLeaf (s%"protection") Protection.val p.protection ++ optLeaf (s%"resetValue") hexStr p.resetValue ++
  optLeaf (s%"resetMask") hexStr p.resetMask

/-- serialize.py:319-325: a pair is written only if both values are given. -/
def serPair (t1 t2 : Str) (a b : Option Int) : List XElem :=
  match a, b with
  | some x, some y => [leaf t1 (intStr x), leaf t2 (intStr y)]
  | _, _ => []

/-- serialize.py:289-345 `SVDFieldSerializer`. -/
def serField (f : SField) : XElem :=
  .mk (s%"field") none (optAttrib (s%"derivedFrom") id f.derivedFrom)
    (serDim f.dim ++
      [leaf (s%"name") f.name] ++
      optLeaf (s%"description") id f.description ++
      serPair (s%"bitOffset") (s%"bitWidth") f.bitOffset f.bitWidth ++
      serPair (s%"lsb") (s%"msb") f.lsb f.msb ++
      optLeaf (s%"bitRange") id f.bitRange ++
      optLeaf (s%"access") Access.val f.access ++
      optLeaf (s%"modifiedWriteValues") ModWrite.val f.modifiedWriteValues ++
      optElem serWriteConstraint f.writeConstraint ++
      optLeaf (s%"readAction") ReadAction.val f.readAction ++
      f.containers.map serEnumContainer)

/-- serialize.py:416-422: the `fields` element, only if there are fields. -/
def serFields (fs : List SField) : List XElem :=
  if fs.isEmpty then [] else [.mk (s%"fields") none [] (fs.map serField)]

/-- serialize.py:348-424 `SVDRegisterSerializer`. -/
def serRegister (r : SRegister) : XElem :=
  .mk (s%"register") none (optAttrib (s%"derivedFrom") id r.derivedFrom)
    (serDim r.dim ++
      [leaf (s%"name") r.name] ++
      optLeaf (s%"displayName") id r.displayName ++
      optLeaf (s%"description") id r.description ++
      optLeaf (s%"alternateGroup") id r.alternateGroup ++
      optLeaf (s%"alternateRegister") id r.alternateRegister ++
      [leaf (s%"addressOffset") (hexStr r.addressOffset)] ++
      serProps r.props ++
      optLeaf (s%"dataType") DataType.val r.dataType ++
      optLeaf (s%"modifiedWriteValues") ModWrite.val r.modifiedWriteValues ++
      optElem serWriteConstraint r.writeConstraint ++
      optLeaf (s%"readAction") ReadAction.val r.readAction ++
      serFields r.fields)

mutual
/-- serialize.py:481-484, 566-570 with 427-486 `SVDClusterSerializer`. -/
def serRC : SRC → XElem
  | .reg r => serRegister r
  | .clu c ch =>
      .mk (s%"cluster") none (optAttrib (s%"derivedFrom") id c.derivedFrom)
        (serDim c.dim ++
          [leaf (s%"name") c.name] ++
          optLeaf (s%"description") id c.description ++
          optLeaf (s%"alternateCluster") id c.alternateCluster ++
          optLeaf (s%"headerStructName") id c.headerStructName ++
          [leaf (s%"addressOffset") (hexStr c.addressOffset)] ++
          serProps c.props ++
          serRCs ch)
/-- The loop over `registers_clusters`. -/
def serRCs : List SRC → List XElem
  | [] => []
  | x :: xs => serRC x :: serRCs xs
end

/-- serialize.py:563-572: the `registers` element, only if there are registers or clusters. -/
def serRegisters (rcs : List SRC) : List XElem :=
  if rcs.isEmpty then [] else [.mk (s%"registers") none [] (serRCs rcs)]

/-- serialize.py:489-574 `SVDPeripheralSerializer`. -/
def serPeripheral (p : SPeriphT) : XElem :=
  .mk (s%"peripheral") none (optAttrib (s%"derivedFrom") id p.hd.derivedFrom)
    (serDim p.hd.dim ++
      [leaf (s%"name") p.hd.name] ++
      optLeaf (s%"version") id p.hd.version ++
      optLeaf (s%"description") id p.hd.description ++
      optLeaf (s%"alternatePeripheral") id p.hd.alternatePeripheral ++
      optLeaf (s%"groupName") id p.hd.groupName ++
      optLeaf (s%"prependToName") id p.hd.prependToName ++
      optLeaf (s%"appendToName") id p.hd.appendToName ++
      optLeaf (s%"headerStructName") id p.hd.headerStructName ++
      optLeaf (s%"disableCondition") id p.hd.disableCondition ++
      [leaf (s%"baseAddress") (hexStr p.hd.baseAddress)] ++
      serProps p.hd.props ++
      p.hd.addressBlocks.map serAddressBlock ++
      p.hd.interrupts.map serInterrupt ++
      serRegisters p.rcs)

/-- serialize.py:582: the namespace URI. -/
def xsUri : Str := s%"http://www.w3.org/2001/XMLSchema-instance"

/-- serialize.py:636-642: the `peripherals` element, only if there are peripherals. -/
def serPeripherals (ps : List SPeriphT) : List XElem :=
  if ps.isEmpty then [] else [.mk (s%"peripherals") none [] (ps.map serPeripheral)]

/-- serialize.py:577-644 `SVDDeviceSerializer`. -/
def serDevice (d : SDevice) : XDoc :=
  { nsmap := [(s%"xs", xsUri)]
    root := .mk (s%"device") none
      [(('{' :: xsUri) ++ ('}' :: s%"noNamespaceSchemaLocation"), d.hd.xsNoNamespaceSchemaLocation),
       (s%"schemaVersion", d.hd.schemaVersion)]
      (optLeaf (s%"vendor") id d.hd.vendor ++
        optLeaf (s%"vendorID") id d.hd.vendorId ++
        [leaf (s%"name") d.hd.name] ++
        optLeaf (s%"series") id d.hd.series ++
        [leaf (s%"version") d.hd.version, leaf (s%"description") d.hd.description] ++
        optLeaf (s%"licenseText") id d.hd.licenseText ++
        optElem serCpu d.hd.cpu ++
        optLeaf (s%"headerSystemFilename") id d.hd.headerSystemFilename ++
        optLeaf (s%"headerDefinitionsPrefix") id d.hd.headerDefinitionsPrefix ++
        [leaf (s%"addressUnitBits") (intStr d.hd.addressUnitBits), leaf (s%"width") (intStr d.hd.width)] ++
        serProps d.hd.props ++
        serPeripherals d.peripherals) }

mutual
/-- Writing a tree as XML text and reading it back (lxml, trusted): an empty text becomes `None`.  Pretty printing
(serialize.py:21-47, `pretty_print`) puts blanks into the elements that have children but no text; `fmt` gives the text
found in such an element at each depth (`fun _ => none` without pretty printing). -/
def reread (fmt : Nat → Option Str) (depth : Nat) : XElem → XElem
  | .mk tag text attrs children =>
      .mk tag (match text with | some [] => none | some t => some t | none => if children.isEmpty then none else fmt depth)
        attrs (rereadAll fmt (depth + 1) children)
/-- `reread` on the children. -/
def rereadAll (fmt : Nat → Option Str) (depth : Nat) : List XElem → List XElem
  | [] => []
  | x :: xs => reread fmt depth x :: rereadAll fmt depth xs
end

/-- `Serializer.device_to_svd_content` (or `_file`, `_str`) followed by `Parser.from_xml_content` (etc.). -/
def serializeThenParse (fmt : Nat → Option Str) (d : SDevice) : M SDevice :=
  parseDevice { nsmap := (serDevice d).nsmap, root := reread fmt 0 (serDevice d).root }

end Svd
