import Verif.Model.Svd
/-
The parser: /repo/src/svdsuite/parse.py and the `from_str` methods of model/types.py, over an XML element tree.
Assignments of `parent` back pointers are omitted.
-/
namespace Svd

/-- An lxml element: tag, text, attributes, element children (`sourceline`, tails, comments omitted; comments never
match a tag). -/
inductive XElem where
  | mk (tag : Str) (text : Option Str) (attrs : List (Str × Str)) (children : List XElem)
  deriving Repr

namespace XElem
def tag : XElem → Str | .mk t _ _ _ => t
def text : XElem → Option Str | .mk _ t _ _ => t
def attrs : XElem → List (Str × Str) | .mk _ _ a _ => a
def children : XElem → List XElem | .mk _ _ _ c => c
/-- `element.findall(name)`. -/
def findall (e : XElem) (name : Str) : List XElem := e.children.filter (fun c => decide (c.tag = name))
/-- `element.find(name)`. -/
def find (e : XElem) (name : Str) : Option XElem := (e.findall name).head?
/-- `element.get(name)`. -/
def get (e : XElem) (name : Str) : Option Str := e.attrs.lookup name
end XElem

/-- A document: the root element and its namespace map (prefix ↦ URI). -/
structure XDoc where
  nsmap : List (Str × Str)
  root : XElem
  deriving Repr

/-! ### values -/

/-- parse.py:49-65 `_to_bool` (value given). -/
def toBool (v : Str) : M Bool :=
  if lower v = s%"true" then M.pure true
  else if lower v = s%"false" then M.pure false
  else if v = s%"1" then M.pure true
  else if v = s%"0" then M.pure false
  else M.throw .notImplemented

/-- parse.py:83-96 `_to_int` with base 0 (value given). -/
def toInt (v : Str) : M Int :=
  let w := replaceAll ['#'] (s%"0b") v
  match pyInt 0 w with
  | some i => M.pure i
  | none => match pyInt 10 w with
    | some i => M.pure i
    | none => M.throw .notImplemented

/-- `None` stays `None`: parse.py:68-72 and 84-85. -/
def optM {α : Type} (f : Str → M α) (o : Option Str) : M (Option α) :=
  match o with
  | none => M.pure none
  | some s => M.bind (f s) fun a => M.pure (some a)

/-- `cls(label)` of an `Enum`, `NotImplementedError` if there is no such value: model/types.py:57-62 etc. -/
def fromVal {α : Type} (all : List α) (val : α → Str) (label : Str) : M α :=
  M.ofOption (all.find? fun a => decide (val a = label)) .notImplemented

/-- model/types.py:38-48 `CPUNameType.from_str`. -/
def CPUName.fromStr (label : Str) : M CPUName :=
  match CPUName.all.find? (fun a => decide (a.ident = upper label)) with
  | some a => M.pure a
  | none => if label = s%"CM0+" then M.pure .CM0_PLUS else M.throw .notImplemented

/-- model/types.py:98-116 `AccessType.from_str`. -/
def Access.fromStr (label : Str) : M (Option Access) :=
  match Access.all.find? (fun a => decide (lower a.val = lower label)) with
  | some a => M.pure (some a)
  | none =>
    if lower label = s%"write" then M.pure (some .writeOnly)
    else if lower label = s%"read" then M.pure (some .readOnly)
    else M.bind (M.warn (.unknownAccess label)) fun _ => M.pure none

/-- parse.py:301-302 (and 573-574): `access` may become `None`. -/
def optAccess (o : Option Str) : M (Option Access) :=
  match o with
  | none => M.pure none
  | some s => Access.fromStr s

/-! ### elements and attributes -/

/-- parse.py:160-178: the text of the chosen element. -/
def lastText (name : Str) (doStrip optional : Bool) (e : XElem) : M (Option Str) :=
  match e.text with
  | none => if optional then M.pure none else M.throw .parser
  | some t =>
    if !doStrip then M.pure (some t)
    else M.bind (M.warnIf (decide (t ≠ strip t)) (.stripped name)) fun _ => M.pure (some (strip t))

/-- parse.py:136-178 `_parse_element_text`; with several elements, a `None` text among them makes `", ".join` raise
`TypeError` (line 146). -/
def elementText (name : Str) (parent : XElem) (doStrip optional : Bool) : M (Option Str) :=
  match parent.findall name with
  | [] => if optional then M.pure none else M.throw .parser
  | [e] => lastText name doStrip optional e
  | e :: es =>
    if (e :: es).any (fun x => x.text.isNone) then M.throw .typeError
    else
      M.bind (M.warn (.multipleElements name)) fun _ =>
      lastText name doStrip optional (es.getLastD e)

/-- `_parse_element_text(..., optional=False)`. -/
def reqText (name : Str) (parent : XElem) : M Str :=
  M.bind (elementText name parent true false) fun o => M.ofOption o .parser

/-- `_parse_element_text(..., optional=True)`. -/
def optText (name : Str) (parent : XElem) : M (Option Str) := elementText name parent true true

/-- `_parse_element_text(..., strip=False, optional=True)`. -/
def rawText (name : Str) (parent : XElem) : M (Option Str) := elementText name parent false true

/-- parse.py:198-223 `_parse_element_attribute` with `optional=True`. -/
def optAttr (name : Str) (e : XElem) : M (Option Str) :=
  match e.get name with
  | none => M.pure none
  | some t => M.bind (M.warnIf (decide (t ≠ strip t)) (.stripped name)) fun _ => M.pure (some (strip t))

/-- parse.py:198-223 `_parse_element_attribute` with `optional=False`. -/
def reqAttr (name : Str) (e : XElem) : M Str :=
  M.bind (optAttr name e) fun o => M.ofOption o .parser

/-- `_to_int(self._parse_element_text(..., optional=False))`. -/
def reqInt (name : Str) (e : XElem) : M Int := M.bind (reqText name e) toInt
/-- `_to_int(self._parse_element_text(..., optional=True))`. -/
def optInt (name : Str) (e : XElem) : M (Option Int) := M.bind (optText name e) (optM toInt)
/-- `_to_none_or_bool(self._parse_element_text(..., optional=True))`. -/
def optBool (name : Str) (e : XElem) : M (Option Bool) := M.bind (optText name e) (optM toBool)
/-- `_to_none_or_bool(self._parse_element_attribute(..., optional=True))`. -/
def optAttrBool (name : Str) (e : XElem) : M (Option Bool) := M.bind (optAttr name e) (optM toBool)

/-- parse.py:292-307 `_parse_register_properties`. -/
def parseProps (e : XElem) : M Props := do
  let size ← optInt (s%"size") e
  let access ← optText (s%"access") e
  let protection ← optText (s%"protection") e
  let resetValue ← optInt (s%"resetValue") e
  let resetMask ← optInt (s%"resetMask") e
  let access ← optAccess access
  let protection ← optM (fromVal Protection.all Protection.val) protection
  M.pure { size := size, access := access, protection := protection, resetValue := resetValue, resetMask := resetMask }

/-- parse.py:392-399: one SAU region. -/
def parseSauRegion (e : XElem) : M SSauRegion := do
  let enabled ← optAttrBool (s%"enabled") e
  let name ← optAttr (s%"name") e
  let base ← reqInt (s%"base") e
  let limit ← reqInt (s%"limit") e
  let access ← M.bind (reqText (s%"access") e) (fromVal SauAccess.all SauAccess.val)
  M.pure { enabled := enabled, name := name, base := base, limit := limit, access := access }

/-- parse.py:360-386 `_parse_sau_regions_config`. -/
def parseSauConfig (cpu : XElem) : M (Option SSauConfig) :=
  match cpu.find (s%"sauRegionsConfig") with
  | none => M.pure none
  | some e => do
    let enabled ← optAttrBool (s%"enabled") e
    let prot ← optAttr (s%"protectionWhenDisabled") e
    let regions ← M.mapM parseSauRegion (e.findall (s%"region"))
    let prot ← optM (fromVal Protection.all Protection.val) prot
    M.pure (some { enabled := enabled, protectionWhenDisabled := prot, regions := regions })

/-- parse.py:309-358 `_parse_cpu`. -/
def parseCpu (device : XElem) : M (Option SCpu) :=
  match device.find (s%"cpu") with
  | none => M.pure none
  | some e => do
    let name ← M.bind (reqText (s%"name") e) CPUName.fromStr
    let revision ← reqText (s%"revision") e
    let endian ← M.bind (reqText (s%"endian") e) (fromVal Endian.all Endian.val)
    let mpu ← optBool (s%"mpuPresent") e
    let fpu ← optBool (s%"fpuPresent") e
    let fpuDp ← optBool (s%"fpuDP") e
    let dsp ← optBool (s%"dspPresent") e
    let icache ← optBool (s%"icachePresent") e
    let dcache ← optBool (s%"dcachePresent") e
    let itcm ← optBool (s%"itcmPresent") e
    let dtcm ← optBool (s%"dtcmPresent") e
    let vtor ← optBool (s%"vtorPresent") e
    let nvic ← reqInt (s%"nvicPrioBits") e
    let systick ← M.bind (reqText (s%"vendorSystickConfig") e) toBool
    let ints ← optInt (s%"deviceNumInterrupts") e
    let sauNum ← optInt (s%"sauNumRegions") e
    let sau ← parseSauConfig e
    M.pure (some { name := name, revision := revision, endian := endian, mpuPresent := mpu, fpuPresent := fpu
                   fpuDp := fpuDp, dspPresent := dsp, icachePresent := icache, dcachePresent := dcache
                   itcmPresent := itcm, dtcmPresent := dtcm, vtorPresent := vtor, nvicPrioBits := nvic
                   vendorSystickConfig := systick, deviceNumInterrupts := ints, sauNumRegions := sauNum
                   sauConfig := sau })

/-- parse.py:813-823: one enumerated value. -/
def parseEnumValue (e : XElem) : M SEnumValue := do
  let name ← reqText (s%"name") e
  let description ← rawText (s%"description") e
  let value ← optText (s%"value") e
  let isDefault ← optBool (s%"isDefault") e
  M.pure { name := name, description := description, value := value, isDefault := isDefault }

/-- parse.py:808-825 `_parse_enumerated_values`. -/
def parseEnumValues (e : XElem) : M (List SEnumValue) := M.mapM parseEnumValue (e.findall (s%"enumeratedValue"))

/-- parse.py:789-806 `parse_dim_array_index`. -/
def parseDimArrayIndex (e : XElem) : M (Option SDimArrayIndex) :=
  match e.find (s%"dimArrayIndex") with
  | none => M.pure none
  | some x => do
    let hdr ← optText (s%"headerEnumName") x
    let values ← parseEnumValues x
    M.pure (some { headerEnumName := hdr, values := values })

/-- parse.py:777-787 `_parse_dim_element_group`. -/
def parseDim (e : XElem) : M SDim := do
  let dim ← optInt (s%"dim") e
  let inc ← optInt (s%"dimIncrement") e
  let idx ← optText (s%"dimIndex") e
  let name ← optText (s%"dimName") e
  let arr ← parseDimArrayIndex e
  M.pure { dim := dim, dimIncrement := inc, dimIndex := idx, dimName := name, dimArrayIndex := arr }

/-- parse.py:760-773: one address block; `_to_int(...) or 0`. -/
def parseAddressBlock (e : XElem) : M SAddressBlock := do
  let offset ← optInt (s%"offset") e
  let size ← reqInt (s%"size") e
  let usage ← M.bind (reqText (s%"usage") e) (fromVal EnumToken.all EnumToken.val)
  let protection ← optText (s%"protection") e
  let protection ← optM (fromVal Protection.all Protection.val) protection
  M.pure { offset := offset.getD 0, size := size, usage := usage, protection := protection }

/-- parse.py:742-750: the value of an interrupt, 0 with a warning if it is missing. -/
def interruptValue (name : Str) (e : XElem) : M Int :=
  match reqInt (s%"value") e with
  | .err .parser => M.bind (M.warn (.interruptNoValue name)) fun _ => M.pure 0
  | r => r

/-- parse.py:737-752: one interrupt. -/
def parseInterrupt (e : XElem) : M Interrupt := do
  let name ← reqText (s%"name") e
  let description ← rawText (s%"description") e
  let value ← interruptValue name e
  M.pure { name := name, description := description, value := value }

/-- parse.py:645-672 `_parse_write_constraint`. -/
def parseWriteConstraint (e : XElem) : M (Option WriteConstraint) :=
  match e.find (s%"writeConstraint") with
  | none => M.pure none
  | some x => do
    let war ← optBool (s%"writeAsRead") x
    let use ← optBool (s%"useEnumeratedValues") x
    let range ← (match x.find (s%"range") with
      | none => M.pure none
      | some r => do
        let mn ← reqInt (s%"minimum") r
        let mx ← reqInt (s%"maximum") r
        M.pure (some (mn, mx)))
    M.pure (some { writeAsRead := war, useEnumeratedValues := use, range := range })

/-- parse.py:620-641: one container. -/
def parseEnumContainer (e : XElem) : M SEnumContainer := do
  let derived ← optAttr (s%"derivedFrom") e
  let name ← optText (s%"name") e
  let hdr ← optText (s%"headerEnumName") e
  let usage ← optText (s%"usage") e
  let values ← parseEnumValues e
  let usage ← optM (fromVal Usage.all Usage.val) usage
  M.pure { name := name, headerEnumName := hdr, usage := usage, values := values, derivedFrom := derived }

/-- parse.py:556-612: one field. -/
def parseField (e : XElem) : M SField := do
  let derived ← optAttr (s%"derivedFrom") e
  let name ← reqText (s%"name") e
  let description ← rawText (s%"description") e
  let bitOffset ← optInt (s%"bitOffset") e
  let bitWidth ← optInt (s%"bitWidth") e
  let lsb ← optInt (s%"lsb") e
  let msb ← optInt (s%"msb") e
  let bitRange ← optText (s%"bitRange") e
  let access ← optText (s%"access") e
  let mwv ← optText (s%"modifiedWriteValues") e
  let wc ← parseWriteConstraint e
  let ra ← optText (s%"readAction") e
  let conts ← M.mapM parseEnumContainer (e.findall (s%"enumeratedValues"))
  let dim ← parseDim e
  let access ← optAccess access
  let mwv ← optM (fromVal ModWrite.all ModWrite.val) mwv
  let ra ← optM (fromVal ReadAction.all ReadAction.val) ra
  M.pure { name := name, description := description, bitOffset := bitOffset, bitWidth := bitWidth, lsb := lsb
           msb := msb, bitRange := bitRange, access := access, modifiedWriteValues := mwv, writeConstraint := wc
           readAction := ra, containers := conts, dim := dim, derivedFrom := derived }

/-- parse.py:545-614 `_parse_fields`: the `field` children of all `fields` children. -/
def parseFields (e : XElem) : M (List SField) :=
  M.mapM parseField ((e.findall (s%"fields")).flatMap fun x => x.findall (s%"field"))

/-- parse.py:482-543 `_parse_register`. -/
def parseRegister (e : XElem) : M SRegister := do
  let derived ← optAttr (s%"derivedFrom") e
  let name ← reqText (s%"name") e
  let display ← optText (s%"displayName") e
  let description ← rawText (s%"description") e
  let altGroup ← optText (s%"alternateGroup") e
  let altReg ← optText (s%"alternateRegister") e
  let offset ← reqInt (s%"addressOffset") e
  let dataType ← optText (s%"dataType") e
  let mwv ← optText (s%"modifiedWriteValues") e
  let wc ← parseWriteConstraint e
  let ra ← optText (s%"readAction") e
  let fields ← parseFields e
  let dim ← parseDim e
  let props ← parseProps e
  let dataType ← optM (fromVal DataType.all DataType.val) dataType
  let mwv ← optM (fromVal ModWrite.all ModWrite.val) mwv
  let ra ← optM (fromVal ReadAction.all ReadAction.val) ra
  M.pure { name := name, displayName := display, description := description, alternateGroup := altGroup
           alternateRegister := altReg, addressOffset := offset, dataType := dataType
           modifiedWriteValues := mwv, writeConstraint := wc, readAction := ra, fields := fields, dim := dim
           props := props, derivedFrom := derived }

mutual
/-- parse.py:722-729: one child of a `registers`/`cluster` element; `none` for other tags. -/
def parseRC : XElem → M (Option SRC)
  | .mk tag text attrs children =>
      let e := XElem.mk tag text attrs children
      if tag = s%"register" then M.bind (parseRegister e) fun r => M.pure (some (.reg r))
      else if tag = s%"cluster" then do
        -- parse.py:674-713 `_parse_cluster`
        let derived ← optAttr (s%"derivedFrom") e
        let name ← reqText (s%"name") e
        let description ← rawText (s%"description") e
        let altCluster ← optText (s%"alternateCluster") e
        let hdr ← optText (s%"headerStructName") e
        let offset ← reqInt (s%"addressOffset") e
        let rcs ← parseRCs children
        let dim ← parseDim e
        let props ← parseProps e
        M.pure (some (.clu { name := name, description := description, alternateCluster := altCluster
                             headerStructName := hdr, addressOffset := offset, dim := dim, props := props
                             derivedFrom := derived } rcs))
      else M.pure none
/-- parse.py:715-731 `_parse_registers_clusters` (on the children of the element). -/
def parseRCs : List XElem → M (List SRC)
  | [] => M.pure []
  | x :: xs => M.bind (parseRC x) fun o => M.bind (parseRCs xs) fun ys =>
      M.pure (match o with | some y => y :: ys | none => ys)
end

/-- parse.py:412-478: one peripheral. -/
def parsePeripheral (e : XElem) : M SPeriphT := do
  let derived ← optAttr (s%"derivedFrom") e
  let name ← reqText (s%"name") e
  let version ← optText (s%"version") e
  let description ← rawText (s%"description") e
  let alt ← optText (s%"alternatePeripheral") e
  let group ← optText (s%"groupName") e
  let prep ← optText (s%"prependToName") e
  let app ← optText (s%"appendToName") e
  let hdr ← optText (s%"headerStructName") e
  let cond ← rawText (s%"disableCondition") e
  let base ← reqInt (s%"baseAddress") e
  let blocks ← M.mapM parseAddressBlock (e.findall (s%"addressBlock"))
  let ints ← M.mapM parseInterrupt (e.findall (s%"interrupt"))
  let rcss ← M.mapM (fun x => parseRCs x.children) (e.findall (s%"registers"))
  let dim ← parseDim e
  let props ← parseProps e
  M.pure { hd := { name := name, version := version, description := description, alternatePeripheral := alt
                   groupName := group, prependToName := prep, appendToName := app, headerStructName := hdr
                   disableCondition := cond, baseAddress := base, addressBlocks := blocks, interrupts := ints
                   dim := dim, props := props, derivedFrom := derived }
           rcs := rcss.flatten }

/-- parse.py:403-480 `_parse_peripherals`. -/
def parsePeripherals (device : XElem) : M (List SPeriphT) :=
  match device.find (s%"peripherals") with
  | none => M.throw .parser
  | some e => M.mapM parsePeripheral (e.findall (s%"peripheral"))

/-- parse.py:226-236: the schema location attribute, `""` with a warning if it is missing. -/
def parseSchemaLocation (d : XDoc) : M Str :=
  let key : Str := if (d.nsmap.lookup (s%"xs")).isSome then s%"xs" else s%"xsi"
  match d.nsmap.lookup key with
  | none => M.bind (M.warn .noSchemaLocation) fun _ => M.pure []
  | some uri =>
    match reqAttr (('{' :: uri) ++ ('}' :: s%"noNamespaceSchemaLocation")) d.root with
    | .err .parser => M.bind (M.warn .noSchemaLocation) fun _ => M.pure []
    | r => r

/-- parse.py:247-250: the description of the device, `""` with a warning if it is missing. -/
def parseDeviceDescription (e : XElem) : M Str :=
  M.bind (rawText (s%"description") e) fun o =>
  match o with
  | some t => M.pure t
  | none => M.bind (M.warn .noDescription) fun _ => M.pure []

/-- parse.py:225-290 `_parse_device`. -/
def parseDevice (d : XDoc) : M SDevice := do
  let e := d.root
  let loc ← parseSchemaLocation d
  let schemaVersion ← reqAttr (s%"schemaVersion") e
  let vendor ← optText (s%"vendor") e
  let vendorId ← optText (s%"vendorID") e
  let name ← reqText (s%"name") e
  let series ← optText (s%"series") e
  let version ← reqText (s%"version") e
  let description ← parseDeviceDescription e
  let license ← rawText (s%"licenseText") e
  let cpu ← parseCpu e
  let hsf ← optText (s%"headerSystemFilename") e
  let hdp ← optText (s%"headerDefinitionsPrefix") e
  let aub ← reqInt (s%"addressUnitBits") e
  let width ← reqInt (s%"width") e
  let props ← parseProps e
  let peripherals ← parsePeripherals e
  M.pure { hd := { xsNoNamespaceSchemaLocation := loc, schemaVersion := schemaVersion, vendor := vendor
                   vendorId := vendorId, name := name, series := series, version := version
                   description := description, licenseText := license, cpu := cpu, headerSystemFilename := hsf
                   headerDefinitionsPrefix := hdp, addressUnitBits := aub, width := width, props := props }
           peripherals := peripherals }

end Svd
