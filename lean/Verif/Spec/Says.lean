import Verif.Spec.Literal
import Verif.Spec.Misc
/-
What an SVD document says: for each kind of element of the CMSIS-SVD format, the child elements and attributes that give the
attributes of the object, without reference to the parser.  `Says… e x` reads "the element `e` says `x`".
-/
namespace Svd.Spec

/-! ### texts and attributes -/

/-- The children with the tag `t`. -/
def kids (e : XElem) (t : Str) : List XElem := e.children.filter fun x => decide (x.tag = t)

/-- The text of the child `t` of `e`: there is none if there is no such child or a single one without text, otherwise it is the
text of the last one; repeated children must all have texts. -/
inductive Text (e : XElem) (t : Str) : Option Str → Prop
  | absent : kids e t = [] → Text e t none
  | empty {x} : kids e t = [x] → x.text = none → Text e t none
  | last {l x s} : kids e t = l ++ [x] → (∀ y ∈ l, y.text ≠ none) → x.text = some s → Text e t (some s)

/-- The value given by the child `t` of `e`, if any: the text without surrounding white space, as understood by `R`. -/
inductive Value {α : Type} (R : Str → α → Prop) (e : XElem) (t : Str) : Option α → Prop
  | absent : Text e t none → Value R e t none
  | given {s a} : Text e t (some s) → R (trim s) a → Value R e t (some a)

/-- The value of the attribute `k` of `e`, if any. -/
inductive AttrValue {α : Type} (R : Str → α → Prop) (e : XElem) (k : Str) : Option α → Prop
  | absent : e.attrs.lookup k = none → AttrValue R e k none
  | given {s a} : e.attrs.lookup k = some s → R (trim s) a → AttrValue R e k (some a)

/-- What the first child `t` of `e` says, if there is one. -/
inductive First {α : Type} (R : XElem → α → Prop) (e : XElem) (t : Str) : Option α → Prop
  | absent : kids e t = [] → First R e t none
  | first {x l a} : kids e t = x :: l → R x a → First R e t (some a)

/-! ### the vocabulary -/

/-- A truth value. -/
def BoolText (s : Str) (b : Bool) : Prop :=
  ((lowerText s = s%"true" ∨ s = s%"1") ∧ b = true) ∨ ((lowerText s = s%"false" ∨ s = s%"0") ∧ b = false)

/-- A word of a vocabulary. -/
def Token {α : Type} (table : List (Str × α)) (s : Str) (a : α) : Prop := (s, a) ∈ table

/-- `endian`. -/
def endianWords : List (Str × Endian) :=
  [(s%"little", .little), (s%"big", .big), (s%"selectable", .selectable), (s%"other", .other)]
/-- `protection`. -/
def protectionWords : List (Str × Protection) := [(s%"s", .secure), (s%"n", .nonSecure), (s%"p", .privileged), (s%"any", .any)]
/-- `access` of a SAU region. -/
def sauWords : List (Str × SauAccess) := [(s%"c", .nonSecureCallable), (s%"n", .nonSecure)]
/-- `usage` of an address block. -/
def blockWords : List (Str × EnumToken) := [(s%"registers", .registers), (s%"buffer", .buffer), (s%"reserved", .reserved)]
/-- `dataType`. -/
def typeWords : List (Str × DataType) :=
  [(s%"uint8_t", .u8), (s%"uint16_t", .u16), (s%"uint32_t", .u32), (s%"uint64_t", .u64), (s%"int8_t", .i8), (s%"int16_t", .i16),
   (s%"int32_t", .i32), (s%"int64_t", .i64), (s%"uint8_t *", .u8p), (s%"uint16_t *", .u16p), (s%"uint32_t *", .u32p),
   (s%"uint64_t *", .u64p), (s%"int8_t *", .i8p), (s%"int16_t *", .i16p), (s%"int32_t *", .i32p), (s%"int64_t *", .i64p)]
/-- `modifiedWriteValues`. -/
def modWriteWords : List (Str × ModWrite) :=
  [(s%"oneToClear", .oneToClear), (s%"oneToSet", .oneToSet), (s%"oneToToggle", .oneToToggle), (s%"zeroToClear", .zeroToClear),
   (s%"zeroToSet", .zeroToSet), (s%"zeroToToggle", .zeroToToggle), (s%"clear", .clear), (s%"set", .set), (s%"modify", .modify)]
/-- `readAction`. -/
def readActionWords : List (Str × ReadAction) :=
  [(s%"clear", .clear), (s%"set", .set), (s%"modify", .modify), (s%"modifyExternal", .modifyExternal)]
/-- `usage` of enumerated values. -/
def usageWords : List (Str × Usage) := [(s%"read", .read), (s%"write", .write), (s%"read-write", .readWrite)]
/-- `access`, in lower case, with the two short forms. -/
def accessWords : List (Str × Access) :=
  [(s%"read-only", .readOnly), (s%"write-only", .writeOnly), (s%"read-write", .readWrite), (s%"writeonce", .writeOnce),
   (s%"read-writeonce", .readWriteOnce), (s%"read", .readOnly), (s%"write", .writeOnly)]
/-- `name` of the CPU, in upper case. -/
def cpuWords : List (Str × CPUName) :=
  [(s%"CM0", .CM0), (s%"CM0PLUS", .CM0PLUS), (s%"CM0_PLUS", .CM0_PLUS), (s%"CM0+", .CM0_PLUS), (s%"CM1", .CM1), (s%"CM3", .CM3),
   (s%"CM4", .CM4), (s%"CM7", .CM7), (s%"CM23", .CM23), (s%"CM33", .CM33), (s%"CM35P", .CM35P), (s%"CM52", .CM52), (s%"CM55", .CM55),
   (s%"CM85", .CM85), (s%"SC000", .SC000), (s%"SC300", .SC300), (s%"ARMV8MML", .ARMV8MML), (s%"ARMV8MBL", .ARMV8MBL),
   (s%"ARMV81MML", .ARMV81MML), (s%"CA5", .CA5), (s%"CA7", .CA7), (s%"CA8", .CA8), (s%"CA9", .CA9), (s%"CA15", .CA15),
   (s%"CA17", .CA17), (s%"CA53", .CA53), (s%"CA57", .CA57), (s%"CA72", .CA72), (s%"SMC1", .SMC1), (s%"OTHER", .OTHER)]

/-- The name of a CPU: in any case, except that `CM0+` is read in upper case only. -/
def CpuText (s : Str) (c : CPUName) : Prop := (s.map Char.toUpper, c) ∈ cpuWords ∧ (s.map Char.toUpper = s%"CM0+" → s = s%"CM0+")

/-- The access type: in any case; unknown words count as none. -/
def AccessText (s : Str) (o : Option Access) : Prop :=
  (∃ a, (lowerText s, a) ∈ accessWords ∧ o = some a) ∨ ((∀ a, (lowerText s, a) ∉ accessWords) ∧ o = none)

/-- The access type given by the child `access`, if any. -/
inductive AccessValue (e : XElem) : Option Access → Prop
  | absent : Text e (s%"access") none → AccessValue e none
  | given {s o} : Text e (s%"access") (some s) → AccessText (trim s) o → AccessValue e o

/-! ### the elements -/

/-- The properties group. -/
structure SaysProps (e : XElem) (p : Props) : Prop where
  size : Value IntText e (s%"size") p.size
  access : AccessValue e p.access
  protection : Value (Token protectionWords) e (s%"protection") p.protection
  resetValue : Value IntText e (s%"resetValue") p.resetValue
  resetMask : Value IntText e (s%"resetMask") p.resetMask

/-- `enumeratedValue`. -/
structure SaysEnumValue (e : XElem) (v : SEnumValue) : Prop where
  name : Value Eq e (s%"name") (some v.name)
  description : Text e (s%"description") v.description
  value : Value Eq e (s%"value") v.value
  isDefault : Value BoolText e (s%"isDefault") v.isDefault

/-- `dimArrayIndex`. -/
structure SaysDimArray (e : XElem) (a : SDimArrayIndex) : Prop where
  header : Value Eq e (s%"headerEnumName") a.headerEnumName
  values : Entrywise SaysEnumValue (kids e (s%"enumeratedValue")) a.values

/-- The dim group. -/
structure SaysDim (e : XElem) (d : SDim) : Prop where
  dim : Value IntText e (s%"dim") d.dim
  increment : Value IntText e (s%"dimIncrement") d.dimIncrement
  index : Value Eq e (s%"dimIndex") d.dimIndex
  name : Value Eq e (s%"dimName") d.dimName
  array : First SaysDimArray e (s%"dimArrayIndex") d.dimArrayIndex

/-- `range`. -/
structure SaysRange (e : XElem) (r : Int × Int) : Prop where
  minimum : Value IntText e (s%"minimum") (some r.1)
  maximum : Value IntText e (s%"maximum") (some r.2)

/-- `writeConstraint`. -/
structure SaysConstraint (e : XElem) (c : WriteConstraint) : Prop where
  writeAsRead : Value BoolText e (s%"writeAsRead") c.writeAsRead
  useEnumeratedValues : Value BoolText e (s%"useEnumeratedValues") c.useEnumeratedValues
  range : First SaysRange e (s%"range") c.range

/-- `enumeratedValues`. -/
structure SaysContainer (e : XElem) (c : SEnumContainer) : Prop where
  derivedFrom : AttrValue Eq e (s%"derivedFrom") c.derivedFrom
  name : Value Eq e (s%"name") c.name
  header : Value Eq e (s%"headerEnumName") c.headerEnumName
  usage : Value (Token usageWords) e (s%"usage") c.usage
  values : Entrywise SaysEnumValue (kids e (s%"enumeratedValue")) c.values

/-- `field`. -/
structure SaysField (e : XElem) (f : SField) : Prop where
  derivedFrom : AttrValue Eq e (s%"derivedFrom") f.derivedFrom
  name : Value Eq e (s%"name") (some f.name)
  description : Text e (s%"description") f.description
  bitOffset : Value IntText e (s%"bitOffset") f.bitOffset
  bitWidth : Value IntText e (s%"bitWidth") f.bitWidth
  lsb : Value IntText e (s%"lsb") f.lsb
  msb : Value IntText e (s%"msb") f.msb
  bitRange : Value Eq e (s%"bitRange") f.bitRange
  access : AccessValue e f.access
  modifiedWriteValues : Value (Token modWriteWords) e (s%"modifiedWriteValues") f.modifiedWriteValues
  writeConstraint : First SaysConstraint e (s%"writeConstraint") f.writeConstraint
  readAction : Value (Token readActionWords) e (s%"readAction") f.readAction
  containers : Entrywise SaysContainer (kids e (s%"enumeratedValues")) f.containers
  dim : SaysDim e f.dim

/-- `register`; its fields are those of all `fields` children. -/
structure SaysRegister (e : XElem) (r : SRegister) : Prop where
  derivedFrom : AttrValue Eq e (s%"derivedFrom") r.derivedFrom
  name : Value Eq e (s%"name") (some r.name)
  displayName : Value Eq e (s%"displayName") r.displayName
  description : Text e (s%"description") r.description
  alternateGroup : Value Eq e (s%"alternateGroup") r.alternateGroup
  alternateRegister : Value Eq e (s%"alternateRegister") r.alternateRegister
  addressOffset : Value IntText e (s%"addressOffset") (some r.addressOffset)
  dataType : Value (Token typeWords) e (s%"dataType") r.dataType
  modifiedWriteValues : Value (Token modWriteWords) e (s%"modifiedWriteValues") r.modifiedWriteValues
  writeConstraint : First SaysConstraint e (s%"writeConstraint") r.writeConstraint
  readAction : Value (Token readActionWords) e (s%"readAction") r.readAction
  fields : Entrywise SaysField ((kids e (s%"fields")).flatMap fun x => kids x (s%"field")) r.fields
  dim : SaysDim e r.dim
  props : SaysProps e r.props

/-- `cluster`, without the registers and clusters below it. -/
structure SaysCluster (e : XElem) (c : SCluster) : Prop where
  derivedFrom : AttrValue Eq e (s%"derivedFrom") c.derivedFrom
  name : Value Eq e (s%"name") (some c.name)
  description : Text e (s%"description") c.description
  alternateCluster : Value Eq e (s%"alternateCluster") c.alternateCluster
  headerStructName : Value Eq e (s%"headerStructName") c.headerStructName
  addressOffset : Value IntText e (s%"addressOffset") (some c.addressOffset)
  dim : SaysDim e c.dim
  props : SaysProps e c.props

mutual
/-- A `register` or a `cluster`. -/
inductive SaysRC : XElem → SRC → Prop
  | register {e r} : e.tag = s%"register" → SaysRegister e r → SaysRC e (.reg r)
  | cluster {e c xs} : e.tag = s%"cluster" → SaysCluster e c → SaysRCs e.children xs → SaysRC e (.clu c xs)
/-- The registers and clusters among elements, in document order; other elements are passed over. -/
inductive SaysRCs : List XElem → List SRC → Prop
  | nil : SaysRCs [] []
  | cons {e x es xs} : SaysRC e x → SaysRCs es xs → SaysRCs (e :: es) (x :: xs)
  | other {e es xs} : e.tag ≠ s%"register" → e.tag ≠ s%"cluster" → SaysRCs es xs → SaysRCs (e :: es) xs
end

/-- `addressBlock`; a missing offset is 0. -/
structure SaysBlock (e : XElem) (b : SAddressBlock) : Prop where
  offset : Value IntText e (s%"offset") (some b.offset) ∨ (Value IntText e (s%"offset") none ∧ b.offset = 0)
  size : Value IntText e (s%"size") (some b.size)
  usage : Value (Token blockWords) e (s%"usage") (some b.usage)
  protection : Value (Token protectionWords) e (s%"protection") b.protection

/-- `interrupt`; a missing value is 0. -/
structure SaysInterrupt (e : XElem) (i : Interrupt) : Prop where
  name : Value Eq e (s%"name") (some i.name)
  description : Text e (s%"description") i.description
  value : Value IntText e (s%"value") (some i.value) ∨ (Value IntText e (s%"value") none ∧ i.value = 0)

/-- `peripheral`; its registers and clusters are those of all `registers` children. -/
structure SaysPeripheral (e : XElem) (p : SPeriphT) : Prop where
  derivedFrom : AttrValue Eq e (s%"derivedFrom") p.hd.derivedFrom
  name : Value Eq e (s%"name") (some p.hd.name)
  version : Value Eq e (s%"version") p.hd.version
  description : Text e (s%"description") p.hd.description
  alternatePeripheral : Value Eq e (s%"alternatePeripheral") p.hd.alternatePeripheral
  groupName : Value Eq e (s%"groupName") p.hd.groupName
  prependToName : Value Eq e (s%"prependToName") p.hd.prependToName
  appendToName : Value Eq e (s%"appendToName") p.hd.appendToName
  headerStructName : Value Eq e (s%"headerStructName") p.hd.headerStructName
  disableCondition : Text e (s%"disableCondition") p.hd.disableCondition
  baseAddress : Value IntText e (s%"baseAddress") (some p.hd.baseAddress)
  addressBlocks : Entrywise SaysBlock (kids e (s%"addressBlock")) p.hd.addressBlocks
  interrupts : Entrywise SaysInterrupt (kids e (s%"interrupt")) p.hd.interrupts
  rcs : SaysRCs ((kids e (s%"registers")).flatMap XElem.children) p.rcs
  dim : SaysDim e p.hd.dim
  props : SaysProps e p.hd.props

/-- `region` of the SAU. -/
structure SaysSauRegion (e : XElem) (r : SSauRegion) : Prop where
  enabled : AttrValue BoolText e (s%"enabled") r.enabled
  name : AttrValue Eq e (s%"name") r.name
  base : Value IntText e (s%"base") (some r.base)
  limit : Value IntText e (s%"limit") (some r.limit)
  access : Value (Token sauWords) e (s%"access") (some r.access)

/-- `sauRegionsConfig`. -/
structure SaysSauConfig (e : XElem) (c : SSauConfig) : Prop where
  enabled : AttrValue BoolText e (s%"enabled") c.enabled
  protection : AttrValue (Token protectionWords) e (s%"protectionWhenDisabled") c.protectionWhenDisabled
  regions : Entrywise SaysSauRegion (kids e (s%"region")) c.regions

/-- `cpu`. -/
structure SaysCpu (e : XElem) (c : SCpu) : Prop where
  name : Value CpuText e (s%"name") (some c.name)
  revision : Value Eq e (s%"revision") (some c.revision)
  endian : Value (Token endianWords) e (s%"endian") (some c.endian)
  mpuPresent : Value BoolText e (s%"mpuPresent") c.mpuPresent
  fpuPresent : Value BoolText e (s%"fpuPresent") c.fpuPresent
  fpuDp : Value BoolText e (s%"fpuDP") c.fpuDp
  dspPresent : Value BoolText e (s%"dspPresent") c.dspPresent
  icachePresent : Value BoolText e (s%"icachePresent") c.icachePresent
  dcachePresent : Value BoolText e (s%"dcachePresent") c.dcachePresent
  itcmPresent : Value BoolText e (s%"itcmPresent") c.itcmPresent
  dtcmPresent : Value BoolText e (s%"dtcmPresent") c.dtcmPresent
  vtorPresent : Value BoolText e (s%"vtorPresent") c.vtorPresent
  nvicPrioBits : Value IntText e (s%"nvicPrioBits") (some c.nvicPrioBits)
  vendorSystickConfig : Value BoolText e (s%"vendorSystickConfig") (some c.vendorSystickConfig)
  deviceNumInterrupts : Value IntText e (s%"deviceNumInterrupts") c.deviceNumInterrupts
  sauNumRegions : Value IntText e (s%"sauNumRegions") c.sauNumRegions
  sauConfig : First SaysSauConfig e (s%"sauRegionsConfig") c.sauConfig

/-- The location of the schema: the attribute `noNamespaceSchemaLocation` in the namespace with the prefix `xs`, or else `xsi`;
the empty text if it is missing. -/
def schemaLocation (d : XDoc) : Str :=
  match (d.nsmap.lookup (s%"xs")).or (d.nsmap.lookup (s%"xsi")) with
  | none => []
  | some uri => ((d.root.attrs.lookup (s%"{" ++ uri ++ s%"}noNamespaceSchemaLocation")).map trim).getD []

/-- `peripherals`. -/
def SaysPeripherals (e : XElem) (ps : List SPeriphT) : Prop := Entrywise SaysPeripheral (kids e (s%"peripheral")) ps

/-- `device`, the root of the document; a missing description is the empty text. -/
structure SaysDevice (doc : XDoc) (d : SDevice) : Prop where
  location : d.hd.xsNoNamespaceSchemaLocation = schemaLocation doc
  schemaVersion : AttrValue Eq doc.root (s%"schemaVersion") (some d.hd.schemaVersion)
  vendor : Value Eq doc.root (s%"vendor") d.hd.vendor
  vendorId : Value Eq doc.root (s%"vendorID") d.hd.vendorId
  name : Value Eq doc.root (s%"name") (some d.hd.name)
  series : Value Eq doc.root (s%"series") d.hd.series
  version : Value Eq doc.root (s%"version") (some d.hd.version)
  description : Text doc.root (s%"description") (some d.hd.description) ∨ (Text doc.root (s%"description") none ∧ d.hd.description = [])
  licenseText : Text doc.root (s%"licenseText") d.hd.licenseText
  cpu : First SaysCpu doc.root (s%"cpu") d.hd.cpu
  headerSystemFilename : Value Eq doc.root (s%"headerSystemFilename") d.hd.headerSystemFilename
  headerDefinitionsPrefix : Value Eq doc.root (s%"headerDefinitionsPrefix") d.hd.headerDefinitionsPrefix
  addressUnitBits : Value IntText doc.root (s%"addressUnitBits") (some d.hd.addressUnitBits)
  width : Value IntText doc.root (s%"width") (some d.hd.width)
  props : SaysProps doc.root d.hd.props
  peripherals : First SaysPeripherals doc.root (s%"peripherals") (some d.peripherals)

end Svd.Spec
