import Verif.Spec.Enum
import Verif.Model.Serialize
/-
Specifications about the parser and the serializer.
-/
namespace Svd.Spec

/-- An unsigned integer literal and the number it denotes: decimal (leading zeros allowed), `0x` hexadecimal, `0b` or
`#` binary, `0o` octal. -/
inductive UnsignedLit : Str → Nat → Prop
  | dec {s} : s ≠ [] → (∀ c ∈ s, IsDec c) → UnsignedLit s (numeral decDigit 10 s)
  | hex {pre s} : pre = s%"0x" ∨ pre = s%"0X" → s ≠ [] → (∀ c ∈ s, IsHex c) → UnsignedLit (pre ++ s) (numeral hexDigit 16 s)
  | bin {pre s} : BinPrefix pre → s ≠ [] → (∀ c ∈ s, IsBin c) → UnsignedLit (pre ++ s) (numeral decDigit 2 s)
  | oct {pre s} : pre = s%"0o" ∨ pre = s%"0O" → s ≠ [] → (∀ c ∈ s, '0'.toNat ≤ c.toNat ∧ c.toNat ≤ '7'.toNat) →
      UnsignedLit (pre ++ s) (numeral decDigit 8 s)

/-- Only white space. -/
def Blank (s : Str) : Prop := ∀ c ∈ s, isSpace c = true

/-- An integer literal: an unsigned literal with an optional sign, possibly surrounded by white space. -/
inductive IntLit : Str → Int → Prop
  | pos {a b u n} : Blank a → Blank b → UnsignedLit u n → IntLit (a ++ u ++ b) (n : Int)
  | plus {a b u n} : Blank a → Blank b → UnsignedLit u n → IntLit (a ++ '+' :: u ++ b) (n : Int)
  | minus {a b u n} : Blank a → Blank b → UnsignedLit u n → IntLit (a ++ '-' :: u ++ b) (-(n : Int))

/-! ### what survives writing and reading -/

/-- A text that is not empty and neither starts nor ends with white space. -/
def Tidy (s : Str) : Prop := s ≠ [] ∧ trim s = s
/-- An optional text, tidy if present. -/
def TidyO (o : Option Str) : Prop := ∀ s ∈ o, Tidy s
/-- An optional attribute without surrounding white space. -/
def Stripped (o : Option Str) : Prop := ∀ s ∈ o, trim s = s
/-- An optional free text (white space is kept), not empty. -/
def NonEmptyO (o : Option Str) : Prop := ∀ s ∈ o, s ≠ []

structure EnumValueOK (v : SEnumValue) : Prop where
  name : Tidy v.name
  description : NonEmptyO v.description
  value : TidyO v.value

structure DimArrayOK (a : SDimArrayIndex) : Prop where
  header : TidyO a.headerEnumName
  values : ∀ v ∈ a.values, EnumValueOK v

structure DimOK (d : SDim) : Prop where
  index : TidyO d.dimIndex
  name : TidyO d.dimName
  array : ∀ a ∈ d.dimArrayIndex, DimArrayOK a

structure ContainerOK (c : SEnumContainer) : Prop where
  name : TidyO c.name
  header : TidyO c.headerEnumName
  values : ∀ v ∈ c.values, EnumValueOK v
  derived : Stripped c.derivedFrom

structure FieldOK (f : SField) : Prop where
  name : Tidy f.name
  description : NonEmptyO f.description
  offsetWidth : f.bitOffset.isSome = f.bitWidth.isSome
  lsbMsb : f.lsb.isSome = f.msb.isSome
  range : TidyO f.bitRange
  containers : ∀ c ∈ f.containers, ContainerOK c
  dim : DimOK f.dim
  derived : Stripped f.derivedFrom

structure RegisterOK (r : SRegister) : Prop where
  name : Tidy r.name
  display : TidyO r.displayName
  description : NonEmptyO r.description
  group : TidyO r.alternateGroup
  alternate : TidyO r.alternateRegister
  fields : ∀ f ∈ r.fields, FieldOK f
  dim : DimOK r.dim
  derived : Stripped r.derivedFrom

structure ClusterOK (c : SCluster) : Prop where
  name : Tidy c.name
  description : NonEmptyO c.description
  alternate : TidyO c.alternateCluster
  header : TidyO c.headerStructName
  dim : DimOK c.dim
  derived : Stripped c.derivedFrom

mutual
/-- A register or a cluster with everything below. -/
def RCOK : SRC → Prop
  | .reg r => RegisterOK r
  | .clu c ch => ClusterOK c ∧ RCsOK ch
/-- A list of registers and clusters. -/
def RCsOK : List SRC → Prop
  | [] => True
  | x :: xs => RCOK x ∧ RCsOK xs
end

structure InterruptOK (i : Interrupt) : Prop where
  name : Tidy i.name
  description : NonEmptyO i.description

structure PeripheralOK (p : SPeriphT) : Prop where
  name : Tidy p.hd.name
  version : TidyO p.hd.version
  description : NonEmptyO p.hd.description
  alternate : TidyO p.hd.alternatePeripheral
  group : TidyO p.hd.groupName
  prepend : TidyO p.hd.prependToName
  append : TidyO p.hd.appendToName
  header : TidyO p.hd.headerStructName
  condition : NonEmptyO p.hd.disableCondition
  interrupts : ∀ i ∈ p.hd.interrupts, InterruptOK i
  dim : DimOK p.hd.dim
  derived : Stripped p.hd.derivedFrom
  rcs : RCsOK p.rcs

structure CpuOK (c : SCpu) : Prop where
  revision : Tidy c.revision
  regions : ∀ s ∈ c.sauConfig, ∀ r ∈ s.regions, Stripped r.name

/-- The devices the serializer can write without loss: no empty optional texts, no surrounding white space, complete
field positions, at least one peripheral. -/
structure DeviceOK (d : SDevice) : Prop where
  location : trim d.hd.xsNoNamespaceSchemaLocation = d.hd.xsNoNamespaceSchemaLocation
  schema : trim d.hd.schemaVersion = d.hd.schemaVersion
  vendor : TidyO d.hd.vendor
  vendorId : TidyO d.hd.vendorId
  name : Tidy d.hd.name
  series : TidyO d.hd.series
  version : Tidy d.hd.version
  license : NonEmptyO d.hd.licenseText
  cpu : ∀ c ∈ d.hd.cpu, CpuOK c
  system : TidyO d.hd.headerSystemFilename
  prefix_ : TidyO d.hd.headerDefinitionsPrefix
  peripherals : ∀ p ∈ d.peripherals, PeripheralOK p
  nonempty : d.peripherals ≠ []

/-! ### documents that differ only in unimportant ways -/

/-- The elements whose text is a value with white space removed. -/
def valueTags : List Str :=
  [s%"vendor", s%"vendorID", s%"name", s%"series", s%"version", s%"headerSystemFilename", s%"headerDefinitionsPrefix",
   s%"addressUnitBits", s%"width", s%"size", s%"access", s%"protection", s%"resetValue", s%"resetMask", s%"revision", s%"endian",
   s%"mpuPresent", s%"fpuPresent", s%"fpuDP", s%"dspPresent", s%"icachePresent", s%"dcachePresent", s%"itcmPresent",
   s%"dtcmPresent", s%"vtorPresent", s%"nvicPrioBits", s%"vendorSystickConfig", s%"deviceNumInterrupts", s%"sauNumRegions",
   s%"base", s%"limit", s%"value", s%"isDefault", s%"headerEnumName", s%"dim", s%"dimIncrement", s%"dimIndex", s%"dimName",
   s%"offset", s%"usage", s%"writeAsRead", s%"useEnumeratedValues", s%"minimum", s%"maximum", s%"bitOffset", s%"bitWidth",
   s%"lsb", s%"msb", s%"bitRange", s%"modifiedWriteValues", s%"readAction", s%"displayName", s%"alternateGroup",
   s%"alternateRegister", s%"addressOffset", s%"dataType", s%"alternateCluster", s%"headerStructName", s%"alternatePeripheral",
   s%"groupName", s%"prependToName", s%"appendToName", s%"baseAddress"]

/-- The elements whose text is kept as it is. -/
def rawTags : List Str := [s%"description", s%"licenseText", s%"disableCondition"]

mutual
/-- The same element up to white space: in the texts of values (but not in free texts), in attributes, and anything in the
text of all other elements (they have element children). -/
inductive SameUpToBlanks : XElem → XElem → Prop
  | mk {tag text text' attrs attrs' ch ch'} :
      (tag ∈ rawTags → text = text') →
      (tag ∈ valueTags → text = text' ∨ ∃ s s', text = some s ∧ text' = some s' ∧ trim s = trim s') →
      attrs.map Prod.fst = attrs'.map Prod.fst → attrs.map (fun a => trim a.2) = attrs'.map (fun a => trim a.2) →
      SameListUpToBlanks ch ch' → SameUpToBlanks (.mk tag text attrs ch) (.mk tag text' attrs' ch')
/-- The same elements up to white space. -/
inductive SameListUpToBlanks : List XElem → List XElem → Prop
  | nil : SameListUpToBlanks [] []
  | cons {x y xs ys} : SameUpToBlanks x y → SameListUpToBlanks xs ys → SameListUpToBlanks (x :: xs) (y :: ys)
end

/-- The results are the same, apart from warnings of the kind `P`. -/
inductive SameResult {α : Type} (P : Warn → Bool) : M α → M α → Prop
  | ok {a w v} : w.filter (fun x => !P x) = v.filter (fun x => !P x) → SameResult P (.ok a w) (.ok a v)
  | err {e} : SameResult P (.err e) (.err e)

/-- "The text has been stripped." -/
def isStripped : Warn → Bool
  | .stripped _ => true
  | _ => false

/-- "Multiple elements, only the last one will be used." -/
def isMultiple : Warn → Bool
  | .multipleElements _ => true
  | _ => false

mutual
/-- The document in which, of several value elements with one tag and parent, only the last one is left. -/
def lastOnly : XElem → XElem
  | .mk tag text attrs ch => .mk tag text attrs (lastOnlyAll ch)
/-- `lastOnly` on the children: a value or free text element that occurs again later is left out. -/
def lastOnlyAll : List XElem → List XElem
  | [] => []
  | x :: xs =>
      if (x.tag ∈ valueTags ∨ x.tag ∈ rawTags) ∧ x.tag ∈ xs.map XElem.tag then lastOnlyAll xs
      else lastOnly x :: lastOnlyAll xs
end

mutual
/-- No repeated value element without text. -/
def TextedDup : XElem → Prop
  | .mk _ _ _ ch => TextedDups ch ∧ ∀ t, (t ∈ valueTags ∨ t ∈ rawTags) → 1 < (ch.filter (fun c => decide (c.tag = t))).length →
      ∀ c ∈ ch, c.tag = t → c.text ≠ none
/-- In every element of the list. -/
def TextedDups : List XElem → Prop
  | [] => True
  | x :: xs => TextedDup x ∧ TextedDups xs
end

/-! ### the elements the parser reads -/

/-- The kinds of elements with element children. -/
inductive Kind
  | device | cpu | sauConfig | sauRegion | peripheral | addressBlock | interrupt | cluster | register | field | container
  | enumValue | dimArrayIndex | writeConstraint | range
  deriving DecidableEq

/-- The parser, reading `e` as an element of kind `k`, also reads `e'` as an element of kind `k'`.  Of the elements that may
occur once only the first is read. -/
inductive ReadsChild : Kind → XElem → Kind → XElem → Prop
  | cpu {e x} : e.find (s%"cpu") = some x → ReadsChild .device e .cpu x
  | sauConfig {e x} : e.find (s%"sauRegionsConfig") = some x → ReadsChild .cpu e .sauConfig x
  | sauRegion {e x} : x ∈ e.findall (s%"region") → ReadsChild .sauConfig e .sauRegion x
  | peripheral {e y x} : e.find (s%"peripherals") = some y → x ∈ y.findall (s%"peripheral") → ReadsChild .device e .peripheral x
  | addressBlock {e x} : x ∈ e.findall (s%"addressBlock") → ReadsChild .peripheral e .addressBlock x
  | interrupt {e x} : x ∈ e.findall (s%"interrupt") → ReadsChild .peripheral e .interrupt x
  | register {e y x} : y ∈ e.findall (s%"registers") → x ∈ y.findall (s%"register") → ReadsChild .peripheral e .register x
  | cluster {e y x} : y ∈ e.findall (s%"registers") → x ∈ y.findall (s%"cluster") → ReadsChild .peripheral e .cluster x
  | register' {e x} : x ∈ e.findall (s%"register") → ReadsChild .cluster e .register x
  | cluster' {e x} : x ∈ e.findall (s%"cluster") → ReadsChild .cluster e .cluster x
  | field {e y x} : y ∈ e.findall (s%"fields") → x ∈ y.findall (s%"field") → ReadsChild .register e .field x
  | container {e x} : x ∈ e.findall (s%"enumeratedValues") → ReadsChild .field e .container x
  | enumValue {e x} : x ∈ e.findall (s%"enumeratedValue") → ReadsChild .container e .enumValue x
  | enumValue' {e x} : x ∈ e.findall (s%"enumeratedValue") → ReadsChild .dimArrayIndex e .enumValue x
  | constraint {k e x} : k = .field ∨ k = .register → e.find (s%"writeConstraint") = some x → ReadsChild k e .writeConstraint x
  | range {e x} : e.find (s%"range") = some x → ReadsChild .writeConstraint e .range x
  | dimArray {k e x} : k = .peripheral ∨ k = .cluster ∨ k = .register ∨ k = .field → e.find (s%"dimArrayIndex") = some x →
      ReadsChild k e .dimArrayIndex x

/-- The parser, reading the document, reads the element `e` as one of kind `k`. -/
inductive ReadsElem (d : XDoc) : Kind → XElem → Prop
  | root : ReadsElem d .device d.root
  | child {k e k' e'} : ReadsElem d k e → ReadsChild k e k' e' → ReadsElem d k' e'

/-- The dim group. -/
def dimTexts : List Str := [s%"dim", s%"dimIncrement", s%"dimIndex", s%"dimName"]
/-- The property group. -/
def propTexts : List Str := [s%"size", s%"access", s%"protection", s%"resetValue", s%"resetMask"]

/-- The children whose text must be there. -/
def mandatoryTexts : Kind → List Str
  | .device => [s%"name", s%"version", s%"addressUnitBits", s%"width"]
  | .cpu => [s%"name", s%"revision", s%"endian", s%"nvicPrioBits", s%"vendorSystickConfig"]
  | .sauRegion => [s%"base", s%"limit", s%"access"]
  | .peripheral => [s%"name", s%"baseAddress"]
  | .addressBlock => [s%"size", s%"usage"]
  | .cluster | .register => [s%"name", s%"addressOffset"]
  | .interrupt | .field | .enumValue => [s%"name"]
  | .range => [s%"minimum", s%"maximum"]
  | _ => []

/-- The children whose text may be there. -/
def optionalTexts : Kind → List Str
  | .device => [s%"vendor", s%"vendorID", s%"series", s%"description", s%"licenseText", s%"headerSystemFilename",
      s%"headerDefinitionsPrefix"] ++ propTexts
  | .cpu => [s%"mpuPresent", s%"fpuPresent", s%"fpuDP", s%"dspPresent", s%"icachePresent", s%"dcachePresent", s%"itcmPresent",
      s%"dtcmPresent", s%"vtorPresent", s%"deviceNumInterrupts", s%"sauNumRegions"]
  | .peripheral => [s%"version", s%"description", s%"alternatePeripheral", s%"groupName", s%"prependToName", s%"appendToName",
      s%"headerStructName", s%"disableCondition"] ++ dimTexts ++ propTexts
  | .addressBlock => [s%"offset", s%"protection"]
  | .interrupt => [s%"description", s%"value"]
  | .cluster => [s%"description", s%"alternateCluster", s%"headerStructName"] ++ dimTexts ++ propTexts
  | .register => [s%"displayName", s%"description", s%"alternateGroup", s%"alternateRegister", s%"dataType",
      s%"modifiedWriteValues", s%"readAction"] ++ dimTexts ++ propTexts
  | .field => [s%"description", s%"bitOffset", s%"bitWidth", s%"lsb", s%"msb", s%"bitRange", s%"access", s%"modifiedWriteValues",
      s%"readAction"] ++ dimTexts
  | .container => [s%"name", s%"headerEnumName", s%"usage"]
  | .enumValue => [s%"description", s%"value", s%"isDefault"]
  | .dimArrayIndex => [s%"headerEnumName"]
  | .writeConstraint => [s%"writeAsRead", s%"useEnumeratedValues"]
  | _ => []

end Svd.Spec
