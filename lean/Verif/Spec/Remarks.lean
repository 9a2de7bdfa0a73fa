import Verif.Spec.Says
/-
What the parser remarks on (C58): the warnings that reading a document gives, without reference to the parser.  An element is read
as one of the kinds of the format; each kind has texts, attributes and parts.
-/
namespace Svd.Spec

/-- The kinds of elements with contents. -/
inductive ElemKind
  | device | cpu | sauConfig | region | peripheral | block | interrupt | cluster | register | field | container | enumValue
  | dimArray | constraint | range
  deriving DecidableEq

/-- The texts of the dim group. -/
def dimEntries : List Str := [s%"dim", s%"dimIncrement", s%"dimIndex", s%"dimName"]
/-- The texts of the properties group. -/
def propEntries : List Str := [s%"size", s%"access", s%"protection", s%"resetValue", s%"resetMask"]

/-- The children of an element of this kind whose texts are read without surrounding white space. -/
def texts : ElemKind → List Str
  | .device => [s%"vendor", s%"vendorID", s%"name", s%"series", s%"version", s%"headerSystemFilename", s%"headerDefinitionsPrefix",
      s%"addressUnitBits", s%"width"] ++ propEntries
  | .cpu => [s%"name", s%"revision", s%"endian", s%"mpuPresent", s%"fpuPresent", s%"fpuDP", s%"dspPresent", s%"icachePresent",
      s%"dcachePresent", s%"itcmPresent", s%"dtcmPresent", s%"vtorPresent", s%"nvicPrioBits", s%"vendorSystickConfig",
      s%"deviceNumInterrupts", s%"sauNumRegions"]
  | .sauConfig => []
  | .region => [s%"base", s%"limit", s%"access"]
  | .peripheral => [s%"name", s%"version", s%"alternatePeripheral", s%"groupName", s%"prependToName", s%"appendToName",
      s%"headerStructName", s%"baseAddress"] ++ dimEntries ++ propEntries
  | .block => [s%"offset", s%"size", s%"usage", s%"protection"]
  | .interrupt => [s%"name", s%"value"]
  | .cluster => [s%"name", s%"alternateCluster", s%"headerStructName", s%"addressOffset"] ++ dimEntries ++ propEntries
  | .register => [s%"name", s%"displayName", s%"alternateGroup", s%"alternateRegister", s%"addressOffset", s%"dataType",
      s%"modifiedWriteValues", s%"readAction"] ++ dimEntries ++ propEntries
  | .field => [s%"name", s%"bitOffset", s%"bitWidth", s%"lsb", s%"msb", s%"bitRange", s%"access", s%"modifiedWriteValues",
      s%"readAction"] ++ dimEntries
  | .container => [s%"name", s%"headerEnumName", s%"usage"]
  | .enumValue => [s%"name", s%"value", s%"isDefault"]
  | .dimArray => [s%"headerEnumName"]
  | .constraint => [s%"writeAsRead", s%"useEnumeratedValues"]
  | .range => [s%"minimum", s%"maximum"]

/-- The children whose texts are kept as they are. -/
def proses : ElemKind → List Str
  | .device => [s%"description", s%"licenseText"]
  | .peripheral => [s%"description", s%"disableCondition"]
  | .interrupt | .cluster | .register | .field | .enumValue => [s%"description"]
  | _ => []

/-- The attributes. -/
def attributes : ElemKind → List Str
  | .device => [s%"schemaVersion"]
  | .sauConfig => [s%"enabled", s%"protectionWhenDisabled"]
  | .region => [s%"enabled", s%"name"]
  | .peripheral | .cluster | .register | .field | .container => [s%"derivedFrom"]
  | _ => []

/-- The kinds with an access type whose unknown words are passed over. -/
def accessible : ElemKind → Bool
  | .device | .peripheral | .cluster | .register | .field => true
  | _ => false

/-- Every child `t` of `e`, read as a `k`. -/
def every (k : ElemKind) (e : XElem) (t : Str) : List (ElemKind × XElem) := (kids e t).map fun x => (k, x)
/-- The first child `t` of `e`, if any, read as a `k`. -/
def onlyFirst (k : ElemKind) (e : XElem) (t : Str) : List (ElemKind × XElem) := ((kids e t).take 1).map fun x => (k, x)
/-- The registers and clusters among the children of `e`. -/
def inner (e : XElem) : List (ElemKind × XElem) := every .register e (s%"register") ++ every .cluster e (s%"cluster")

/-- The parts of an element of this kind. -/
def parts : ElemKind → XElem → List (ElemKind × XElem)
  | .device, e => onlyFirst .cpu e (s%"cpu") ++ ((kids e (s%"peripherals")).take 1).flatMap fun x => every .peripheral x (s%"peripheral")
  | .cpu, e => onlyFirst .sauConfig e (s%"sauRegionsConfig")
  | .sauConfig, e => every .region e (s%"region")
  | .peripheral, e => every .block e (s%"addressBlock") ++ every .interrupt e (s%"interrupt") ++ (kids e (s%"registers")).flatMap inner ++
      onlyFirst .dimArray e (s%"dimArrayIndex")
  | .cluster, e => inner e ++ onlyFirst .dimArray e (s%"dimArrayIndex")
  | .register, e => onlyFirst .constraint e (s%"writeConstraint") ++ ((kids e (s%"fields")).flatMap fun x => every .field x (s%"field")) ++
      onlyFirst .dimArray e (s%"dimArrayIndex")
  | .field, e => onlyFirst .constraint e (s%"writeConstraint") ++ every .container e (s%"enumeratedValues") ++
      onlyFirst .dimArray e (s%"dimArrayIndex")
  | .container, e => every .enumValue e (s%"enumeratedValue")
  | .dimArray, e => every .enumValue e (s%"enumeratedValue")
  | .constraint, e => onlyFirst .range e (s%"range")
  | _, _ => []

/-- The child `t` is given several times: the last one counts. -/
def Repeated (e : XElem) (t : Str) (w : Warn) : Prop := 2 ≤ (kids e t).length ∧ w = .multipleElements t

/-- The text of the child `t` is surrounded by white space, which does not count. -/
def Padded (e : XElem) (t : Str) (w : Warn) : Prop := ∃ s, Text e t (some s) ∧ s ≠ trim s ∧ w = .stripped t

/-- The attribute `k` is surrounded by white space. -/
def PaddedAttr (e : XElem) (k : Str) (w : Warn) : Prop := ∃ s, e.attrs.lookup k = some s ∧ s ≠ trim s ∧ w = .stripped k

/-- The word for the access type is unknown. -/
def OddAccess (e : XElem) (w : Warn) : Prop :=
  ∃ s, Text e (s%"access") (some s) ∧ (∀ a, (lowerText (trim s), a) ∉ accessWords) ∧ w = .unknownAccess (trim s)

/-- What is remarked on an element of kind `k` itself. -/
inductive Own : ElemKind → XElem → Warn → Prop
  | repeated {k e t w} : t ∈ texts k ∨ t ∈ proses k → Repeated e t w → Own k e w
  | padded {k e t w} : t ∈ texts k → Padded e t w → Own k e w
  | paddedAttr {k e t w} : t ∈ attributes k → PaddedAttr e t w → Own k e w
  | access {k e w} : accessible k = true → OddAccess e w → Own k e w
  /-- An interrupt without a value. -/
  | interrupt {e n} : Value Eq e (s%"name") (some n) → Text e (s%"value") none → Own .interrupt e (.interruptNoValue n)
  /-- A device without a description. -/
  | description {e} : Text e (s%"description") none → Own .device e .noDescription

/-- What is remarked on an element of kind `k` and its parts. -/
inductive Remark : ElemKind → XElem → Warn → Prop
  | own {k e w} : Own k e w → Remark k e w
  | part {k e k' x w} : (k', x) ∈ parts k e → Remark k' x w → Remark k e w

/-- What is remarked on the location of the schema. -/
def SchemaRemark (d : XDoc) (w : Warn) : Prop :=
  match (d.nsmap.lookup (s%"xs")).or (d.nsmap.lookup (s%"xsi")) with
  | none => w = .noSchemaLocation
  | some uri =>
    PaddedAttr d.root (s%"{" ++ uri ++ s%"}noNamespaceSchemaLocation") w ∨
    (d.root.attrs.lookup (s%"{" ++ uri ++ s%"}noNamespaceSchemaLocation") = none ∧ w = .noSchemaLocation)

end Svd.Spec
