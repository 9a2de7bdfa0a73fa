import Verif.Model.Types
import Verif.Model.Parse
import Verif.Spec.Tree
/-
The structure of an SVD document, as the newest schema (src/svdsuite/schema/1.3.11.xsd) prescribes it: which elements an element
contains, in which order and how often.  Values and attributes are not part of this.
-/
namespace Svd.Spec

/-- A content model. -/
inductive CM
  | nothing
  | one (tag : Str)
  | seq (a b : CM)
  | choice (a b : CM)
  | many (a : CM)

/-- The tags of the children, in document order, are allowed by the content model. -/
inductive CM.Allows : CM → List Str → Prop
  | nothing : Allows .nothing []
  | one {t} : Allows (.one t) [t]
  | seq {a b xs ys} : Allows a xs → Allows b ys → Allows (.seq a b) (xs ++ ys)
  | left {a b xs} : Allows a xs → Allows (.choice a b) xs
  | right {a b xs} : Allows b xs → Allows (.choice a b) xs
  | stop {a} : Allows (.many a) []
  | more {a xs ys} : Allows a xs → Allows (.many a) ys → Allows (.many a) (xs ++ ys)

namespace CM
/-- One after the other. -/
def all : List CM → CM
  | [] => .nothing
  | x :: xs => .seq x (all xs)
/-- Possibly missing (`minOccurs="0"`). -/
def opt (a : CM) : CM := .choice .nothing a
/-- An element that may be missing. -/
def maybe (t : Str) : CM := opt (.one t)
/-- Any number of elements with this tag. -/
def any (t : Str) : CM := .many (.one t)
/-- At least one element with this tag. -/
def atLeastOne (t : Str) : CM := .seq (.one t) (any t)
end CM
open CM

/-- 1.3.11.xsd:350 `dimElementGroup`, which may be missing -/
def dimModel : CM :=
  opt (all [one (s%"dim"), one (s%"dimIncrement"), maybe (s%"dimIndex"), maybe (s%"dimName"), maybe (s%"dimArrayIndex")])

/-- 1.3.11.xsd:320 `registerPropertiesGroup` -/
def propsModel : CM :=
  all [maybe (s%"size"), maybe (s%"access"), maybe (s%"protection"), maybe (s%"resetValue"), maybe (s%"resetMask")]

/-- The content models of the elements with element children. -/
def models : List (Str × CM) := [
  -- 278
  (s%"writeConstraint", choice (one (s%"writeAsRead")) (choice (one (s%"useEnumeratedValues")) (one (s%"range")))),
  -- 284
  (s%"range", all [one (s%"minimum"), one (s%"maximum")]),
  -- 293
  (s%"addressBlock", all [one (s%"offset"), one (s%"size"), one (s%"usage"), maybe (s%"protection")]),
  -- 311
  (s%"interrupt", all [one (s%"name"), maybe (s%"description"), one (s%"value")]),
  -- 360
  (s%"cpu", all [one (s%"name"), one (s%"revision"), one (s%"endian"), maybe (s%"mpuPresent"), maybe (s%"fpuPresent"), maybe (s%"fpuDP"),
    maybe (s%"dspPresent"), maybe (s%"icachePresent"), maybe (s%"dcachePresent"), maybe (s%"itcmPresent"), maybe (s%"dtcmPresent"),
    maybe (s%"vtorPresent"), one (s%"nvicPrioBits"), one (s%"vendorSystickConfig"), maybe (s%"deviceNumInterrupts"),
    maybe (s%"sauNumRegions"), maybe (s%"sauRegionsConfig")]),
  -- 401
  (s%"sauRegionsConfig", any (s%"region")),
  -- 405
  (s%"region", .seq (all [one (s%"base"), one (s%"limit"), one (s%"access")]) (many (all [one (s%"base"), one (s%"limit"), one (s%"access")]))),
  -- 422
  (s%"enumeratedValue", all [one (s%"name"), maybe (s%"description"), choice (one (s%"value")) (one (s%"isDefault"))]),
  -- 437
  (s%"enumeratedValues", all [maybe (s%"name"), maybe (s%"headerEnumName"), maybe (s%"usage"), any (s%"enumeratedValue")]),
  -- 453
  (s%"dimArrayIndex", all [maybe (s%"headerEnumName"), CM.atLeastOne (s%"enumeratedValue")]),
  -- 460
  (s%"field", all [dimModel, one (s%"name"), maybe (s%"description"),
    choice (all [one (s%"lsb"), one (s%"msb")]) (choice (all [one (s%"bitOffset"), maybe (s%"bitWidth")]) (one (s%"bitRange"))),
    maybe (s%"access"), maybe (s%"modifiedWriteValues"), maybe (s%"writeConstraint"), maybe (s%"readAction"),
    opt (one (s%"enumeratedValues")), opt (one (s%"enumeratedValues"))]),
  -- 493
  (s%"fields", CM.atLeastOne (s%"field")),
  -- 500
  (s%"register", all [dimModel, one (s%"name"), maybe (s%"displayName"), maybe (s%"description"),
    choice (maybe (s%"alternateGroup")) (maybe (s%"alternateRegister")), one (s%"addressOffset"), propsModel, maybe (s%"dataType"),
    maybe (s%"modifiedWriteValues"), maybe (s%"writeConstraint"), maybe (s%"readAction"), maybe (s%"fields")]),
  -- 540
  (s%"cluster", all [dimModel, one (s%"name"), one (s%"description"), maybe (s%"alternateCluster"), maybe (s%"headerStructName"),
    one (s%"addressOffset"), propsModel, many (choice (one (s%"register")) (one (s%"cluster")))]),
  -- 567
  (s%"registers", .seq (choice (one (s%"cluster")) (one (s%"register"))) (many (choice (one (s%"cluster")) (one (s%"register"))))),
  -- 574
  (s%"peripheral", all [dimModel, one (s%"name"), maybe (s%"version"), maybe (s%"description"), maybe (s%"alternatePeripheral"),
    maybe (s%"groupName"), maybe (s%"prependToName"), maybe (s%"appendToName"), maybe (s%"headerStructName"), maybe (s%"disableCondition"),
    one (s%"baseAddress"), propsModel, any (s%"addressBlock"), any (s%"interrupt"), maybe (s%"registers")]),
  -- 665
  (s%"peripherals", CM.atLeastOne (s%"peripheral")),
  -- 627
  (s%"device", all [maybe (s%"vendor"), maybe (s%"vendorID"), one (s%"name"), maybe (s%"series"), one (s%"version"), one (s%"description"),
    maybe (s%"licenseText"), maybe (s%"cpu"), maybe (s%"headerSystemFilename"), maybe (s%"headerDefinitionsPrefix"),
    one (s%"addressUnitBits"), one (s%"width"), propsModel, one (s%"peripherals"), maybe (s%"vendorExtensions")])]

/-- The children of an element with this tag may have these tags; all other elements have no children. -/
def Structure (tag : Str) (tags : List Str) : Prop :=
  match models.lookup tag with
  | some m => m.Allows tags
  | none => tags = []

mutual
/-- The element and everything in it has the structure of the schema. -/
def Structured : XElem → Prop
  | .mk tag _ _ ch => Structure tag (ch.map XElem.tag) ∧ StructuredAll ch
/-- All elements of a list. -/
def StructuredAll : List XElem → Prop
  | [] => True
  | x :: xs => Structured x ∧ StructuredAll xs
end

/-! ### descriptions that can be written in this structure -/

/-- Exactly one of two values is given. -/
def OneOf2 {α β : Type} (a : Option α) (b : Option β) : Prop := a.isSome ≠ b.isSome

structure EnumValueFits (v : SEnumValue) : Prop where
  one : OneOf2 v.value v.isDefault

structure DimWhole (d : SDim) : Prop where
  whole : (d.dim.isSome ∧ d.dimIncrement.isSome) ∨
    (d.dim = none ∧ d.dimIncrement = none ∧ d.dimIndex = none ∧ d.dimName = none ∧ d.dimArrayIndex = none)
  array : ∀ a ∈ d.dimArrayIndex, a.values ≠ [] ∧ ∀ v ∈ a.values, EnumValueFits v

/-- Exactly one of the three kinds of constraint. -/
def ConstraintFits (c : WriteConstraint) : Prop :=
  (c.writeAsRead.isSome ∧ c.useEnumeratedValues = none ∧ c.range = none) ∨
  (c.writeAsRead = none ∧ c.useEnumeratedValues.isSome ∧ c.range = none) ∨
  (c.writeAsRead = none ∧ c.useEnumeratedValues = none ∧ c.range.isSome)

structure FieldFits (f : SField) : Prop where
  dim : DimWhole f.dim
  /-- exactly one of the three notations -/
  position : (f.lsb.isSome ∧ f.msb.isSome ∧ ¬ (f.bitOffset.isSome ∧ f.bitWidth.isSome) ∧ f.bitRange = none) ∨
    (¬ (f.lsb.isSome ∧ f.msb.isSome) ∧ f.bitOffset.isSome ∧ f.bitWidth.isSome ∧ f.bitRange = none) ∨
    (¬ (f.lsb.isSome ∧ f.msb.isSome) ∧ ¬ (f.bitOffset.isSome ∧ f.bitWidth.isSome) ∧ f.bitRange.isSome)
  constraint : ∀ c ∈ f.writeConstraint, ConstraintFits c
  two : f.containers.length ≤ 2
  values : ∀ c ∈ f.containers, ∀ v ∈ c.values, EnumValueFits v

structure RegisterFits (r : SRegister) : Prop where
  dim : DimWhole r.dim
  alternate : r.alternateGroup = none ∨ r.alternateRegister = none
  constraint : ∀ c ∈ r.writeConstraint, ConstraintFits c
  fields : ∀ f ∈ r.fields, FieldFits f

structure ClusterFits (c : SCluster) : Prop where
  dim : DimWhole c.dim
  description : c.description.isSome

mutual
/-- A register or a cluster with everything below. -/
def RCFits : SRC → Prop
  | .reg r => RegisterFits r
  | .clu c ch => ClusterFits c ∧ RCsFit ch
/-- A list of registers and clusters. -/
def RCsFit : List SRC → Prop
  | [] => True
  | x :: xs => RCFits x ∧ RCsFit xs
end

/-- The description has no more and no less than the schema asks for. -/
structure Conforms (d : SDevice) : Prop where
  nonempty : d.peripherals ≠ []
  dim : ∀ p ∈ d.peripherals, DimWhole p.hd.dim
  rcs : ∀ p ∈ d.peripherals, RCsFit p.rcs

/-! ### processed devices that can be written in this structure -/

structure FieldExpressible (f : Field) : Prop where
  constraint : ∀ c ∈ f.writeConstraint, ConstraintFits c
  two : f.containers.length ≤ 2
  /-- no enumerated value at all -/
  values : ∀ c ∈ f.containers, c.values = []

structure RegisterExpressible (r : Register) : Prop where
  alternate : r.alternateGroup = none ∨ r.alternateRegister = none
  constraint : ∀ c ∈ r.writeConstraint, ConstraintFits c
  fields : ∀ f ∈ r.fields, FieldExpressible f

/-- What a processed device must be like so that its conversion can be written in the structure of the schema. -/
structure Expressible (d : Device) : Prop where
  nonempty : d.peripherals ≠ []
  registers : ∀ r, HasRegister d r → RegisterExpressible r
  /-- every cluster has a description -/
  clusters : ∀ c ch, HasCluster d c ch → c.description.isSome

end Svd.Spec
