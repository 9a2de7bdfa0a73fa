import Verif.Spec.Dim
import Verif.Spec.DimText
import Verif.Spec.Container
import Verif.Spec.Enum
import Verif.Spec.Origin
/-
The well-formed descriptions without `derivedFrom`: what a user has to observe for a description to be resolvable.
-/
namespace Svd.Spec

/-- The dim attributes of a declared element are consistent: none of the inconsistencies of `BadDim`, and a list has a
`dimIndex` that denotes as many indices as `dim` says. -/
structure DimFits (p : Parsed) : Prop where
  fine : ¬ BadDim p
  indices : ∀ n, (dimOf p).dim = some n → Contains listMark (nameOfDecl p) → ¬ Contains arrayMark (nameOfDecl p) →
    ∃ l, DimDenotes n (dimOf p).dimIndex l ∧ (l.length : Int) = n

/-- The position of a field, in one of three notations, and the width it gives the field: `bitRange` counts first, then
`lsb` and `msb`, then `bitOffset` and `bitWidth`. -/
inductive WidthOf (f : SField) : Int → Prop
  | range {x y : Str} : Decimal x → Decimal y → f.bitRange = some (s%"[" ++ x ++ s%":" ++ y ++ s%"]") →
      WidthOf f ((max (decValue x) (decValue y) : Nat) - (min (decValue x) (decValue y) : Nat) + 1)
  | lsbMsb {l m : Int} : f.bitRange = none → f.lsb = some l → f.msb = some m → WidthOf f (m - l + 1)
  | offset {o w : Int} : f.bitRange = none → f.lsb = none ∨ f.msb = none → f.bitOffset = some o → f.bitWidth = some w →
      WidthOf f w

/-- The enumerated values of a container for a field of width `w`: well-formed literals, at most one default entry,
which has no literal with don't-care bits and needs a field of non-negative width. -/
structure EnumFits (c : SEnumContainer) (w : Int) : Prop where
  lits : ∀ e ∈ c.values, ∀ lit, e.value = some lit → lit ≠ [] → WellFormedLit lit
  one : (c.values.filter fun e => e.isDefault = some true).length ≤ 1
  single : ∀ e ∈ c.values, e.isDefault = some true → ∀ lit, e.value = some lit → ¬ HasDontCare lit
  width : (∃ e ∈ c.values, e.isDefault = some true) → 0 ≤ w

/-- At most two containers; two of them are one for reading and one for writing. -/
def UsagesOK (cs : List SEnumContainer) : Prop :=
  cs.length ≤ 1 ∨ ∃ a b, cs = [a, b] ∧
    ((a.usage = some .read ∧ b.usage = some .write) ∨ (a.usage = some .write ∧ b.usage = some .read))

/-- The size stated by an element itself. -/
def statedSize : Parsed → Option Int
  | .periph p => p.props.size
  | .clu c => c.props.size
  | .reg r => r.props.size
  | _ => none

/-- A description without `derivedFrom` that can be resolved. -/
structure WellFormed (d : SDevice) : Prop where
  plain : Underived d
  some : d.peripherals ≠ []
  dims : ∀ p, Declared d p → DimFits p
  sizes : ∀ p, Declared d p → ∀ s, statedSize p = .some s → 0 ≤ s
  fields : ∀ f, Declared d (.field f) → ∃ w, WidthOf f w ∧ (∀ c ∈ f.containers, EnumFits c w) ∧ UsagesOK f.containers

end Svd.Spec

namespace Svd.Spec

/-- The four forms of a `dimIndex`. -/
inductive IndexText : Str → Prop
  | numbers {a b} : Decimal a → Decimal b → IndexText (a ++ ('-' :: b))
  | letters {x y} : isUpper x = true → isUpper y = true → IndexText [x, '-', y]
  | items {first rest} : rest ≠ [] → Word first → (∀ p ∈ rest, BlankPad p.1 ∧ Word p.2) → IndexText (commaList first rest)
  | single {w} : Word w → IndexText w

/-- The dim attributes of a declared element are consistent: none of the inconsistencies of `BadDim`, and the `dimIndex` of a
list is read as as many indices as `dim` says. -/
structure DimSound (p : Parsed) : Prop where
  fine : ¬ BadDim p
  indices : ∀ n, (dimOf p).dim = some n → Contains listMark (nameOfDecl p) → ¬ Contains arrayMark (nameOfDecl p) →
    ∃ l, DimReads n (dimOf p).dimIndex l ∧ (l.length : Int) = n

/-- A description without `derivedFrom` is buildable: it has a peripheral, the dim attributes are consistent, and each field
has a position and enumerated values that fit it. -/
structure Buildable (d : SDevice) : Prop where
  some : d.peripherals ≠ []
  dims : ∀ p, Declared d p → DimSound p
  fields : ∀ f, Declared d (.field f) → ∃ msb lsb, BitsOf f none msb lsb ∧
    (∀ c ∈ f.containers, Acceptable c.values (msb - lsb + 1)) ∧ UsagesOK f.containers

/-- Every `dimIndex` and `bitRange` has one of the forms prescribed by the CMSIS-SVD schema. -/
structure SchemaForm (d : SDevice) : Prop where
  index : ∀ p, Declared d p → ∀ s, (dimOf p).dimIndex = some s → IndexText s
  range : ∀ f, Declared d (.field f) → ∀ r, f.bitRange = some r →
    ∃ x y, Decimal x ∧ Decimal y ∧ r = s%"[" ++ x ++ s%":" ++ y ++ s%"]"

end Svd.Spec
