import Verif.Spec.Elements
import Verif.Spec.Unambiguous
/-
Descriptions that leave no choice to the order in which they are worked through.
-/
namespace Svd.Spec

/-- Every reference can be read in one way only, no `dimIndex` names an index twice or is a marker itself, and enumerated values
are derived only from ones that are not derived themselves. -/
structure Definite (d : SDevice) : Prop where
  refs : Unambiguous d
  indices : ∀ p, Declared d p → ∀ n l, DimReads n (dimOf p).dimIndex l → l.Nodup ∧ listMark ∉ l
  enums : ∀ x b c, Refers d x b → DeclAt d b (.enum c) → c.derivedFrom = none

end Svd.Spec
