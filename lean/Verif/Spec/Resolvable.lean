import Verif.Spec.Quiet
import Verif.Spec.Elements
import Verif.Spec.Accept
/-
The descriptions with `derivedFrom` that can be resolved: what a user has to observe.
-/
namespace Svd.Spec

/-- The names of `derivedFrom` paths are unambiguous. -/
structure Clear (d : SDevice) : Prop where
  /-- What can be addressed by a name used in a path is not a dim element. -/
  single : ∀ x p path parts n y q, DeclAt d x p → p.derivedFrom = some path → PathNames path parts → n ∈ parts →
    Called d y n → DeclAt d y q → kindOf q ≠ .enumcont → ¬ Contains listMark (nameOfDecl q)
  /-- No two elements in one element can be addressed by it. -/
  distinct : ∀ x p path parts n q y z, DeclAt d x p → p.derivedFrom = some path → PathNames path parts → n ∈ parts →
    HasChild d q y → HasChild d q z → Called d y n → Called d z n → y = z
  /-- An element derived from one that has `x` is not called as the path at `x` begins. -/
  apart : ∀ x p path n rest q s, DeclAt d x p → p.derivedFrom = some path → PathNames path (n :: rest) →
    HasChild d q x → Refers d s q → ¬ Called d s n

/-- What the declaration at `x` says, completed by the element it is derived from. -/
inductive Complete (d : SDevice) : Pos → Parsed → Prop
  | own {x p} : DeclAt d x p → p.derivedFrom = none → Complete d x p
  | derived {x p path z l b} : DeclAt d x p → p.derivedFrom = some path → Refers d x z → ElementOf d z l b →
      nameOf b = lastName path → Complete d x (completed p b)

/-- A description, with `derivedFrom`, that can be resolved. -/
structure Resolvable (d : SDevice) : Prop where
  follow : Followable d
  quiet : Quiet d
  clear : Clear d
  some : d.peripherals ≠ []
  dims : ∀ x q, Complete d x q → DimFits q ∧ (Contains listMark (nameOfDecl q) → (dimOf q).dim ≠ none)
  widths : ∀ x f, Complete d x (.field f) → ∃ w, WidthOf f w
  sizes : ∀ p, Declared d p → ∀ s, statedSize p = .some s → 0 ≤ s
  /-- The values of the containers of a field fit its width. -/
  values : ∀ x l h y c, Instance d x l (.field h) → InChain d l y → Takes d y c → EnumFits c (h.msb - h.lsb + 1)
  /-- Of two containers of a field, one is for reading and one for writing. -/
  usages : ∀ x l h y z c c', Instance d x l (.field h) → InChain d l y → InChain d l z → y ≠ z → Takes d y c → Takes d z c' →
    (c.usage = Option.some .read ∧ c'.usage = Option.some .write) ∨ (c.usage = Option.some .write ∧ c'.usage = Option.some .read)

end Svd.Spec
