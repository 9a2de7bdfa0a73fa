import Verif.Spec.Content
/-
Descriptions whose `derivedFrom` references can be followed, in whatever order the elements are declared.
-/
namespace Svd.Spec

/-- The element declared at `x` is called `n`, and it is the only one declared there: the name has no dim marker. -/
def PlainName (d : SDevice) (x : Pos) (n : Str) : Prop :=
  ∃ p, DeclAt d x p ∧ p ≠ .device ∧ (∀ c, p = .enum c → c.name = some n) ∧
    (kindOf p ≠ .enumcont → nameOfDecl p = n ∧ ¬ Contains listMark n)

/-- The names lead from `s` down to `t`, through elements declared in each other. -/
inductive OwnPath (d : SDevice) : Pos → List Str → Pos → Prop
  | last {x n} : PlainName d x n → OwnPath d x [n] x
  | down {x y n ns t} : PlainName d x n → OwnChild d x y → OwnPath d y ns t → OwnPath d x (n :: ns) t

/-- The path given as `derivedFrom` at `x` names the element declared at `t`, which is of the same kind and is not declared in
`x`: it starts at a peripheral, or at an element declared beside `x`. -/
def Names (d : SDevice) (x t : Pos) : Prop :=
  ∃ p path parts s, DeclAt d x p ∧ p.derivedFrom = some path ∧ PathNames path parts ∧ SameKind d x t ∧
    (OwnChild d [] s ∨ ∃ q, OwnChild d q x ∧ OwnChild d q s) ∧ OwnPath d s parts t ∧ ¬ x <+: t

/-- `x` has to be there before `y` can be completed: `y` is in `x`, or `y` is derived from `x`, directly or indirectly. -/
inductive Precedes (d : SDevice) : Pos → Pos → Prop
  | has {x y} : HasChild d x y → Precedes d x y
  | ref {x y} : Refers d y x → Precedes d x y
  | trans {x y z} : Precedes d x y → Precedes d y z → Precedes d x z

/-- `t` and the elements in which it lies are derived at most if they are peripherals or declared directly in a peripheral. -/
def Shallow (d : SDevice) (t : Pos) : Prop :=
  ∀ y p, DeclAt d y p → p.derivedFrom ≠ none → y = t ∨ Inside d y t → y.length ≤ 2

/-- The references of a description can be followed. -/
structure Followable (d : SDevice) : Prop where
  /-- Nothing depends on itself. -/
  acyclic : ∀ x, ¬ Precedes d x x
  /-- Every reference names an element that exists. -/
  named : ∀ x p, DeclAt d x p → p.derivedFrom ≠ none → ∃ t, Names d x t
  /-- References that are paths of several names lead to elements that can be completed early. -/
  simple : ∀ x p path, DeclAt d x p → kindOf p ≠ .enumcont → p.derivedFrom = some path → '.' ∈ path → ∀ t, Refers d x t → Shallow d t

end Svd.Spec
