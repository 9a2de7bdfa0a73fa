import Verif.Spec.Elements
/-
C07: what a declaration with dim becomes in the resolved device.
-/
namespace Svd.Spec

/-- What the declaration at `y` says, completed by the element it is derived from. -/
inductive FullDecl (d : SDevice) (y : Pos) : Parsed → Prop
  | own {p} : DeclAt d y p → p.derivedFrom = none → FullDecl d y p
  | derived {p path z l b} : DeclAt d y p → p.derivedFrom = some path → Refers d y z → ElementOf d z l b →
      nameOf b = lastName path → FullDecl d y (completed p b)

/-- `hs` are the `n` elements of the dim declaration `p`: the `i`-th is named with the `i`-th index in the place of the marker
and lies `i` increments behind the declared position. -/
structure Row (p : Parsed) (n : Int) (hs : List Processed) : Prop where
  atLeastOne : 1 ≤ n
  count : (hs.length : Int) = n
  each : ∃ mark idx, MarkerOf (nameOfDecl p) mark ∧ idx.length = hs.length ∧
    IndicesOf (nameOfDecl p) n (dimOf p).dimIndex idx ∧
    ∀ (i : Nat) h, hs[i]? = some h → ∃ s pos, idx[i]? = some s ∧ nameOf h = fill mark s (nameOfDecl p) ∧
      DeclaredAt none p pos ∧ position h = pos + (dimOf p).dimIncrement.getD 0 * i

/-- `hs` is what the declaration at `y` is replaced by: `dim` elements if its name contains `%s`, otherwise one element of
this name. -/
def ReplacedBy (d : SDevice) (y : Pos) (hs : List Processed) : Prop :=
  ∃ p, FullDecl d y p ∧
    ((Contains listMark (nameOfDecl p) ∧ ∃ n, (dimOf p).dim = some n ∧ Row p n hs) ∨
     (¬ Contains listMark (nameOfDecl p) ∧ ∃ h, hs = [h] ∧ nameOf h = nameOfDecl p))

/-- `ys` are the registers and clusters in an element of the resolved device that is declared at `x`. -/
inductive ContentAt (d : SDevice) (ps : List IPeripheral) : Pos → List IRC → Prop
  | periph {x q} : q ∈ ps → PeriphOf d x q → ContentAt d ps x q.rcs
  | clu {x z c ys zs} : ContentAt d ps x ys → .clu c zs ∈ ys → RCOf d z (.clu c zs) → ContentAt d ps z zs

/-- `fs` are the fields in a register of the resolved device that is declared at `x`. -/
inductive FieldsAt (d : SDevice) (ps : List IPeripheral) : Pos → List IField → Prop
  | intro {x z r ys fs} : ContentAt d ps x ys → .reg r fs ∈ ys → RCOf d z (.reg r fs) → FieldsAt d ps z fs

/-- Every declared peripheral, cluster, register and field is replaced by its elements in everything that has it, and there are
no other elements. -/
structure DimExpanded (d : SDevice) (ps : List IPeripheral) : Prop where
  peripherals : ∀ x, OwnChild d [] x → ∃ hs, ReplacedBy d x hs ∧ ∀ h ∈ hs, ∃ q ∈ ps, ButSize h (.periph q.hd)
  onlyPeripherals : ∀ q ∈ ps, ∃ x hs h, OwnChild d [] x ∧ ReplacedBy d x hs ∧ h ∈ hs ∧ ButSize h (.periph q.hd)
  /-- In an element with the derivation chain `l` are the elements for what is declared in the chain and no others.  (Missing
  can be a cluster that would contain itself; there can be a cluster derived from this one: see C53.) -/
  content : ∀ x ys, ContentAt d ps x ys → ∃ l, Chain d x l ∧
    (∀ y, InChain d l y → (∃ w ∈ l, Endless d w y) ∨ ∃ hs, ReplacedBy d y hs ∧ ∀ h ∈ hs, ∃ e ∈ ys, ButSize h (headOf e)) ∧
    ∀ e ∈ ys, ∃ y hs h, (InChain d l y ∨ Stray d x y) ∧ ReplacedBy d y hs ∧ h ∈ hs ∧ ButSize h (headOf e)
  fields : ∀ x fs, FieldsAt d ps x fs → ∃ l, Chain d x l ∧
    (∀ y, InChain d l y → ∃ hs, ReplacedBy d y hs ∧ ∀ h ∈ hs, ∃ f ∈ fs, h = .field f.hd) ∧
    ∀ f ∈ fs, ∃ y hs, InChain d l y ∧ ReplacedBy d y hs ∧ .field f.hd ∈ hs
  /-- Nothing is passed over: each declared peripheral, cluster and register is there (if no cluster lies inside itself). -/
  present : NoClusterInItself d → (∀ x p, DeclAt d x p → kindOf p = .peripheral ∨ kindOf p = .cluster → ∃ ys, ContentAt d ps x ys) ∧
    ∀ x r, DeclAt d x (.reg r) → ∃ fs, FieldsAt d ps x fs

end Svd.Spec
