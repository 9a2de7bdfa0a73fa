import Verif.Spec.Origin
import Verif.Spec.Text
/-
What a chain of declarations linked by `derivedFrom` says about the attributes of an element.
-/
namespace Svd.Spec

/-- `n` is the name of an element declared under the name `tmpl`, possibly after replacing a dim marker by an index. -/
def InstanceName (tmpl n : Str) : Prop :=
  n = tmpl ∨ ∃ idx, n = fillList idx tmpl ∨ n = fillArray idx tmpl

/-- A chain of declarations: the first is derived from (an instance of) the second, and so on; the last is not derived.
`decl` = is declared in the device. -/
inductive DerivChain {α : Type} (decl : α → Prop) (name : α → Str) (derivedFrom : α → Option Str) : List α → Prop
  | root {a} : decl a → derivedFrom a = none → DerivChain decl name derivedFrom [a]
  | step {a b l path} : decl a → derivedFrom a = some path → InstanceName (name b) (lastName path) →
      DerivChain decl name derivedFrom (b :: l) → DerivChain decl name derivedFrom (a :: b :: l)

/-- Name and position of an element declared as `tmpl` at `declared` with increment `inc`: unchanged, or the instance
number `i` of a dim expansion. -/
def Placed (tmpl : Str) (inc : Option Int) (name : Str) (shift : Int) : Prop :=
  (name = tmpl ∧ shift = 0) ∨
  ∃ (i : Nat) (k : Int), (∃ idx, name = fillList idx tmpl ∨ name = fillArray idx tmpl) ∧
    shift = k * i ∧ ∀ j, inc = some j → k = j

/-- The chains of peripherals, clusters, registers and fields of a device. -/
def PeriphChain (d : SDevice) : List SPeripheral → Prop :=
  DerivChain (fun p => Declared d (.periph p)) (·.name) (·.derivedFrom)
def ClusterChain (d : SDevice) : List SCluster → Prop :=
  DerivChain (fun c => Declared d (.clu c)) (·.name) (·.derivedFrom)
def RegisterChain (d : SDevice) : List SRegister → Prop :=
  DerivChain (fun r => Declared d (.reg r)) (·.name) (·.derivedFrom)
def FieldChain (d : SDevice) : List SField → Prop :=
  DerivChain (fun f => Declared d (.field f)) (·.name) (·.derivedFrom)

/-- The value of the nearest element of the chain that defines it. -/
def nearest {α β : Type} (get : α → Option β) (chain : List α) : Option β := chain.findSome? get

/-- `l` is the derivation chain of the declarations behind the processed element called `name` at `offset`. -/
def RegisterOrigin (d : SDevice) (name : Str) (offset : Int) (l : List SRegister) : Prop :=
  RegisterChain d l ∧ ∃ h t, l = h :: t ∧ Placed h.name h.dim.dimIncrement name (offset - h.addressOffset)
def ClusterOrigin (d : SDevice) (name : Str) (offset : Int) (l : List SCluster) : Prop :=
  ClusterChain d l ∧ ∃ h t, l = h :: t ∧ Placed h.name h.dim.dimIncrement name (offset - h.addressOffset)
def PeriphOrigin (d : SDevice) (name : Str) (base : Int) (l : List SPeripheral) : Prop :=
  PeriphChain d l ∧ ∃ h t, l = h :: t ∧ Placed h.name h.dim.dimIncrement name (base - h.baseAddress)

/-- One derivation chain for each cluster of a path. -/
inductive ClusterOrigins (d : SDevice) : List ClusterHd → List (List SCluster) → Prop
  | nil : ClusterOrigins d [] []
  | cons {c cs l ls} : ClusterOrigin d c.name c.addressOffset l → ClusterOrigins d cs ls →
      ClusterOrigins d (c :: cs) (l :: ls)

/-- The property groups in force around an element, nearest first: the enclosing clusters inside out (each with its
derivation chain), the peripheral (with its derivation chain), the device. -/
def surrounding (d : SDevice) (lp : List SPeripheral) (lcs : List (List SCluster)) : List Props :=
  lcs.reverse.flatten.map (·.props) ++ lp.map (·.props) ++ [d.hd.props]

/-- The properties of a processed element are those of the nearest definition, or the defaults of the CMSIS-SVD
specification. -/
def PropsFrom (p : FProps) (defs : List Props) : Prop :=
  p.access = (nearest (·.access) defs).getD .readWrite ∧
  p.protection = (nearest (·.protection) defs).getD .any ∧
  p.resetValue = (nearest (·.resetValue) defs).getD 0 ∧
  p.resetMask = (nearest (·.resetMask) defs).getD 0xFFFFFFFF

end Svd.Spec

namespace Svd.Spec
/-- "The element's own value if given, else the base's." -/
def OwnElse {α : Type} (own base result : Option α) : Prop :=
  (∀ v, own = some v → result = some v) ∧ (own = none → result = base)

/-- The same for the four properties and the size of the register properties group. -/
def PropsOwnElse (own base result : Props) : Prop :=
  OwnElse own.size base.size result.size ∧ OwnElse own.access base.access result.access ∧
  OwnElse own.protection base.protection result.protection ∧
  OwnElse own.resetValue base.resetValue result.resetValue ∧ OwnElse own.resetMask base.resetMask result.resetMask

/-- A list sorted by a key. -/
def SortedOn {α : Type} (key : α → Int) (l : List α) : Prop := l.Pairwise fun a b => key a ≤ key b

/-- An address block as declared; protection `any` if none is given. -/
def blockOf (b : SAddressBlock) : AddressBlock :=
  { offset := b.offset, size := b.size, usage := b.usage, protection := b.protection.getD .any }
end Svd.Spec
