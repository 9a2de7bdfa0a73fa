import Verif.Model.Proc
import Verif.Spec.Text
/-
Specifications for the layout of processed devices.
-/
namespace Svd.Spec

mutual
/-- The registers of a tree, in document order. -/
def flatRC : RC → List Register
  | .reg r => [r]
  | .clu _ ch => flatRCs ch
/-- The registers of a list of trees, in document order. -/
def flatRCs : List RC → List Register
  | [] => []
  | x :: xs => flatRC x ++ flatRCs xs
end

/-- `(address, name)` pairs in ascending order: by address, then by name. -/
def AddrNameLe (a b : Int × Str) : Prop := a.1 < b.1 ∨ (a.1 = b.1 ∧ a.2 ≤ b.2)

/-- The order in which the children of a peripheral or cluster are listed: by address; at one address the elements
without alternate group first; then by alternate group; then by name. -/
def ScopeLe (a b : Int × Option Str × Str) : Prop :=
  a.1 < b.1 ∨ (a.1 = b.1 ∧
    match a.2.1, b.2.1 with
    | none, some _ => True
    | some _, none => False
    | none, none => a.2.2 ≤ b.2.2
    | some g, some h => (g ≠ h ∧ g ≤ h) ∨ (g = h ∧ a.2.2 ≤ b.2.2))

/-- Address, alternate group and name of a child. -/
def scopeKey : RC → Int × Option Str × Str
  | .reg r => (r.baseAddress, r.alternateGroup, r.name)
  | .clu c _ => (c.baseAddress, none, c.name)

/-- The name of a child, qualified by its alternate group. -/
def scopeName : RC → Str
  | .reg r => match r.alternateGroup with
    | none => r.name
    | some [] => r.name
    | some g => r.name ++ s%"_" ++ g
  | .clu c _ => c.name

/-- The last address of a register. -/
def regEnd (r : Register) : Int := r.baseAddress + r.props.size / 8 - 1

/-- `m` is the largest element of the collection `P`. -/
def IsMax (P : Int → Prop) (m : Int) : Prop := P m ∧ ∀ x, P x → x ≤ m

/-- The field can be read / written, as `Process` understands its access type. -/
def Readable (a : Access) : Prop := a ≠ .writeOnly
def Writable (a : Access) : Prop := a ≠ .readOnly
/-- The bit `b` belongs to the position `lsb … msb`. -/
def InBits (lsb msb b : Int) : Prop := lsb ≤ b ∧ b ≤ msb

end Svd.Spec
