import Verif.Spec.Tree
import Verif.Spec.Layout
/-
Alternates: which elements may share addresses.
-/
namespace Svd.Spec

/-- `x` is declared as an alternate of `y`, or `y` of `x`.  `alts` lists the elements with their alternate. -/
def AltLink (alts : List (Str × Option Str)) (x y : Str) : Prop := (x, some y) ∈ alts ∨ (y, some x) ∈ alts

/-- `y` can be reached from `x` by following "alternate of" links in either direction. -/
inductive Connected (alts : List (Str × Option Str)) : Str → Str → Prop
  | refl (x) : Connected alts x x
  | step {x y z} : Connected alts x y → AltLink alts y z → Connected alts x z

/-- Register (or cluster)? -/
def isRegister : RC → Bool
  | .reg _ => true
  | .clu _ _ => false

/-- The name of a register or cluster. -/
def rcName : RC → Str
  | .reg r => r.name
  | .clu c _ => c.name

/-- Its first and last address. -/
def firstAddress : RC → Int
  | .reg r => r.baseAddress
  | .clu c _ => c.baseAddress
def lastAddress : RC → Int
  | .reg r => r.baseAddress + r.props.size / 8 - 1
  | .clu c _ => c.endAddress

/-- Its `alternateRegister` or `alternateCluster`. -/
def declaredAlt : RC → Option Str
  | .reg r => r.alternateRegister
  | .clu c _ => c.alternateCluster

/-- It belongs to no alternate group. -/
def NoGroup : RC → Prop
  | .reg r => r.alternateGroup = none
  | .clu _ _ => True

/-- The registers (or the clusters) of a scope, each with the alternate it declares. -/
def altsOf (reg : Bool) (xs : List RC) : List (Str × Option Str) :=
  (xs.filter fun x => isRegister x == reg).map fun x => (scopeName x, declaredAlt x)

/-- `y` may start inside of `x`, which is listed before it: `x` is connected with the alternate `y` declares, or `y`
declares none and `x` is declared as an alternate of `y`. -/
def Excused (xs : List RC) (x y : RC) : Prop :=
  (∃ a, declaredAlt y = some a ∧ Connected (altsOf (isRegister y) xs) a (rcName x)) ∨
  (declaredAlt y = none ∧ isRegister x = isRegister y ∧ declaredAlt x = some (rcName y))

/-- The two elements share a byte. -/
def ShareByte (x y : RC) : Prop :=
  ∃ a, firstAddress x ≤ a ∧ a ≤ lastAddress x ∧ firstAddress y ≤ a ∧ a ≤ lastAddress y

/-- `x` is listed before `y`. -/
def Before {α : Type} (xs : List α) (x y : α) : Prop := [x, y].Sublist xs

/-- The warning says that the register (cluster) `n` overlaps with the element `m`. -/
def OverlapWarning (reg : Bool) (n m : Str) (w : Warn) : Prop := w = .overlap reg n m ∨ w = .overlapNotAllowed reg n m

/-- The peripherals with the alternate each declares. -/
def periphAlts (ps : List Peripheral) : List (Str × Option Str) := ps.map fun p => (p.name, p.alternatePeripheral)

/-- The same for peripherals. -/
def PExcused (ps : List Peripheral) (x y : Peripheral) : Prop :=
  (∃ a, y.alternatePeripheral = some a ∧ Connected (periphAlts ps) a x.name) ∨
  (y.alternatePeripheral = none ∧ x.alternatePeripheral = some y.name ∧ y.name ≠ [])

/-- The warning says that the used (or the specified) addresses of `n` overlap with those of `m`. -/
def EffWarning (n m : Str) (w : Warn) : Prop := w = .effectiveOverlap n m ∨ w = .effectiveOverlapNotAllowed n m
def SpecWarning (n m : Str) (w : Warn) : Prop := w = .specifiedOverlap n m ∨ w = .specifiedOverlapNotAllowed n m

end Svd.Spec
