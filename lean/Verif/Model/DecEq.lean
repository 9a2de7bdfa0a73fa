import Verif.Model.Proc
/-
Decidable equality for the tree types (used only by examples).
-/
namespace Svd

mutual
def SRC.decEq : (a b : SRC) → Decidable (a = b)
  | .reg r, .reg s => if h : r = s then .isTrue (by rw [h]) else .isFalse (by intro e; cases e; exact h rfl)
  | .reg _, .clu _ _ => .isFalse (by intro e; cases e)
  | .clu _ _, .reg _ => .isFalse (by intro e; cases e)
  | .clu c xs, .clu d ys =>
      if h : c = d then
        match SRC.decEqs xs ys with
        | .isTrue h' => .isTrue (by rw [h, h'])
        | .isFalse h' => .isFalse (by intro e; cases e; exact h' rfl)
      else .isFalse (by intro e; cases e; exact h rfl)
def SRC.decEqs : (a b : List SRC) → Decidable (a = b)
  | [], [] => .isTrue rfl
  | [], _ :: _ => .isFalse (by intro e; cases e)
  | _ :: _, [] => .isFalse (by intro e; cases e)
  | x :: xs, y :: ys =>
      match SRC.decEq x y with
      | .isTrue h => match SRC.decEqs xs ys with
        | .isTrue h' => .isTrue (by rw [h, h'])
        | .isFalse h' => .isFalse (by intro e; cases e; exact h' rfl)
      | .isFalse h => .isFalse (by intro e; cases e; exact h rfl)
end
instance : DecidableEq SRC := SRC.decEq

mutual
def IRC.decEq : (a b : IRC) → Decidable (a = b)
  | .reg r f, .reg s g =>
      if h : r = s then
        if h' : f = g then .isTrue (by rw [h, h']) else .isFalse (by intro e; cases e; exact h' rfl)
      else .isFalse (by intro e; cases e; exact h rfl)
  | .reg _ _, .clu _ _ => .isFalse (by intro e; cases e)
  | .clu _ _, .reg _ _ => .isFalse (by intro e; cases e)
  | .clu c xs, .clu d ys =>
      if h : c = d then
        match IRC.decEqs xs ys with
        | .isTrue h' => .isTrue (by rw [h, h'])
        | .isFalse h' => .isFalse (by intro e; cases e; exact h' rfl)
      else .isFalse (by intro e; cases e; exact h rfl)
def IRC.decEqs : (a b : List IRC) → Decidable (a = b)
  | [], [] => .isTrue rfl
  | [], _ :: _ => .isFalse (by intro e; cases e)
  | _ :: _, [] => .isFalse (by intro e; cases e)
  | x :: xs, y :: ys =>
      match IRC.decEq x y with
      | .isTrue h => match IRC.decEqs xs ys with
        | .isTrue h' => .isTrue (by rw [h, h'])
        | .isFalse h' => .isFalse (by intro e; cases e; exact h' rfl)
      | .isFalse h => .isFalse (by intro e; cases e; exact h rfl)
end
instance : DecidableEq IRC := IRC.decEq

mutual
def RC.decEq : (a b : RC) → Decidable (a = b)
  | .reg r, .reg s => if h : r = s then .isTrue (by rw [h]) else .isFalse (by intro e; cases e; exact h rfl)
  | .reg _, .clu _ _ => .isFalse (by intro e; cases e)
  | .clu _ _, .reg _ => .isFalse (by intro e; cases e)
  | .clu c xs, .clu d ys =>
      if h : c = d then
        match RC.decEqs xs ys with
        | .isTrue h' => .isTrue (by rw [h, h'])
        | .isFalse h' => .isFalse (by intro e; cases e; exact h' rfl)
      else .isFalse (by intro e; cases e; exact h rfl)
def RC.decEqs : (a b : List RC) → Decidable (a = b)
  | [], [] => .isTrue rfl
  | [], _ :: _ => .isFalse (by intro e; cases e)
  | _ :: _, [] => .isFalse (by intro e; cases e)
  | x :: xs, y :: ys =>
      match RC.decEq x y with
      | .isTrue h => match RC.decEqs xs ys with
        | .isTrue h' => .isTrue (by rw [h, h'])
        | .isFalse h' => .isFalse (by intro e; cases e; exact h' rfl)
      | .isFalse h => .isFalse (by intro e; cases e; exact h rfl)
end
instance : DecidableEq RC := RC.decEq

deriving instance DecidableEq for SPeriphT, SDevice, IPeripheral, IDevice, Peripheral, Device

end Svd
