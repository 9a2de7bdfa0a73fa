import Verif.Spec.Dim
/-
The notations for the position of a field.
-/
namespace Svd
open Spec

/-- The field gives its position by `bitOffset` and `bitWidth` only. -/
def ByOffset (p : SField) (o w : Int) : Prop :=
  p.bitOffset = some o ∧ p.bitWidth = some w ∧ p.lsb = none ∧ p.msb = none ∧ p.bitRange = none
/-- The field gives its position by `lsb` and `msb` only. -/
def ByLsbMsb (p : SField) (l m : Int) : Prop :=
  p.lsb = some l ∧ p.msb = some m ∧ p.bitOffset = none ∧ p.bitWidth = none ∧ p.bitRange = none
/-- The field gives its position by `bitRange`, written `[a:b]` in decimal (leading zeros allowed). -/
def ByRange (p : SField) (a b : Nat) : Prop :=
  ∃ x y, Decimal x ∧ Decimal y ∧ decValue x = a ∧ decValue y = b ∧ p.bitRange = some (rangeText x y)

/-- The field gives its position in one of the three notations: the lowest bit is `o`, and it has `w` bits. -/
def WritesBits (p : SField) (o w : Nat) : Prop := ByOffset p o w ∨ ByLsbMsb p o (o + w - 1) ∨ ByRange p (o + w - 1) o

end Svd
