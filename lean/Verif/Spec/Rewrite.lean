import Verif.Spec.Says
/-
Reading a document, writing it and reading it again.
-/
namespace Svd.Spec

/-- The element itself and everything in it. -/
inductive Within : XElem → XElem → Prop
  | self {e} : Within e e
  | child {e c x} : c ∈ e.children → Within c x → Within e x

/-- No value in the element consists of white space only, and no free text is empty. -/
def Filled (e : XElem) : Prop :=
  ∀ x, Within e x → (x.tag ∈ valueTags → ∀ s ∈ x.text, trim s ≠ []) ∧ (x.tag ∈ rawTags → ∀ s ∈ x.text, s ≠ [])

/-- The first of two numbers, if the other one is given as well. -/
def ifBoth : Option Int → Option Int → Option Int
  | some a, some _ => some a
  | _, _ => none

/-- The field without half a position (`bitOffset` without `bitWidth`, `lsb` without `msb`, or the other way round). -/
def wholeField (f : SField) : SField :=
  { f with bitOffset := ifBoth f.bitOffset f.bitWidth, bitWidth := ifBoth f.bitWidth f.bitOffset
           lsb := ifBoth f.lsb f.msb, msb := ifBoth f.msb f.lsb }

mutual
/-- The register or cluster without half positions. -/
def wholeRC : SRC → SRC
  | .reg r => .reg { r with fields := r.fields.map wholeField }
  | .clu c ch => .clu c (wholeRCs ch)
/-- The registers and clusters without half positions. -/
def wholeRCs : List SRC → List SRC
  | [] => []
  | x :: xs => wholeRC x :: wholeRCs xs
end

/-- The peripheral without half positions. -/
def wholePeripheral (p : SPeriphT) : SPeriphT := { p with rcs := wholeRCs p.rcs }

/-- The device without half positions. -/
def whole (d : SDevice) : SDevice := { d with peripherals := d.peripherals.map wholePeripheral }

/-- The field has no half position. -/
def WholeField (f : SField) : Prop := f.bitOffset.isSome = f.bitWidth.isSome ∧ f.lsb.isSome = f.msb.isSome

end Svd.Spec
