import Verif.Spec.Literal
import Verif.Spec.Misc
/-
The literals of enumerated values, for every text: which integers the literal is read as.
-/
namespace Svd.Spec

/-- The literal in lower case, with `0b` for each `#`. -/
def spelled (lit : Str) : Str := hashes (lowerText lit)

/-- A number in binary notation as Python reads it: white space, a sign, the prefix `0b` (and an underscore after it) and
underscores between digits are allowed. -/
def BinText (v : Str) (i : Int) : Prop :=
  ∃ a sign u s t b, v = a ++ sign ++ u ++ s ++ b ∧ Blank a ∧ Blank b ∧ Grouped IsBin s t ∧
    (u = [] ∨ u = s%"0b" ∨ u = s%"0B" ∨ u = s%"0b_" ∨ u = s%"0B_") ∧
    (((sign = [] ∨ sign = ['+']) ∧ i = (numeral decDigit 2 t : Int)) ∨ (sign = ['-'] ∧ i = -(numeral decDigit 2 t : Int)))

/-- The texts obtained by writing `0` or `1` for each `x`, in ascending order. -/
def choices : Str → List Str
  | [] => [[]]
  | c :: s => if c = 'x' then (choices s).map ('0' :: ·) ++ (choices s).map ('1' :: ·) else (choices s).map (c :: ·)

/-- The literal `lit` is read as the integers `vs` (several if it has don't-care bits): decimal digits; `0x` and hexadecimal
digits; `0b` or `#` and a binary number for every way to fill the don't-care bits. -/
inductive Reads (lit : Str) : List Int → Prop
  | dec : spelled lit ≠ [] → (∀ c ∈ spelled lit, IsDec c) → Reads lit [(numeral decDigit 10 (spelled lit) : Int)]
  | hex {us s t b} : spelled lit = s%"0x" ++ us ++ s ++ b → us = [] ∨ us = ['_'] → Grouped IsHex s t → Blank b →
      Reads lit [(numeral hexDigit 16 t : Int)]
  | bin {p vs} : spelled lit = s%"0b" ++ p → Entrywise BinText (choices p) vs → Reads lit vs

/-- The literal has a don't-care bit. -/
def Wild (lit : Str) : Prop := ∃ p, spelled lit = s%"0b" ++ p ∧ 'x' ∈ p

end Svd.Spec
