import Verif.Spec.Xml
/-
The integer literals of SVD files, for every text: with the underscores that Python allows between digits, and with `#` read as
`0b` wherever it occurs.
-/
namespace Svd.Spec

/-- `s` is the non-empty sequence of digits `t` (characters with `P`), with at most one underscore between two of them. -/
inductive Grouped (P : Char → Prop) : Str → Str → Prop
  | last {c} : P c → Grouped P [c] [c]
  | next {c s t} : P c → Grouped P s t → Grouped P (c :: s) (c :: t)
  | group {c s t} : P c → Grouped P s t → Grouped P (c :: '_' :: s) (c :: t)

/-- `0`-`7`. -/
def IsOct (c : Char) : Prop := '0'.toNat ≤ c.toNat ∧ c.toNat ≤ '7'.toNat

/-- A prefix, the digits it announces, their values and the base. -/
inductive Radix : Str → (Char → Prop) → (Char → Nat) → Nat → Prop
  | hex {pre} : pre = s%"0x" ∨ pre = s%"0X" → Radix pre IsHex hexDigit 16
  | bin {pre} : pre = s%"0b" ∨ pre = s%"0B" → Radix pre IsBin decDigit 2
  | oct {pre} : pre = s%"0o" ∨ pre = s%"0O" → Radix pre IsOct decDigit 8

/-- An unsigned literal: decimal digits, or a prefix, possibly an underscore, and digits. -/
inductive UnsignedText : Str → Nat → Prop
  | dec {s t} : Grouped IsDec s t → UnsignedText s (numeral decDigit 10 t)
  | pre {pre us s t P val b} : Radix pre P val b → us = [] ∨ us = ['_'] → Grouped P s t → UnsignedText (pre ++ us ++ s) (numeral val b t)

/-- The text with `0b` for each `#`. -/
def hashes (v : Str) : Str := v.flatMap fun c => if c = '#' then s%"0b" else [c]

/-- The text `v` is an integer literal for `i`: with `0b` for `#`, it is an unsigned literal with an optional sign, possibly
surrounded by white space. -/
def IntText (v : Str) (i : Int) : Prop :=
  ∃ a sign u b, ∃ n : Nat, hashes v = a ++ sign ++ u ++ b ∧ Blank a ∧ Blank b ∧ UnsignedText u n ∧
    (((sign = [] ∨ sign = ['+']) ∧ i = (n : Int)) ∨ (sign = ['-'] ∧ i = -(n : Int)))

end Svd.Spec
