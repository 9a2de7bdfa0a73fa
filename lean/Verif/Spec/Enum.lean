import Verif.Model.Proc
import Verif.Spec.Text
/-
Specifications for enumerated value literals, independent of the model's conversion functions.
-/
namespace Svd.Spec

/-- A binary pattern: a non-empty sequence of `0`, `1`, `x` (or `X`). -/
def IsPattern (p : Str) : Prop := p ≠ [] ∧ ∀ c ∈ p, c = '0' ∨ c = '1' ∨ c = 'x' ∨ c = 'X'

/-- The integer `v` matches the binary pattern `p`: it fits into as many bits as the pattern has characters, and the
bit at the position of each `0` is clear, of each `1` set. Position `i` of the text is bit `length - 1 - i`. -/
def Matches (p : Str) (v : Int) : Prop :=
  ∃ n : Nat, v = (n : Int) ∧ n < 2 ^ p.length ∧
    ∀ i, ∀ h : i < p.length, (p[i] = '0' → n.testBit (p.length - 1 - i) = false) ∧
      (p[i] = '1' → n.testBit (p.length - 1 - i) = true)

/-- A positional numeral: the digits, read with `val`, in base `b`, most significant digit first. -/
def numeral (val : Char → Nat) (b : Nat) (s : Str) : Nat := s.foldl (fun acc c => acc * b + val c) 0

/-- Decimal digit value. -/
def decDigit (c : Char) : Nat := c.toNat - '0'.toNat

/-- Hexadecimal digit value, both cases. -/
def hexDigit (c : Char) : Nat :=
  if 'a'.toNat ≤ c.toNat then c.toNat - 'a'.toNat + 10
  else if 'A'.toNat ≤ c.toNat then c.toNat - 'A'.toNat + 10
  else c.toNat - '0'.toNat

/-- `0`-`9`. -/
def IsDec (c : Char) : Prop := '0'.toNat ≤ c.toNat ∧ c.toNat ≤ '9'.toNat
/-- `0`-`9`, `a`-`f`, `A`-`F`. -/
def IsHex (c : Char) : Prop :=
  ('0'.toNat ≤ c.toNat ∧ c.toNat ≤ '9'.toNat) ∨ ('a'.toNat ≤ c.toNat ∧ c.toNat ≤ 'f'.toNat) ∨
    ('A'.toNat ≤ c.toNat ∧ c.toNat ≤ 'F'.toNat)
/-- `0` or `1`. -/
def IsBin (c : Char) : Prop := c = '0' ∨ c = '1'

/-- The three ways to start a binary literal. -/
def BinPrefix (pre : Str) : Prop := pre = s%"0b" ∨ pre = s%"0B" ∨ pre = s%"#"

/-- The literal `lit` of an enumerated value denotes the integer `v` (a literal with don't-care bits denotes several):
decimal digits, `0x` and hexadecimal digits, or a binary prefix and a pattern. -/
inductive Denotes : Str → Int → Prop
  | dec {s} : s ≠ [] → (∀ c ∈ s, IsDec c) → Denotes s (numeral decDigit 10 s : Nat)
  | hex {pre s} : pre = s%"0x" ∨ pre = s%"0X" → s ≠ [] → (∀ c ∈ s, IsHex c) →
      Denotes (pre ++ s) (numeral hexDigit 16 s : Nat)
  | bin {pre p v} : BinPrefix pre → IsPattern p → Matches p v → Denotes (pre ++ p) v

/-- The well-formed literals. -/
def WellFormedLit (lit : Str) : Prop :=
  (lit ≠ [] ∧ ∀ c ∈ lit, IsDec c) ∨
  (∃ pre s, (pre = s%"0x" ∨ pre = s%"0X") ∧ s ≠ [] ∧ (∀ c ∈ s, IsHex c) ∧ lit = pre ++ s) ∨
  (∃ pre p, BinPrefix pre ∧ IsPattern p ∧ lit = pre ++ p)

/-- A literal without the characters and repetitions that Python's `int()` treats specially: no underscore, sign or
white space anywhere, `#` at most at the start, no second `0b` prefix. -/
def PlainLit (lit : Str) : Prop :=
  (∀ c ∈ lit, c ≠ '_' ∧ c ≠ '+' ∧ c ≠ '-' ∧ isSpace c = false) ∧ '#' ∉ lit.tail ∧
  ∀ pre rest, BinPrefix pre → lit = pre ++ rest → 'b' ∉ rest ∧ 'B' ∉ rest

/-- All literals of the entries are plain. -/
def PlainValues (ps : List SEnumValue) : Prop := ∀ e ∈ ps, ∀ lit, e.value = some lit → PlainLit lit

/-- The literal contains a don't-care bit. -/
def HasDontCare (lit : Str) : Prop := ∃ pre p, BinPrefix pre ∧ IsPattern p ∧ lit = pre ++ p ∧ ('x' ∈ p ∨ 'X' ∈ p)

/-- `n` is the name of the enumerated value `v` made from an entry called `name` with literal `lit`: a literal that
stands for several values adds the value as a suffix. -/
def ExpandedName (name lit : Str) (v : Int) (n : Str) : Prop :=
  (HasDontCare lit → n = name ++ '_' :: intText v) ∧ (¬ HasDontCare lit → n = name)

/-- The name is `reserved`, in any case. -/
def Reserved (n : Str) : Prop := lowerText n = s%"reserved"

/-- The warning says that the enumerated value called `n` is ignored because its name or value was used before. -/
def DupWarning (n : Str) (w : Warn) : Prop := w = .enumDuplicateName n ∨ ∃ x, w = .enumDuplicateValue n x

/-- The enumerated values `(name, value)` the entries of a container stand for, in order of declaration; entries called
`reserved` stand for none. -/
inductive Candidates : List SEnumValue → List (Str × Int) → Prop
  | nil : Candidates [] []
  | reserved {e es cs} : Reserved e.name → Candidates es cs → Candidates (e :: es) cs
  | lit {e es cs lit xs} : ¬ Reserved e.name → e.value = some lit → (xs.map Prod.snd).Pairwise (· < ·) →
      (∀ v, v ∈ xs.map Prod.snd ↔ Denotes lit v) → (∀ x ∈ xs, ExpandedName e.name lit x.2 x.1) →
      Candidates es cs → Candidates (e :: es) (xs ++ cs)

/-- Candidates in order of declaration, of which only the first ones of each name and each value are kept. -/
def keepFirst (prev : List (Str × Int)) : List (Str × Int) → List (Str × Int)
  | [] => []
  | c :: cs =>
      if prev.any (fun u => u.1 == c.1 || u.2 == c.2) then keepFirst prev cs
      else c :: keepFirst (prev ++ [c]) cs

/-- Ascending list of integers without repetition. -/
def Ascending (l : List Int) : Prop := l.Pairwise (· < ·)

end Svd.Spec
