/-
Python runtime fragments used by SVDSuite: strings as lists of characters, `int()`, `str()`, `lower`, `strip`,
`replace`, `split`, stable sorting, and the exception/warning monad.
These model CPython behaviour (trusted base), not a file of /repo; the call sites in /repo are cited at each use.
-/
namespace Svd

/-- Python `str` as a list of code points. -/
abbrev Str := List Char

/-- `s%"abc"` is the literal list `['a','b','c']` (reduces in the kernel without `String.toList`). -/
syntax (name := strLit) "s%" str : term
macro_rules
  | `(s% $s:str) => do
      let cs := s.getString.toList.map (fun c => Lean.Syntax.mkCharLit c)
      let arr : Lean.TSyntaxArray `term := (cs.map (fun x => (⟨x.raw⟩ : Lean.TSyntax `term))).toArray
      `(([$arr,*] : List Char))

/-! ### characters -/

/-- ASCII part of `str.lower` on one character. -/
def lowerC (c : Char) : Char :=
  if 65 ≤ c.toNat ∧ c.toNat ≤ 90 then Char.ofNat (c.toNat + 32) else c

/-- ASCII part of `str.upper` on one character. -/
def upperC (c : Char) : Char :=
  if 97 ≤ c.toNat ∧ c.toNat ≤ 122 then Char.ofNat (c.toNat - 32) else c

/-- `str.lower` (ASCII). -/
def lower (s : Str) : Str := s.map lowerC
/-- `str.upper` (ASCII). -/
def upper (s : Str) : Str := s.map upperC

/-- ASCII decimal digit: `[0-9]`, and the ASCII part of `\d`. -/
def isDigitC (c : Char) : Bool := 48 ≤ c.toNat && c.toNat ≤ 57

/-- `[A-Z]`. -/
def isUpperC (c : Char) : Bool := 65 ≤ c.toNat && c.toNat ≤ 90

/-- `[_0-9a-zA-Z]`. -/
def isWordC (c : Char) : Bool :=
  c == '_' || isDigitC c || isUpperC c || (97 ≤ c.toNat && c.toNat ≤ 122)

/-- `str.isspace` / `\s` / the characters removed by `str.strip()`. -/
def isSpaceC (c : Char) : Bool :=
  let n := c.toNat
  (9 ≤ n && n ≤ 13) || (28 ≤ n && n ≤ 32) || n == 0x85 || n == 0xA0 || n == 0x1680 ||
  (0x2000 ≤ n && n ≤ 0x200A) || n == 0x2028 || n == 0x2029 || n == 0x202F || n == 0x205F || n == 0x3000

/-- `str.isdigit()` (ASCII): non-empty and all digits. -/
def isDigitStr (s : Str) : Bool := !s.isEmpty && s.all isDigitC

/-! ### strings -/

/-- `s.lstrip()`. -/
def lstrip (s : Str) : Str := s.dropWhile isSpaceC
/-- `s.rstrip()`. -/
def rstrip (s : Str) : Str := (s.reverse.dropWhile isSpaceC).reverse
/-- `s.strip()`. -/
def strip (s : Str) : Str := rstrip (lstrip s)

/-- `pat in s`. -/
def hasSub (pat : Str) : Str → Bool
  | [] => pat.isEmpty
  | c :: cs => pat.isPrefixOf (c :: cs) || hasSub pat cs

/-- Worker of `replaceAll`: `skip` characters of the current match are still to be dropped. -/
def replaceGo (pat new : Str) : Nat → Str → Str
  | _, [] => []
  | k + 1, _ :: cs => replaceGo pat new k cs
  | 0, c :: cs =>
      if pat.isPrefixOf (c :: cs) then new ++ replaceGo pat new (pat.length - 1) cs
      else c :: replaceGo pat new 0 cs

/-- `s.replace(pat, new)` for a non-empty `pat`: left to right, non overlapping. -/
def replaceAll (pat new s : Str) : Str := replaceGo pat new 0 s

/-- `s.replace(c, new, 1)` for a one character pattern. -/
def replaceFirstC (c : Char) (new : Str) : Str → Str
  | [] => []
  | d :: ds => if d = c then new ++ ds else d :: replaceFirstC c new ds

/-- `s.split(sep)` for a one character separator. -/
def splitC (sep : Char) : Str → List Str
  | [] => [[]]
  | c :: cs =>
      if c = sep then [] :: splitC sep cs
      else match splitC sep cs with
        | [] => [[c]]
        | h :: t => (c :: h) :: t

/-! ### integers as text -/

/-- Value of one digit in `int(s, base)`, `base ≤ 16`. -/
def digitVal (c : Char) : Option Nat :=
  let n := c.toNat
  if 48 ≤ n ∧ n ≤ 57 then some (n - 48)
  else if 97 ≤ n ∧ n ≤ 102 then some (n - 87)
  else if 65 ≤ n ∧ n ≤ 70 then some (n - 55)
  else none

/-- Digit sequence of `int()`: single underscores between digits are allowed.  `us` = "the previous character was an
underscore or there was none" (then neither an underscore nor the end may follow). -/
def digitsGo (base : Nat) : Nat → Bool → Str → Option Nat
  | acc, us, [] => if us then none else some acc
  | acc, us, c :: cs =>
      if c = '_' then (if us then none else digitsGo base acc true cs)
      else match digitVal c with
        | some d => if d < base then digitsGo base (acc * base + d) false cs else none
        | none => none

/-- Non-empty digit sequence with underscores. -/
def digits (base : Nat) (s : Str) : Option Nat := digitsGo base 0 true s

/-- After a `0x`/`0b`/`0o` prefix one underscore is allowed. -/
def digitsAfterPrefix (base : Nat) (s : Str) : Option Nat :=
  match s with
  | '_' :: t => digits base t
  | t => digits base t

/-- The unsigned part of `int(s, base)` for `base ∈ {0, 2, 10, 16}`. -/
def unsignedInt (base : Nat) (s : Str) : Option Nat :=
  if base = 16 then
    match s with
    | '0' :: 'x' :: t => digitsAfterPrefix 16 t
    | '0' :: 'X' :: t => digitsAfterPrefix 16 t
    | _ => digits 16 s
  else if base = 2 then
    match s with
    | '0' :: 'b' :: t => digitsAfterPrefix 2 t
    | '0' :: 'B' :: t => digitsAfterPrefix 2 t
    | _ => digits 2 s
  else if base = 0 then
    match s with
    | '0' :: 'x' :: t => digitsAfterPrefix 16 t
    | '0' :: 'X' :: t => digitsAfterPrefix 16 t
    | '0' :: 'b' :: t => digitsAfterPrefix 2 t
    | '0' :: 'B' :: t => digitsAfterPrefix 2 t
    | '0' :: 'o' :: t => digitsAfterPrefix 8 t
    | '0' :: 'O' :: t => digitsAfterPrefix 8 t
    | '0' :: t =>
        match digits 10 ('0' :: t) with
        | some 0 => some 0
        | _ => none
    | _ => digits 10 s
  else digits base s

/-- CPython `int(s, base)`; `none` stands for `ValueError`. -/
def pyInt (base : Nat) (s : Str) : Option Int :=
  match strip s with
  | '-' :: t => (unsignedInt base t).map (fun n => -(n : Int))
  | '+' :: t => (unsignedInt base t).map (fun n => (n : Int))
  | t => (unsignedInt base t).map (fun n => (n : Int))

/-- One digit as a character (lower case). -/
def digitChar (d : Nat) : Char := if d < 10 then Char.ofNat (48 + d) else Char.ofNat (87 + d)

/-- Worker of `toBase`; the first argument is fuel. -/
def toBaseAux (b : Nat) : Nat → Nat → Str → Str
  | 0, _, acc => acc
  | f + 1, n, acc =>
      if n < b then digitChar n :: acc
      else toBaseAux b f (n / b) (digitChar (n % b) :: acc)

/-- Digits of `n` in base `b ≥ 2`. -/
def toBase (b n : Nat) : Str := toBaseAux b (n + 1) n []

/-- `str(n)` for a natural number. -/
def natStr (n : Nat) : Str := toBase 10 n

/-- `str(i)` for an int. -/
def intStr (i : Int) : Str :=
  match i with
  | .ofNat n => natStr n
  | .negSucc n => '-' :: natStr (n + 1)

/-- `f"{i:#x}"`. -/
def hexStr (i : Int) : Str :=
  match i with
  | .ofNat n => '0' :: 'x' :: toBase 16 n
  | .negSucc n => '-' :: '0' :: 'x' :: toBase 16 (n + 1)

/-- `str(b).lower()` for a bool. -/
def boolStr : Bool → Str
  | true => s%"true"
  | false => s%"false"

/-! ### sorting -/

/-- Insert before the first element that is not smaller. -/
def insertBy {α : Type _} (le : α → α → Bool) (x : α) : List α → List α
  | [] => [x]
  | y :: ys => if le x y then x :: y :: ys else y :: insertBy le x ys

/-- Python's stable `sorted`, for the preorder `le` on keys. -/
def sortBy {α : Type _} (le : α → α → Bool) : List α → List α
  | [] => []
  | x :: xs => insertBy le x (sortBy le xs)

/-- String `≤` by code points. -/
def strLe : Str → Str → Bool
  | [], _ => true
  | _ :: _, [] => false
  | a :: as, b :: bs =>
      if a.toNat < b.toNat then true
      else if b.toNat < a.toNat then false
      else strLe as bs

/-- `≤` on keys `(int, str)`. -/
def intStrLe (a b : Int × Str) : Bool :=
  if a.1 < b.1 then true else if b.1 < a.1 then false else strLe a.2 b.2

/-- `[0, 1, ..., n-1]`, offset by `s`: `range(s, s+n)`. -/
def rangeFrom (s : Nat) : Nat → List Nat
  | 0 => []
  | n + 1 => s :: rangeFrom (s + 1) n

/-- Python `max` of a non-empty list `x :: xs`. -/
def maxList : Int → List Int → Int
  | m, [] => m
  | m, x :: xs => maxList (if m < x then x else m) xs

/-- Python `sum`. -/
def sumList : List Int → Int
  | [] => 0
  | x :: xs => x + sumList xs

end Svd
