import Verif.Model.Graph
import Verif.Spec.Text
/-
What a `dim` specification denotes, and which specifications are inconsistent; independent of the expansion functions.
-/
namespace Svd.Spec

/-- `pat` occurs in `s`. -/
def Contains (pat s : Str) : Prop := ∃ a b, s = a ++ (pat ++ b)

/-- The two dim markers. -/
def listMark : Str := s%"%s"
def arrayMark : Str := s%"[%s]"

/-- The number written by a string of decimal digits. -/
def decValue (s : Str) : Nat := s.foldl (fun v c => v * 10 + (c.toNat - 48)) 0

/-- A non-empty string of decimal digits. -/
def Decimal (s : Str) : Prop := s ≠ [] ∧ ∀ c ∈ s, isDigit c = true

/-- A non-empty string of letters, digits and underscores. -/
def Word (s : Str) : Prop := s ≠ [] ∧ ∀ c ∈ s, isWord c = true

/-- White space only (possibly empty). -/
def BlankPad (s : Str) : Prop := ∀ c ∈ s, isSpace c = true

/-- `first, item, item, …`: a comma followed by optional white space before each further item. -/
def commaList (first : Str) : List (Str × Str) → Str
  | [] => first
  | (pad, item) :: rest => commaList (first ++ (',' :: pad) ++ item) rest

/-- The indices `a, a+1, …, b` in decimal. -/
def decimals (a b : Nat) : List Str := (List.range (b + 1 - a)).map fun k => natText (a + k)

/-- The letters `x … y`. -/
def letters (x y : Char) : List Str := (List.range (y.toNat + 1 - x.toNat)).map fun k => [Char.ofNat (x.toNat + k)]

/-- The list of indices denoted by a `dimIndex` (`none` = not given) for `n` elements. -/
inductive DimDenotes (n : Int) : Option Str → List Str → Prop
  | absent : DimDenotes n none ((List.range n.toNat).map natText)
  | numbers {a b} : Decimal a → Decimal b → decValue a ≤ decValue b →
      DimDenotes n (some (a ++ ('-' :: b))) (decimals (decValue a) (decValue b))
  | letters {x y} : isUpper x = true → isUpper y = true → x.toNat < y.toNat →
      DimDenotes n (some [x, '-', y]) (letters x y)
  | items {first rest} : rest ≠ [] → Word first → (∀ p ∈ rest, BlankPad p.1 ∧ Word p.2) →
      DimDenotes n (some (commaList first rest)) (first :: rest.map (·.2))
  | single {w} : Word w → DimDenotes n (some w) [w]

/-- The dim attributes of a declared element. -/
def dimOf : Parsed → SDim
  | .periph p => p.dim
  | .clu c => c.dim
  | .reg r => r.dim
  | .field f => f.dim
  | _ => {}

/-- The name of a declared element. -/
def nameOfDecl : Parsed → Str
  | .periph p => p.name
  | .clu c => c.name
  | .reg r => r.name
  | .field f => f.name
  | _ => []

/-- The inconsistent dim specifications. -/
inductive BadDim : Parsed → Prop
  | lessThanOne {p n} : Contains listMark (nameOfDecl p) → (dimOf p).dim = some n → n < 1 → BadDim p
  | markerWithoutDim {p} : Contains listMark (nameOfDecl p) → (dimOf p).dim = none → p.derivedFrom = none → BadDim p
  | fieldArray {f} : Contains arrayMark f.name → BadDim (.field f)
  | peripheralList {p} : Contains listMark p.name → ¬ Contains arrayMark p.name → BadDim (.periph p)
  | displayWithoutName {r x} : r.displayName = some x → Contains listMark x → ¬ Contains listMark r.name →
      BadDim (.reg r)
  | listDisplayOfArray {r x} : r.displayName = some x → Contains listMark x → ¬ Contains arrayMark x →
      Contains arrayMark r.name → BadDim (.reg r)
  | arrayDisplayOfList {r x} : r.displayName = some x → Contains arrayMark x → Contains listMark r.name →
      ¬ Contains arrayMark r.name → BadDim (.reg r)

end Svd.Spec

namespace Svd.Spec
/-- Base address, address offset or lowest bit of a processed element. -/
def position : Processed → Int
  | .periph p => p.baseAddress
  | .clu c => c.addressOffset
  | .reg r => r.addressOffset
  | .field f => f.lsb

/-- The name of a processed element. -/
def nameOfProcessed : Processed → Str
  | .periph p => p.name
  | .clu c => c.name
  | .reg r => r.name
  | .field f => f.name

/-- `[x:y]`. -/
def rangeText (x y : Str) : Str := ['['] ++ x ++ [':'] ++ y ++ [']']

/-- Highest and lowest bit of a declared field that is derived from `base`: `bitRange` comes first (the two numbers in any
order; text after the closing bracket is ignored), then `lsb` and `msb`, then `bitOffset` and `bitWidth`; one of two numbers
that is missing is taken from the base field. -/
inductive BitsOf (f : SField) (base : Option IFieldHd) : Int → Int → Prop
  | range {x y rest} : f.bitRange = some (rangeText x y ++ rest) → Decimal x → Decimal y →
      BitsOf f base (max (decValue x) (decValue y) : Nat) (min (decValue x) (decValue y) : Nat)
  | lsbMsb {l m} : f.bitRange = none → f.lsb ≠ none ∨ f.msb ≠ none → f.lsb.or (base.map (·.lsb)) = some l →
      f.msb.or (base.map (·.msb)) = some m → BitsOf f base m l
  | offsetWidth {o w} : f.bitRange = none → (f.lsb = none ∧ f.msb = none) ∨ (base = none ∧ (f.lsb = none ∨ f.msb = none)) →
      f.bitOffset ≠ none ∨ f.bitWidth ≠ none → f.bitOffset.or (base.map (·.lsb)) = some o →
      f.bitWidth.or (base.map fun b => b.msb - b.lsb + 1) = some w → BitsOf f base (o + w - 1) o

/-- The declared base address, address offset or lowest bit of an element. -/
inductive DeclaredAt (base : Option Processed) : Parsed → Int → Prop
  | periph {p} : DeclaredAt base (.periph p) p.baseAddress
  | clu {c} : DeclaredAt base (.clu c) c.addressOffset
  | reg {r} : DeclaredAt base (.reg r) r.addressOffset
  | field {f m l b} : base = Option.map .field b → BitsOf f b m l → DeclaredAt base (.field f) l

/-- The marker in force: an array if `[%s]` occurs, otherwise a list. -/
inductive MarkerOf (name : Str) : Str → Prop
  | array : Contains arrayMark name → MarkerOf name arrayMark
  | list : ¬ Contains arrayMark name → Contains listMark name → MarkerOf name listMark
end Svd.Spec
