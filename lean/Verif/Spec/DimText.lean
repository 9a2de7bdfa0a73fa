import Verif.Spec.Dim
import Verif.Spec.Literal
/-
The `dimIndex` texts, for every text: which list of indices it is read as.
-/
namespace Svd.Spec

/-- Begins with digits, a hyphen and a digit. -/
def NumberRange (s : Str) : Prop := ∃ a c r, Decimal a ∧ isDigit c = true ∧ s = a ++ '-' :: c :: r

/-- Begins with a capital letter, a hyphen and a capital letter. -/
def LetterRange (s : Str) : Prop := ∃ x y r, isUpper x = true ∧ isUpper y = true ∧ s = x :: '-' :: y :: r

/-- Begins with a word, a comma, possibly white space, and a letter, digit or underscore. -/
def ItemList (s : Str) : Prop := ∃ a b c r, Word a ∧ BlankPad b ∧ isWord c = true ∧ s = a ++ ',' :: (b ++ c :: r)

/-- The pieces of a text between the separators. -/
inductive Pieces (sep : Char) : Str → List Str → Prop
  | last {s} : sep ∉ s → Pieces sep s [s]
  | more {a t l} : sep ∉ a → Pieces sep t l → Pieces sep (a ++ sep :: t) (a :: l)

/-- The `dimIndex` (`none` = not given) of `n` elements is read as this list of indices: a range of numbers (the second may
have single underscores between its digits and white space after them), a range of capital letters, the pieces between
commas without white space (only the beginning of the text counts for the decision that it is a list), or the whole text
(if it begins with a letter, digit or underscore). -/
inductive DimReads (n : Int) : Option Str → List Str → Prop
  | absent : DimReads n none ((List.range n.toNat).map natText)
  | numbers {a s t b} : Decimal a → Grouped IsDec s t → Blank b → decValue a ≤ decValue t →
      DimReads n (some (a ++ '-' :: (s ++ b))) (decimals (decValue a) (decValue t))
  | letters {x y} : isUpper x = true → isUpper y = true → x.toNat < y.toNat → DimReads n (some [x, '-', y]) (letters x y)
  | items {s l} : ¬ NumberRange s → ¬ LetterRange s → ItemList s → Pieces ',' (s.filter fun c => !isSpace c) l → DimReads n (some s) l
  | single {s} : ¬ NumberRange s → ¬ LetterRange s → ¬ ItemList s → (∃ c r, s = c :: r ∧ isWord c = true) → DimReads n (some s) [s]

/-- The indices used: `0 … n-1` for an array, those that dimIndex is read as for a list. -/
inductive IndicesOf (name : Str) (n : Int) (dimIndex : Option Str) : List Str → Prop
  | array : Contains arrayMark name → IndicesOf name n dimIndex ((List.range n.toNat).map natText)
  | list {l} : ¬ Contains arrayMark name → DimReads n dimIndex l → IndicesOf name n dimIndex l

end Svd.Spec
