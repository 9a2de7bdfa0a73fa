import Verif.Model.Types
/-
Characters and texts, independent of the model's string functions (only Lean's own `Nat.toDigits`, `Char.toLower`,
`List.dropWhile` and comparison of lists are used).
-/
namespace Svd.Spec

/-- `0`-`9`. -/
def isDigit (c : Char) : Bool := "0123456789".toList.contains c
/-- `A`-`Z`. -/
def isUpper (c : Char) : Bool := "ABCDEFGHIJKLMNOPQRSTUVWXYZ".toList.contains c
/-- Letters, digits and the underscore. -/
def isWord (c : Char) : Bool :=
  c == '_' || isDigit c || isUpper c || "abcdefghijklmnopqrstuvwxyz".toList.contains c
/-- White space: tab, line feed, vertical tab, form feed, carriage return, the four separators of ASCII, blank, and the
Unicode spaces. -/
def isSpace (c : Char) : Bool :=
  [9, 10, 11, 12, 13, 28, 29, 30, 31, 32, 0x85, 0xA0, 0x1680, 0x2000, 0x2001, 0x2002, 0x2003, 0x2004, 0x2005, 0x2006,
    0x2007, 0x2008, 0x2009, 0x200A, 0x2028, 0x2029, 0x202F, 0x205F, 0x3000].contains c.toNat

/-- A natural number in decimal. -/
def natText (n : Nat) : Str := Nat.toDigits 10 n
/-- An integer in decimal. -/
def intText : Int → Str
  | .ofNat n => natText n
  | .negSucc n => '-' :: natText (n + 1)

/-- In lower case. -/
def lowerText (s : Str) : Str := s.map Char.toLower

/-- Without white space at both ends. -/
def trim (s : Str) : Str := ((s.dropWhile isSpace).reverse.dropWhile isSpace).reverse

/-- The name after the last dot. -/
def lastName (path : Str) : Str := (path.reverse.takeWhile (· ≠ '.')).reverse

/-- `i` for each `%s`. -/
def fillList (i : Str) : Str → Str
  | '%' :: 's' :: t => i ++ fillList i t
  | c :: t => c :: fillList i t
  | [] => []

/-- `i` for each `[%s]`. -/
def fillArray (i : Str) : Str → Str
  | '[' :: '%' :: 's' :: ']' :: t => i ++ fillArray i t
  | c :: t => c :: fillArray i t
  | [] => []

/-- `i` for each marker `mark` (`[%s]` or `%s`). -/
def fill (mark i s : Str) : Str := if mark = "[%s]".toList then fillArray i s else fillList i s

end Svd.Spec
