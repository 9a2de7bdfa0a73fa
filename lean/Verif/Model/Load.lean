import Verif.Model.Types
/-
XML loading with fallbacks (/repo/src/svdsuite/util/xml_parse.py) and schema selection
(/repo/src/svdsuite/validate.py).  The XML library is an oracle.
-/
namespace Svd

/-- Options of `etree.XMLParser` used by xml_parse.py: `encoding` (`none` = not given) and `recover`. -/
structure XOpts where
  encoding : Option Str
  recover : Bool
  deriving DecidableEq, Repr

/-- What the XML library does with the given content: a document, `XMLSyntaxError` number `n`, or some other exception
(`OSError` for a missing file, ...), which is not caught. -/
inductive XRes (α : Type)
  | doc (a : α)
  | syntaxError (n : Nat)
  | other (e : Exn)
  deriving DecidableEq, Repr

/-- xml_parse.py:10 `_COMMON_ENCODINGS`. -/
def commonEncodings : List Str :=
  [s%"utf-8", s%"windows-1252", s%"iso-8859-1", s%"utf-16", s%"ascii"]

/-- The loops xml_parse.py:23-33, 36-46 (62-72, 75-85).  `none` = loop finished without `return`. -/
def tryEncodings {α : Type} (lib : XOpts → XRes α) (recover : Bool) : List Str → M (Option α)
  | [] => M.pure none
  | e :: es =>
      match lib ⟨some e, recover⟩ with
      | .doc a => .ok (some a) [.fallbackEncoding e recover]
      | .syntaxError _ => tryEncodings lib recover es
      | .other x => M.throw x

/-- xml_parse.py:13-49 `safe_parse` and 52-88 `safe_fromstring` (same structure). -/
def safeLoad {α : Type} (lib : XOpts → XRes α) : M α :=
  match lib ⟨none, false⟩ with
  | .doc a => M.pure a
  | .other x => M.throw x
  | .syntaxError n =>
      M.bind (tryEncodings lib false commonEncodings) fun
        | some a => M.pure a
        | none => M.bind (tryEncodings lib true commonEncodings) fun
            | some a => M.pure a
            | none => M.throw (.xmlSyntax n)

/-- A release number as its numeric components; `packaging.version.Version` compares these with trailing zeros
dropped (trusted base; no member of the enumeration but "1.0" has trailing zeros, see `stripZeros`). -/
abbrev Version := List Nat

/-- `Version.__init__` key: release without trailing zeros. -/
def stripZeros (v : Version) : Version := (v.reverse.dropWhile (· == 0)).reverse

/-- Tuple comparison `<=`. -/
def tupleLe : List Nat → List Nat → Bool
  | [], _ => true
  | _ :: _, [] => false
  | a :: as, b :: bs => if a < b then true else if b < a then false else tupleLe as bs

/-- `Version(a) <= Version(b)`. -/
def versionLe (a b : Version) : Bool := tupleLe (stripZeros a) (stripZeros b)

/-- validate.py:10-23: the values of `SVDSchemaVersion`, in definition order. -/
def schemaVersions : List Version :=
  [[1, 0], [1, 1], [1, 2], [1, 3, 1], [1, 3, 2], [1, 3, 3], [1, 3, 4], [1, 3, 5], [1, 3, 6], [1, 3, 7], [1, 3, 8],
   [1, 3, 9], [1, 3, 10], [1, 3, 11]]

/-- validate.py:26-29 `get_latest`, for any list of members. -/
def latestOf (vs : List Version) : Option Version := (sortBy versionLe vs).getLast?

/-- validate.py:26-29 `get_latest`. -/
def getLatest : Option Version := latestOf schemaVersions

end Svd
