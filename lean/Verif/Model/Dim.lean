import Verif.Model.Proc
/-
Dimension handling: /repo/src/svdsuite/process.py:471-503 (`_extract_and_process_dimension`) and 1091-1181
(`_ProcessDimension`).
-/
namespace Svd

/-- resolve/graph_elements.py:9-15 `ElementLevel`; also plays the role of `type(parsed_element)` in
process.py:502. -/
inductive Level | device | peripheral | cluster | register | field | enumcont
  deriving DecidableEq, Repr

/-- process.py:55-56 `or_if_none`. -/
def orIfNone {α : Type} (a b : Option α) : Option α :=
  match a with
  | some x => some x
  | none => b

/-- The array marker `[%s]`. -/
def arrMark : Str := s%"[%s]"
/-- The list marker `%s`. -/
def lstMark : Str := s%"%s"

/-- `re.match(r"[0-9]+\-[0-9]+", s)` (process.py:1121) succeeds. -/
def matchNumRange (s : Str) : Bool :=
  let ds := s.takeWhile isDigitC
  !ds.isEmpty && match s.drop ds.length with
    | '-' :: c :: _ => isDigitC c
    | _ => false

/-- `re.match(r"[A-Z]-[A-Z]", s)` (process.py:1128) succeeds. -/
def matchLetterRange (s : Str) : Bool :=
  match s with
  | a :: '-' :: b :: _ => isUpperC a && isUpperC b
  | _ => false

/-- `re.match(r"[_0-9a-zA-Z]+(,\s*[_0-9a-zA-Z]+)+", s)` (process.py:1135) succeeds. -/
def matchCommaList (s : Str) : Bool :=
  let ws := s.takeWhile isWordC
  !ws.isEmpty && match s.drop ws.length with
    | ',' :: t => match t.dropWhile isSpaceC with
      | c :: _ => isWordC c
      | [] => false
    | _ => false

/-- `re.match(r"[_0-9a-zA-Z]+", s)` (process.py:1139) succeeds. -/
def matchWord (s : Str) : Bool :=
  match s with
  | c :: _ => isWordC c
  | [] => false

/-- `range(a, b + 1)` for ints with `a ≤ b`. -/
def intRange (a b : Int) : List Int := (rangeFrom 0 (b - a + 1).toNat).map (fun k => a + Int.ofNat k)

/-- process.py:1119-1142: the index strings before the length check. -/
def dimIndexList (dim : Int) (dimIndex : Option Str) : M (List Str) :=
  match dimIndex with
  | none => M.pure ((rangeFrom 0 dim.toNat).map natStr)
  | some s =>
    if matchNumRange s then
      match splitC '-' s with
      | [a, b] =>
        match pyInt 10 a, pyInt 10 b with
        | some x, some y =>
          if x > y then M.throw (.process .dimIndexOrder)
          else M.pure ((intRange x y).map intStr)
        | _, _ => M.throw .valueError
      | _ => M.throw .valueError
    else if matchLetterRange s then
      match splitC '-' s with
      | [a, b] =>
        match a, b with
        | [x], [y] =>
          if x.toNat ≥ y.toNat then M.throw (.process .dimIndexOrder)
          else M.pure ((rangeFrom x.toNat (y.toNat + 1 - x.toNat)).map (fun n => [Char.ofNat n]))
        | _, _ => M.throw .typeError
      | _ => M.throw .valueError
    else if matchCommaList s then
      M.pure (splitC ',' (s.filter (fun c => !isSpaceC c)))
    else if matchWord s then M.pure [s]
    else M.throw (.process .dimIndexUnresolvable)

/-- process.py:1113-1147 `_process_dim_index` (called with `dim` not `None`). -/
def processDimIndex (dim : Int) (dimIndex : Option Str) : M (List Str) :=
  if dim < 1 then M.throw (.process .dimLtOne)
  else M.bind (dimIndexList dim dimIndex) fun l =>
    if Int.ofNat l.length = dim then M.pure l else M.throw (.process .dimIndexCount)

/-- `display_name is not None and mark in display_name`. -/
def dispHas (mark : Str) : Option Str → Bool
  | some d => hasSub mark d
  | none => false

/-- process.py:1149-1163 `_process_dim_array`. -/
def processDimArray (name : Str) (display : Option Str) (dim : Int) : M (List Str × List (Option Str)) :=
  if !dispHas arrMark display && dispHas lstMark display then
    M.throw (.process .displayNameList)
  else
    let idx := (rangeFrom 0 dim.toNat).map natStr
    M.pure (idx.map (fun i => replaceAll arrMark i name),
            idx.map (fun i => display.map (replaceAll arrMark i)))

/-- process.py:1165-1181 `_process_dim_list`. -/
def processDimList (name : Str) (display : Option Str) (dim : Int) (dimIndex : Option Str) :
    M (List Str × List (Option Str)) :=
  if dispHas arrMark display then
    M.throw (.process .displayNameArray)
  else
    M.bind (processDimIndex dim dimIndex) fun idx =>
    M.pure (idx.map (fun i => replaceAll lstMark i name),
            idx.map (fun i => display.map (replaceAll lstMark i)))

/-- process.py:1092-1111 `process_dim`. -/
def processDim (name : Str) (display : Option Str) (dim : Option Int) (dimIndex : Option Str) (ty : Level) :
    M (List Str × List (Option Str)) :=
  match dim with
  | none => M.pure ([name], [display])
  | some n =>
    if n < 1 then M.throw (.process .dimLtOne)
    else if hasSub arrMark name then
      if ty = .field then M.throw (.process .fieldDimArray)
      else processDimArray name display n
    else if hasSub lstMark name then
      if ty = .peripheral then M.throw (.process .peripheralDimList)
      else processDimList name display n dimIndex
    else M.throw (.process .dimNoMarker)

/-- process.py:471-503 `_extract_and_process_dimension`.  `pdisp`/`bdisp` are the display names of a parsed register
and of its base (`none` for other kinds).  Result: `(is_dim, names, display names)`. -/
def extractDim (ty : Level) (name : Str) (pd : SDim) (pdisp : Option Str) (bd : Option IDim) (bdisp : Option Str) :
    M (Bool × List Str × List (Option Str)) :=
  let dim := orIfNone pd.dim (bd.bind (·.dim))
  let dimIndex := orIfNone pd.dimIndex (bd.bind (·.dimIndex))
  let display := if ty = .register then orIfNone pdisp bdisp else none
  if dim.isNone && hasSub lstMark name then M.throw (.process .dimNoneName)
  else
    M.bind (if dim.isSome && !hasSub lstMark name then
        M.bind (M.warn (.dimWithoutMarker name)) fun _ => M.pure none
      else M.pure dim) fun dim' =>
    if dim'.isNone && dispHas lstMark display then
      M.throw (.process .dimNoneDisplayName)
    else
      M.bind (processDim name display dim' dimIndex ty) fun (ns, ds) =>
      M.pure (dim'.isSome, ns, ds)

end Svd
