import Verif.Model.Proc
/-
Enumerated values: /repo/src/svdsuite/process.py:1184-1344 (`_ProcessEnumeratedValueContainer`,
`_EnumeratedValueValidator`) and 1067-1088 (`_validate_and_finalize_enum_values`).
-/
namespace Svd

/-- process.py:1295 `itertools.product("01", repeat=k)` (first position varies slowest). -/
def product01 : Nat → List Str
  | 0 => [[]]
  | k + 1 => (product01 k).map (fun t => '0' :: t) ++ (product01 k).map (fun t => '1' :: t)

/-- process.py:1298-1302 `_replace_x_with_combination`. -/
def replaceXWith (s : Str) : Str → Str
  | [] => s
  | bit :: rest => replaceXWith (replaceFirstC 'x' [bit] s) rest

/-- process.py:1293-1296 `_replace_x_combinations`. -/
def replaceXCombinations (s : Str) : List Str :=
  (product01 (s.filter (· == 'x')).length).map (replaceXWith s)

/-- Sequence of `int(b, 2)` calls; `none` = `ValueError`. -/
def intsBase2 : List Str → Option (List Int)
  | [] => some []
  | b :: bs => match pyInt 2 b with
    | none => none
    | some v => match intsBase2 bs with
      | none => none
      | some vs => some (v :: vs)

/-- process.py:1288-1291 `_process_binary_value_with_wildcard`; `none` = `ValueError`. -/
def binaryWithWildcard (s : Str) : Option (List Int) :=
  if (lower s).contains 'x' then intsBase2 (replaceXCombinations (lower s))
  else (pyInt 2 s).map (fun v => [v])

/-- process.py:1272-1286 `_convert_enumerated_value`. -/
def convertEnumValue (input : Str) : M (List Int) :=
  let s := replaceAll ['#'] (s%"0b") (lower input)
  if (s%"0b").isPrefixOf s then M.ofOption (binaryWithWildcard (s.drop 2)) (.process .enumValueError)
  else if (s%"0x").isPrefixOf s then
    M.ofOption ((pyInt 16 s).map (fun v => [v])) (.process .enumValueError)
  else if isDigitStr s then
    M.ofOption ((pyInt 10 s).map (fun v => [v])) (.process .enumValueError)
  else M.throw (.process .enumFormat)

/-- process.py:1230-1237: does the literal contain a don't-care bit (so that names get a suffix)? -/
def hasWildcard (v : Str) : Bool :=
  let sub := if (s%"0x").isPrefixOf (lower v) then v.drop 2 else lower v
  (lower sub).contains 'x'

/-- process.py:1220-1249: the loop body of `_process_enumerated_value_resolve_wildcard` for one value. -/
def resolveOne (p : SEnumValue) (value : Option Int) : M (Option IEnumValue) :=
  if lower p.name = s%"reserved" then
    M.bind (M.warn .enumReserved) fun _ => M.pure none
  else
    let name := match value, p.value with
      | some v, some lit => if hasWildcard lit then p.name ++ '_' :: intStr v else p.name
      | _, _ => p.name
    M.pure (some { name := name, description := p.description, value := value,
                   isDefault := p.isDefault.getD false })

/-- process.py:1216-1249 `_process_enumerated_value_resolve_wildcard`. -/
def resolveWildcard (p : SEnumValue) : M (List IEnumValue) :=
  M.bind
    (match p.value with
      | some lit => if lit.isEmpty then M.pure [none]
                    else M.bind (convertEnumValue lit) fun vs => M.pure (vs.map some)
      | none => M.pure [none])
    fun valueList => M.filterMapM (resolveOne p) valueList

/-- process.py:1306-1309: the state of `_EnumeratedValueValidator`.  `seenValues` keeps the keys only (the stored
names are used in a message). -/
structure EVState where
  seenNames : List Str := []
  seenValues : List Int := []
  seenDefault : Option IEnumValue := none
  deriving DecidableEq, Repr

/-- process.py:1316 `value.value in self._seen_values` for a value that is not `None`. -/
def seenValue (st : EVState) : Option Int → Bool
  | some x => st.seenValues.contains x
  | none => false

/-- process.py:1311-1341 `is_value_valid`: `some v` is the (possibly modified) accepted value. -/
def isValueValid (st : EVState) (v : IEnumValue) : M (EVState × Option IEnumValue) :=
  if st.seenNames.contains v.name then
    M.bind (M.warn (.enumDuplicateName v.name)) fun _ => M.pure (st, none)
  else if seenValue st v.value then
    M.bind (M.warn (.enumDuplicateValue v.name v.value)) fun _ => M.pure (st, none)
  else
    M.bind
      (if v.isDefault then
        M.bind (match v.value with
          | some x => M.warn (.enumDefaultHasValue v.name x)
          | none => M.pure ()) fun _ =>
        match st.seenDefault with
        | some _ => M.throw (.process .multipleDefaults)
        | none =>
          let v' := { v with value := none }
          M.pure ({ st with seenDefault := some v' }, v')
      else M.pure (st, v))
      fun (st', v') =>
        M.pure ({ st' with
                  seenNames := v'.name :: st'.seenNames
                  seenValues := match v'.value with
                    | some x => x :: st'.seenValues
                    | none => st'.seenValues }, some v')

/-- process.py:1205-1207: the inner loop over the values of one entry (accumulator: state, accepted values). -/
def validateStep (acc : EVState × List IEnumValue) (v : IEnumValue) : M (EVState × List IEnumValue) :=
  M.bind (isValueValid acc.1 v) fun (st, o) =>
    M.pure (st, match o with | some v' => acc.2 ++ [v'] | none => acc.2)

/-- process.py:1202-1207: the loop over the parsed enumerated values. -/
def validateLoop (acc : EVState × List IEnumValue) (ps : List SEnumValue) : M (EVState × List IEnumValue) :=
  M.foldM (fun acc p => M.bind (resolveWildcard p) fun vs => M.foldM validateStep acc vs) acc ps

/-- `range(pow(2, w))` for `w ≥ 0`. -/
def fieldValues (w : Nat) : List Int := (rangeFrom 0 (2 ^ w)).map Int.ofNat

/-- process.py:1251-1270 `_extend_enumerated_values_with_default`.  The set of uncovered values is enumerated in
ascending order (Python: set order; the result is sorted by value at process.py:1214).
`pow(2, negative)` is a float, for which `range` raises `TypeError`. -/
def extendDefault (evs : List IEnumValue) (dflt : IEnumValue) (lsb msb : Int) : M (List IEnumValue) :=
  if msb - lsb + 1 < 0 then M.throw .typeError
  else
    let covered := evs.filterMap (·.value)
    let uncovered := (fieldValues (msb - lsb + 1).toNat).filter (fun v => !covered.contains v)
    let added := uncovered.map fun v =>
      ({ name := dflt.name ++ '_' :: intStr v, description := dflt.description, value := some v,
         isDefault := false } : IEnumValue)
    M.pure ((evs ++ added).filter (fun v => !v.isDefault))

/-- process.py:1214: the sort key. -/
def evKeyLe (a b : IEnumValue) : Bool := decide (a.value.getD 0 ≤ b.value.getD 0)

/-- process.py:1196-1214 `_process_enumerated_values`. -/
def processEnumValues (ps : List SEnumValue) (lsb msb : Int) : M (List IEnumValue) :=
  M.bind (validateLoop ({}, []) ps) fun (st, evs) =>
  M.bind (match st.seenDefault with
    | some d => extendDefault evs d lsb msb
    | none => M.pure evs) fun evs' =>
  M.pure (sortBy evKeyLe evs')

/-- process.py:1185-1194 `create_enumerated_value_container`. -/
def createContainer (p : SEnumContainer) (lsb msb : Int) : M IEnumContainer :=
  M.bind (processEnumValues p.values lsb msb) fun vs =>
  M.pure { name := p.name, headerEnumName := p.headerEnumName,
           usage := p.usage.getD .readWrite, values := vs }

/-- process.py:1075: the value lies in the range of a field of width `w`.  For `w < 0`, `2 ** w - 1` is a negative
float, so no non-negative value is in range. -/
def inFieldRange (v w : Int) : Bool := !(v < 0) && (0 ≤ w && v ≤ 2 ^ w.toNat - 1)

/-- process.py:1071-1086: one iteration. -/
def finalizeEnumValue (lsb msb : Int) (v : IEnumValue) : M (Option EnumValue) :=
  match v.value with
  | none => M.throw (.process .enumValueNone)
  | some x =>
    if inFieldRange x (msb - lsb + 1) then
      M.pure (some { name := v.name, description := v.description, value := x })
    else M.bind (M.warn (.enumOutOfRange v.name x)) fun _ => M.pure none

/-- process.py:1067-1088 `_validate_and_finalize_enum_values`. -/
def finalizeEnumValues (vs : List IEnumValue) (lsb msb : Int) : M (List EnumValue) :=
  M.filterMapM (finalizeEnumValue lsb msb) vs

/-- process.py:1065: the sort key `(usage.value, len(values))`. -/
def containerLe (a b : EnumContainer) : Bool :=
  if a.usage.val = b.usage.val then decide (a.values.length ≤ b.values.length)
  else strLe a.usage.val b.usage.val

/-- process.py:1051-1065 `_validate_and_finalize_enum_value_containers`. -/
def finalizeContainers (cs : List IEnumContainer) (lsb msb : Int) : M (List EnumContainer) :=
  M.bind (M.mapM (fun (c : IEnumContainer) =>
      M.bind (finalizeEnumValues c.values lsb msb) fun vs =>
      M.pure ({ name := c.name, headerEnumName := c.headerEnumName, usage := c.usage, values := vs }
                : EnumContainer)) cs) fun fs =>
  M.pure (sortBy containerLe fs)

end Svd
