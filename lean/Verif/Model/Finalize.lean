import Verif.Model.Enum
import Verif.Model.Dim
/-
Validation and finalisation: /repo/src/svdsuite/process.py:566-1049 (`_to_byte`, `_get_alignment`,
`_ValidateAndFinalize`) and the `from_intermediate_*` constructors of model/process.py.
-/
namespace Svd

/-- process.py:566-570 `_to_byte`. -/
def toByte (v : Int) : M Int :=
  if v % 8 ≠ 0 then M.throw (.process .notMultipleOf8) else M.pure (v / 8)

/-- process.py:573-585 `_get_alignment`. -/
def getAlignment (b : Int) : M Int :=
  if b = 1 then M.pure 1
  else if b = 2 then M.pure 2
  else if b = 4 then M.pure 4
  else if b = 8 then M.pure 4
  else if b = 16 then M.pure 4
  else M.throw (.process .unsupportedSize)

/-- model/process.py:34-44 `reg_prop_validator`. -/
def regPropValidator (p : Props) : M FProps :=
  match p.size, p.access, p.protection, p.resetValue, p.resetMask with
  | some s, some a, some pr, some rv, some rm =>
      M.pure { size := s, access := a, protection := pr, resetValue := rv, resetMask := rm }
  | _, _, _, _, _ => M.throw .valueError

/-! ### fields -/

/-- process.py:999-1006 with model/process.py:249-265 `Field.from_intermediate_field`. -/
def finalizeField (f : IField) : M Field :=
  M.bind (finalizeContainers f.containers f.hd.lsb f.hd.msb) fun cs =>
  match f.hd.access with
  | none => M.throw .valueError
  | some a => M.pure
      { name := f.hd.name, description := f.hd.description, lsb := f.hd.lsb, msb := f.hd.msb
        modifiedWriteValues := f.hd.modifiedWriteValues, writeConstraint := f.hd.writeConstraint
        readAction := f.hd.readAction, access := a, bitOffset := f.hd.lsb
        bitWidth := f.hd.msb - f.hd.lsb + 1, bitRange := (f.hd.msb, f.hd.lsb), containers := cs }

/-- process.py:985-1006: the first loop of `_validate_and_finalize_fields`; `seen` = `seen_names`. -/
def finalizeFieldsLoop : List Str → List IField → M (List Field)
  | _, [] => M.pure []
  | seen, f :: fs =>
      if lower f.hd.name = s%"reserved" then
        M.bind (M.warn .fieldReserved) fun _ => finalizeFieldsLoop seen fs
      else if seen.contains f.hd.name then M.throw (.process (.duplicateField f.hd.name))
      else
        M.bind (finalizeField f) fun g =>
        M.bind (finalizeFieldsLoop (f.hd.name :: seen) fs) fun gs => M.pure (g :: gs)

/-- process.py:1025 (and 1032, 1039, 1045): the fields share a bit. -/
def fieldsOverlap (f e : Field) : Bool := decide (f.lsb ≤ e.msb) && decide (f.msb ≥ e.lsb)

/-- process.py:1024-1026, 1038-1040: search the fields already in the read domain. -/
def checkRead (f : Field) (existing : List Field) : M Unit :=
  match existing.find? (fieldsOverlap f) with
  | some e => M.throw (.process (.fieldOverlapRead f.name e.name))
  | none => M.pure ()

/-- process.py:1031-1033, 1044-1046: search the fields already in the write domain. -/
def checkWrite (f : Field) (existing : List Field) : M Unit :=
  match existing.find? (fieldsOverlap f) with
  | some e => M.throw (.process (.fieldOverlapWrite f.name e.name))
  | none => M.pure ()

/-- process.py:1011-1047: the second loop of `_validate_and_finalize_fields`. -/
def checkFields (regSize : Int) : List Field → List Field → List Field → M Unit
  | _, _, [] => M.pure ()
  | rd, wr, f :: fs =>
      M.bind (M.warnIf (decide (f.msb ≥ regSize)) (.fieldExceeds f.name f.msb regSize)) fun _ =>
      match f.access with
      | .readOnly => M.bind (checkRead f rd) fun _ => checkFields regSize (rd ++ [f]) wr fs
      | .writeOnly => M.bind (checkWrite f wr) fun _ => checkFields regSize rd (wr ++ [f]) fs
      | .readWrite | .writeOnce | .readWriteOnce =>
          M.bind (checkRead f rd) fun _ =>
          M.bind (checkWrite f wr) fun _ => checkFields regSize (rd ++ [f]) (wr ++ [f]) fs

/-- process.py:984-1049 `_validate_and_finalize_fields`. -/
def finalizeFields (fs : List IField) (regSize : Int) : M (List Field) :=
  M.bind (finalizeFieldsLoop [] fs) fun gs =>
  let sorted := sortBy (fun a b : Field => decide (a.lsb ≤ b.lsb)) gs
  M.bind (checkFields regSize [] [] sorted) fun _ => M.pure sorted

/-! ### alternates -/

/-- A lookup dictionary reduced to what is read from it: name ↦ alternate. -/
abbrev AltLookup := List (Str × Option Str)

/-- process.py:759-772 / 941-958 / 969-982: the `while stack` loop.  The head of `stack` is the top.  `strict` =
`lookup[current]` raises `KeyError` for an unknown name (peripherals, clusters); registers ignore it. -/
def altClosure (lookup : AltLookup) (strict : Bool) : Nat → List Str → List Str → M (List Str)
  | _, allowed, [] => M.pure allowed
  | 0, _, _ :: _ => M.throw .outOfFuel
  | f + 1, allowed, cur :: rest =>
      if allowed.contains cur then altClosure lookup strict f allowed rest
      else
        let users := (lookup.filter (fun p => p.2 == some cur)).map (·.1)
        match lookup.lookup cur with
        | none =>
            if strict then M.throw .keyError
            else altClosure lookup strict f (cur :: allowed) (users.reverse ++ rest)
        | some none => altClosure lookup strict f (cur :: allowed) (users.reverse ++ rest)
        | some (some prim) => altClosure lookup strict f (cur :: allowed) (prim :: (users.reverse ++ rest))

/-- Enough iterations for `altClosure` (`C30` proves that it never runs out). -/
def altFuel (lookup : AltLookup) : Nat := (2 * lookup.length + 2) * (lookup.length + 2) + 1

/-- process.py:750-772 `_compute_allowed_alternate_peripheral_names`, 932-958 `…_register_names`, 960-982
`…_cluster_names`. -/
def allowedAlternates (lookup : AltLookup) (strict : Bool) (alt : Option Str) : M (List Str) :=
  match alt with
  | none => M.pure []
  | some a => altClosure lookup strict (altFuel lookup) [] [a]

/-! ### registers and clusters -/

namespace RC
/-- `.name` -/
def name : RC → Str | .reg r => r.name | .clu c _ => c.name
/-- `.base_address` -/
def baseAddress : RC → Int | .reg r => r.baseAddress | .clu c _ => c.baseAddress
/-- `.address_offset` -/
def addressOffset : RC → Int | .reg r => r.addressOffset | .clu c _ => c.addressOffset
/-- `.size` -/
def size : RC → Int | .reg r => r.props.size | .clu c _ => c.props.size
/-- `getattr(x, "alternate_group", None)` -/
def altGroup : RC → Option Str | .reg r => r.alternateGroup | .clu _ _ => none
/-- `_to_byte(x.size) if isinstance(x, Register) else x.cluster_size` (process.py:655, 847).  The size of a finalised
register passed the multiple-of-8 check at process.py:825, so `_to_byte` cannot raise here. -/
def extent : RC → Int | .reg r => r.props.size / 8 | .clu c _ => c.clusterSize
/-- process.py:904, 910: the last address. -/
def lastAddr : RC → Int | .reg r => r.baseAddress + r.props.size / 8 - 1 | .clu c _ => c.endAddress
/-- process.py:791-794: the name used for duplicate detection. -/
def qualName : RC → Str
  | .reg r => match r.alternateGroup with
    | some g => if g.isEmpty then r.name else r.name ++ '_' :: g
    | none => r.name
  | .clu c _ => c.name
end RC

/-- process.py:779-782 `sort_key` comparison: `(base_address, alt_key, name)`. -/
def rcLe (a b : RC) : Bool :=
  if a.baseAddress < b.baseAddress then true
  else if b.baseAddress < a.baseAddress then false
  else match a.altGroup, b.altGroup with
    | none, some _ => true
    | some _, none => false
    | none, none => strLe a.name b.name
    | some g, some h => if g = h then strLe a.name b.name else strLe g h

/-- process.py:784, 802: `register_lookup` reduced to name ↦ `alternate_register`. -/
def registerLookup (rcs : List RC) : AltLookup :=
  rcs.filterMap fun x => match x with
    | .reg r => some (x.qualName, r.alternateRegister)
    | .clu _ _ => none

/-- process.py:785, 804: `cluster_lookup` reduced to name ↦ `alternate_cluster`. -/
def clusterLookup (rcs : List RC) : AltLookup :=
  rcs.filterMap fun x => match x with
    | .reg _ => none
    | .clu c _ => some (x.qualName, c.alternateCluster)

/-- process.py:913-928: compare one item with the intervals seen so far. -/
def overlapWarns (isReg : Bool) (lookup : AltLookup) (name : Str) (base : Int) (allowed : List Str) :
    List (Int × Str) → List Warn
  | [] => []
  | (e, n) :: rest =>
      (if base ≤ e then
        if !allowed.isEmpty then
          if !allowed.contains n then [Warn.overlapNotAllowed isReg name n] else []
        else
          if (lookup.lookup n).bind id ≠ some name then [Warn.overlap isReg name n] else []
      else []) ++ overlapWarns isReg lookup name base allowed rest

/-- process.py:887-930 `_check_registers_clusters_address_overlaps`; `iv` = `intervals`. -/
def checkRCOverlaps (rl cl : AltLookup) : List (Int × Str) → List RC → M Unit
  | _, [] => M.pure ()
  | iv, x :: xs =>
      match x with
      | .reg r =>
          if r.alternateGroup.isSome then checkRCOverlaps rl cl iv xs
          else
            M.bind (allowedAlternates rl false r.alternateRegister) fun allowed =>
            M.bind (M.ok () (overlapWarns true rl r.name r.baseAddress allowed iv)) fun _ =>
            checkRCOverlaps rl cl (iv ++ [(x.lastAddr, r.name)]) xs
      | .clu c _ =>
          M.bind (allowedAlternates cl true c.alternateCluster) fun allowed =>
          M.bind (M.ok () (overlapWarns false cl c.name c.baseAddress allowed iv)) fun _ =>
          checkRCOverlaps rl cl (iv ++ [(x.lastAddr, c.name)]) xs

/-- process.py:810-813: what happens after the loop. -/
def finishRCs (raw : List RC) : M (List RC) :=
  let sorted := sortBy rcLe raw
  M.bind (checkRCOverlaps (registerLookup raw) (clusterLookup raw) [] sorted) fun _ => M.pure sorted

/-- process.py:820-840: checks common to registers and clusters.  `none` = ignored. -/
def checkSizeAlign (name : Str) (size : Option Int) (offset : Int) : M (Option Int) :=
  match size with
  | none => M.throw (.process (.sizeNone name))
  | some s =>
    if s % 8 ≠ 0 then M.bind (M.warn (.regClusterBadSize name)) fun _ => M.pure none
    else
      M.bind (toByte s) fun b =>
      M.bind (getAlignment b) fun al =>
      M.bind (M.warnIf (decide (offset % al ≠ 0)) (.regClusterUnaligned name)) fun _ => M.pure (some s)

/-- process.py:866-883: the register branch. -/
def finalizeRegister (r : IRegisterHd) (fs : List IField) (size : Int) (base : Int) : M (Option RC) :=
  if lower r.name = s%"reserved" then
    M.bind (M.warn .registerReserved) fun _ => M.pure none
  else if r.alternateRegister.isSome && r.alternateGroup.isSome then
    M.throw (.process (.altRegAndGroup r.name))
  else
    M.bind (finalizeFields fs size) fun gs =>
    M.bind (regPropValidator r.props) fun p =>
    M.pure (some (.reg
      { name := r.name, displayName := r.displayName, description := r.description
        alternateGroup := r.alternateGroup, alternateRegister := r.alternateRegister
        addressOffset := r.addressOffset, dataType := r.dataType
        modifiedWriteValues := r.modifiedWriteValues, writeConstraint := r.writeConstraint
        readAction := r.readAction, props := p, fields := gs, baseAddress := base }))

mutual
/-- process.py:815-885 `_validate_and_finalize_register_cluster`. -/
def finalizeRC (parentBase : Int) : IRC → M (Option RC)
  | .reg r fs =>
      M.bind (checkSizeAlign r.name r.props.size r.addressOffset) fun o =>
      match o with
      | none => M.pure none
      | some s => finalizeRegister r fs s (parentBase + r.addressOffset)
  | .clu c ch =>
      M.bind (checkSizeAlign c.name c.props.size c.addressOffset) fun o =>
      match o with
      | none => M.pure none
      | some _ =>
        M.bind (finalizeRCsLoop (parentBase + c.addressOffset) [] ch) fun raw =>
        M.bind (finishRCs raw) fun children =>
        match children with
        | [] => M.bind (M.warn (.clusterEmpty c.name)) fun _ => M.pure none
        | y :: ys =>
          let e := maxList (y.baseAddress + y.extent - 1) (ys.map fun z => z.baseAddress + z.extent - 1)
          M.bind (regPropValidator c.props) fun p =>
          M.pure (some (.clu
            { name := c.name, description := c.description, alternateCluster := c.alternateCluster
              headerStructName := c.headerStructName, addressOffset := c.addressOffset, props := p
              baseAddress := parentBase + c.addressOffset, endAddress := e
              clusterSize := e - (parentBase + c.addressOffset) + 1 } children))
/-- process.py:784-808: the loop of `_validate_and_finalize_registers_clusters`; `seen` = keys of the lookups. -/
def finalizeRCsLoop (parentBase : Int) : List Str → List IRC → M (List RC)
  | _, [] => M.pure []
  | seen, x :: xs =>
      M.bind (finalizeRC parentBase x) fun o =>
      match o with
      | none => finalizeRCsLoop parentBase seen xs
      | some y =>
        if seen.contains y.qualName then M.throw (.process (.duplicateRegCluster y.qualName))
        else M.bind (finalizeRCsLoop parentBase (y.qualName :: seen) xs) fun ys => M.pure (y :: ys)
end

/-- process.py:774-813 `_validate_and_finalize_registers_clusters`. -/
def finalizeRCs (parentBase : Int) (xs : List IRC) : M (List RC) :=
  M.bind (finalizeRCsLoop parentBase [] xs) finishRCs

/-! ### peripherals -/

/-- process.py:682, 606: `≤` on `(base_address, name)`. -/
def regLe (a b : Register) : Bool := intStrLe (a.baseAddress, a.name) (b.baseAddress, b.name)

mutual
/-- process.py:677-680: loop body of `_extract_registers`. -/
def extractOne : RC → List Register
  | .reg r => [r]
  | .clu _ ch => sortBy regLe (extractLoop ch)
/-- process.py:675-680: the loop of `_extract_registers`. -/
def extractLoop : List RC → List Register
  | [] => []
  | x :: xs => extractOne x ++ extractLoop xs
end

/-- process.py:673-683 `_extract_registers`. -/
def extractRegisters (xs : List RC) : List Register := sortBy regLe (extractLoop xs)

/-- process.py:685-694 `_validate_address_blocks`. -/
def addressBlockWarns : List AddressBlock → List Warn
  | a :: b :: rest =>
      (if b.offset < a.offset + a.size then [Warn.addressBlockOverlap b.offset a.offset] else [])
        ++ addressBlockWarns (b :: rest)
  | _ => []

/-- process.py:611-671 `_validate_and_finalize_peripheral`. -/
def finalizePeripheral (p : IPeripheral) : M (Option Peripheral) :=
  M.bind (finalizeRCs p.hd.baseAddress p.rcs) fun rcs =>
  match rcs with
  | [] => M.bind (M.warn (.peripheralEmpty p.hd.name)) fun _ => M.pure none
  | y :: ys =>
    M.bind (M.warnIf (decide (p.hd.baseAddress % 4 ≠ 0)) (.peripheralUnaligned p.hd.name)) fun _ =>
    if (match p.hd.props.size with | some s => decide (s % 8 ≠ 0) | none => false) then
      M.bind (M.warn (.peripheralBadSize p.hd.name)) fun _ => M.pure none
    else
      match p.hd.addressBlocks with
      | [] => M.throw (.process (.noAddressBlocks p.hd.name))
      | ab :: abs =>
        M.bind (M.ok () (addressBlockWarns (ab :: abs))) fun _ =>
        let b := p.hd.baseAddress
        let endSpec := maxList (b + ab.offset + ab.size - 1) (abs.map fun a => b + a.offset + a.size - 1)
        let endEff := maxList (b + y.addressOffset + y.extent - 1)
          (ys.map fun r => b + r.addressOffset + r.extent - 1)
        M.bind (regPropValidator p.hd.props) fun fp =>
        M.pure (some
          { name := p.hd.name, version := p.hd.version, description := p.hd.description
            alternatePeripheral := p.hd.alternatePeripheral, groupName := p.hd.groupName
            prependToName := p.hd.prependToName, appendToName := p.hd.appendToName
            headerStructName := p.hd.headerStructName, disableCondition := p.hd.disableCondition
            baseAddress := b, addressBlocks := ab :: abs, interrupts := p.hd.interrupts, props := fp
            endAddress := endSpec, endAddressEffective := endEff
            peripheralSize := sumList ((ab :: abs).map (·.size))
            peripheralSizeEffective := endEff - b + 1
            rcs := y :: ys, registers := extractRegisters (y :: ys) })

/-- process.py:597-604: the loop of `_validate_and_finalize_peripherals`; `seen` = keys of `peripheral_lookup`. -/
def finalizePeripheralsLoop : List Str → List IPeripheral → M (List Peripheral)
  | _, [] => M.pure []
  | seen, p :: ps =>
      M.bind (finalizePeripheral p) fun o =>
      match o with
      | none => finalizePeripheralsLoop seen ps
      | some q =>
        if seen.contains q.name then M.throw (.process (.duplicatePeripheral q.name))
        else M.bind (finalizePeripheralsLoop (q.name :: seen) ps) fun qs => M.pure (q :: qs)

/-- process.py:595, 602: `peripheral_lookup` reduced to name ↦ `alternate_peripheral`. -/
def peripheralLookup (ps : List Peripheral) : AltLookup := ps.map fun p => (p.name, p.alternatePeripheral)

/-- process.py:705-723 (`eff`) and 726-745 (not `eff`): compare one peripheral with the intervals seen so far. -/
def periphOverlapWarns (eff : Bool) (lookup : AltLookup) (name : Str) (base : Int) (allowed : List Str) :
    List (Int × Str) → List Warn
  | [] => []
  | (e, n) :: rest =>
      (if base ≤ e then
        if !allowed.isEmpty then
          if !allowed.contains n then
            [if eff then Warn.effectiveOverlapNotAllowed name n else Warn.specifiedOverlapNotAllowed name n]
          else []
        else
          if (match (lookup.lookup n).bind id with
              | none => true
              | some a => a.isEmpty || a != name) then
            [if eff then Warn.effectiveOverlap name n else Warn.specifiedOverlap name n]
          else []
      else []) ++ periphOverlapWarns eff lookup name base allowed rest

/-- process.py:696-748 `_check_peripheral_address_overlaps`. -/
def checkPeriphOverlaps (lookup : AltLookup) : List (Int × Str) → List (Int × Str) → List Peripheral → M Unit
  | _, _, [] => M.pure ()
  | effIv, specIv, p :: ps =>
      M.bind (allowedAlternates lookup true p.alternatePeripheral) fun allowed =>
      M.bind (M.ok () (periphOverlapWarns true lookup p.name p.baseAddress allowed effIv)) fun _ =>
      M.bind (M.ok () (periphOverlapWarns false lookup p.name p.baseAddress allowed specIv)) fun _ =>
      checkPeriphOverlaps lookup (effIv ++ [(p.endAddressEffective, p.name)])
        (specIv ++ [(p.endAddress, p.name)]) ps

/-- process.py:606: `≤` on `(base_address, name)`. -/
def periphLe (a b : Peripheral) : Bool := intStrLe (a.baseAddress, a.name) (b.baseAddress, b.name)

/-- process.py:594-609 `_validate_and_finalize_peripherals`. -/
def finalizePeripherals (ps : List IPeripheral) : M (List Peripheral) :=
  M.bind (finalizePeripheralsLoop [] ps) fun raw =>
  let sorted := sortBy periphLe raw
  M.bind (checkPeriphOverlaps (peripheralLookup raw) [] [] sorted) fun _ => M.pure sorted

/-- process.py:589-592 `validate_and_finalize`. -/
def validateAndFinalize (d : IDevice) : M Device :=
  M.bind (finalizePeripherals d.peripherals) fun ps => M.pure { hd := d.hd, peripherals := ps }

end Svd
