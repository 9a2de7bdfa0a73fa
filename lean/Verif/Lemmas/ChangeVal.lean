import Verif.Lemmas.ChangeFin
/-
C64, fourth part: inheritance, validation and a change.
-/
namespace Svd
open Spec

variable {c : Change}

/-! ### inheritance -/

theorem chg_inheritProps (p q : Props) : inheritProps (c.props p) (c.props q) = c.props (inheritProps p q) := by
  simp only [inheritProps, Change.props, orIfNone_map]

theorem chg_inheritField (a : Option Access) (w : Option WriteConstraint) (f : IField) :
    inheritField a (w.map c.constraint) (c.ifield f) = c.ifield (inheritField a w f) := by
  simp only [inheritField, Change.ifield, Change.ihf, orIfNone_map]

mutual
theorem chg_inheritRC (p : Props) (x : IRC) : inheritRC (c.props p) (c.irc x) = c.irc (inheritRC p x) := by
  cases x with
  | reg r fs =>
    have h1 : inheritProps (c.ihr r).props (c.props p) = c.props (inheritProps r.props p) := chg_inheritProps _ _
    simp only [inheritRC, Change.irc]
    rw [h1, List.map_map, List.map_map]
    congr 1
    refine List.map_congr_left fun f _ => ?_
    exact chg_inheritField _ _ f
  | clu x ch =>
    have h1 : inheritProps (c.ihc x).props (c.props p) = c.props (inheritProps x.props p) := chg_inheritProps _ _
    simp only [inheritRC, Change.irc]
    rw [h1, chg_inheritRCs]
    rfl
theorem chg_inheritRCs (p : Props) (xs : List IRC) : inheritRCs (c.props p) (c.ircs xs) = c.ircs (inheritRCs p xs) := by
  cases xs with
  | nil => rfl
  | cons x xs => simp only [inheritRCs, Change.ircs, chg_inheritRC p x, chg_inheritRCs p xs]
end

theorem chg_inheritPeripheral (p : Props) (x : IPeripheral) :
    inheritPeripheral (c.props p) (c.iperiph x) = c.iperiph (inheritPeripheral p x) := by
  have h1 : inheritProps (c.iperiph x).hd.props (c.props p) = c.props (inheritProps x.hd.props p) := chg_inheritProps _ _
  simp only [inheritPeripheral]
  rw [h1]
  show IPeripheral.mk _ (inheritRCs (c.props _) (c.ircs x.rcs)) = _
  rw [chg_inheritRCs]
  rfl

/-! ### fields -/

theorem chg_finEnumValue (l m : Int) (v : IEnumValue) :
    finalizeEnumValue l m (c.ival v) = M.mapped (Option.map c.value) (finalizeEnumValue l m v) := by
  simp only [finalizeEnumValue, Change.ival]
  cases v.value with
  | none => rfl
  | some x => exact mapped_ite (fun _ => rfl) fun _ => rfl

theorem chg_finContainers (cs : List IEnumContainer) (l m : Int) :
    finalizeContainers (cs.map c.icont) l m = M.mapped (List.map c.cont) (finalizeContainers cs l m) := by
  refine M.bind_mapped (M.mapM_mapped c.icont c.cont (fun x => ?_) cs) fun fs => ?_
  · exact M.bind_mapped (M.filterMapM_mapped c.ival c.value (chg_finEnumValue l m) x.values) fun _ => rfl
  · rw [mapped_pure, sortBy_map (le := containerLe) c.cont (fun a b => by simp [containerLe, Change.cont])]

theorem chg_finField (f : IField) : finalizeField (c.ifield f) = M.mapped c.field (finalizeField f) := by
  refine M.bind_mapped (chg_finContainers f.containers f.hd.lsb f.hd.msb) fun cs => ?_
  simp only [Change.ifield, Change.ihf]
  cases f.hd.access <;> rfl

theorem chg_fieldsLoop (fs : List IField) (seen : List Str) :
    finalizeFieldsLoop seen (fs.map c.ifield) = M.mapped (List.map c.field) (finalizeFieldsLoop seen fs) := by
  induction fs generalizing seen with
  | nil => rfl
  | cons f fs ih =>
    refine mapped_ite (fun _ => M.bind_mapped_id fun _ => ih _) fun _ => mapped_ite (fun _ => rfl) fun _ => ?_
    exact M.bind_mapped (chg_finField f) fun g => M.bind_mapped (ih _) fun _ => rfl

theorem chg_overlap (f e : Field) : fieldsOverlap (c.field f) (c.field e) = fieldsOverlap f e := rfl

theorem chg_find (f : Field) (es : List Field) :
    (es.map c.field).find? (fieldsOverlap (c.field f)) = (es.find? (fieldsOverlap f)).map c.field := by
  rw [List.find?_map]; rfl

theorem chg_checkRead (f : Field) (es : List Field) : checkRead (c.field f) (es.map c.field) = checkRead f es := by
  simp only [checkRead, chg_find]
  cases es.find? (fieldsOverlap f) <;> rfl
theorem chg_checkWrite (f : Field) (es : List Field) : checkWrite (c.field f) (es.map c.field) = checkWrite f es := by
  simp only [checkWrite, chg_find]
  cases es.find? (fieldsOverlap f) <;> rfl

theorem chg_checkFields (n : Int) (fs rd wr : List Field) :
    checkFields n (rd.map c.field) (wr.map c.field) (fs.map c.field) = checkFields n rd wr fs := by
  induction fs generalizing rd wr with
  | nil => rfl
  | cons f fs ih =>
    have h1 : rd.map c.field ++ [c.field f] = (rd ++ [f]).map c.field := by simp
    have h2 : wr.map c.field ++ [c.field f] = (wr ++ [f]).map c.field := by simp
    have ha : (c.field f).access = f.access := rfl
    have hn : (c.field f).name = f.name := rfl
    have hm : (c.field f).msb = f.msb := rfl
    simp only [List.map_cons, checkFields, chg_checkRead, chg_checkWrite, h1, h2, ih, ha, hn, hm]

theorem chg_finFields (fs : List IField) (n : Int) :
    finalizeFields (fs.map c.ifield) n = M.mapped (List.map c.field) (finalizeFields fs n) := by
  refine M.bind_mapped (chg_fieldsLoop fs []) fun gs => ?_
  simp only
  have := sortBy_map (le := fun a b : Field => decide (a.lsb ≤ b.lsb)) (le' := fun a b : Field => decide (a.lsb ≤ b.lsb))
    c.field (fun _ _ => rfl) gs
  rw [this]
  have h := chg_checkFields (c := c) n (sortBy (fun a b : Field => decide (a.lsb ≤ b.lsb)) gs) [] []
  simp only [List.map_nil] at h
  rw [h]
  exact M.bind_mapped_id fun _ => rfl

/-! ### registers and clusters -/

theorem chg_rcsMap (xs : List RC) : c.rcs xs = xs.map c.rc := by
  induction xs with
  | nil => rfl
  | cons x xs ih => simp only [Change.rcs, List.map_cons, ih]

@[simp] theorem chg_rcName (x : RC) : (c.rc x).name = x.name := by cases x <;> rfl
@[simp] theorem chg_rcBase (x : RC) : (c.rc x).baseAddress = x.baseAddress + c.move := by cases x <;> rfl
@[simp] theorem chg_rcOffset (x : RC) : (c.rc x).addressOffset = x.addressOffset := by cases x <;> rfl
@[simp] theorem chg_rcGroup (x : RC) : (c.rc x).altGroup = x.altGroup := by cases x <;> rfl
@[simp] theorem chg_rcExtent (x : RC) : (c.rc x).extent = x.extent := by cases x <;> rfl
@[simp] theorem chg_rcQual (x : RC) : (c.rc x).qualName = x.qualName := by cases x <;> rfl
@[simp] theorem chg_rcLast (x : RC) : (c.rc x).lastAddr = x.lastAddr + c.move := by
  cases x with
  | reg r => simp only [RC.lastAddr, Change.rc, Change.reg, Change.fprops]; omega
  | clu x ch => rfl

theorem chg_rcLe (a b : RC) : rcLe (c.rc a) (c.rc b) = rcLe a b := by
  simp only [rcLe, chg_rcBase, chg_rcGroup, chg_rcName, Int.add_lt_add_iff_right]

theorem chg_regLookup (xs : List RC) : registerLookup (xs.map c.rc) = registerLookup xs := by
  simp only [registerLookup, List.filterMap_map]
  congr 1
  funext x
  cases x <;> rfl

theorem chg_cluLookup (xs : List RC) : clusterLookup (xs.map c.rc) = clusterLookup xs := by
  simp only [clusterLookup, List.filterMap_map]
  congr 1
  funext x
  cases x <;> rfl

theorem chg_overlapWarns (b : Bool) (l : AltLookup) (n : Str) (base k : Int) (al : List Str) (iv : List (Int × Str)) :
    overlapWarns b l n (base + k) al (iv.map fun q => (q.1 + k, q.2)) = overlapWarns b l n base al iv := by
  induction iv with
  | nil => rfl
  | cons q iv ih =>
    obtain ⟨e, m⟩ := q
    simp only [List.map_cons, overlapWarns, ih, Int.add_le_add_iff_right]

theorem chg_checkRC (rl cl : AltLookup) (xs : List RC) (iv : List (Int × Str)) :
    checkRCOverlaps rl cl (iv.map fun q => (q.1 + c.move, q.2)) (xs.map c.rc) = checkRCOverlaps rl cl iv xs := by
  induction xs generalizing iv with
  | nil => rfl
  | cons x xs ih =>
    have h1 (a : Int) (s : Str) : iv.map (fun q => (q.1 + c.move, q.2)) ++ [(a + c.move, s)]
        = (iv ++ [(a, s)]).map fun q => (q.1 + c.move, q.2) := by simp
    have hl := chg_rcLast (c := c) x
    cases x with
    | reg r =>
      simp only [Change.rc] at hl
      simp only [List.map_cons, Change.rc, checkRCOverlaps, hl]
      simp only [Change.reg, ih, chg_overlapWarns, h1]
    | clu x ch =>
      simp only [Change.rc] at hl
      simp only [List.map_cons, Change.rc, checkRCOverlaps, hl]
      simp only [Change.clu, ih, chg_overlapWarns, h1]

theorem chg_finishRCs (xs : List RC) : finishRCs (xs.map c.rc) = M.mapped (List.map c.rc) (finishRCs xs) := by
  simp only [finishRCs, sortBy_map (le := rcLe) c.rc chg_rcLe, chg_regLookup, chg_cluLookup]
  have := chg_checkRC (c := c) (registerLookup xs) (clusterLookup xs) (sortBy rcLe xs) []
  simp only [List.map_nil] at this
  rw [this]
  exact M.bind_mapped_id fun _ => rfl

theorem chg_validator (p : Props) : regPropValidator (c.props p) = M.mapped c.fprops (regPropValidator p) := by
  obtain ⟨s, a, pr, rv, rm⟩ := p
  cases s <;> cases a <;> cases pr <;> cases rv <;> cases rm <;> rfl

theorem chg_maxList (k m : Int) (l : List Int) : maxList (m + k) (l.map (· + k)) = maxList m l + k := by
  induction l generalizing m with
  | nil => rfl
  | cons x xs ih =>
    simp only [List.map_cons, maxList, ← ih]
    congr 1
    split <;> split <;> omega

theorem chg_finRegister (r : IRegisterHd) (fs : List IField) (n b : Int) :
    finalizeRegister (c.ihr r) (fs.map c.ifield) n (b + c.move)
      = M.mapped (Option.map c.rc) (finalizeRegister r fs n b) := by
  refine mapped_ite (fun _ => rfl) fun _ => mapped_ite (fun _ => rfl) fun _ => ?_
  exact M.bind_mapped (chg_finFields fs n) fun gs => M.bind_mapped (chg_validator r.props) fun _ => rfl

mutual
theorem chg_finRC (b : Int) (x : IRC) :
    finalizeRC (b + c.move) (c.irc x) = M.mapped (Option.map c.rc) (finalizeRC b x) := by
  cases x with
  | reg r fs =>
    show M.bind (checkSizeAlign r.name r.props.size r.addressOffset) _ = _
    simp only [finalizeRC]
    refine M.bind_mapped_id fun o => ?_
    cases o with
    | none => rfl
    | some s =>
      have h : b + c.move + (c.ihr r).addressOffset = b + r.addressOffset + c.move := by
        show b + c.move + r.addressOffset = _
        omega
      simp only [h]
      exact chg_finRegister _ _ _ _
  | clu x ch =>
    show M.bind (checkSizeAlign x.name x.props.size x.addressOffset) _ = _
    simp only [finalizeRC]
    refine M.bind_mapped_id fun o => ?_
    cases o with
    | none => rfl
    | some s =>
      have h : b + c.move + (c.ihc x).addressOffset = b + x.addressOffset + c.move := by
        show b + c.move + x.addressOffset = _
        omega
      simp only [h]
      refine M.bind_mapped (chg_finLoop _ [] ch) fun raw => M.bind_mapped (chg_finishRCs raw) fun ys => ?_
      cases ys with
      | nil => rfl
      | cons y ys =>
        simp only [List.map_cons]
        refine M.bind_mapped (chg_validator x.props) fun p => ?_
        have hm : maxList ((c.rc y).baseAddress + (c.rc y).extent - 1)
              ((ys.map c.rc).map fun z => z.baseAddress + z.extent - 1)
            = maxList (y.baseAddress + y.extent - 1) (ys.map fun z => z.baseAddress + z.extent - 1) + c.move := by
          rw [← chg_maxList, List.map_map, List.map_map]
          congr 1
          · simp only [chg_rcBase, chg_rcExtent]; omega
          · refine List.map_congr_left fun z _ => ?_
            simp only [Function.comp, chg_rcBase, chg_rcExtent]; omega
        rw [mapped_pure, hm]
        simp only [Option.map_some, Change.rc, chg_rcsMap, List.map_cons]
        congr 4
        simp only
        omega
theorem chg_finLoop (b : Int) (seen : List Str) (xs : List IRC) :
    finalizeRCsLoop (b + c.move) seen (c.ircs xs) = M.mapped (List.map c.rc) (finalizeRCsLoop b seen xs) := by
  cases xs with
  | nil => rfl
  | cons x xs =>
    simp only [Change.ircs, finalizeRCsLoop]
    refine M.bind_mapped (chg_finRC b x) fun o => ?_
    cases o with
    | none => exact chg_finLoop b seen xs
    | some y =>
      simp only [Option.map_some, chg_rcQual]
      exact mapped_ite (fun _ => rfl) fun _ => M.bind_mapped (chg_finLoop b _ xs) fun _ => rfl
end

theorem chg_finRCs (b : Int) (xs : List IRC) :
    finalizeRCs (b + c.move) (c.ircs xs) = M.mapped (List.map c.rc) (finalizeRCs b xs) :=
  M.bind_mapped (chg_finLoop b [] xs) fun raw => chg_finishRCs raw

/-! ### peripherals -/

theorem chg_regLe (a b : Register) : regLe (c.reg a) (c.reg b) = regLe a b := chg_intStrLe _ _ _ _ _

mutual
theorem chg_extractOne (x : RC) : extractOne (c.rc x) = (extractOne x).map c.reg := by
  cases x with
  | reg r => rfl
  | clu x ch =>
    simp only [Change.rc, extractOne]
    rw [chg_extractLoop, sortBy_map (le := regLe) c.reg chg_regLe]
theorem chg_extractLoop (xs : List RC) : extractLoop (c.rcs xs) = (extractLoop xs).map c.reg := by
  cases xs with
  | nil => rfl
  | cons x xs =>
    simp only [Change.rcs, extractLoop, List.map_append, chg_extractOne x, chg_extractLoop xs]
end

theorem chg_extractRegs (xs : List RC) : extractRegisters (c.rcs xs) = (extractRegisters xs).map c.reg := by
  simp only [extractRegisters, chg_extractLoop, sortBy_map (le := regLe) c.reg chg_regLe]

theorem chg_blockWarns (bs : List AddressBlock) : addressBlockWarns (bs.map c.block) = addressBlockWarns bs := by
  induction bs with
  | nil => rfl
  | cons a bs ih =>
    cases bs with
    | nil => rfl
    | cons b bs =>
      simp only [List.map_cons, addressBlockWarns] at ih ⊢
      rw [ih]
      rfl

theorem chg_finPeripheral (hc : c.Fair) (p : IPeripheral) :
    finalizePeripheral (c.iperiph p) = M.mapped (Option.map c.periph) (finalizePeripheral p) := by
  have hb : (c.iperiph p).hd.baseAddress = p.hd.baseAddress + c.move := rfl
  have hr : (c.iperiph p).rcs = c.ircs p.rcs := rfl
  have hn : (c.iperiph p).hd.name = p.hd.name := rfl
  have hs : (c.iperiph p).hd.props.size = p.hd.props.size := rfl
  have hbl : (c.iperiph p).hd.addressBlocks = p.hd.addressBlocks.map c.block := rfl
  have h4 : (p.hd.baseAddress + c.move) % 4 = p.hd.baseAddress % 4 := by have := hc.move; omega
  simp only [finalizePeripheral, hb, hr, hn, hs, hbl, h4]
  refine M.bind_mapped (chg_finRCs _ _) fun rcs => ?_
  cases rcs with
  | nil => rfl
  | cons y ys =>
    simp only [List.map_cons]
    refine M.bind_mapped_id fun _ => mapped_ite (fun _ => rfl) fun _ => ?_
    cases p.hd.addressBlocks with
    | nil => rfl
    | cons ab abs =>
      simp only [List.map_cons]
      have hw := chg_blockWarns (c := c) (ab :: abs)
      simp only [List.map_cons] at hw
      rw [hw]
      refine M.bind_mapped_id fun _ => ?_
      refine M.bind_mapped (chg_validator p.hd.props) fun fp => ?_
      rw [mapped_pure]
      have e1 : maxList (p.hd.baseAddress + c.move + (c.block ab).offset + (c.block ab).size - 1)
            ((abs.map c.block).map fun a => p.hd.baseAddress + c.move + a.offset + a.size - 1)
          = maxList (p.hd.baseAddress + ab.offset + ab.size - 1)
              (abs.map fun a => p.hd.baseAddress + a.offset + a.size - 1) + c.move := by
        rw [← chg_maxList, List.map_map, List.map_map]
        congr 1
        · simp only [Change.block]; omega
        · refine List.map_congr_left fun z _ => ?_
          simp only [Function.comp, Change.block]; omega
      have e2 : maxList (p.hd.baseAddress + c.move + (c.rc y).addressOffset + (c.rc y).extent - 1)
            ((ys.map c.rc).map fun r => p.hd.baseAddress + c.move + r.addressOffset + r.extent - 1)
          = maxList (p.hd.baseAddress + y.addressOffset + y.extent - 1)
              (ys.map fun r => p.hd.baseAddress + r.addressOffset + r.extent - 1) + c.move := by
        rw [← chg_maxList, List.map_map, List.map_map]
        congr 1
        · simp only [chg_rcOffset, chg_rcExtent]; omega
        · refine List.map_congr_left fun z _ => ?_
          simp only [Function.comp, chg_rcOffset, chg_rcExtent]; omega
      have e3 : (c.block ab).size :: (abs.map c.block).map (·.size) = ab.size :: abs.map (·.size) := by
        simp only [List.map_map]; rfl
      have e4 : c.rc y :: ys.map c.rc = c.rcs (y :: ys) := by rw [chg_rcsMap]; rfl
      rw [e1, e2, e3, e4, chg_extractRegs]
      simp only [Option.map_some]
      congr 2
      simp only [Change.periph, Change.iperiph, Change.ihp, Peripheral.mk.injEq, true_and, List.map_cons, and_true]
      omega

theorem chg_periphsLoop (hc : c.Fair) (ps : List IPeripheral) (seen : List Str) :
    finalizePeripheralsLoop seen (ps.map c.iperiph)
      = M.mapped (List.map c.periph) (finalizePeripheralsLoop seen ps) := by
  induction ps generalizing seen with
  | nil => rfl
  | cons p ps ih =>
    simp only [List.map_cons, finalizePeripheralsLoop]
    refine M.bind_mapped (chg_finPeripheral hc p) fun o => ?_
    cases o with
    | none => exact ih _
    | some y => exact mapped_ite (fun _ => rfl) fun _ => M.bind_mapped (ih _) fun _ => rfl

theorem chg_periphWarns (e : Bool) (l : AltLookup) (n : Str) (base k : Int) (al : List Str) (iv : List (Int × Str)) :
    periphOverlapWarns e l n (base + k) al (iv.map fun q => (q.1 + k, q.2)) = periphOverlapWarns e l n base al iv := by
  induction iv with
  | nil => rfl
  | cons q iv ih =>
    obtain ⟨x, m⟩ := q
    simp only [List.map_cons, periphOverlapWarns, ih, Int.add_le_add_iff_right]

theorem chg_checkPeriphs (l : AltLookup) (ps : List Peripheral) (iv jv : List (Int × Str)) :
    checkPeriphOverlaps l (iv.map fun q => (q.1 + c.move, q.2)) (jv.map fun q => (q.1 + c.move, q.2)) (ps.map c.periph)
      = checkPeriphOverlaps l iv jv ps := by
  induction ps generalizing iv jv with
  | nil => rfl
  | cons p ps ih =>
    have h1 (iv : List (Int × Str)) (a : Int) (s : Str) : iv.map (fun q => (q.1 + c.move, q.2)) ++ [(a + c.move, s)]
        = (iv ++ [(a, s)]).map fun q => (q.1 + c.move, q.2) := by simp
    have e1 : (c.periph p).endAddressEffective = p.endAddressEffective + c.move := rfl
    have e2 : (c.periph p).endAddress = p.endAddress + c.move := rfl
    have e3 : (c.periph p).baseAddress = p.baseAddress + c.move := rfl
    have e4 : (c.periph p).name = p.name := rfl
    have e5 : (c.periph p).alternatePeripheral = p.alternatePeripheral := rfl
    simp only [List.map_cons, checkPeriphOverlaps, e1, e2, e3, e4, e5, chg_periphWarns, h1, ih]

theorem chg_finPeripherals (hc : c.Fair) (ps : List IPeripheral) :
    finalizePeripherals (ps.map c.iperiph) = M.mapped (List.map c.periph) (finalizePeripherals ps) := by
  refine M.bind_mapped (chg_periphsLoop hc ps []) fun raw => ?_
  have hs := sortBy_map (le := periphLe) (le' := periphLe) c.periph (fun a b => chg_intStrLe _ _ _ _ _) raw
  have hl : peripheralLookup (raw.map c.periph) = peripheralLookup raw := by
    simp only [peripheralLookup, List.map_map]; rfl
  simp only [hs, hl]
  have := chg_checkPeriphs (c := c) (peripheralLookup raw) (sortBy periphLe raw) [] []
  simp only [List.map_nil] at this
  rw [this]
  exact M.bind_mapped_id fun _ => rfl

theorem chg_deviceProps (hc : c.Fair) (p : Props) : deviceProps (c.props p) = c.fprops (deviceProps p) := by
  obtain ⟨s, a, pr, rv, rm⟩ := p
  have h1 := hc.reset; have h2 := hc.mask; have h3 := hc.protection
  cases pr <;> cases rv <;> cases rm <;> simp [deviceProps, Change.props, Change.fprops, h1, h2, h3]

theorem chg_wrap {α β : Type} (f : α → β) (x : M α) : wrapResolve (M.mapped f x) = M.mapped f (wrapResolve x) := by
  cases x with
  | ok a ws => rfl
  | err e => cases e <;> rfl

theorem chg_validate (hc : c.Fair) (d : SDevice) (ps : List IPeripheral) :
    validateAndFinalize { hd := deviceHead (c.sdevice d).hd, peripherals := ps.map c.iperiph }
      = M.mapped c.device (validateAndFinalize { hd := deviceHead d.hd, peripherals := ps }) := by
  have hp : (deviceHead (c.sdevice d).hd).props = c.fprops (deviceHead d.hd).props := chg_deviceProps hc _
  refine M.bind_mapped (chg_finPeripherals hc _) fun qs => ?_
  rw [mapped_pure]
  congr 1
  simp only [Change.device]
  congr 1
  show DeviceHd.mk _ _ _ _ _ _ _ _ _ _ _ _ _ = DeviceHd.mk _ _ _ _ _ _ _ _ _ _ _ _ _
  rw [DeviceHd.mk.injEq]
  exact ⟨hp, rfl, rfl, rfl, rfl, rfl, rfl, rfl, rfl, rfl, rfl, rfl, rfl⟩

theorem chg_process (hc : c.Fair) (ord : List Nat → List Nat) (fuel : Nat) (d : SDevice) :
    processDevice ord fuel (c.sdevice d) = M.mapped c.device (processDevice ord fuel d) := by
  refine M.bind_mapped (φ := List.map c.iperiph) (by rw [chg_resolve hc, chg_wrap]) fun ps => ?_
  have hp : (deviceHead (c.sdevice d).hd).props = c.fprops (deviceHead d.hd).props := chg_deviceProps hc _
  have hi : inheritDevice { hd := deviceHead (c.sdevice d).hd, peripherals := ps.map c.iperiph }
      = { hd := deviceHead (c.sdevice d).hd
          peripherals := (ps.map (inheritPeripheral (deviceHead d.hd).props.toProps)).map c.iperiph } := by
    simp only [inheritDevice, hp]
    congr 1
    rw [List.map_map, List.map_map]
    refine List.map_congr_left fun p _ => ?_
    exact chg_inheritPeripheral (c := c) (deviceHead d.hd).props.toProps p
  rw [hi]
  exact chg_validate hc d _

end Svd
