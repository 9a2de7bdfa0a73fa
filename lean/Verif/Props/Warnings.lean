import Verif.Lemmas.FinWarn
import Verif.Lemmas.FinErr
import Verif.Props.Fields
/-
Theorems on warnings and exceptions: C14, C18, C26, C28-C31, C48.
-/
namespace Svd
open Spec

variable {ord : List Nat → List Nat} {fuel : Nat} {d : SDevice} {dev : Device} {ws : List Warn}

/-- A warning of a run that is no warning of the resolution phase comes from the finalisation. -/
theorem process_warn (h : processDevice ord fuel d = .ok dev ws) {w : Warn} (hw : w ∈ ws) (hr : ¬ ResolveWarn w) :
    ∃ hd ps w2, validateAndFinalize (inheritDevice { hd := hd, peripherals := ps }) = .ok dev w2 ∧ w ∈ w2 ∧
      ∀ u ∈ w2, u ∈ ws := by
  obtain ⟨ps, w1, w2, h1, h2, rfl⟩ := processDevice_ok.1 h
  rcases List.mem_append.1 hw with hw | hw
  · exact absurd ((rsat_resolvePeripherals ord fuel d).warns h1 w hw) hr
  · exact ⟨_, _, w2, h2, hw, fun u hu => by simp [hu]⟩

/-! ### C14 -/

/-- C14: each warning about a field exceeding its register names a field of the device that does, unless a whole
peripheral was dropped (with its own warning) because of its size. -/
theorem C14_device_only (h : processDevice ord fuel d = .ok dev ws) {n : Str} {m s : Int}
    (hw : .fieldExceeds n m s ∈ ws) :
    (∃ r f, HasRegister dev r ∧ f ∈ r.fields ∧ f.name = n ∧ f.msb = m ∧ r.props.size = s ∧ s ≤ m) ∨
      ∃ p, Warn.peripheralBadSize p ∈ ws := by
  obtain ⟨hd, ps, w2, h1, h2, h3⟩ := process_warn h hw (fun h => h)
  rcases finalize_warn h1 h2 with ⟨q, hq, h4⟩ | h4 | ⟨raw, w3, a1, a2, a3, a4⟩ | ⟨p, hp⟩
  · cases h4 with
    | @field r fs wf b1 b2 b3 =>
      obtain ⟨rfl, c1, f, hf, rfl, rfl⟩ := (C14_exceeding_reported b2 n m s).1 b3
      exact Or.inl ⟨r, f, ⟨q, hq, b1⟩, hf, rfl, rfl, rfl, c1⟩
    | scope b1 b2 b3 =>
      obtain ⟨raw, c1, c2, c3⟩ := b2
      obtain ⟨x, y, -, -, -, -, -, ⟨-, h0⟩ | ⟨-, h0⟩⟩ := (scope_overlaps c1 c2 c3 _).1 b3 <;> cases h0
    | own h => exact h.elim
  · exact h4.elim
  · obtain ⟨x, y, -, -, h0⟩ := ((periph_overlaps a1 a2 a3).2 _).1 a4
    rcases h0 with ⟨-, ⟨-, h0⟩ | ⟨-, h0⟩⟩ | ⟨-, ⟨-, h0⟩ | ⟨-, h0⟩⟩ <;> cases h0
  · exact Or.inr ⟨p, h3 _ hp⟩

/-- The exception of C14 does happen: the peripheral is dropped (its size, 12, is no multiple of 8), but the warning for
a field of its register remains. -/
def droppedPeripheral : SDevice :=
  { hd := { name := s%"DEV", addressUnitBits := 8, width := 32 }
    peripherals := [
      { hd := { name := s%"P", baseAddress := 0, addressBlocks := [{ offset := 0, size := 16, usage := .registers }]
                props := { size := some 12 } }
        rcs := [.reg { name := s%"R", addressOffset := 0, props := { size := some 8 }
                       fields := [{ name := s%"F", lsb := some 4, msb := some 9 }] },
                .reg { name := s%"S", addressOffset := 4 }] }] }

theorem C14_dropped_peripheral_witness : ∃ dev ws, processDevice id 10 droppedPeripheral = .ok dev ws ∧
    dev.peripherals.length = 0 ∧ .fieldExceeds (s%"F") 9 8 ∈ ws := by
  obtain ⟨dev, ws, h1, h2⟩ := Sample.okAnd_spec (x := processDevice id 10 droppedPeripheral)
    (p := fun dev ws => decide (dev.peripherals.length = 0) && decide (.fieldExceeds (s%"F") 9 8 ∈ ws)) (by decide +kernel)
  simp only [Bool.and_eq_true, decide_eq_true_eq] at h2
  exact ⟨dev, ws, h1, h2.1, h2.2⟩

/-! ### C18 -/

/-- C18: once the references are resolved, processing never fails because a size, access, protection or reset property
is missing (`sizeNone`; the `ValueError` of the property validator)... -/
theorem C18_never_missing {ps : List IPeripheral} {w : List Warn} (hr : resolvePeripherals ord fuel d = .ok ps w) {e : Exn}
    (h : processDevice ord fuel d = .err e) : e ≠ .valueError ∧ ∀ n, e ≠ .process (.sizeNone n) := by
  unfold processDevice at h
  rw [hr] at h
  simp only [wrapResolve, M.bind_eq_err, M.ok.injEq, reduceCtorEq, false_or] at h
  obtain ⟨_, _, ⟨rfl, rfl⟩, h⟩ := h
  have := (fsat_finalize (deviceHead d.hd) ps).err h
  constructor
  · rintro rfl; exact this
  · rintro n rfl; exact this

/-- ... and `sizeNone` is never raised at all. -/
theorem C18_size_present {e : Exn} (h : processDevice ord fuel d = .err e) (n : Str) : e ≠ .process (.sizeNone n) := by
  rintro rfl
  unfold processDevice at h
  rcases M.bind_eq_err.1 h with h | ⟨ps, w, -, h⟩
  · cases hr : resolvePeripherals ord fuel d with
    | ok ps w => rw [hr] at h; cases h
    | err e =>
      have := (rsat_resolvePeripherals ord fuel d).err hr
      rw [hr] at h
      cases e <;> simp only [wrapResolve, M.err.injEq, reduceCtorEq, Exn.process.injEq] at h
      subst h
      exact this
  · exact (fsat_finalize (deviceHead d.hd) ps).err h

/-- No level of this device gives any property. -/
example : Sample.okAnd (processDevice id 10 (Sample.devOf [.reg { name := s%"R", addressOffset := 0 }]))
    (fun dev _ => (Sample.registers dev).map (·.props) ==
      [{ size := 32, access := .readWrite, protection := .any, resetValue := 0, resetMask := 0xFFFFFFFF }]) = true := by
  decide +kernel

/-! ### C26 -/

/-- C26: the processed device is the resolved one up to elements that are ignored with a warning: the warnings of the
kind "is ignored", in order, are exactly the ones that account for the missing elements. -/
theorem C26_ignored_are_reported (h : processDevice ord fuel d = .ok dev ws) :
    ∃ ps w1 raw, resolvePeripherals ord fuel d = .ok ps w1 ∧ TrimPeripherals ps raw (ws.filter SaysIgnored) ∧
      dev.peripherals.Perm raw := by
  obtain ⟨ps, w1, w2, h1, h2, rfl⟩ := processDevice_ok.1 h
  obtain ⟨raw, h3, h4⟩ := trim_finalize h2
  refine ⟨ps, w1, raw, h1, ?_, h4⟩
  have : w1.filter SaysIgnored = [] := by
    apply filter_of_none
    intro w hw
    have := (rsat_resolvePeripherals ord fuel d).warns h1 w hw
    cases w <;> first | rfl | exact this.elim
  rw [List.filter_append, this]
  exact h3

/-- C26: without such a warning the processed device has exactly the resolved elements: the same paths of names of
peripherals, clusters, registers, fields and enumerated values, with multiplicity. -/
theorem C26_nothing_lost (h : processDevice ord fuel d = .ok dev ws) (hw : ∀ w ∈ ws, SaysIgnored w = false) :
    ∃ ps w1, resolvePeripherals ord fuel d = .ok ps w1 ∧ (processedPaths dev.peripherals).Perm (resolvedPaths ps) := by
  obtain ⟨ps, w1, raw, h1, h2, h3⟩ := C26_ignored_are_reported h
  exact ⟨ps, w1, h1, (perm_flatMap h3 _).trans (periphs_kept h2 (filter_of_none hw))⟩

/-- The elements of the sample device, none of which is lost. -/
example : Sample.okAnd (processDevice id 10 Sample.dev) (fun dev ws => ws.all (fun w => !SaysIgnored w) &&
    decide ((processedPaths dev.peripherals).length = 36)) = true := by decide +kernel

/-- Ignored elements: a reserved field, a register of 12 bits, a reserved register, and the cluster that becomes empty. -/
example : Sample.okAnd (processDevice id 10 (Sample.devOf
    [.reg { name := s%"R", addressOffset := 0, fields := [{ name := s%"Reserved", lsb := some 0, msb := some 1 }] },
     .reg { name := s%"S", addressOffset := 4, props := { size := some 12 } },
     .clu { name := s%"C", addressOffset := 8 } [.reg { name := s%"RESERVED", addressOffset := 0 }]]))
    (fun dev ws => ws == [.fieldReserved, .regClusterBadSize (s%"S"), .registerReserved, .clusterEmpty (s%"C")] &&
      processedPaths dev.peripherals == [[s%"A"], [s%"A", s%"R"]]) = true := by decide +kernel

/-! ### C28 -/

theorem before_total {α : Type} {xs : List α} {x y : α} (hx : x ∈ xs) (hy : y ∈ xs) (hne : x ≠ y) :
    Before xs x y ∨ Before xs y x := by
  induction xs with
  | nil => cases hx
  | cons a xs ih =>
    rcases List.mem_cons.1 hx with rfl | hx'
    · rcases List.mem_cons.1 hy with rfl | hy'
      · exact absurd rfl hne
      · exact Or.inl (List.cons_sublist_cons.2 (List.singleton_sublist.2 hy'))
    · rcases List.mem_cons.1 hy with rfl | hy'
      · exact Or.inr (List.cons_sublist_cons.2 (List.singleton_sublist.2 hx'))
      · exact (ih hx' hy').imp (fun h => h.cons _) (fun h => h.cons _)

/-- C28: two different registers/clusters of one scope, without alternate group, that share a byte are reported by a
warning naming both, unless they are declared as alternates. -/
theorem C28_overlap_reported (h : processDevice ord fuel d = .ok dev ws) {zs : List RC} (hs : IsScope dev zs) {x y : RC}
    (hx : x ∈ zs) (hy : y ∈ zs) (hne : x ≠ y) (gx : NoGroup x) (gy : NoGroup y) (hsh : ShareByte x y)
    (h1 : ¬ Excused zs x y) (h2 : ¬ Excused zs y x) :
    ∃ w ∈ ws, ∃ b, OverlapWarning b (rcName x) (rcName y) w ∨ OverlapWarning b (rcName y) (rcName x) w := by
  obtain ⟨ps, w1, w2, a1, a2, rfl⟩ := processDevice_ok.1 h
  obtain ⟨w3, ⟨raw, b1, b2, b3⟩, b4⟩ := scope_checked a2 hs
  obtain ⟨a, s1, s2, s3, s4⟩ := hsh
  have key : ∀ x y, Before zs x y → NoGroup x → NoGroup y → firstAddress y ≤ lastAddress x → ¬ Excused zs x y →
      ∃ w ∈ w1 ++ w2, ∃ b, OverlapWarning b (rcName y) (rcName x) w := by
    intro x y hb gx gy hle hex
    have := scope_overlaps b1 b2 b3
    cases hd : declaredAlt y with
    | none =>
      exact ⟨.overlap (isRegister y) (rcName y) (rcName x), List.mem_append.2 (Or.inr (b4 _ ((this _).2
        ⟨x, y, hb, gx, gy, hle, hex, Or.inl ⟨hd, rfl⟩⟩))), _, Or.inl rfl⟩
    | some a =>
      exact ⟨.overlapNotAllowed (isRegister y) (rcName y) (rcName x), List.mem_append.2 (Or.inr (b4 _ ((this _).2
        ⟨x, y, hb, gx, gy, hle, hex, Or.inr ⟨by rw [hd]; exact Option.some_ne_none _, rfl⟩⟩))), _, Or.inr rfl⟩
  rcases before_total hx hy hne with hb | hb
  · obtain ⟨w, hw, b, h3⟩ := key x y hb gx gy (by omega) h1
    exact ⟨w, hw, b, Or.inr h3⟩
  · obtain ⟨w, hw, b, h3⟩ := key y x hb gy gx (by omega) h2
    exact ⟨w, hw, b, Or.inl h3⟩

/-- Elements that declare no alternate are never excused. -/
theorem C28_no_alternates {zs : List RC} {x y : RC} (hx : declaredAlt x = none) (hy : declaredAlt y = none) :
    ¬ Excused zs x y := by
  rintro (⟨a, h, -⟩ | ⟨-, -, h⟩)
  · rw [hy] at h; cases h
  · rw [hx] at h; cases h

/-- C28: every such warning names two elements of a scope of the device, without alternate group, of which the one named
first starts within the other one, and which are not excused as alternates - unless a whole peripheral was dropped (with
its own warning) because of its size. -/
theorem C28_only_overlaps (h : processDevice ord fuel d = .ok dev ws) {b : Bool} {n m : Str} {w : Warn} (hw : w ∈ ws)
    (ho : OverlapWarning b n m w) :
    (∃ zs x y, IsScope dev zs ∧ Before zs x y ∧ rcName y = n ∧ rcName x = m ∧ isRegister y = b ∧ NoGroup x ∧ NoGroup y ∧
      firstAddress x ≤ firstAddress y ∧ firstAddress y ≤ lastAddress x ∧ ¬ Excused zs x y) ∨
      ∃ p, Warn.peripheralBadSize p ∈ ws := by
  obtain ⟨hd, ps, w2, h1, h2, h3⟩ := process_warn h hw (by rcases ho with rfl | rfl <;> exact fun h => h)
  rcases finalize_warn h1 h2 with ⟨q, hq, h4⟩ | h4 | ⟨raw, w3, a1, a2, a3, a4⟩ | ⟨p, hp⟩
  · cases h4 with
    | @field r fs wf b1 b2 b3 =>
      obtain ⟨os, w', c4, -, -, -, rfl⟩ := finalizeFields_ok b2
      exfalso
      rcases List.mem_append.1 b3 with b3 | b3
      · obtain ⟨f, -, o, -, w1, h5, h6⟩ := c4.of_ws b3
        cases o with
        | none =>
          obtain ⟨-, rfl⟩ := finalizeFieldOpt_none h5
          rw [List.mem_singleton.1 h6] at ho
          rcases ho with h0 | h0 <;> cases h0
        | some g =>
          obtain ⟨-, h7⟩ := finalizeFieldOpt_some h5
          obtain ⟨cs, a, h8, -, -⟩ := finalizeField_ok h7
          obtain ⟨_, _, rfl⟩ := finalizeContainers_ws h8 h6
          rcases ho with h0 | h0 <;> cases h0
      · unfold exceedWarns at b3
        obtain ⟨g, -, rfl⟩ := List.mem_map.1 b3
        rcases ho with h0 | h0 <;> cases h0
    | @scope zs w3 b1 b2 b3 =>
      obtain ⟨raw, c1, c2, c3⟩ := b2
      obtain ⟨x, y, e1, e2, e3, e4, e5, e6⟩ := (scope_overlaps c1 c2 c3 _).1 b3
      refine Or.inl ⟨zs, x, y, ?_, e1, ?_, ?_, ?_, e2, e3, ?_, e4, e5⟩
      · rcases b1 with rfl | ⟨c, b1⟩
        · exact Or.inl ⟨q, hq, rfl⟩
        · exact Or.inr ⟨c, q, hq, b1⟩
      · rcases e6 with ⟨-, rfl⟩ | ⟨-, rfl⟩ <;> rcases ho with h0 | h0 <;> cases h0 <;> rfl
      · rcases e6 with ⟨-, rfl⟩ | ⟨-, rfl⟩ <;> rcases ho with h0 | h0 <;> cases h0 <;> rfl
      · rcases e6 with ⟨-, rfl⟩ | ⟨-, rfl⟩ <;> rcases ho with h0 | h0 <;> cases h0 <;> rfl
      · have hso : zs.Pairwise (fun a b => rcLe a b = true) := by rw [c2]; exact sortBy_sorted rcLe_total _
        have := (List.pairwise_iff_forall_sublist.1 hso) e1
        rw [firstAddress_eq, firstAddress_eq]
        unfold rcLe at this
        split at this
        · omega
        · split at this
          · cases this
          · omega
    | own h => rcases ho with rfl | rfl <;> exact h.elim
  · rcases ho with rfl | rfl <;> exact h4.elim
  · obtain ⟨x, y, -, -, h0⟩ := ((periph_overlaps a1 a2 a3).2 _).1 a4
    rcases h0 with ⟨-, ⟨-, h0⟩ | ⟨-, h0⟩⟩ | ⟨-, ⟨-, h0⟩ | ⟨-, h0⟩⟩ <;> rw [h0] at ho <;> rcases ho with h0 | h0 <;> cases h0
  · exact Or.inr ⟨p, h3 _ hp⟩

/-- For registers, starting within the other element means sharing a byte. -/
theorem C28_share_byte (h : processDevice ord fuel d = .ok dev ws) {zs : List RC} (hs : IsScope dev zs) {x : RC}
    {r : Register} (hy : .reg r ∈ zs) (h1 : firstAddress x ≤ r.baseAddress)
    (h2 : r.baseAddress ≤ lastAddress x) : ShareByte x (.reg r) := by
  have hr : HasRegister dev r := by
    rcases hs with ⟨p, hp, rfl⟩ | ⟨c, p, hp, hb⟩
    · exact ⟨p, hp, .here hy⟩
    · exact ⟨p, hp, Svd.Below.trans hb (.here hy)⟩
  obtain ⟨ps, w1, w2, -, a2, rfl⟩ := processDevice_ok.1 h
  obtain ⟨p, hp, ics, ir, ifs, fp, gs, base, w, -, -, -, -, -, -, h7⟩ := trace_reg a2 hr
  refine ⟨r.baseAddress, h1, h2, ?_, ?_⟩
  · show r.baseAddress ≤ r.baseAddress
    omega
  · show r.baseAddress ≤ r.baseAddress + r.props.size / 8 - 1
    omega

/-- `B` starts within `A`; `C` is a permitted alternate of `A`. -/
example : Sample.okAnd (processDevice id 10 (Sample.devOf
    [.reg { name := s%"A", addressOffset := 0 }, .reg { name := s%"B", addressOffset := 2, props := { size := some 16 } },
     .reg { name := s%"C", addressOffset := 0, alternateRegister := some (s%"A"), props := { size := some 16 } }]))
    (fun _ ws => ws == [.overlap true (s%"B") (s%"A")]) = true := by decide +kernel

/-! ### C29 -/

theorem periph_checked (h : processDevice ord fuel d = .ok dev ws) : ∃ raw w2, (raw.map (·.name)).Nodup ∧
    dev.peripherals = sortBy periphLe raw ∧
    checkPeriphOverlaps (peripheralLookup raw) [] [] dev.peripherals = .ok () w2 ∧ ∀ w ∈ w2, w ∈ ws := by
  obtain ⟨ps, w1, w2, a1, a2, rfl⟩ := processDevice_ok.1 h
  obtain ⟨os, w3, w4, raw, h1, h2, h3, -, h4, h5, rfl⟩ := validateAndFinalize_ok a2
  exact ⟨raw, w4, h3, h4, h5, fun w hw => by simp [hw]⟩

/-- C29: two peripherals whose used addresses have a common byte are reported by a warning naming both, unless they are
declared as alternates. -/
theorem C29_effective_reported (h : processDevice ord fuel d = .ok dev ws) {x y : Peripheral} (hx : x ∈ dev.peripherals)
    (hy : y ∈ dev.peripherals) (hne : x.name ≠ y.name) {a : Int} (ax : x.baseAddress ≤ a ∧ a ≤ x.endAddressEffective)
    (ay : y.baseAddress ≤ a ∧ a ≤ y.endAddressEffective) (h1 : ¬ PExcused dev.peripherals x y)
    (h2 : ¬ PExcused dev.peripherals y x) :
    ∃ w ∈ ws, EffWarning x.name y.name w ∨ EffWarning y.name x.name w := by
  obtain ⟨raw, w2, b1, b2, b3, b4⟩ := periph_checked h
  have key : ∀ x y : Peripheral, Before dev.peripherals x y → y.baseAddress ≤ x.endAddressEffective →
      ¬ PExcused dev.peripherals x y → ∃ w ∈ ws, EffWarning y.name x.name w := by
    intro x y hb hle hex
    have := (periph_overlaps b1 b2 b3).2
    cases hd : y.alternatePeripheral with
    | none =>
      exact ⟨.effectiveOverlap y.name x.name, b4 _ ((this _).2 ⟨x, y, hb, hex, Or.inl ⟨hle, Or.inl ⟨hd, rfl⟩⟩⟩), Or.inl rfl⟩
    | some a =>
      exact ⟨.effectiveOverlapNotAllowed y.name x.name, b4 _ ((this _).2 ⟨x, y, hb, hex, Or.inl ⟨hle, Or.inr
        ⟨by rw [hd]; exact Option.some_ne_none _, rfl⟩⟩⟩), Or.inr rfl⟩
  rcases before_total hx hy (fun hh => hne (by rw [hh])) with hb | hb
  · obtain ⟨w, hw, h3⟩ := key x y hb (by omega) h1
    exact ⟨w, hw, Or.inr h3⟩
  · obtain ⟨w, hw, h3⟩ := key y x hb (by omega) h2
    exact ⟨w, hw, Or.inl h3⟩

/-- C29: the same for the specified addresses. -/
theorem C29_specified_reported (h : processDevice ord fuel d = .ok dev ws) {x y : Peripheral} (hx : x ∈ dev.peripherals)
    (hy : y ∈ dev.peripherals) (hne : x.name ≠ y.name) {a : Int} (ax : x.baseAddress ≤ a ∧ a ≤ x.endAddress)
    (ay : y.baseAddress ≤ a ∧ a ≤ y.endAddress) (h1 : ¬ PExcused dev.peripherals x y)
    (h2 : ¬ PExcused dev.peripherals y x) :
    ∃ w ∈ ws, SpecWarning x.name y.name w ∨ SpecWarning y.name x.name w := by
  obtain ⟨raw, w2, b1, b2, b3, b4⟩ := periph_checked h
  have key : ∀ x y : Peripheral, Before dev.peripherals x y → y.baseAddress ≤ x.endAddress →
      ¬ PExcused dev.peripherals x y → ∃ w ∈ ws, SpecWarning y.name x.name w := by
    intro x y hb hle hex
    have := (periph_overlaps b1 b2 b3).2
    cases hd : y.alternatePeripheral with
    | none =>
      exact ⟨.specifiedOverlap y.name x.name, b4 _ ((this _).2 ⟨x, y, hb, hex, Or.inr ⟨hle, Or.inl ⟨hd, rfl⟩⟩⟩), Or.inl rfl⟩
    | some a =>
      exact ⟨.specifiedOverlapNotAllowed y.name x.name, b4 _ ((this _).2 ⟨x, y, hb, hex, Or.inr ⟨hle, Or.inr
        ⟨by rw [hd]; exact Option.some_ne_none _, rfl⟩⟩⟩), Or.inr rfl⟩
  rcases before_total hx hy (fun hh => hne (by rw [hh])) with hb | hb
  · obtain ⟨w, hw, h3⟩ := key x y hb (by omega) h1
    exact ⟨w, hw, Or.inr h3⟩
  · obtain ⟨w, hw, h3⟩ := key y x hb (by omega) h2
    exact ⟨w, hw, Or.inl h3⟩

theorem periph_before_le (h : processDevice ord fuel d = .ok dev ws) {x y : Peripheral}
    (hb : Before dev.peripherals x y) : x.baseAddress ≤ y.baseAddress := by
  obtain ⟨raw, w2, b1, b2, b3, b4⟩ := periph_checked h
  have hso : dev.peripherals.Pairwise (fun a b => periphLe a b = true) := by rw [b2]; exact sortBy_sorted periphLe_total _
  have := (List.pairwise_iff_forall_sublist.1 hso) hb
  rcases intStrLe_spec.1 this with h | ⟨h, -⟩
  · exact Int.le_of_lt h
  · exact Int.le_of_eq h

/-- C29: every such warning names two peripherals of which the first named starts within the other one, and which are not
excused as alternates. -/
theorem C29_only_overlaps (h : processDevice ord fuel d = .ok dev ws) {n m : Str} {w : Warn} (hw : w ∈ ws) :
    (EffWarning n m w → ∃ x y, Before dev.peripherals x y ∧ y.name = n ∧ x.name = m ∧ x.baseAddress ≤ y.baseAddress ∧
      y.baseAddress ≤ x.endAddressEffective ∧ ¬ PExcused dev.peripherals x y) ∧
    (SpecWarning n m w → ∃ x y, Before dev.peripherals x y ∧ y.name = n ∧ x.name = m ∧ x.baseAddress ≤ y.baseAddress ∧
      y.baseAddress ≤ x.endAddress ∧ ¬ PExcused dev.peripherals x y) := by
  suffices hmain : (EffWarning n m w ∨ SpecWarning n m w) → ∃ raw w3, (raw.map (·.name)).Nodup ∧
      dev.peripherals = sortBy periphLe raw ∧
      checkPeriphOverlaps (peripheralLookup raw) [] [] dev.peripherals = .ok () w3 ∧ w ∈ w3 by
    constructor
    · intro ho
      obtain ⟨raw, w3, a1, a2, a3, a4⟩ := hmain (Or.inl ho)
      obtain ⟨x, y, b1, b2, b3⟩ := ((periph_overlaps a1 a2 a3).2 _).1 a4
      refine ⟨x, y, b1, ?_, ?_, periph_before_le h b1, ?_, b2⟩ <;>
        rcases b3 with ⟨b3, ⟨-, rfl⟩ | ⟨-, rfl⟩⟩ | ⟨b3, ⟨-, rfl⟩ | ⟨-, rfl⟩⟩ <;> rcases ho with h0 | h0 <;> cases h0 <;>
        first | rfl | exact b3
    · intro ho
      obtain ⟨raw, w3, a1, a2, a3, a4⟩ := hmain (Or.inr ho)
      obtain ⟨x, y, b1, b2, b3⟩ := ((periph_overlaps a1 a2 a3).2 _).1 a4
      refine ⟨x, y, b1, ?_, ?_, periph_before_le h b1, ?_, b2⟩ <;>
        rcases b3 with ⟨b3, ⟨-, rfl⟩ | ⟨-, rfl⟩⟩ | ⟨b3, ⟨-, rfl⟩ | ⟨-, rfl⟩⟩ <;> rcases ho with h0 | h0 <;> cases h0 <;>
        first | rfl | exact b3
  intro ho
  obtain ⟨hd, ps, w2, h1, h2, h3⟩ := process_warn h hw
    (by rcases ho with (rfl | rfl) | (rfl | rfl) <;> exact fun h => h)
  obtain ⟨os, w3, w4, raw, a1, a2, a3, -, a4, a5, rfl⟩ := validateAndFinalize_ok h1
  rcases List.mem_append.1 h2 with h2 | h2
  · exfalso
    obtain ⟨p, hp, o, -, w', h6, h7⟩ := a1.of_ws h2
    have hsc : ∀ ys, FromScope ys w → False := by
      intro ys h4
      cases h4 with
      | @field r fs wf b1 b2 b3 =>
        obtain ⟨os, w', c4, -, -, -, rfl⟩ := finalizeFields_ok b2
        rcases List.mem_append.1 b3 with b3 | b3
        · obtain ⟨f, -, o, -, w1, h5, h6⟩ := c4.of_ws b3
          cases o with
          | none =>
            obtain ⟨-, rfl⟩ := finalizeFieldOpt_none h5
            rw [List.mem_singleton.1 h6] at ho
            rcases ho with (h0 | h0) | (h0 | h0) <;> cases h0
          | some g =>
            obtain ⟨-, h7⟩ := finalizeFieldOpt_some h5
            obtain ⟨cs, a, h8, -, -⟩ := finalizeField_ok h7
            obtain ⟨_, _, rfl⟩ := finalizeContainers_ws h8 h6
            rcases ho with (h0 | h0) | (h0 | h0) <;> cases h0
        · unfold exceedWarns at b3
          obtain ⟨g, -, rfl⟩ := List.mem_map.1 b3
          rcases ho with (h0 | h0) | (h0 | h0) <;> cases h0
      | @scope zs w3 b1 b2 b3 =>
        obtain ⟨raw, c1, c2, c3⟩ := b2
        obtain ⟨x, y, -, -, -, -, -, ⟨-, rfl⟩ | ⟨-, rfl⟩⟩ := (scope_overlaps c1 c2 c3 _).1 b3 <;>
          rcases ho with (h0 | h0) | (h0 | h0) <;> cases h0
      | own h => rcases ho with (rfl | rfl) | (rfl | rfl) <;> exact h.elim
    have hown : OwnWarn w → False := by
      intro h; rcases ho with (rfl | rfl) | (rfl | rfl) <;> exact h.elim
    obtain ⟨ys, wa, h8, h9⟩ := finalizePeripheral_ok h6
    have key : ∀ v ∈ wa, FromScope ys v := fun v hv => h8.fromScope (fun x _ _ _ hh => finalizeRC_warn x hh) hv
    rcases h9 with ⟨-, -, rfl⟩ | ⟨y, ys', wb, -, hwb, h10⟩
    · rcases List.mem_append.1 h7 with h7 | h7
      · exact hsc _ (key _ h7)
      · rw [List.mem_singleton.1 h7] at hown; exact hown trivial
    · have hwb' : ∀ v ∈ wb, OwnWarn v := by
        intro v hv
        rcases hwb with rfl | rfl
        · cases hv
        · rw [List.mem_singleton.1 hv]; trivial
      rcases h10 with ⟨s, -, -, -, rfl⟩ | ⟨-, ab, abs, fp, -, -, rfl, -⟩
      · rcases List.mem_append.1 h7 with h7 | h7
        · rcases List.mem_append.1 h7 with h7 | h7
          · exact hsc _ (key _ h7)
          · exact hown (hwb' _ h7)
        · rw [List.mem_singleton.1 h7] at hown; exact hown trivial
      · rcases List.mem_append.1 h7 with h7 | h7
        · rcases List.mem_append.1 h7 with h7 | h7
          · exact hsc _ (key _ h7)
          · exact hown (hwb' _ h7)
        · exact hown (addressBlockWarns_own _ _ h7)
  · exact ⟨raw, w4, a3, a4, a5, h2⟩

/-- Two peripherals with one register each. -/
def twoPeripherals (b1 b2 : Int) (alt : Option Str) : SDevice :=
  { hd := { name := s%"DEV", addressUnitBits := 8, width := 32 }
    peripherals := [
      { hd := { name := s%"P", baseAddress := b1, addressBlocks := [{ offset := 0, size := 16, usage := .registers }] }
        rcs := [.reg { name := s%"R", addressOffset := 0 }] },
      { hd := { name := s%"Q", baseAddress := b2, addressBlocks := [{ offset := 0, size := 16, usage := .registers }]
                alternatePeripheral := alt }
        rcs := [.reg { name := s%"R", addressOffset := 0 }] }] }

example : Sample.okAnd (processDevice id 10 (twoPeripherals 0 0 none))
    (fun _ ws => ws == [.effectiveOverlap (s%"Q") (s%"P"), .specifiedOverlap (s%"Q") (s%"P")]) = true := by decide +kernel
example : Sample.okAnd (processDevice id 10 (twoPeripherals 0 8 none))
    (fun _ ws => ws == [.specifiedOverlap (s%"Q") (s%"P")]) = true := by decide +kernel
example : Sample.okAnd (processDevice id 10 (twoPeripherals 0 0 (some (s%"P")))) (fun _ ws => ws == []) = true := by
  decide +kernel

/-! ### C30 -/

/-- C30: for an element that declares the alternate `a`, the accepted names are exactly the ones connected with `a`, for
every structure of links between uniquely named elements (cycles included); the computation ends, and its only failure is
the `KeyError` for a peripheral/cluster (`strict`) when a connected name does not exist. -/
theorem C30_component {alts : List (Str × Option Str)} (hn : (alts.map (·.1)).Nodup) (strict : Bool) (a : Str) :
    (∃ l, allowedAlternates alts strict (some a) = .ok l [] ∧ ∀ x, x ∈ l ↔ Connected alts a x) ∨
    (strict = true ∧ allowedAlternates alts strict (some a) = .err .keyError ∧
      ∃ x, Connected alts a x ∧ x ∉ alts.map (·.1)) := by
  rcases allowedAlternates_spec hn strict a with ⟨l, h1, h2, -⟩ | h
  · exact Or.inl ⟨l, h1, h2⟩
  · exact Or.inr h

/-- A cycle of three elements with a fourth one attached. -/
example : allowedAlternates [(s%"A", some (s%"B")), (s%"B", some (s%"C")), (s%"C", some (s%"A")), (s%"D", some (s%"C")),
    (s%"E", none)] true (some (s%"A")) = .ok [s%"D", s%"C", s%"B", s%"A"] [] := by decide +kernel

/-! ### C31 -/

/-- C31 as stated is false of the code: a dangling `alternatePeripheral` or `alternateCluster` raises `KeyError`. -/
theorem C31_key_error : processDevice id 10 (twoPeripherals 0 64 (some (s%"X"))) = .err .keyError ∧
    processDevice id 10 (Sample.devOf [.clu { name := s%"C", addressOffset := 0, alternateCluster := some (s%"X") }
      [.reg { name := s%"R", addressOffset := 0 }]]) = .err .keyError := by
  constructor <;> decide +kernel

/-- What does hold: a dangling `alternatePeripheral` is never accepted.  (C31 also asks for `ProcessException`.) -/
theorem C31_dangling_peripheral_partial (h : processDevice ord fuel d = .ok dev ws) {p : Peripheral}
    (hp : p ∈ dev.peripherals) {a : Str} (ha : p.alternatePeripheral = some a) :
    ∃ q ∈ dev.peripherals, q.name = a := by
  obtain ⟨raw, w2, b1, b2, b3, b4⟩ := periph_checked h
  exact (periph_overlaps b1 b2 b3).1 p hp a ha a (.refl a)

theorem checkRC_clusters {rl cl : AltLookup} (hn : (cl.map (·.1)).Nodup) {xs : List RC} :
    ∀ {iv : List (Int × Str)} {ws : List Warn}, checkRCOverlaps rl cl iv xs = .ok () ws →
    ∀ c ch, .clu c ch ∈ xs → ∀ a, c.alternateCluster = some a → a ∈ cl.map (·.1) := by
  induction xs with
  | nil => intro iv ws _ c ch hc; cases hc
  | cons x xs ih =>
    intro iv ws h c ch hc a ha
    cases x with
    | reg r =>
      rcases List.mem_cons.1 hc with hc | hc
      · cases hc
      · rw [checkRCOverlaps] at h
        split at h
        · exact ih h c ch hc a ha
        · simp only [M.bind_eq_ok] at h
          obtain ⟨_, _, _, _, ⟨_, _, _, _, h5, _⟩, _⟩ := h
          exact ih h5 c ch hc a ha
    | clu c' ch' =>
      simp only [checkRCOverlaps, M.bind_eq_ok] at h
      obtain ⟨_, _, _, h1, ⟨_, _, _, _, h5, _⟩, _⟩ := h
      rcases List.mem_cons.1 hc with hc | hc
      · cases hc
        rw [ha] at h1
        rcases allowedAlternates_spec hn true a with ⟨l, h7, h8, h9⟩ | ⟨-, h7, -⟩
        · exact h9 rfl a ((h8 a).2 (.refl a))
        · rw [h7] at h1; cases h1
      · exact ih h5 c ch hc a ha

/-- The same for a dangling `alternateCluster`: the alternate is a cluster of the same scope. -/
theorem C31_dangling_cluster_partial (h : processDevice ord fuel d = .ok dev ws) {zs : List RC} (hs : IsScope dev zs)
    {c : ClusterHd} {ch : List RC} (hc : .clu c ch ∈ zs) {a : Str} (ha : c.alternateCluster = some a) :
    ∃ c' ch', .clu c' ch' ∈ zs ∧ c'.name = a := by
  obtain ⟨ps, w1, w2, a1, a2, rfl⟩ := processDevice_ok.1 h
  obtain ⟨w3, ⟨raw, b1, b2, b3⟩, b4⟩ := scope_checked a2 hs
  rw [clusterLookup_eq] at b3
  have := checkRC_clusters (altsOf_nodup b1 false) b3 c ch hc a ha
  obtain ⟨⟨n, o⟩, h1, rfl⟩ := List.mem_map.1 this
  obtain ⟨x, hx, h2, h3, -⟩ := mem_altsOf.1 h1
  cases x with
  | reg r => cases h2
  | clu c' ch' => exact ⟨c', ch', by rw [b2, mem_sortBy]; exact hx, h3⟩

/-- An accepted alternate. -/
example : Sample.okAnd (processDevice id 10 (twoPeripherals 0 0 (some (s%"P"))))
    (fun dev _ => (dev.peripherals.map (·.alternatePeripheral)) == [none, some (s%"P")]) = true := by decide +kernel

/-- A dangling `alternateRegister` is silently accepted. -/
theorem C31_dangling_register_accepted : ∃ dev ws r, processDevice id 10 (Sample.devOf
    [.reg { name := s%"R", addressOffset := 0, alternateRegister := some (s%"X") }]) = .ok dev ws ∧
    HasRegister dev r ∧ decide (r.alternateRegister = some (s%"X")) = true :=
  Sample.exists_register _ (by decide +kernel)

end Svd
