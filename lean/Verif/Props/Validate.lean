import Verif.Lemmas.ValPeriph
import Verif.Props.Derive
import Verif.Props.Sample
import Verif.Props.Warnings
/-
Theorems on the validation: C54 (the warnings are exactly the warranted ones), C55 (refused exactly for a defect).
-/
namespace Svd
open Spec

variable {ord : List Nat → List Nat} {fuel : Nat} {d : SDevice} {dev : Device} {ws : List Warn}

/-! ### C54 -/

/-- C54: the warnings about sizes, alignment, emptiness, reserved names, fields and enumerated values beyond their
container, and address blocks are exactly those the resolved peripherals give rise to. -/
theorem C54_warnings (h : processDevice ord fuel d = .ok dev ws) :
    ∃ ps w1, resolvePeripherals ord fuel d = .ok ps w1 ∧ ∀ w, ValidationWarning w → (w ∈ ws ↔ Warranted d ps w) := by
  obtain ⟨ps, w1, w2, h1, h2, rfl⟩ := processDevice_ok.1 h
  refine ⟨ps, w1, h1, fun w hw => ?_⟩
  have hno : w ∉ w1 := by
    intro hm
    have := (rsat_resolvePeripherals ord fuel d).warns h1 w hm
    cases w <;> first | exact this.elim | exact hw.elim
  rw [List.mem_append, or_iff_right hno]
  exact (validate_exact h2).1 w hw

/-- The size of a processed register or cluster and its offset. -/
def rcSize : RC → Int
  | .reg r => r.props.size
  | .clu c _ => c.props.size
def rcOffset : RC → Int
  | .reg r => r.addressOffset
  | .clu c _ => c.addressOffset

/-- C54 on the result: each register and cluster of a processed device that is not aligned to its size, or to 4 bytes if
it is larger, is reported. -/
theorem C54_misaligned_reported (h : processDevice ord fuel d = .ok dev ws) {q : Peripheral} (hq : q ∈ dev.peripherals)
    {x : RC} (hx : Below q.rcs x) (ho : rcOffset x % min (rcSize x / 8) 4 ≠ 0) : .regClusterUnaligned (rcName x) ∈ ws := by
  obtain ⟨ps, w1, w2, h1, h2, rfl⟩ := processDevice_ok.1 h
  obtain ⟨cs, hp⟩ := Below.path hx
  obtain ⟨p, hpp, -, -, ics, y, w, -, h3, h4, -⟩ := trace_rc h2 hq hp
  refine List.mem_append.2 (Or.inr (h4 _ ?_))
  revert h3
  generalize enclosing (inheritProps p.hd.props (deviceHead d.hd).props.toProps) ics = en
  generalize q.baseAddress + sumList (cs.map (·.addressOffset)) = b
  intro h3
  cases y with
  | reg r fs =>
    rw [inheritRC] at h3
    have h5 := h3
    obtain ⟨s, fp, gs, wf, h6, -, -, -, -, -, h7, rfl⟩ := finalizeRC_reg_some h3
    have hs := (regPropValidator_ok h7).1
    rw [finalizeRC] at h5
    obtain ⟨o, wa, wb, h8, h9, rfl⟩ := M.bind_eq_ok.1 h5
    cases o with
    | none => cases h9
    | some s' =>
      dsimp only at h6 hs h8
      rw [h6] at h8 hs
      cases hs
      refine List.mem_append.2 (Or.inl ?_)
      rw [checkSizeAlign_eq] at h8
      revert h8
      have ho : r.addressOffset % min (fp.size / 8) 4 ≠ 0 := ho
      by_cases ha : fp.size % 8 ≠ 0
      · rw [if_pos ha]; intro h8; cases h8
      · rw [if_neg ha]
        by_cases hb : Supported fp.size
        · rw [if_pos hb, if_pos ho]; intro h8; cases h8; exact List.mem_singleton.2 rfl
        · rw [if_neg hb]; intro h8; cases h8
  | clu c ch =>
    rw [inheritRC] at h3
    have h5 := h3
    obtain ⟨s, fp, z, zs, wf, h6, -, -, -, h7, rfl⟩ := finalizeRC_clu_some h3
    have hs := (regPropValidator_ok h7).1
    rw [finalizeRC] at h5
    obtain ⟨o, wa, wb, h8, h9, rfl⟩ := M.bind_eq_ok.1 h5
    cases o with
    | none => cases h9
    | some s' =>
      dsimp only at h6 hs h8
      rw [h6] at h8 hs
      cases hs
      refine List.mem_append.2 (Or.inl ?_)
      rw [checkSizeAlign_eq] at h8
      revert h8
      have ho : c.addressOffset % min (fp.size / 8) 4 ≠ 0 := ho
      by_cases ha : fp.size % 8 ≠ 0
      · rw [if_pos ha]; intro h8; cases h8
      · rw [if_neg ha]
        by_cases hb : Supported fp.size
        · rw [if_pos hb, if_pos ho]; intro h8; cases h8; exact List.mem_singleton.2 rfl
        · rw [if_neg hb]; intro h8; cases h8

theorem infix_of_before {α : Type} {R : α → α → Prop} {l : List α} (hs : l.Pairwise R) (hr : ∀ x ∈ l, R x x) {a b : α}
    (hb : Before l a b) : ∃ c, [a, c] <:+: l ∧ R c b := by
  induction l with
  | nil => cases hb
  | cons x l ih =>
    rw [List.pairwise_cons] at hs
    cases hb with
    | cons _ hb =>
      obtain ⟨c, h1, h2⟩ := ih hs.2 (fun y hy => hr y (by simp [hy])) hb
      exact ⟨c, infix_cons_cons.2 (Or.inr h1), h2⟩
    | cons_cons _ hb =>
      have hm : b ∈ l := hb.subset (by simp)
      cases l with
      | nil => cases hm
      | cons y l =>
        refine ⟨y, infix_cons_cons.2 (Or.inl ⟨rfl, by simp⟩), ?_⟩
        rcases List.mem_cons.1 hm with rfl | hm
        · exact hr b (by simp)
        · exact (List.pairwise_cons.1 hs.2).1 b hm

/-- C54 on the result: if an address block of a processed peripheral starts inside of an earlier one, an overlap of the
earlier one is reported. -/
theorem C54_overlapping_blocks_reported (h : processDevice ord fuel d = .ok dev ws) {q : Peripheral}
    (hq : q ∈ dev.peripherals) {a b : AddressBlock} (hb : Before q.addressBlocks a b) (ho : b.offset < a.offset + a.size) :
    ∃ c ∈ q.addressBlocks, c.offset < a.offset + a.size ∧ .addressBlockOverlap c.offset a.offset ∈ ws := by
  have hsorted := (C23_blocks_interrupts_sorted h hq).1
  obtain ⟨c, hc1, hc2⟩ := infix_of_before (R := fun x y : AddressBlock => x.offset ≤ y.offset) hsorted (by intros; exact Int.le_refl _) hb
  have hlt : c.offset < a.offset + a.size := Int.lt_of_le_of_lt hc2 ho
  refine ⟨c, hc1.subset (by simp), hlt, ?_⟩
  obtain ⟨ps, w1, w2, h1, h2, rfl⟩ := processDevice_ok.1 h
  obtain ⟨p, hp, w, hw, hsub⟩ := dev_periph_ws h2 hq
  refine List.mem_append.2 (Or.inr (hsub _ ?_))
  obtain ⟨ys, w1, -, ⟨-, h, -⟩ | ⟨y, ys', w2, rfl, -, ⟨_, _, _, h, _⟩ | ⟨_, ab, abs, fp, -, -, rfl, h3⟩⟩⟩ :=
    finalizePeripheral_ok hw
  · cases h
  · cases h
  · cases h3
    exact List.mem_append.2 (Or.inr (mem_addressBlockWarns.2 ⟨a, c, rfl, hc1, hlt⟩))

/-- A device with a misaligned register, a field beyond its register, a register of 12 bits, a cluster with a reserved
register only and two overlapping address
blocks (declared in the wrong order). -/
def Sample.careless : SDevice :=
  { hd := { name := s%"DEV", addressUnitBits := 8, width := 32 }
    peripherals := [
      { hd := { name := s%"P", baseAddress := 4098
                addressBlocks := [{ offset := 12, size := 16, usage := .registers }, { offset := 0, size := 16, usage := .registers }] }
        rcs := [.reg { name := s%"R", addressOffset := 2, props := { size := some 64 }
                       fields := [{ name := s%"F", lsb := some 62, msb := some 64 }] },
                .reg { name := s%"B", addressOffset := 16, props := { size := some 12 } },
                .clu { name := s%"C", addressOffset := 20 }
                  [.reg { name := s%"Reserved", addressOffset := 0, props := { size := some 32 } }]] }] }

/-- The warnings for the sample. -/
theorem C54_sample : Sample.okAnd (processDevice id 10 Sample.careless) (fun dev ws => dev.peripherals.length == 1 && ws ==
    [.regClusterUnaligned (s%"R"), .fieldExceeds (s%"F") 64 64, .regClusterBadSize (s%"B"), .registerReserved,
      .clusterEmpty (s%"C"), .peripheralUnaligned (s%"P"), .addressBlockOverlap 12 0]) = true := by decide +kernel

/-! ### C55 -/

/-- C55: once references and arrays are resolved, processing fails exactly if the resolved peripherals have a defect, and
the exception is the one belonging to a defect that is present. -/
theorem C55_refused_iff_defect {ps : List IPeripheral} {w : List Warn} (h : resolvePeripherals ord fuel d = .ok ps w) :
    ((∃ dev ws, processDevice ord fuel d = .ok dev ws) ↔ ∀ e, ¬ Defect d ps e) ∧
      ∀ e, processDevice ord fuel d = .err e → Defect d ps e := by
  have herr : ∀ e, processDevice ord fuel d = .err e → Defect d ps e := by
    intro e he
    unfold processDevice at he
    rw [h] at he
    rcases M.bind_eq_err.1 he with he | ⟨ps', w', h1, he⟩
    · cases he
    · cases h1
      exact validate_err he
  refine ⟨⟨?_, ?_⟩, herr⟩
  · rintro ⟨dev, ws, hok⟩
    obtain ⟨ps', w1, w2, h1, h2, -⟩ := processDevice_ok.1 hok
    rw [h] at h1
    cases h1
    exact (validate_exact h2).2
  · intro hno
    cases hp : processDevice ord fuel d with
    | ok dev ws => exact ⟨dev, ws, rfl⟩
    | err e => exact absurd (herr e hp) (hno e)

/-- C55: a failure of `process` is a failure to resolve references and arrays, or a defect of what was resolved. -/
theorem C55_failure_explained {e : Exn} (h : processDevice ord fuel d = .err e) :
    (∃ e', resolvePeripherals ord fuel d = .err e') ∨ ∃ ps w, resolvePeripherals ord fuel d = .ok ps w ∧ Defect d ps e := by
  cases hr : resolvePeripherals ord fuel d with
  | err e' => exact Or.inl ⟨e', rfl⟩
  | ok ps w => exact Or.inr ⟨ps, w, rfl, (C55_refused_iff_defect hr).2 e h⟩

/-- A register with both kinds of alternates, and one of 24 bits. -/
theorem C55_sample : processDevice id 10 (Sample.devOf [
      .reg { name := s%"R", addressOffset := 0, alternateGroup := some (s%"G"), alternateRegister := some (s%"X") }]) = .err (.process (.altRegAndGroup (s%"R"))) ∧
    processDevice id 10 (Sample.devOf [.reg { name := s%"R", addressOffset := 0, props := { size := some 24 } }]) =
      .err (.process .unsupportedSize) := by constructor <;> decide +kernel

/-- A cluster (or peripheral) all of whose registers have an unsuitable size gets the size 0, so that the device is
refused ("Unsupported register size: 0 bytes") instead of the registers being ignored with a warning. -/
theorem C55_size_zero : processDevice id 10 (Sample.devOf [.clu { name := s%"C", addressOffset := 0 }
    [.reg { name := s%"B", addressOffset := 0, props := { size := some 12 } }]]) = .err (.process .unsupportedSize) := by
  decide +kernel

end Svd
