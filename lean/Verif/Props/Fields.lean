import Verif.Spec.Layout
import Verif.Spec.Notation
import Verif.Lemmas.EnumDev
import Verif.Props.Sample
import Verif.Props.Dim
/-
Theorems on fields: C11-C14.
-/
namespace Svd
open Spec

/-! ### C11: the notations for the position of a field -/

theorem bitRangePos_text {x y : Str} (hx : Decimal x) (hy : Decimal y) : bitRangePos (rangeText x y) =
    if (decValue x : Int) < decValue y then .ok ((decValue y : Int), (decValue x : Int)) [.bitRangeReversed (rangeText x y)]
    else .ok ((decValue x : Int), (decValue y : Int)) [] := by
  unfold bitRangePos
  simp only [bitRange_match hx hy, decValue_digits hx, decValue_digits hy, M.bind, M.warn, M.pure]
  split <;> simp

/-- C11: a field has a position if and only if one of the notations (with the parts missing taken from the base field) gives
it, and then it is that one. -/
theorem C11_position {f : SField} {base : Option IFieldHd} {m l : Int} :
    (∃ ws, fieldMsbLsb f base = .ok (m, l) ws) ↔ BitsOf f base m l := bits_iff

/-- A field derived from one with the bits 4 to 6 that gives only its width. -/
example (b : IFieldHd) (hl : b.lsb = 4) (_hm : b.msb = 6) : BitsOf { name := s%"F", bitWidth := some 2 } (some b) 5 4 :=
  .offsetWidth (o := 4) (w := 2) rfl (.inl ⟨rfl, rfl⟩) (.inr (by simp)) (by simp [hl]) rfl

theorem msbLsb_byOffset {p : SField} {o w : Nat} (hw : 0 < w) (h : ByOffset p o w) (b : Option IFieldHd) :
    fieldMsbLsb p b = .ok ((o : Int) + w - 1, (o : Int)) [] := by
  obtain ⟨a1, a2, a3, a4, a5⟩ := h
  unfold fieldMsbLsb
  have : ¬ ((o : Int) + w - 1 < o) := by omega
  simp [a1, a2, a3, a4, a5, orIfNone, M.bind, M.pure, M.warnIf, this]

theorem msbLsb_byLsbMsb {p : SField} {o w : Nat} (hw : 0 < w) (h : ByLsbMsb p o (o + w - 1)) (b : Option IFieldHd) :
    fieldMsbLsb p b = .ok ((o : Int) + w - 1, (o : Int)) [] := by
  obtain ⟨a1, a2, a3, a4, a5⟩ := h
  unfold fieldMsbLsb
  have : ¬ ((o : Int) + w - 1 < o) := by omega
  simp [a1, a2, a3, a4, a5, orIfNone, M.bind, M.pure, M.warnIf, this]

theorem msbLsb_byRange {p : SField} {o w : Nat} (hw : 0 < w) (h : ByRange p (o + w - 1) o) (b : Option IFieldHd) :
    fieldMsbLsb p b = .ok ((o : Int) + w - 1, (o : Int)) [] := by
  obtain ⟨x, y, hx, hy, hxa, hyb, h3⟩ := h
  unfold fieldMsbLsb
  rw [h3]
  have hc : ((o + w - 1 : Nat) : Int) = (o : Int) + w - 1 := by omega
  have : ¬ ((o : Int) + w - 1 < o) := by omega
  simp only [bitRangePos_text hx hy, hxa, hyb, hc, M.bind, M.pure, M.warnIf, this, if_false, decide_false, Bool.false_eq_true, List.append_nil]

/-- C11: for any base element, offset and width, the three notations of a field of at least one bit give the same
position `(msb, lsb)`, without warning. -/
theorem C11_notations_agree {p1 p2 p3 : SField} {o w : Nat} (hw : 0 < w) (h1 : ByOffset p1 o w)
    (h2 : ByLsbMsb p2 o (o + w - 1)) (h3 : ByRange p3 (o + w - 1) o) (b1 b2 b3 : Option IFieldHd) :
    fieldMsbLsb p1 b1 = .ok ((o : Int) + w - 1, (o : Int)) [] ∧ fieldMsbLsb p2 b2 = .ok ((o : Int) + w - 1, (o : Int)) [] ∧
    fieldMsbLsb p3 b3 = .ok ((o : Int) + w - 1, (o : Int)) [] :=
  ⟨msbLsb_byOffset hw h1 b1, msbLsb_byLsbMsb hw h2 b2, msbLsb_byRange hw h3 b3⟩

/-- The three notations of bits 4 to 6. -/
example : ByOffset { name := s%"F", bitOffset := some 4, bitWidth := some 3 } 4 3 ∧
    ByLsbMsb { name := s%"F", lsb := some 4, msb := some 6 } 4 6 ∧
    ByRange { name := s%"F", bitRange := some (s%"[06:4]") } 6 4 := by
  exact ⟨⟨rfl, rfl, rfl, rfl, rfl⟩, ⟨rfl, rfl, rfl, rfl, rfl⟩, s%"06", s%"4", by unfold Decimal; decide, by unfold Decimal; decide, by decide, by decide, by decide⟩

/-- C11: a reversed `bitRange` is normalised, with a warning. -/
theorem C11_reversed_range {p : SField} {a b : Nat} (hab : a < b) (h : ByRange p a b) (base : Option IFieldHd) :
    ∃ r, p.bitRange = some r ∧ fieldMsbLsb p base = .ok ((b : Int), (a : Int)) [.bitRangeReversed r] := by
  obtain ⟨x, y, hx, hy, hxa, hyb, h3⟩ := h
  refine ⟨_, h3, ?_⟩
  unfold fieldMsbLsb
  rw [h3]
  have h1 : ((a : Int) < b) := by omega
  have h2 : ¬ ((b : Int) < a) := by omega
  simp only [bitRangePos_text hx hy, hxa, hyb, M.bind, M.pure, M.warnIf, h1, h2, if_true, if_false, decide_false, Bool.false_eq_true, List.append_nil]

theorem decValue_natStr (n : Nat) : decValue (natStr n) = n := by
  have h := decValue_digits (decimal_intro (natStr_ne_nil n) (natStr_digits n))
  rw [pyInt_natStr10] at h
  simp only [Option.some.injEq] at h
  omega

/-- Any range can be written. -/
theorem byRange_text (p : SField) (a b : Nat) : ByRange { p with bitRange := some (rangeText (natStr a) (natStr b)) } a b :=
  ⟨_, _, decimal_intro (natStr_ne_nil a) (natStr_digits a), decimal_intro (natStr_ne_nil b) (natStr_digits b), decValue_natStr a, decValue_natStr b, rfl⟩

/-- C11: in a processed device the derived attributes of each field agree with its `lsb` and `msb`. -/
theorem C11_attributes {ord : List Nat → List Nat} {fuel : Nat} {d : SDevice} {dev : Device} {ws : List Warn}
    (h : processDevice ord fuel d = .ok dev ws) {f : Field} (hf : HasField dev f) :
    f.bitOffset = f.lsb ∧ f.bitWidth = f.msb - f.lsb + 1 ∧ f.bitRange = (f.msb, f.lsb) := by
  obtain ⟨h1, h2, h3⟩ := proc_field_width h hf
  exact ⟨h2, h1, h3⟩

/-! ### C12: overlap -/

theorem no_conflict {e f : Field} (h : ¬ Conflict e f) (hd : (Readable e.access ∧ Readable f.access) ∨
    (Writable e.access ∧ Writable f.access)) (b : Int) : ¬ (InBits e.lsb e.msb b ∧ InBits f.lsb f.msb b) := by
  rintro ⟨⟨h1, h2⟩, h3, h4⟩
  apply h
  refine ⟨?_, ?_⟩
  · simpa [readDomain, writeDomain, Readable, Writable] using hd
  · simp only [fieldsOverlap, Bool.and_eq_true, decide_eq_true_eq]
    constructor <;> omega

/-- C12: no two different fields of a register of a processed device that are both readable (or both writable) share a
bit. -/
theorem C12_no_overlap {ord : List Nat → List Nat} {fuel : Nat} {d : SDevice} {dev : Device} {ws : List Warn}
    (h : processDevice ord fuel d = .ok dev ws) {r : Register} (hr : HasRegister dev r) {e f : Field}
    (he : e ∈ r.fields) (hf : f ∈ r.fields) (hne : e.name ≠ f.name)
    (hd : (Readable e.access ∧ Readable f.access) ∨ (Writable e.access ∧ Writable f.access)) (b : Int) :
    ¬ (InBits e.lsb e.msb b ∧ InBits f.lsb f.msb b) := by
  obtain ⟨ps, w1, w2, -, h2, rfl⟩ := processDevice_ok.1 h
  obtain ⟨p, hp, ics, ir, ifs, fp, gs, base, w, -, h3, -, -, -, h6, -⟩ := trace_reg h2 hr
  have hg : r.fields = gs := by rw [h6]; rfl
  rw [hg] at he hf
  obtain ⟨os, w', -, -, -, h7, -⟩ := finalizeFields_ok h3
  rcases pairwise_mem h7 he hf (fun hh => hne (by rw [hh])) with h8 | h8
  · exact no_conflict h8 hd b
  · rintro ⟨h9, h10⟩
    exact no_conflict h8 (hd.imp And.symm And.symm) b ⟨h10, h9⟩

/-- The sample device has a register with two fields on the same bits, one read-only and one write-only. -/
example : ∃ dev ws r, processDevice id 10 Sample.dev = .ok dev ws ∧ HasRegister dev r ∧
    decide ((r.fields.map fun f => (f.name, f.lsb, f.msb)) =
      [(s%"EN", 0, 0), (s%"MODE", 1, 3), (s%"CMD", 8, 15), (s%"STAT", 8, 15)]) = true :=
  Sample.exists_register _ (by decide +kernel)

theorem finalizeContainers_err {cs : List IEnumContainer} {l m : Int} {x : Exn}
    (h : finalizeContainers cs l m = .err x) : x = .process .enumValueNone := by
  unfold finalizeContainers at h
  simp only [M.bind_eq_err, M.pure_ne_err, and_false, exists_false, or_false] at h
  induction cs with
  | nil => simp [M.mapM] at h
  | cons c cs ih =>
    simp only [M.mapM, M.bind_eq_err, M.pure_ne_err, and_false, exists_false, or_false] at h
    rcases h with h | ⟨_, _, -, h⟩
    · unfold finalizeEnumValues at h
      generalize c.values = vs at h
      induction vs with
      | nil => simp [M.filterMapM] at h
      | cons v vs ihv =>
        simp only [M.filterMapM, M.bind_eq_err, M.pure_ne_err, and_false, exists_false, or_false] at h
        rcases h with h | ⟨_, _, -, h⟩
        · unfold finalizeEnumValue at h
          split at h
          · simpa [M.throw, eq_comm] using h
          · split at h <;> simp [M.bind_eq_err, M.warn] at h
        · exact ihv h
    · exact ih h

theorem finalizeFieldsLoop_err {seen : List Str} {fs : List IField} {x : Exn} (h : finalizeFieldsLoop seen fs = .err x) :
    x = .process .enumValueNone ∨ x = .valueError ∨ ∃ n, x = .process (.duplicateField n) := by
  induction fs generalizing seen with
  | nil => simp [finalizeFieldsLoop] at h
  | cons f fs ih =>
    simp only [finalizeFieldsLoop] at h
    split at h
    · simp only [M.bind_eq_err, M.warn, reduceCtorEq, false_or] at h
      obtain ⟨_, _, -, h⟩ := h
      exact ih h
    · split at h
      · simp only [M.throw, M.err.injEq] at h
        exact Or.inr (Or.inr ⟨_, h.symm⟩)
      · simp only [M.bind_eq_err, M.pure_ne_err, and_false, exists_false, or_false] at h
        rcases h with h | ⟨_, _, -, h⟩
        · unfold finalizeField at h
          simp only [M.bind_eq_err] at h
          rcases h with h | ⟨_, _, -, h⟩
          · exact Or.inl (finalizeContainers_err h)
          · split at h
            · simp only [M.throw, M.err.injEq] at h; exact Or.inr (Or.inl h.symm)
            · simp at h
        · exact ih h

/-- The field list of a register comes from the resolved fields. -/
theorem field_origin {fs : List IField} {os : List (Option Field)} {w : List Warn}
    (h : M.Each finalizeFieldOpt fs os w) {g : Field} (hg : g ∈ os.filterMap id) :
    ∃ f ∈ fs, lower f.hd.name ≠ s%"reserved" ∧ g.name = f.hd.name ∧ g.lsb = f.hd.lsb ∧ g.msb = f.hd.msb ∧
      f.hd.access = some g.access := by
  obtain ⟨o, ho, h8⟩ := List.mem_filterMap.1 hg
  simp only [id] at h8
  subst h8
  obtain ⟨f, hf, w2, h9⟩ := h.mem ho
  obtain ⟨h11, h12⟩ := finalizeFieldOpt_some h9
  obtain ⟨cs, a, h13, h14, rfl⟩ := finalizeField_ok h12
  exact ⟨f, hf, h11, rfl, rfl, rfl, h14⟩

/-- C12, converse: if the fields `fs` of a register (access resolved, `lsb ≤ msb`) are rejected because of an overlap, two
fields of different names that are both readable or both writable do share a bit. -/
theorem C12_rejected_only_for_conflict {fs : List IField} {size : Int} {n m : Str}
    (h : finalizeFields fs size = .err (.process (.fieldOverlapRead n m)) ∨
      finalizeFields fs size = .err (.process (.fieldOverlapWrite n m)))
    (hpos : ∀ f ∈ fs, f.hd.lsb ≤ f.hd.msb) :
    ∃ f ∈ fs, ∃ g ∈ fs, f.hd.name ≠ g.hd.name ∧ ∃ a b, f.hd.access = some a ∧ g.hd.access = some b ∧
      ((Readable a ∧ Readable b) ∨ (Writable a ∧ Writable b)) ∧
      ∃ bit, InBits f.hd.lsb f.hd.msb bit ∧ InBits g.hd.lsb g.hd.msb bit := by
  obtain ⟨x, hx, h⟩ : ∃ x, (x = Exn.process (.fieldOverlapRead n m) ∨ x = .process (.fieldOverlapWrite n m)) ∧
      finalizeFields fs size = .err x := by
    rcases h with h | h
    · exact ⟨_, Or.inl rfl, h⟩
    · exact ⟨_, Or.inr rfl, h⟩
  unfold finalizeFields at h
  simp only [M.bind_eq_err, M.pure_ne_err, and_false, exists_false, or_false] at h
  rcases h with h | ⟨raw, w, h1, h⟩
  · rcases finalizeFieldsLoop_err h with h | h | ⟨_, h⟩ <;> rw [h] at hx <;> simp at hx
  · obtain ⟨os, h3, rfl, h4, -⟩ := finalizeFieldsLoop_ok h1
    have hnp : ¬ (sortBy lsbLe (os.filterMap id)).Pairwise (fun e f => ¬ Conflict e f) := by
      intro hp
      have : checkFields size [] [] (sortBy lsbLe (os.filterMap id)) = .ok () (exceedWarns size _) :=
        checkFields_ok.2 ⟨by simp, by simp, hp, rfl⟩
      have h : checkFields size [] [] (sortBy lsbLe (os.filterMap id)) = .err x := h
      rw [this] at h
      cases h
    rw [List.pairwise_iff_forall_sublist] at hnp
    simp only [Classical.not_forall] at hnp
    obtain ⟨e, f, hs, hc⟩ := hnp
    have hc := Classical.not_not.1 hc
    have hnd : ((sortBy lsbLe (os.filterMap id)).map (·.name)).Nodup := ((sortBy_perm _).map _).nodup_iff.2 h4
    have hnd2 := (hs.map (fun x : Field => x.name)).nodup hnd
    simp only [List.map_cons, List.map_nil, List.nodup_cons, List.mem_singleton] at hnd2
    have he : e ∈ os.filterMap id := by
      rw [← mem_sortBy (le := lsbLe)]; exact hs.subset (by simp)
    have hf : f ∈ os.filterMap id := by
      rw [← mem_sortBy (le := lsbLe)]; exact hs.subset (by simp)
    obtain ⟨e0, he0, -, e1, e2, e3, e4⟩ := field_origin h3 he
    obtain ⟨f0, hf0, -, f1, f2, f3, f4⟩ := field_origin h3 hf
    obtain ⟨hd, ho⟩ := hc
    simp only [fieldsOverlap, Bool.and_eq_true, decide_eq_true_eq] at ho
    have p1 := hpos e0 he0
    have p2 := hpos f0 hf0
    refine ⟨e0, he0, f0, hf0, by rw [← e1, ← f1]; exact hnd2.1, e.access, f.access, e4, f4, ?_, ?_⟩
    · simpa [readDomain, writeDomain, Readable, Writable] using hd
    · rw [← e2, ← e3, ← f2, ← f3]
      rw [← e2, ← e3] at p1
      rw [← f2, ← f3] at p2
      refine ⟨max e.lsb f.lsb, ⟨?_, ?_⟩, ?_, ?_⟩ <;> omega

/-- Two overlapping readable fields are rejected. -/
example : Sample.errAnd (processDevice id 10 (Sample.devOfFields
      [{ name := s%"A", lsb := some 0, msb := some 3, access := some .readOnly },
       { name := s%"B", lsb := some 3, msb := some 4 }]))
    (· == .process (.fieldOverlapRead (s%"B") (s%"A"))) = true := by decide +kernel

/-! ### C13: the field list -/

/-- C13: the fields of a register of a processed device are sorted by `lsb`, have pairwise different names and none is
called `reserved`. -/
theorem C13_sorted_unique {ord : List Nat → List Nat} {fuel : Nat} {d : SDevice} {dev : Device} {ws : List Warn}
    (h : processDevice ord fuel d = .ok dev ws) {r : Register} (hr : HasRegister dev r) :
    r.fields.Pairwise (fun e f => e.lsb ≤ f.lsb) ∧ (r.fields.map (·.name)).Nodup ∧
      ∀ f ∈ r.fields, lowerText f.name ≠ s%"reserved" := by
  obtain ⟨ps, w1, w2, -, h2, rfl⟩ := processDevice_ok.1 h
  obtain ⟨p, hp, ics, ir, ifs, fp, gs, base, w, -, h3, -, -, -, h6, -⟩ := trace_reg h2 hr
  have hg : r.fields = gs := by rw [h6]; rfl
  rw [hg]
  obtain ⟨os, w', h4, rfl, h5, -, -⟩ := finalizeFields_ok h3
  refine ⟨?_, h5, ?_⟩
  · exact (sortBy_sorted lsbLe_total _).imp (by intro a b h; simpa [lsbLe] using h)
  · intro f hf
    rw [mem_sortBy] at hf
    obtain ⟨f0, -, h7, h8, -⟩ := field_origin h4 hf
    rw [h8, lowerText_eq]; exact h7

theorem each_opt_filter {fs : List IField} {os : List (Option Field)} {w : List Warn}
    (h : M.Each finalizeFieldOpt fs os w) :
    (os.filterMap id).map (fun g => (g.name, g.lsb, g.msb)) =
      (fs.filter fun f => decide (lowerText f.hd.name ≠ s%"reserved")).map fun f => (f.hd.name, f.hd.lsb, f.hd.msb) := by
  rw [lowerText_eq]
  induction h with
  | nil => rfl
  | @cons f o w fs os ws h1 _ ih =>
    cases o with
    | none =>
      obtain ⟨hn, -⟩ := finalizeFieldOpt_none h1
      rw [List.filter_cons_of_neg (by simp [hn])]
      simpa using ih
    | some g =>
      obtain ⟨hn, h2⟩ := finalizeFieldOpt_some h1
      obtain ⟨cs, a, -, -, rfl⟩ := finalizeField_ok h2
      rw [List.filter_cons_of_pos (by simp [hn])]
      simp only [List.filterMap_cons, id, List.map_cons, ih]
      rfl

/-- C13, completeness: the accepted fields are the resolved ones that are not called `reserved`, each exactly once, with
unchanged name and position. -/
theorem C13_complete {fs : List IField} {size : Int} {gs : List Field} {ws : List Warn}
    (h : finalizeFields fs size = .ok gs ws) :
    (gs.map fun g => (g.name, g.lsb, g.msb)).Perm
      ((fs.filter fun f => decide (lowerText f.hd.name ≠ s%"reserved")).map fun f => (f.hd.name, f.hd.lsb, f.hd.msb)) := by
  obtain ⟨os, w', h4, rfl, -, -, -⟩ := finalizeFields_ok h
  rw [← each_opt_filter h4]
  exact (sortBy_perm _).map _

/-! ### C14: fields outside of their register -/

theorem finalizeContainers_ws {cs : List IEnumContainer} {l m : Int} {out : List EnumContainer} {ws : List Warn}
    (h : finalizeContainers cs l m = .ok out ws) {u : Warn} (hu : u ∈ ws) : ∃ n x, u = .enumOutOfRange n x := by
  unfold finalizeContainers at h
  simp only [M.bind_eq_ok, M.mapM_eq_ok, M.pure_eq_ok] at h
  obtain ⟨fs, w1, w2, h4, ⟨h5, rfl⟩, rfl⟩ := h
  simp only [List.append_nil] at hu
  obtain ⟨c, -, y, -, w, h6, h7⟩ := h4.of_ws hu
  simp only [M.bind_eq_ok, M.pure_eq_ok] at h6
  obtain ⟨vs, w4, w5, h8, ⟨rfl, rfl⟩, rfl⟩ := h6
  simp only [List.append_nil] at h7
  unfold finalizeEnumValues at h8
  generalize c.values = xs at h8
  induction xs generalizing vs w4 with
  | nil =>
    simp only [M.filterMapM_nil, M.pure_eq_ok] at h8
    obtain ⟨-, rfl⟩ := h8
    cases h7
  | cons v xs ih =>
    obtain ⟨o, wa, zs, wb, ha, hb, rfl, rfl⟩ := M.filterMapM_cons_ok.1 h8
    rcases List.mem_append.1 h7 with h7 | h7
    · unfold finalizeEnumValue at ha
      split at ha
      · cases ha
      · split at ha
        · simp only [M.pure_eq_ok] at ha
          obtain ⟨-, rfl⟩ := ha
          cases h7
        · simp only [M.bind_eq_ok, M.warn, M.ok.injEq, M.pure_eq_ok] at ha
          obtain ⟨_, w6, w7, ⟨-, rfl⟩, ⟨-, rfl⟩, rfl⟩ := ha
          simp only [List.append_nil, List.mem_singleton] at h7
          exact ⟨_, _, h7⟩
    · exact ih _ _ h7 hb

/-- C14: for the fields of an accepted register, the warning about a field exceeding the register is issued exactly for
the fields whose most significant bit is not below the register size. -/
theorem C14_exceeding_reported {fs : List IField} {size : Int} {gs : List Field} {ws : List Warn}
    (h : finalizeFields fs size = .ok gs ws) (n : Str) (m s : Int) :
    .fieldExceeds n m s ∈ ws ↔ s = size ∧ size ≤ m ∧ ∃ g ∈ gs, g.name = n ∧ g.msb = m := by
  obtain ⟨os, w', h4, -, -, -, rfl⟩ := finalizeFields_ok h
  have hno : Warn.fieldExceeds n m s ∉ w' := by
    intro hu
    obtain ⟨f, -, o, -, w, h5, h6⟩ := h4.of_ws hu
    cases o with
    | none =>
      obtain ⟨-, rfl⟩ := finalizeFieldOpt_none h5
      simp at h6
    | some g =>
      obtain ⟨-, h7⟩ := finalizeFieldOpt_some h5
      obtain ⟨cs, a, h8, -, -⟩ := finalizeField_ok h7
      obtain ⟨_, _, h9⟩ := finalizeContainers_ws h8 h6
      cases h9
  rw [List.mem_append, or_iff_right hno]
  unfold exceedWarns
  simp only [List.mem_map, List.mem_filter, decide_eq_true_eq, Warn.fieldExceeds.injEq]
  constructor
  · rintro ⟨g, ⟨hg, hm⟩, rfl, rfl, rfl⟩
    exact ⟨rfl, hm, g, hg, rfl, rfl⟩
  · rintro ⟨rfl, hm, g, hg, rfl, rfl⟩
    exact ⟨g, ⟨hg, hm⟩, rfl, rfl, rfl⟩

/-- C14 in a processed device: every field that reaches beyond its register is reported. -/
theorem C14_device_reported {ord : List Nat → List Nat} {fuel : Nat} {d : SDevice} {dev : Device} {ws : List Warn}
    (h : processDevice ord fuel d = .ok dev ws) {r : Register} (hr : HasRegister dev r) {f : Field} (hf : f ∈ r.fields)
    (hm : r.props.size ≤ f.msb) : .fieldExceeds f.name f.msb r.props.size ∈ ws := by
  obtain ⟨ps, w1, w2, -, h2, rfl⟩ := processDevice_ok.1 h
  obtain ⟨p, hp, ics, ir, ifs, fp, gs, base, w, -, h3, h5, -, -, h6, -⟩ := trace_reg h2 hr
  have hg : r.fields = gs := by rw [h6]; rfl
  rw [hg] at hf
  exact List.mem_append.2 (Or.inr (h5 _ ((C14_exceeding_reported h3 _ _ _).2 ⟨rfl, hm, f, hf, rfl, rfl⟩)))

/-- A field beyond the end of its 32-bit register. -/
example : Sample.okAnd (processDevice id 10 (Sample.devOfFields [{ name := s%"F", lsb := some 30, msb := some 32 }]))
    (fun _ ws => ws == [.fieldExceeds (s%"F") 32 32]) = true := by decide +kernel

end Svd
