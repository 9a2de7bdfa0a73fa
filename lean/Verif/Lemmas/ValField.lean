import Verif.Spec.Validate
import Verif.Lemmas.FinErr
import Verif.Lemmas.Reserved
import Verif.Lemmas.FinField
/-
Exact warnings and exceptions of the validation of fields.
-/
namespace Svd
open M Spec

theorem fieldOpt_none {f : IField} {ws : List Warn} (h : finalizeFieldOpt f = .ok none ws) :
    Reserved f.hd.name ∧ ws = [.fieldReserved] := (finalizeFieldOpt_none h).imp_left reserved_iff.2
theorem fieldOpt_some {f : IField} {g : Field} {ws : List Warn} (h : finalizeFieldOpt f = .ok (some g) ws) :
    ¬ Reserved f.hd.name ∧ finalizeField f = .ok g ws := (finalizeFieldOpt_some h).imp_left not_reserved.2

theorem inFieldRange_fits (v w : Int) : inFieldRange v w = true ↔ Fits v w := by
  unfold inFieldRange Fits
  simp only [Bool.and_eq_true, Bool.not_eq_true', decide_eq_false_iff_not, decide_eq_true_eq]
  omega

/-- The warnings of a sequence of calls are those of the single calls. -/
theorem M.Each.mem_ws_iff {α β : Type} {f : α → M β} {xs : List α} {ys : List β} {ws : List Warn} (h : Each f xs ys ws)
    (u : Warn) : u ∈ ws ↔ ∃ x ∈ xs, ∃ y w, f x = .ok y w ∧ u ∈ w := by
  induction h with
  | nil => simp
  | @cons x y w xs ys ws h1 _ ih =>
    simp only [List.mem_append, ih, List.mem_cons, exists_eq_or_imp]
    constructor
    · rintro (h | h)
      · exact Or.inl ⟨y, w, h1, h⟩
      · exact Or.inr h
    · rintro (⟨y', w', h2, h⟩ | h)
      · rw [h1] at h2; cases h2; exact Or.inl h
      · exact Or.inr h

theorem mapM_err {α β : Type} {f : α → M β} {xs : List α} {e : Exn} (h : M.mapM f xs = .err e) :
    ∃ x ∈ xs, f x = .err e := by
  induction xs with
  | nil => simp [M.mapM] at h
  | cons x xs ih =>
    simp only [M.mapM, M.bind_eq_err, M.pure_ne_err, and_false, exists_false, or_false] at h
    rcases h with h | ⟨_, _, -, h⟩
    · exact ⟨x, by simp, h⟩
    · obtain ⟨y, hy, h⟩ := ih h
      exact ⟨y, by simp [hy], h⟩

theorem filterMapM_err {α β : Type} {f : α → M (Option β)} {xs : List α} {e : Exn} (h : M.filterMapM f xs = .err e) :
    ∃ x ∈ xs, f x = .err e := by
  induction xs with
  | nil => simp [M.filterMapM] at h
  | cons x xs ih =>
    simp only [M.filterMapM, M.bind_eq_err, M.pure_ne_err, and_false, exists_false, or_false] at h
    rcases h with h | ⟨_, _, -, h⟩
    · exact ⟨x, by simp, h⟩
    · obtain ⟨y, hy, h⟩ := ih h
      exact ⟨y, by simp [hy], h⟩

theorem finalizeEnumValue_ok {l m : Int} {v : IEnumValue} {o : Option EnumValue} {w : List Warn}
    (h : finalizeEnumValue l m v = .ok o w) :
    ∃ x, v.value = some x ∧ ∀ u, u ∈ w ↔ u = .enumOutOfRange v.name x ∧ ¬ Fits x (m - l + 1) := by
  unfold finalizeEnumValue at h
  split at h
  · cases h
  · rename_i x hx
    refine ⟨x, hx, fun u => ?_⟩
    split at h
    · rename_i hr
      cases h
      simp [(inFieldRange_fits _ _).1 hr]
    · rename_i hr
      cases h
      have hn : ¬ Fits x (m - l + 1) := fun hh => hr ((inFieldRange_fits _ _).2 hh)
      simp [hn]

theorem finalizeEnumValue_err {l m : Int} {v : IEnumValue} {e : Exn} (h : finalizeEnumValue l m v = .err e) :
    e = .process .enumValueNone ∧ v.value = none := by
  unfold finalizeEnumValue at h
  split at h
  · rename_i hv
    cases h; exact ⟨rfl, hv⟩
  · split at h <;> cases h

theorem finalizeContainers_exact {cs : List IEnumContainer} {l m : Int} {fs : List EnumContainer} {w : List Warn}
    (h : finalizeContainers cs l m = .ok fs w) :
    (∀ u, u ∈ w ↔ ∃ c ∈ cs, ∃ x ∈ c.values, ∃ v, x.value = some v ∧ u = .enumOutOfRange x.name v ∧ ¬ Fits v (m - l + 1)) ∧
    ∀ c ∈ cs, ∀ x ∈ c.values, x.value ≠ none := by
  unfold finalizeContainers at h
  simp only [M.bind_eq_ok, M.pure_eq_ok] at h
  obtain ⟨gs, w1, w2, h1, ⟨-, rfl⟩, rfl⟩ := h
  have h2 := M.mapM_eq_ok.1 h1
  have h3 : ∀ c ∈ cs, ∃ vs w, finalizeEnumValues c.values l m = .ok vs w := by
    intro c hc
    obtain ⟨y, -, w', h4⟩ := h2.mem' hc
    obtain ⟨vs, wa, wb, h5, -⟩ := M.bind_eq_ok.1 h4
    exact ⟨vs, wa, h5⟩
  have h4 : ∀ (c : IEnumContainer) vs w', finalizeEnumValues c.values l m = .ok vs w' → ∀ x ∈ c.values, ∃ o w'', finalizeEnumValue l m x = .ok o w'' := by
    intro c vs w' h x hx
    obtain ⟨os, h5, -⟩ := M.filterMapM_eq_ok.1 h
    obtain ⟨y, -, w'', h6⟩ := h5.mem' hx
    exact ⟨y, w'', h6⟩
  constructor
  · intro u
    rw [List.append_nil, h2.mem_ws_iff]
    constructor
    · rintro ⟨c, hc, y, w', h5, hu⟩
      simp only [M.bind_eq_ok, M.pure_eq_ok] at h5
      obtain ⟨vs, wa, wb, h5, ⟨-, rfl⟩, rfl⟩ := h5
      obtain ⟨os, h6, -⟩ := M.filterMapM_eq_ok.1 h5
      rw [List.append_nil, h6.mem_ws_iff] at hu
      obtain ⟨x, hx, o, w'', h7, hu⟩ := hu
      obtain ⟨v, hv, h8⟩ := finalizeEnumValue_ok h7
      obtain ⟨rfl, h9⟩ := (h8 u).1 hu
      exact ⟨c, hc, x, hx, v, hv, rfl, h9⟩
    · rintro ⟨c, hc, x, hx, v, hv, rfl, hf⟩
      obtain ⟨vs, w', h5⟩ := h3 c hc
      refine ⟨c, hc, _, w', by rw [h5]; exact congrArg _ (List.append_nil _), ?_⟩
      obtain ⟨os, h6, -⟩ := M.filterMapM_eq_ok.1 h5
      obtain ⟨o, w'', h7⟩ := h4 c vs w' h5 x hx
      refine (h6.mem_ws_iff _).2 ⟨x, hx, o, w'', h7, ?_⟩
      obtain ⟨v', hv', h8⟩ := finalizeEnumValue_ok h7
      rw [hv] at hv'; cases hv'
      exact (h8 _).2 ⟨rfl, hf⟩
  · intro c hc x hx hn
    obtain ⟨vs, w', h5⟩ := h3 c hc
    obtain ⟨o, w'', h7⟩ := h4 c vs w' h5 x hx
    obtain ⟨v', hv', -⟩ := finalizeEnumValue_ok h7
    rw [hn] at hv'; cases hv'

theorem finalizeContainers_err' {cs : List IEnumContainer} {l m : Int} {e : Exn} (h : finalizeContainers cs l m = .err e) :
    e = .process .enumValueNone ∧ ∃ c ∈ cs, ∃ x ∈ c.values, x.value = none := by
  unfold finalizeContainers at h
  simp only [M.bind_eq_err, M.pure_ne_err, and_false, exists_false, or_false] at h
  obtain ⟨c, hc, h1⟩ := mapM_err h
  simp only [M.bind_eq_err, M.pure_ne_err, and_false, exists_false, or_false] at h1
  obtain ⟨x, hx, h2⟩ := filterMapM_err h1
  obtain ⟨rfl, h3⟩ := finalizeEnumValue_err h2
  exact ⟨rfl, c, hc, x, hx, h3⟩

theorem finalizeField_exact {f : IField} {g : Field} {w : List Warn} (h : finalizeField f = .ok g w) :
    (∀ u, u ∈ w ↔ ∃ c ∈ f.containers, ∃ x ∈ c.values, ∃ v, x.value = some v ∧ u = .enumOutOfRange x.name v ∧
      ¬ Fits v (f.hd.msb - f.hd.lsb + 1)) ∧
    (∀ c ∈ f.containers, ∀ x ∈ c.values, x.value ≠ none) ∧
    g.name = f.hd.name ∧ g.lsb = f.hd.lsb ∧ g.msb = f.hd.msb ∧ f.hd.access = some g.access := by
  obtain ⟨cs, a, h1, h2, rfl⟩ := finalizeField_ok h
  obtain ⟨h3, h4⟩ := finalizeContainers_exact h1
  exact ⟨h3, h4, rfl, rfl, rfl, h2⟩

theorem finalizeField_err {f : IField} {e : Exn} (ha : f.hd.access.isSome) (h : finalizeField f = .err e) :
    e = .process .enumValueNone ∧ ∃ c ∈ f.containers, ∃ x ∈ c.values, x.value = none := by
  unfold finalizeField at h
  rcases M.bind_eq_err.1 h with h | ⟨cs, w, -, h⟩
  · exact finalizeContainers_err' h
  · obtain ⟨a, ha⟩ := Option.isSome_iff_exists.1 ha
    rw [ha] at h
    cases h

theorem finalizeFieldsLoop_err' {fs : List IField} : ∀ {seen : List Str} {e : Exn}, (∀ f ∈ fs, f.hd.access.isSome) →
    finalizeFieldsLoop seen fs = .err e →
    (∃ f ∈ fs, ¬ Reserved f.hd.name ∧ finalizeField f = .err e) ∨
    ∃ pre g post, fs = pre ++ g :: post ∧ ¬ Reserved g.hd.name ∧ e = .process (.duplicateField g.hd.name) ∧
      (g.hd.name ∈ seen ∨ ∃ f ∈ pre, f.hd.name = g.hd.name) := by
  induction fs with
  | nil => intro seen e _ h; simp [finalizeFieldsLoop] at h
  | cons f fs ih =>
    intro seen e ha h
    have ha' : ∀ g ∈ fs, g.hd.access.isSome := fun g hg => ha g (by simp [hg])
    have lift : ∀ {seen' : List Str}, finalizeFieldsLoop seen' fs = .err e → (∀ n ∈ seen', n ∈ seen ∨ n = f.hd.name) →
        (∃ f' ∈ f :: fs, ¬ Reserved f'.hd.name ∧ finalizeField f' = .err e) ∨
        ∃ pre g post, f :: fs = pre ++ g :: post ∧ ¬ Reserved g.hd.name ∧ e = .process (.duplicateField g.hd.name) ∧
        (g.hd.name ∈ seen ∨ ∃ f ∈ pre, f.hd.name = g.hd.name) := by
      intro seen' h1 hs
      rcases ih ha' h1 with ⟨g, hg, h2⟩ | ⟨pre, g, post, rfl, h2, h3, h4⟩
      · exact Or.inl ⟨g, by simp [hg], h2⟩
      · refine Or.inr ⟨f :: pre, g, post, rfl, h2, h3, ?_⟩
        rcases h4 with h4 | ⟨z, hz, h4⟩
        · rcases hs _ h4 with h5 | h5
          · exact Or.inl h5
          · exact Or.inr ⟨f, by simp, h5.symm⟩
        · exact Or.inr ⟨z, by simp [hz], h4⟩
    rw [finalizeFieldsLoop] at h
    split at h
    · rcases M.bind_eq_err.1 h with h | ⟨_, _, -, h⟩
      · cases h
      · exact lift h fun n hn => Or.inl hn
    · rename_i hr
      replace hr := not_reserved.2 hr
      split at h
      · rename_i hc
        cases h
        exact Or.inr ⟨[], f, fs, rfl, hr, rfl, Or.inl (by simpa using hc)⟩
      · simp only [M.bind_eq_err, M.pure_ne_err, and_false, exists_false, or_false] at h
        rcases h with h | ⟨_, _, -, h⟩
        · exact Or.inl ⟨f, by simp, hr, h⟩
        · refine lift h fun n hn => ?_
          rcases List.mem_cons.1 hn with h5 | h5
          · exact Or.inr h5
          · exact Or.inl h5

theorem checkRead_err {f : Field} {l : List Field} {e : Exn} (h : checkRead f l = .err e) :
    ∃ g ∈ l, fieldsOverlap f g = true ∧ e = .process (.fieldOverlapRead f.name g.name) := by
  unfold checkRead at h
  split at h
  · rename_i g hg
    cases h
    exact ⟨g, List.mem_of_find?_eq_some hg, List.find?_some hg, rfl⟩
  · cases h

theorem checkWrite_err {f : Field} {l : List Field} {e : Exn} (h : checkWrite f l = .err e) :
    ∃ g ∈ l, fieldsOverlap f g = true ∧ e = .process (.fieldOverlapWrite f.name g.name) := by
  unfold checkWrite at h
  split at h
  · rename_i g hg
    cases h
    exact ⟨g, List.mem_of_find?_eq_some hg, List.find?_some hg, rfl⟩
  · cases h

/-- What a failing overlap check says: a pair of fields, the second of which was seen before. -/
theorem checkFields_err {size : Int} {fs : List Field} : ∀ {rd wr : List Field} {e : Exn},
    checkFields size rd wr fs = .err e → (∀ g ∈ rd, readDomain g = true) → (∀ g ∈ wr, writeDomain g = true) →
    ∃ pre f post g, fs = pre ++ f :: post ∧ fieldsOverlap f g = true ∧
      ((e = .process (.fieldOverlapRead f.name g.name) ∧ readDomain f = true ∧ readDomain g = true ∧ g ∈ rd ++ pre) ∨
       (e = .process (.fieldOverlapWrite f.name g.name) ∧ writeDomain f = true ∧ writeDomain g = true ∧ g ∈ wr ++ pre)) := by
  induction fs with
  | nil => intro rd wr e h; simp [checkFields] at h
  | cons f fs ih =>
    intro rd wr e h hrd hwr
    have lift : ∀ {rd' wr' : List Field}, checkFields size rd' wr' fs = .err e →
        (∀ g ∈ rd', g ∈ rd ∨ (g = f ∧ readDomain f = true)) → (∀ g ∈ wr', g ∈ wr ∨ (g = f ∧ writeDomain f = true)) →
        ∃ pre f' post g, f :: fs = pre ++ f' :: post ∧ fieldsOverlap f' g = true ∧
        ((e = .process (.fieldOverlapRead f'.name g.name) ∧ readDomain f' = true ∧ readDomain g = true ∧ g ∈ rd ++ pre) ∨
         (e = .process (.fieldOverlapWrite f'.name g.name) ∧ writeDomain f' = true ∧ writeDomain g = true ∧ g ∈ wr ++ pre)) := by
      intro rd' wr' h1 h2 h3
      obtain ⟨pre, f', post, g, rfl, h4, h5⟩ := ih h1
        (fun g hg => (h2 g hg).elim (hrd g) fun h => h.1 ▸ h.2)
        (fun g hg => (h3 g hg).elim (hwr g) fun h => h.1 ▸ h.2)
      refine ⟨f :: pre, f', post, g, rfl, h4, ?_⟩
      rcases h5 with ⟨h5, h6, h7, h8⟩ | ⟨h5, h6, h7, h8⟩
      · refine Or.inl ⟨h5, h6, h7, ?_⟩
        rcases List.mem_append.1 h8 with h8 | h8
        · rcases h2 g h8 with h9 | ⟨rfl, -⟩ <;> simp [*]
        · simp [h8]
      · refine Or.inr ⟨h5, h6, h7, ?_⟩
        rcases List.mem_append.1 h8 with h8 | h8
        · rcases h3 g h8 with h9 | ⟨rfl, -⟩ <;> simp [*]
        · simp [h8]
    have rdErr : checkRead f rd = .err e → readDomain f = true →
        ∃ pre f' post g, f :: fs = pre ++ f' :: post ∧ fieldsOverlap f' g = true ∧
        ((e = .process (.fieldOverlapRead f'.name g.name) ∧ readDomain f' = true ∧ readDomain g = true ∧ g ∈ rd ++ pre) ∨
         (e = .process (.fieldOverlapWrite f'.name g.name) ∧ writeDomain f' = true ∧ writeDomain g = true ∧ g ∈ wr ++ pre)) := by
      intro h1 h2
      obtain ⟨g, hg, h3, h4⟩ := checkRead_err h1
      exact ⟨[], f, fs, g, rfl, h3, Or.inl ⟨h4, h2, hrd g hg, by simp [hg]⟩⟩
    have wrErr : checkWrite f wr = .err e → writeDomain f = true →
        ∃ pre f' post g, f :: fs = pre ++ f' :: post ∧ fieldsOverlap f' g = true ∧
        ((e = .process (.fieldOverlapRead f'.name g.name) ∧ readDomain f' = true ∧ readDomain g = true ∧ g ∈ rd ++ pre) ∨
         (e = .process (.fieldOverlapWrite f'.name g.name) ∧ writeDomain f' = true ∧ writeDomain g = true ∧ g ∈ wr ++ pre)) := by
      intro h1 h2
      obtain ⟨g, hg, h3, h4⟩ := checkWrite_err h1
      exact ⟨[], f, fs, g, rfl, h3, Or.inr ⟨h4, h2, hwr g hg, by simp [hg]⟩⟩
    have keep : ∀ {l : List Field} {P : Prop}, P → ∀ g ∈ l ++ [f], g ∈ l ∨ (g = f ∧ P) := by
      intro l P hp g hg
      rcases List.mem_append.1 hg with hg | hg
      · exact Or.inl hg
      · exact Or.inr ⟨List.mem_singleton.1 hg, hp⟩
    rw [checkFields] at h
    rcases M.bind_eq_err.1 h with h | ⟨_, _, -, h⟩
    · rw [M.warnIf_ne_err] at h; exact h.elim
    · have both : (f.access ≠ .writeOnly ∧ f.access ≠ .readOnly) →
          M.bind (checkRead f rd) (fun _ => M.bind (checkWrite f wr) fun _ => checkFields size (rd ++ [f]) (wr ++ [f]) fs) = .err e →
          ∃ pre f' post g, f :: fs = pre ++ f' :: post ∧ fieldsOverlap f' g = true ∧
          ((e = .process (.fieldOverlapRead f'.name g.name) ∧ readDomain f' = true ∧ readDomain g = true ∧ g ∈ rd ++ pre) ∨
           (e = .process (.fieldOverlapWrite f'.name g.name) ∧ writeDomain f' = true ∧ writeDomain g = true ∧ g ∈ wr ++ pre)) := by
        intro ⟨ha, hb⟩ h
        have ha : readDomain f = true := by simp [readDomain, ha]
        have hb : writeDomain f = true := by simp [writeDomain, hb]
        rcases M.bind_eq_err.1 h with h | ⟨_, _, -, h⟩
        · exact rdErr h ha
        · rcases M.bind_eq_err.1 h with h | ⟨_, _, -, h⟩
          · exact wrErr h hb
          · exact lift h (keep ha) (keep hb)
      split at h
      · rename_i ha
        have hd : readDomain f = true := by simp [readDomain, ha]
        rcases M.bind_eq_err.1 h with h | ⟨_, _, -, h⟩
        · exact rdErr h hd
        · exact lift h (keep hd) fun g hg => Or.inl hg
      · rename_i ha
        have hd : writeDomain f = true := by simp [writeDomain, ha]
        rcases M.bind_eq_err.1 h with h | ⟨_, _, -, h⟩
        · exact wrErr h hd
        · exact lift h (fun g hg => Or.inl hg) (keep hd)
      all_goals
        rename_i ha
        exact both (by rw [ha]; exact ⟨by simp, by simp⟩) h

/-- The fields behind a result of the first loop. -/
theorem field_source {fs : List IField} {os : List (Option Field)} {w : List Warn}
    (h : M.Each finalizeFieldOpt fs os w) {g : Field} (hg : g ∈ os.filterMap id) :
    ∃ f ∈ fs, ¬ Reserved f.hd.name ∧ g.name = f.hd.name ∧ g.lsb = f.hd.lsb ∧ g.msb = f.hd.msb ∧
      f.hd.access = some g.access := by
  obtain ⟨o, ho, h8⟩ := List.mem_filterMap.1 hg
  simp only [id] at h8
  subst h8
  obtain ⟨f, hf, w2, h9⟩ := h.mem ho
  obtain ⟨h11, h12⟩ := fieldOpt_some h9
  obtain ⟨-, -, h13⟩ := finalizeField_exact h12
  exact ⟨f, hf, h11, h13⟩

theorem field_target {fs : List IField} {os : List (Option Field)} {w : List Warn}
    (h : M.Each finalizeFieldOpt fs os w) {f : IField} (hf : f ∈ fs) (hr : ¬ Reserved f.hd.name) :
    ∃ g ∈ os.filterMap id, ∃ w', finalizeField f = .ok g w' := by
  obtain ⟨o, ho, w', h1⟩ := h.mem' hf
  cases o with
  | none => exact absurd (fieldOpt_none h1).1 hr
  | some g => exact ⟨g, List.mem_filterMap.2 ⟨_, ho, rfl⟩, w', (fieldOpt_some h1).2⟩

/-- The validation of the fields of a register fails only for the stated defects. -/
theorem finalizeFields_err {fs : List IField} {size : Int} {e : Exn} (ha : ∀ f ∈ fs, f.hd.access.isSome)
    (h : finalizeFields fs size = .err e) : FieldDefect none fs e := by
  unfold finalizeFields at h
  simp only [M.bind_eq_err, M.pure_ne_err, and_false, exists_false, or_false] at h
  rcases h with h | ⟨raw, w, h1, h⟩
  · rcases finalizeFieldsLoop_err' ha h with ⟨f, hf, hr, h1⟩ | ⟨pre, g, post, rfl, h1, rfl, h2 | ⟨f, hf, h2⟩⟩
    · obtain ⟨rfl, h2⟩ := finalizeField_err (ha f hf) h1
      exact ⟨f, hf, hr, h2⟩
    · cases h2
    · exact ⟨f, g, before_iff.2 ⟨pre, post, rfl, hf⟩, by rw [h2]; exact h1, h2, rfl⟩
  · obtain ⟨os, h3, rfl, h4, -⟩ := finalizeFieldsLoop_ok h1
    obtain ⟨pre, f, post, g, hs, ho, h5⟩ := checkFields_err h (by simp) (by simp)
    have hnd : ((sortBy lsbLe (os.filterMap id)).map (·.name)).Nodup := ((sortBy_perm _).map _).nodup_iff.2 h4
    have hs' : sortBy lsbLe (os.filterMap id) = pre ++ f :: post := hs
    have hmf : f ∈ os.filterMap id := by rw [← mem_sortBy (le := lsbLe), hs']; simp
    have hg : g ∈ pre := by rcases h5 with ⟨-, -, -, h⟩ | ⟨-, -, -, h⟩ <;> simpa using h
    have hmg : g ∈ os.filterMap id := by rw [← mem_sortBy (le := lsbLe), hs']; simp [hg]
    have hne : f.name ≠ g.name := by
      rw [hs', List.map_append, List.map_cons, List.nodup_append] at hnd
      intro hh
      exact hnd.2.2 g.name (List.mem_map.2 ⟨g, hg, rfl⟩) f.name (by simp) hh.symm
    obtain ⟨f0, hf0, rf, f1, f2, f3, f4⟩ := field_source h3 hmf
    obtain ⟨g0, hg0, rg, g1, g2, g3, g4⟩ := field_source h3 hmg
    have hcol : Collide f0 g0 := by
      simp only [fieldsOverlap, Bool.and_eq_true, decide_eq_true_eq] at ho
      unfold Collide
      omega
    rcases h5 with ⟨rfl, h6, h7, -⟩ | ⟨rfl, h6, h7, -⟩
    · exact ⟨f0, hf0, g0, hg0, rf, rg, f1.symm, g1.symm, hne, hcol, by simpa [CanRead, f4, readDomain] using h6,
        by simpa [CanRead, g4, readDomain] using h7⟩
    · exact ⟨f0, hf0, g0, hg0, rf, rg, f1.symm, g1.symm, hne, hcol, by simpa [CanWrite, f4, writeDomain] using h6,
        by simpa [CanWrite, g4, writeDomain] using h7⟩

/-- The results of the first loop keep the order of the fields. -/
theorem before_each {α β : Type} {f : α → M (Option β)} {xs : List α} {os : List (Option β)} {w : List Warn}
    (h : M.Each f xs os w) {x y : α} (hb : Before xs x y) {x' y' : β} {wx wy : List Warn} (hx : f x = .ok (some x') wx)
    (hy : f y = .ok (some y') wy) : Before (os.filterMap id) x' y' := by
  induction h with
  | nil => cases hb
  | @cons a o w0 xs os ws h1 h2 ih =>
    have hmem : ∀ {z : α} {z' : β} {wz : List Warn}, z ∈ xs → f z = .ok (some z') wz → z' ∈ os.filterMap id := by
      intro z z' wz hz h3
      obtain ⟨o', ho', w', h4⟩ := h2.mem' hz
      rw [h3] at h4; cases h4
      exact List.mem_filterMap.2 ⟨_, ho', rfl⟩
    unfold Before at hb
    cases hb with
    | cons _ hb =>
      have h5 := ih hb
      cases o with
      | none => exact h5
      | some b => exact h5.cons _
    | cons_cons _ hb =>
      rw [hx] at h1; cases h1
      exact List.Sublist.cons_cons _ (List.singleton_sublist.2 (hmem (List.singleton_sublist.1 hb) hy))

theorem before_ne_of_nodup {α β : Type} {f : α → β} {xs : List α} {x y : α} (h : Before xs x y) (hn : (xs.map f).Nodup) :
    f x ≠ f y := by
  have := (List.Sublist.map f h).nodup hn
  simp only [List.map_cons, List.map_nil, List.nodup_cons, List.mem_singleton] at this
  exact this.1

/-- Accepted fields have none of the stated defects, and the warnings are the stated ones. -/
theorem finalizeFields_exact {fs : List IField} {size : Int} {gs : List Field} {ws : List Warn}
    (h : finalizeFields fs size = .ok gs ws) :
    (∀ u, u ∈ ws ↔ FieldWarning fs size u) ∧ ∀ e, ¬ FieldDefect none fs e := by
  obtain ⟨os, w, h1, rfl, h3, h4, rfl⟩ := finalizeFields_ok h
  have hnd : ((os.filterMap id).map (·.name)).Nodup := ((sortBy_perm (le := lsbLe) _).map _).nodup_iff.1 h3
  have hms : ∀ {g : Field}, g ∈ sortBy lsbLe (os.filterMap id) ↔ g ∈ os.filterMap id := mem_sortBy
  constructor
  · intro u
    rw [List.mem_append, h1.mem_ws_iff]
    unfold exceedWarns
    simp only [List.mem_map, List.mem_filter, decide_eq_true_eq, hms]
    constructor
    · rintro (⟨f, hf, o, w', h5, hu⟩ | ⟨g, ⟨hg, h5⟩, rfl⟩)
      · cases o with
        | none =>
          obtain ⟨h6, rfl⟩ := fieldOpt_none h5
          rw [List.mem_singleton.1 hu]
          exact ⟨f, hf, h6⟩
        | some g =>
          obtain ⟨h6, h7⟩ := fieldOpt_some h5
          obtain ⟨h8, -⟩ := finalizeField_exact h7
          obtain ⟨c, hc, x, hx, v, h9, rfl, h10⟩ := (h8 u).1 hu
          exact ⟨f, hf, h6, c, hc, x, hx, rfl, h9, h10⟩
      · obtain ⟨f, hf, hr, h6, -, h7, -⟩ := field_source h1 hg
        exact ⟨rfl, f, hf, hr, h6.symm, h7.symm, h5⟩
    · intro hu
      unfold FieldWarning at hu
      split at hu
      · obtain ⟨f, hf, hr⟩ := hu
        refine Or.inl ⟨f, hf, none, [.fieldReserved], ?_, by simp⟩
        rw [reserved_iff] at hr
        simp [finalizeFieldOpt, hr]
      · obtain ⟨rfl, f, hf, hr, rfl, rfl, h5⟩ := hu
        obtain ⟨g, hg, w', h6⟩ := field_target h1 hf hr
        obtain ⟨-, -, h7, -, h8, -⟩ := finalizeField_exact h6
        exact Or.inr ⟨g, ⟨hg, by rw [h8]; exact h5⟩, by rw [h7, h8]⟩
      · obtain ⟨f, hf, hr, c, hc, x, hx, rfl, h5, h6⟩ := hu
        obtain ⟨o, ho, w', h7⟩ := h1.mem' hf
        cases o with
        | none => exact absurd (fieldOpt_none h7).1 hr
        | some g =>
          refine Or.inl ⟨f, hf, some g, w', h7, ?_⟩
          exact ((finalizeField_exact (fieldOpt_some h7).2).1 _).2 ⟨c, hc, x, hx, _, h5, rfl, h6⟩
      · exact hu.elim
  · intro e he
    have pair : ∀ {f g : IField}, f ∈ fs → g ∈ fs → ¬ Reserved f.hd.name → ¬ Reserved g.hd.name → f.hd.name ≠ g.hd.name →
        Collide f g → ¬ (CanRead none f ∧ CanRead none g) ∧ ¬ (CanWrite none f ∧ CanWrite none g) := by
      intro f g hf hg rf rg hne hc
      obtain ⟨f', hf', wf, h5⟩ := field_target h1 hf rf
      obtain ⟨g', hg', wg, h6⟩ := field_target h1 hg rg
      obtain ⟨-, -, f1, f2, f3, f4⟩ := finalizeField_exact h5
      obtain ⟨-, -, g1, g2, g3, g4⟩ := finalizeField_exact h6
      have hd : f' ≠ g' := fun hh => hne (by rw [← f1, ← g1, hh])
      have key : ∀ {a b : Field}, ¬ Conflict a b → fieldsOverlap b a = true →
          ¬ (readDomain a = true ∧ readDomain b = true) ∧ ¬ (writeDomain a = true ∧ writeDomain b = true) := by
        intro a b hn ho
        exact ⟨fun hh => hn ⟨Or.inl hh, ho⟩, fun hh => hn ⟨Or.inr hh, ho⟩⟩
      have o1 : fieldsOverlap f' g' = true := by
        unfold Collide at hc
        simp only [fieldsOverlap, Bool.and_eq_true, decide_eq_true_eq]; omega
      have o2 : fieldsOverlap g' f' = true := by
        unfold Collide at hc
        simp only [fieldsOverlap, Bool.and_eq_true, decide_eq_true_eq]; omega
      have tr : ∀ {z : IField} {z' : Field}, z.hd.access = some z'.access →
          (CanRead none z → readDomain z' = true) ∧ (CanWrite none z → writeDomain z' = true) := by
        intro z z' hz
        simp [CanRead, CanWrite, hz, readDomain, writeDomain]
      rcases pairwise_mem h4 (hms.2 hf') (hms.2 hg') hd with h7 | h7
      · obtain ⟨k1, k2⟩ := key h7 o2
        exact ⟨fun hh => k1 ⟨(tr f4).1 hh.1, (tr g4).1 hh.2⟩, fun hh => k2 ⟨(tr f4).2 hh.1, (tr g4).2 hh.2⟩⟩
      · obtain ⟨k1, k2⟩ := key h7 o1
        exact ⟨fun hh => k1 ⟨(tr g4).1 hh.2, (tr f4).1 hh.1⟩, fun hh => k2 ⟨(tr g4).2 hh.2, (tr f4).2 hh.1⟩⟩
    unfold FieldDefect at he
    split at he
    · obtain ⟨f, g, hb, hr, rfl, h5⟩ := he
      have hf : f ∈ fs := hb.subset (by simp)
      have hg : g ∈ fs := hb.subset (by simp)
      obtain ⟨o, ho, w1, h6⟩ := h1.mem' hf
      obtain ⟨o', ho', w2, h7⟩ := h1.mem' hg
      cases o with
      | none => exact hr (fieldOpt_none h6).1
      | some f' =>
        cases o' with
        | none => exact hr (by rw [← h5]; exact (fieldOpt_none h7).1)
        | some g' =>
          have := before_ne_of_nodup (before_each h1 hb h6 h7) hnd
          rw [(finalizeField_exact (fieldOpt_some h6).2).2.2.1,
            (finalizeField_exact (fieldOpt_some h7).2).2.2.1] at this
          exact this h5.symm
    · obtain ⟨f, hf, g, hg, rf, rg, rfl, rfl, hne, hc, h5, h6⟩ := he
      exact (pair hf hg rf rg hne hc).1 ⟨h5, h6⟩
    · obtain ⟨f, hf, g, hg, rf, rg, rfl, rfl, hne, hc, h5, h6⟩ := he
      exact (pair hf hg rf rg hne hc).2 ⟨h5, h6⟩
    · obtain ⟨f, hf, rf, c, hc, x, hx, h5⟩ := he
      obtain ⟨f', hf', wf, h6⟩ := field_target h1 hf rf
      exact (finalizeField_exact h6).2.1 c hc x hx h5
    · exact he

theorem orIfNone_eq_or {α : Type} (a b : Option α) : orIfNone a b = a.or b := by cases a <;> rfl

theorem over_eq (own encl : Props) : inheritProps own encl = over own encl := by
  simp only [inheritProps, over, orIfNone_eq_or]

theorem exists_mem_map {α β : Type} {f : α → β} {xs : List α} {P : β → Prop} :
    (∃ y ∈ xs.map f, P y) ↔ ∃ x ∈ xs, P (f x) := by
  simp only [List.mem_map]
  constructor
  · rintro ⟨_, ⟨x, hx, rfl⟩, h⟩; exact ⟨x, hx, h⟩
  · rintro ⟨x, hx, h⟩; exact ⟨_, ⟨x, hx, rfl⟩, h⟩

/-- The conditions do not change when the fields take over the access of their register. -/
theorem fieldWarning_inherit (a : Option Access) (wc : Option WriteConstraint) (fs : List IField) (size : Int) (u : Warn) :
    FieldWarning (fs.map (inheritField a wc)) size u ↔ FieldWarning fs size u := by
  unfold FieldWarning
  split
  · simp only [exists_mem_map]; rfl
  · simp only [exists_mem_map]; rfl
  · simp only [exists_mem_map]; rfl
  · exact Iff.rfl

theorem before_map {α β : Type} {f : α → β} {xs : List α} {x' y' : β} :
    Before (xs.map f) x' y' ↔ ∃ x y, Before xs x y ∧ f x = x' ∧ f y = y' := by
  unfold Before
  rw [List.sublist_map_iff]
  constructor
  · rintro ⟨l, h1, h2⟩
    match l, h2 with
    | [x, y], h2 => simp only [List.map_cons, List.map_nil, List.cons.injEq, and_true] at h2; exact ⟨x, y, h1, h2.1.symm, h2.2.symm⟩
  · rintro ⟨x, y, h1, rfl, rfl⟩
    exact ⟨[x, y], h1, rfl⟩

theorem fieldDefect_inherit (a : Option Access) (wc : Option WriteConstraint) (fs : List IField) (e : Exn) :
    FieldDefect none (fs.map (inheritField a wc)) e ↔ FieldDefect a fs e := by
  have h1 : ∀ f, CanRead none (inheritField a wc f) ↔ CanRead a f := fun f => by
    simp [CanRead, inheritField, orIfNone_eq_or]
  have h2 : ∀ f, CanWrite none (inheritField a wc f) ↔ CanWrite a f := fun f => by
    simp [CanWrite, inheritField, orIfNone_eq_or]
  have h3 : ∀ f g, Collide (inheritField a wc f) (inheritField a wc g) ↔ Collide f g := fun f g => Iff.rfl
  unfold FieldDefect
  split
  · simp only [before_map]
    constructor
    · rintro ⟨_, _, ⟨f, g, h, rfl, rfl⟩, h4⟩; exact ⟨f, g, h, h4⟩
    · rintro ⟨f, g, h, h4⟩; exact ⟨_, _, ⟨f, g, h, rfl, rfl⟩, h4⟩
  · simp only [exists_mem_map, h1, h3]; rfl
  · simp only [exists_mem_map, h2, h3]; rfl
  · simp only [exists_mem_map]; rfl
  · exact Iff.rfl

end Svd
