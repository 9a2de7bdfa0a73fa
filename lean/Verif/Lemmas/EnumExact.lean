import Verif.Spec.Container
import Verif.Lemmas.EnumReads
import Verif.Lemmas.EnumCore
/-
The processing of a container of enumerated values, exactly.
-/
namespace Svd
open Spec

theorem keep_append (xs ys : List IEnumValue) : ∀ prev, keep prev (xs ++ ys) = keep prev xs ++ keep (prev ++ keep prev xs) ys := by
  induction xs with
  | nil => intro prev; simp [keep]
  | cons v xs ih =>
    intro prev
    simp only [List.cons_append, keep]
    split
    · exact ih prev
    · rw [ih]
      simp

theorem repeats_iff {u v : IEnumValue} : repeats u v = true ↔ Clash (clearDefault u) v := by
  unfold repeats Clash clearDefault
  obtain ⟨n, d, x, b⟩ := u
  obtain ⟨n', d', x', b'⟩ := v
  cases b
  · cases x <;> cases x' <;> simp
    rename_i x x'
    constructor
    · rintro (h | h)
      · exact .inl h
      · exact .inr h.symm
    · rintro (h | h)
      · exact .inl h
      · exact .inr h.symm
  · simp

theorem any_repeats {prev : List IEnumValue} {v : IEnumValue} : prev.any (repeats · v) = true ↔ ∃ u ∈ prev.map clearDefault, Clash u v := by
  rw [List.any_eq_true]
  constructor
  · rintro ⟨u, hu, h⟩
    exact ⟨_, List.mem_map.2 ⟨u, hu, rfl⟩, repeats_iff.1 h⟩
  · rintro ⟨_, hu, h⟩
    obtain ⟨u, hu', rfl⟩ := List.mem_map.1 hu
    exact ⟨u, hu', repeats_iff.2 h⟩

/-- One value. -/
theorem validateStep_exact {st : EVState} {evs : List IEnumValue} (h : EVInv st evs) (v : IEnumValue) :
    ((∃ u ∈ evs, Clash u v) → ∃ ws, validateStep (st, evs) v = .ok (st, evs) ws) ∧
    ((¬ ∃ u ∈ evs, Clash u v) → (v.isDefault = true ∧ (∃ e ∈ evs, e.isDefault = true)) →
      validateStep (st, evs) v = .err (.process .multipleDefaults)) ∧
    ((¬ ∃ u ∈ evs, Clash u v) → ¬ (v.isDefault = true ∧ (∃ e ∈ evs, e.isDefault = true)) →
      ∃ st' ws, validateStep (st, evs) v = .ok (st', evs ++ [clearDefault v]) ws ∧ EVInv st' (evs ++ [clearDefault v])) := by
  have hsd : (∃ e ∈ evs, e.isDefault = true) ↔ st.seenDefault.isSome := by
    constructor
    · rintro ⟨e, he, hd⟩; rw [h.dflt e he hd]; rfl
    · intro hs
      obtain ⟨d, hd⟩ := Option.isSome_iff_exists.1 hs
      exact ⟨d, h.dflt' d hd⟩
  rw [hsd]
  cases hr : validateStep (st, evs) v with
  | ok r ws =>
    rcases validateStep_spec h v hr with ⟨hc, hr', -⟩ | ⟨hc, hr', hi, -, hd⟩
    · exact ⟨fun _ => ⟨ws, by rw [hr']⟩, fun hn => absurd hc hn, fun hn => absurd hc hn⟩
    · refine ⟨fun hn => absurd hn hc, ?_, ?_⟩
      · rintro - ⟨h1, h2⟩
        obtain ⟨e, he, h3⟩ := hsd.2 h2
        rw [hd h1 e he] at h3
        cases h3
      · rintro - -
        obtain ⟨st', evs'⟩ := r
        simp only at hr' hi
        subst hr'
        exact ⟨st', ws, rfl, hi⟩
  | err e =>
    have hcl := clash_iff h v
    unfold validateStep isValueValid at hr
    rw [M.bind_eq_err] at hr
    rcases hr with hr | ⟨_, _, -, hr⟩
    · split at hr
      · rw [M.bind_eq_err] at hr
        rcases hr with hr | ⟨_, _, -, hr⟩ <;> cases hr
      · rename_i h1
        split at hr
        · rw [M.bind_eq_err] at hr
          rcases hr with hr | ⟨_, _, -, hr⟩ <;> cases hr
        · rename_i h2
          have hnc : ¬ ∃ u ∈ evs, Clash u v := by
            rw [hcl]
            rintro (h3 | ⟨x, h3, h4⟩)
            · exact h1 (by simpa using h3)
            · rw [h3] at h2; exact h2 (by simpa [seenValue] using h4)
          rw [M.bind_eq_err] at hr
          rcases hr with hr | ⟨_, _, -, hr⟩
          · split at hr
            · rename_i hd
              rw [M.bind_eq_err] at hr
              rcases hr with hr | ⟨_, _, -, hr⟩
              · split at hr <;> cases hr
              · split at hr
                · rename_i d hs
                  injection hr with hr
                  refine ⟨fun hn => absurd hn hnc, fun _ _ => by rw [hr], fun _ hn => absurd ⟨hd, by rw [hs]; rfl⟩ hn⟩
                · cases hr
            · cases hr
          · cases hr
    · cases hr

theorem mem_cleared {l : List IEnumValue} : (∃ e ∈ l.map clearDefault, e.isDefault = true) ↔ ∃ e ∈ l, e.isDefault = true := by
  constructor
  · rintro ⟨_, he, h⟩
    obtain ⟨e, he', rfl⟩ := List.mem_map.1 he
    exact ⟨e, he', by rw [clearDefault_isDefault] at h; exact h⟩
  · rintro ⟨e, he, h⟩
    exact ⟨_, List.mem_map.2 ⟨e, he, rfl⟩, by rw [clearDefault_isDefault]; exact h⟩

/-- At most one default. -/
def One (l : List IEnumValue) : Prop := (l.filter (·.isDefault)).length ≤ 1

/-- All values. -/
theorem foldM_exact (vs : List IEnumValue) : ∀ (prev : List IEnumValue) (st : EVState), EVInv st (prev.map clearDefault) → One prev →
    (One (prev ++ keep prev vs) → ∃ st' ws, M.foldM validateStep (st, prev.map clearDefault) vs = .ok (st', (prev ++ keep prev vs).map clearDefault) ws ∧
      EVInv st' ((prev ++ keep prev vs).map clearDefault)) ∧
    (¬ One (prev ++ keep prev vs) → M.foldM validateStep (st, prev.map clearDefault) vs = .err (.process .multipleDefaults)) := by
  induction vs with
  | nil =>
    intro prev st h1 h2
    simp only [keep, List.append_nil]
    exact ⟨fun _ => ⟨st, [], rfl, h1⟩, fun h => absurd h2 h⟩
  | cons v vs ih =>
    intro prev st h1 h2
    obtain ⟨a1, a2, a3⟩ := validateStep_exact h1 v
    simp only [keep, M.foldM]
    by_cases hc : prev.any (repeats · v) = true
    · rw [if_pos hc]
      obtain ⟨w1, hs⟩ := a1 (any_repeats.1 hc)
      obtain ⟨b1, b2⟩ := ih prev st h1 h2
      refine ⟨fun h => ?_, fun h => ?_⟩
      · obtain ⟨st', w2, h3, h4⟩ := b1 h
        exact ⟨st', w1 ++ w2, M.bind_eq_ok.2 ⟨_, _, _, hs, h3, rfl⟩, h4⟩
      · exact M.bind_eq_err.2 (.inr ⟨_, _, hs, b2 h⟩)
    · rw [if_neg hc]
      have hc' := fun h => hc (any_repeats.2 h)
      rw [mem_cleared] at a2 a3
      by_cases hd : v.isDefault = true ∧ ∃ e ∈ prev, e.isDefault = true
      · have hno : ∀ l, ¬ One (prev ++ v :: l) := by
          intro l h
          unfold One at h
          rw [List.filter_append, List.filter_cons, if_pos hd.1] at h
          obtain ⟨e, he, h3⟩ := hd.2
          have : e ∈ prev.filter (·.isDefault) := List.mem_filter.2 ⟨he, h3⟩
          have := List.length_pos_of_mem this
          simp only [List.length_append, List.length_cons] at h
          omega
        exact ⟨fun h => absurd h (hno _), fun _ => M.bind_eq_err.2 (.inl (a2 hc' hd))⟩
      · obtain ⟨st1, w1, hs, hi⟩ := a3 hc' hd
        have e1 : prev.map clearDefault ++ [clearDefault v] = (prev ++ [v]).map clearDefault := by simp
        rw [e1] at hs hi
        have h2' : One (prev ++ [v]) := by
          unfold One at h2 ⊢
          rw [List.filter_append]
          by_cases hv : v.isDefault = true
          · have : prev.filter (·.isDefault) = [] := by
              rw [List.filter_eq_nil_iff]
              intro e he h3
              exact hd ⟨hv, e, he, h3⟩
            rw [this]
            simp [hv]
          · simpa [List.filter_cons, hv] using h2
        obtain ⟨b1, b2⟩ := ih (prev ++ [v]) st1 hi h2'
        have e2 : prev ++ v :: keep (prev ++ [v]) vs = (prev ++ [v]) ++ keep (prev ++ [v]) vs := by simp
        rw [e2]
        refine ⟨fun h => ?_, fun h => ?_⟩
        · obtain ⟨st', w2, h3, h4⟩ := b1 h
          exact ⟨st', w1 ++ w2, M.bind_eq_ok.2 ⟨_, _, _, hs, h3, rfl⟩, h4⟩
        · exact M.bind_eq_err.2 (.inr ⟨_, _, hs, b2 h⟩)

/-! ### the entries -/

theorem x_hashes (t : Str) : 'x' ∈ hashes t ↔ 'x' ∈ t := by
  unfold hashes
  rw [List.mem_flatMap]
  constructor
  · rintro ⟨c, hc, h⟩
    split at h
    · exact absurd h (by decide)
    · simp only [List.mem_singleton] at h
      subst h
      exact hc
  · intro h
    exact ⟨'x', h, by decide⟩

theorem reads_wild {lit : Str} {vs : List Int} (h : Reads lit vs) : hasWildcard lit = true ↔ Wild lit := by
  rw [hasWildcard_eq]
  have hx : (lower lit).contains 'x' = true ↔ 'x' ∈ spelled lit := by
    unfold spelled
    rw [x_hashes, lowerText_eq, List.contains_iff_mem]
  have h0x : ∀ r, lower lit = '0' :: 'x' :: r → spelled lit = '0' :: 'x' :: hashes r := by
    intro r hr
    unfold spelled
    rw [lowerText_eq, hr]
    unfold hashes
    simp only [List.flatMap_cons]
    rfl
  have hp : (s%"0x").isPrefixOf (lower lit) = true ↔ ∃ r, lower lit = '0' :: 'x' :: r := by
    match lower lit with
    | [] => simp [List.isPrefixOf]
    | [c] => simp [List.isPrefixOf]
    | c :: c' :: p =>
      simp only [List.isPrefixOf, Bool.and_true, Bool.and_eq_true, beq_iff_eq, List.cons.injEq]
      exact ⟨fun h => ⟨p, h.1.symm, h.2.symm, rfl⟩, fun ⟨_, h1, h2, _⟩ => ⟨h1.symm, h2.symm⟩⟩
  cases h with
  | dec h1 h2 =>
    have hn : 'x' ∉ spelled lit := fun h => absurd (h2 'x' h) (by unfold IsDec; decide)
    rw [if_neg fun h => by obtain ⟨r, hr⟩ := hp.1 h; exact hn (by rw [h0x r hr]; simp), hx]
    refine ⟨fun h => absurd h hn, ?_⟩
    rintro ⟨p, h3, -⟩
    exact absurd (h2 'b' (by rw [h3]; simp)) (by unfold IsDec; decide)
  | @hex us s t b h1 h2 h3 h4 =>
    have hr : ∃ r, lower lit = '0' :: 'x' :: r := by
      unfold spelled at h1
      rw [lowerText_eq] at h1
      unfold hashes at h1
      match hl : lower lit with
      | [] => rw [hl] at h1; simp at h1
      | [c] =>
        rw [hl] at h1
        simp only [List.flatMap_cons, List.flatMap_nil, List.append_nil] at h1
        split at h1 <;> simp at h1
      | c :: c' :: r =>
        rw [hl] at h1
        simp only [List.flatMap_cons] at h1
        by_cases hc : c = '#'
        · rw [if_pos hc] at h1; simp at h1
        · rw [if_neg hc] at h1
          simp only [List.cons_append, List.nil_append, List.cons.injEq] at h1
          obtain ⟨rfl, h1⟩ := h1
          by_cases hc' : c' = '#'
          · rw [if_pos hc'] at h1; simp at h1
          · rw [if_neg hc'] at h1
            simp only [List.cons_append, List.nil_append, List.cons.injEq] at h1
            obtain ⟨rfl, h1⟩ := h1
            exact ⟨r, rfl⟩
    rw [if_pos (hp.2 hr)]
    obtain ⟨r, hr⟩ := hr
    have e1 : lower (lit.drop 2) = r := by
      unfold lower at hr ⊢
      rw [List.map_drop, hr]
      rfl
    have e2 := h0x r hr
    rw [e2] at h1
    simp only [List.cons_append, List.nil_append, List.cons.injEq, true_and] at h1
    rw [e1, List.contains_iff_mem, ← x_hashes, h1]
    constructor
    · intro hm
      rw [List.mem_append, List.mem_append] at hm
      exfalso
      rcases hm with (hm | hm) | hm
      · rcases h2 with rfl | rfl
        · cases hm
        · revert hm; decide
      · rcases h3.chars 'x' hm with h | h
        · revert h; unfold IsHex; decide
        · revert h; decide
      · have := h4 'x' hm
        revert this; decide
    · rintro ⟨p, h5, -⟩
      rw [e2] at h5
      simp at h5
  | @bin p vs h1 h2 =>
    rw [if_neg fun h => by obtain ⟨r, hr⟩ := hp.1 h; rw [h0x r hr] at h1; simp at h1, hx]
    constructor
    · intro h
      refine ⟨p, h1, ?_⟩
      rw [h1] at h
      simpa using h
    · rintro ⟨p', h3, h4⟩
      rw [h3]
      simp [h4]

theorem expName_named {e : SEnumValue} {lit : Str} {vs : List Int} (he : e.value = some lit) (h : Reads lit vs) (v : Int) :
    NamedBy e.name lit v (expName e v) := by
  unfold NamedBy expName
  rw [he, ← reads_wild h, intText_eq]
  simp only
  constructor
  · intro hw; rw [if_pos hw]
  · intro hw; rw [if_neg hw]

theorem named_eq {e : SEnumValue} {lit : Str} {vs : List Int} (he : e.value = some lit) (h : Reads lit vs) {v : Int} {n : Str}
    (hn : NamedBy e.name lit v n) : n = expName e v := by
  have := expName_named he h v
  by_cases hw : Wild lit
  · rw [hn.1 hw, this.1 hw]
  · rw [hn.2 hw, this.2 hw]

/-- The values of one entry. -/
theorem offers_cons {e : SEnumValue} {es : List SEnumValue} {os : List IEnumValue} :
    Offers (e :: es) os ↔ ∃ vs ws os', resolveWildcard e = .ok vs ws ∧ os = vs ++ os' ∧ Offers es os' := by
  constructor
  · intro h
    cases h with
    | reserved h1 h2 h3 =>
      have h1 := reserved_iff.1 h1
      refine ⟨[], ?_⟩
      unfold resolveWildcard
      cases hv : e.value with
      | none =>
        refine ⟨_, os, M.bind_eq_ok.2 ⟨_, _, _, rfl, filterMapM_resolveOne_reserved h1 _, rfl⟩, rfl, h3⟩
      | some lit =>
        by_cases hl : lit = []
        · subst hl
          refine ⟨_, os, M.bind_eq_ok.2 ⟨[none], _, _, rfl, filterMapM_resolveOne_reserved h1 _, rfl⟩, rfl, h3⟩
        · obtain ⟨vs, hr⟩ := h2 lit hv hl
          have hc := (convert_reads lit vs).2 hr
          have : lit.isEmpty = false := by cases lit <;> simp_all
          simp only [this, Bool.false_eq_true, if_false, hc]
          refine ⟨_, os, M.bind_eq_ok.2 ⟨vs.map some, _, _, rfl, filterMapM_resolveOne_reserved h1 _, rfl⟩, rfl, h3⟩
    | @blank _ _ os' h1 h2 h3 =>
      have h1 := fun h => h1 (reserved_iff.2 h)
      refine ⟨[_], [] ++ [], os', ?_, rfl, h3⟩
      unfold resolveWildcard
      refine M.bind_eq_ok.2 ⟨[none], _, _, ?_, filterMapM_resolveOne h1 [none], rfl⟩
      rcases h2 with h2 | h2 <;> rw [h2] <;> rfl
    | @lit _ _ os' lit vs xs h1 h2 h3 h4 h5 h6 =>
      have h1 := fun h => h1 (reserved_iff.2 h)
      have hc := (convert_reads lit vs).2 h4
      have hx : xs = (vs.map some).map fun o => ({ name := (match o with | some v => expName e v | none => e.name), description := e.description, value := o, isDefault := e.isDefault.getD false } : IEnumValue) := by
        clear h6 hc
        rw [List.map_map]
        have : ∀ (l : List Int) (xs : List IEnumValue), Entrywise (fun v o => NamedBy e.name lit v o.name ∧ o.description = e.description ∧ o.value = some v ∧
            o.isDefault = e.isDefault.getD false) l xs → xs = l.map fun v => (⟨expName e v, e.description, some v, e.isDefault.getD false⟩ : IEnumValue) := by
          intro l xs h
          induction h with
          | nil => rfl
          | @cons x y _ _ h _ ih =>
            obtain ⟨n, d, vl, b⟩ := y
            simp only at h
            obtain ⟨a1, rfl, rfl, rfl⟩ := h
            rw [List.map_cons, ih, named_eq h2 h4 a1]
        exact this vs xs h5
      refine ⟨xs, [] ++ [], os', ?_, rfl, h6⟩
      have : lit.isEmpty = false := by cases lit <;> simp_all
      unfold resolveWildcard
      rw [h2]
      simp only [this, Bool.false_eq_true, if_false, hc]
      rw [hx]
      exact M.bind_eq_ok.2 ⟨vs.map some, _, _, rfl, filterMapM_resolveOne h1 _, rfl⟩
  · rintro ⟨vs, ws, os', h, rfl, h2⟩
    obtain ⟨l, -, hl, hn⟩ := resolveWildcard_spec h
    rcases hn with ⟨hn, rfl, -⟩ | ⟨hn, -, rfl⟩
    · refine .reserved (reserved_iff.2 hn) (fun lit h3 h4 => ?_) h2
      rcases hl with ⟨h5, -⟩ | ⟨lit', ints, h5, -, h6, -⟩
      · exact absurd (h5 lit h3) h4
      · rw [h3] at h5
        injection h5 with h5
        subst h5
        exact ⟨ints, (convert_reads _ _).1 h6⟩
    · have hn' : ¬ Reserved e.name := fun h => hn (reserved_iff.1 h)
      rcases hl with ⟨h5, rfl⟩ | ⟨lit, ints, h5, h5', h6, rfl⟩
      · refine .blank hn' ?_ h2
        cases hv : e.value with
        | none => exact .inl rfl
        | some lit => exact .inr (by rw [h5 lit hv])
      · have hr := (convert_reads _ _).1 h6
        refine .lit hn' h5 h5' hr ?_ h2
        rw [List.map_map]
        have : ∀ l : List Int, Entrywise (fun v (o : IEnumValue) => NamedBy e.name lit v o.name ∧ o.description = e.description ∧ o.value = some v ∧
            o.isDefault = e.isDefault.getD false) l (l.map fun v => (⟨expName e v, e.description, some v, e.isDefault.getD false⟩ : IEnumValue)) := by
          intro l
          induction l with
          | nil => exact .nil
          | cons x xs ih => exact .cons ⟨expName_named h5 hr x, rfl, rfl, rfl⟩ ih
        exact this ints

/-- An entry whose literal cannot be read. -/
theorem resolveWildcard_err {e : SEnumValue} {x : Exn} (h : resolveWildcard e = .err x) : ∃ p, x = .process p := by
  unfold resolveWildcard at h
  rw [M.bind_eq_err] at h
  rcases h with h | ⟨l, _, -, h⟩
  · split at h
    · split at h
      · cases h
      · rw [M.bind_eq_err] at h
        rcases h with h | ⟨_, _, -, h⟩
        · exact convert_err h
        · cases h
    · cases h
  · by_cases hn : lower e.name = s%"reserved"
    · rw [filterMapM_resolveOne_reserved hn] at h; cases h
    · rw [filterMapM_resolveOne hn] at h; cases h

/-- The loop over the entries. -/
theorem loop_exact (es : List SEnumValue) : ∀ (prev : List IEnumValue) (st : EVState), EVInv st (prev.map clearDefault) → One prev →
    (∀ os, Offers es os → One (prev ++ keep prev os) → ∃ st' ws, validateLoop (st, prev.map clearDefault) es = .ok (st', (prev ++ keep prev os).map clearDefault) ws ∧
      EVInv st' ((prev ++ keep prev os).map clearDefault)) ∧
    ((¬ ∃ os, Offers es os ∧ One (prev ++ keep prev os)) → ∃ p, validateLoop (st, prev.map clearDefault) es = .err (.process p)) := by
  induction es with
  | nil =>
    intro prev st h1 h2
    refine ⟨fun os h _ => ?_, fun h => ?_⟩
    · cases h
      simp only [keep, List.append_nil]
      exact ⟨st, [], rfl, h1⟩
    · exact absurd ⟨[], .nil, by simpa [keep] using h2⟩ h
  | cons e es ih =>
    intro prev st h1 h2
    have hL : validateLoop (st, prev.map clearDefault) (e :: es) =
        M.bind (M.bind (resolveWildcard e) fun vs => M.foldM validateStep (st, prev.map clearDefault) vs) fun acc => validateLoop acc es := rfl
    rw [hL]
    cases hr : resolveWildcard e with
    | err x =>
      obtain ⟨p, rfl⟩ := resolveWildcard_err hr
      refine ⟨fun os h => ?_, fun _ => ⟨p, rfl⟩⟩
      obtain ⟨vs, ws, os', h3, -⟩ := offers_cons.1 h
      rw [hr] at h3
      cases h3
    | ok vs ws =>
      obtain ⟨b1, b2⟩ := foldM_exact vs prev st h1 h2
      have mono : ∀ os', One (prev ++ keep prev (vs ++ os')) → One (prev ++ keep prev vs) := by
        intro os' h
        rw [keep_append] at h
        unfold One at h ⊢
        simp only [List.filter_append, List.length_append] at h ⊢
        omega
      have step : ∀ st' w, M.foldM validateStep (st, prev.map clearDefault) vs = .ok (st', (prev ++ keep prev vs).map clearDefault) w →
          M.bind (M.bind (M.ok vs ws) fun vs => M.foldM validateStep (st, prev.map clearDefault) vs) (fun acc => validateLoop acc es) =
            M.bind (M.ok (st', (prev ++ keep prev vs).map clearDefault) (ws ++ w)) fun acc => validateLoop acc es := by
        intro st' w h
        have : M.bind (M.ok vs ws) (fun vs => M.foldM validateStep (st, prev.map clearDefault) vs) = M.ok (st', (prev ++ keep prev vs).map clearDefault) (ws ++ w) :=
          M.bind_eq_ok.2 ⟨_, _, _, rfl, h, rfl⟩
        rw [this]
      refine ⟨fun os h ho => ?_, fun h => ?_⟩
      · obtain ⟨vs', ws', os', h3, rfl, h4⟩ := offers_cons.1 h
        rw [hr] at h3
        injection h3 with h3 _
        subst h3
        obtain ⟨st', w, h5, h6⟩ := b1 (mono _ ho)
        obtain ⟨c1, -⟩ := ih (prev ++ keep prev vs) st' h6 (mono _ ho)
        rw [keep_append] at ho
        obtain ⟨st2, w2, h7, h8⟩ := c1 os' h4 (by simpa using ho)
        rw [keep_append, ← List.append_assoc]
        exact ⟨st2, _, by rw [step _ _ h5]; exact M.bind_eq_ok.2 ⟨_, _, _, rfl, h7, rfl⟩, h8⟩
      · by_cases ho : One (prev ++ keep prev vs)
        · obtain ⟨st', w, h5, h6⟩ := b1 ho
          obtain ⟨-, c2⟩ := ih (prev ++ keep prev vs) st' h6 ho
          obtain ⟨p, hp⟩ := c2 (by
            rintro ⟨os', h7, h8⟩
            refine h ⟨vs ++ os', offers_cons.2 ⟨vs, ws, os', hr, rfl, h7⟩, ?_⟩
            rw [keep_append]
            simpa using h8)
          exact ⟨p, by rw [step _ _ h5]; exact M.bind_eq_err.2 (.inr ⟨_, _, rfl, hp⟩)⟩
        · exact ⟨_, M.bind_eq_err.2 (.inl (M.bind_eq_err.2 (.inr ⟨_, _, rfl, b2 ho⟩)))⟩

theorem offers_unique {es : List SEnumValue} : ∀ {os os' : List IEnumValue}, Offers es os → Offers es os' → os = os' := by
  induction es with
  | nil => intro os os' h h'; cases h; cases h'; rfl
  | cons e es ih =>
    intro os os' h h'
    obtain ⟨vs, ws, o1, h1, rfl, h2⟩ := offers_cons.1 h
    obtain ⟨vs', ws', o2, h1', rfl, h2'⟩ := offers_cons.1 h'
    rw [h1] at h1'
    injection h1' with h3 _
    rw [h3, ih h2 h2']

/-- The whole loop. -/
theorem loop_all (es : List SEnumValue) :
    (∀ os, Offers es os → One (keep [] os) → ∃ st ws, validateLoop ({}, []) es = .ok (st, (keep [] os).map clearDefault) ws ∧ EVInv st ((keep [] os).map clearDefault)) ∧
    ((¬ ∃ os, Offers es os ∧ One (keep [] os)) → ∃ p, validateLoop ({}, []) es = .err (.process p)) := by
  have := loop_exact es [] {} EVInv.init (by unfold One; simp)
  simpa using this

theorem values_accepted {es : List SEnumValue} {lsb msb : Int} :
    (∃ vs ws, processEnumValues es lsb msb = .ok vs ws) ↔ Acceptable es (msb - lsb + 1) := by
  obtain ⟨h1, h2⟩ := loop_all es
  constructor
  · rintro ⟨vs, ws, h⟩
    by_cases ho : ∃ os, Offers es os ∧ One (keep [] os)
    · obtain ⟨os, h3, h4⟩ := ho
      refine ⟨os, h3, h4, ?_⟩
      rintro ⟨o, ho, hd⟩
      obtain ⟨st, w, h5, h6⟩ := h1 os h3 h4
      obtain ⟨st', evs, h7, -, h8⟩ := processEnumValues_spec h
      rw [h5] at h7
      injection h7 with h7 _
      simp only [Prod.mk.injEq] at h7
      obtain ⟨rfl, rfl⟩ := h7
      rcases h8 with ⟨h8, -⟩ | ⟨d, -, h8, -⟩
      · have := h6.dflt (clearDefault o) (List.mem_map.2 ⟨o, ho, rfl⟩) (by rw [clearDefault_isDefault]; exact hd)
        rw [h8] at this
        cases this
      · exact h8
    · obtain ⟨p, h5⟩ := h2 ho
      unfold processEnumValues at h
      rw [h5] at h
      cases h
  · rintro ⟨os, h3, h4, h5⟩
    obtain ⟨st, w, h6, h7⟩ := h1 os h3 h4
    unfold processEnumValues
    rw [h6]
    have : ∃ evs' w', (match st.seenDefault with
        | some d => extendDefault ((keep [] os).map clearDefault) d lsb msb
        | none => M.pure ((keep [] os).map clearDefault)) = .ok evs' w' := by
      cases hs : st.seenDefault with
      | none => exact ⟨_, _, rfl⟩
      | some d =>
        obtain ⟨hd, hd'⟩ := h7.dflt' d hs
        have hw := h5 (mem_cleared.1 ⟨d, hd, hd'⟩)
        unfold extendDefault
        simp only
        rw [if_neg (by omega)]
        exact ⟨_, _, rfl⟩
    obtain ⟨evs', w', h8⟩ := this
    exact ⟨_, _, M.bind_eq_ok.2 ⟨_, _, _, rfl, M.bind_eq_ok.2 ⟨_, _, _, h8, rfl, rfl⟩, rfl⟩⟩

theorem container_accepts {c : SEnumContainer} {lsb msb : Int} :
    (∃ k ws, createContainer c lsb msb = .ok k ws) ↔ Acceptable c.values (msb - lsb + 1) := by
  rw [← values_accepted]
  unfold createContainer
  constructor
  · rintro ⟨k, ws, h⟩
    obtain ⟨vs, w1, w2, h1, -, -⟩ := M.bind_eq_ok.1 h
    exact ⟨vs, w1, h1⟩
  · rintro ⟨vs, ws, h⟩
    exact ⟨_, _, M.bind_eq_ok.2 ⟨_, _, _, h, rfl, rfl⟩⟩

/-- A container is refused with a ProcessException, or, if there is a default value for a field of negative width, with a TypeError. -/
theorem container_refused {c : SEnumContainer} {lsb msb : Int} {e : Exn} (h : createContainer c lsb msb = .err e) :
    (∃ p, e = .process p ∧ ¬ ∃ os, Offers c.values os ∧ One (keep [] os)) ∨ (e = .typeError ∧ msb - lsb + 1 < 0) := by
  obtain ⟨h1, h2⟩ := loop_all c.values
  by_cases ho : ∃ os, Offers c.values os ∧ One (keep [] os)
  · obtain ⟨os, h3, h4⟩ := ho
    obtain ⟨st, w, h5, h6⟩ := h1 os h3 h4
    unfold createContainer processEnumValues at h
    rw [h5] at h
    rw [M.bind_eq_err] at h
    rcases h with h | ⟨_, _, -, h⟩
    · rw [M.bind_eq_err] at h
      rcases h with h | ⟨_, _, h7, h⟩
      · cases h
      · injection h7 with h7 _
        subst h7
        simp only at h
        rw [M.bind_eq_err] at h
        rcases h with h | ⟨_, _, -, h⟩
        · split at h
          · unfold extendDefault at h
            split at h
            · rename_i hw
              injection h with h
              exact .inr ⟨h.symm, hw⟩
            · cases h
          · cases h
        · cases h
    · cases h
  · obtain ⟨p, h5⟩ := h2 ho
    unfold createContainer processEnumValues at h
    rw [h5] at h
    injection h with h
    exact .inl ⟨p, h.symm, ho⟩

theorem inRange_iff {v w : Int} : inFieldRange v w = true ↔ 0 ≤ v ∧ 0 ≤ w ∧ v < 2 ^ w.toNat := by
  rw [inFieldRange_iff, mem_fieldValues]
  constructor
  · rintro ⟨a, b, c⟩; exact ⟨b, a, c⟩
  · rintro ⟨a, b, c⟩; exact ⟨b, a, c⟩

/-- The values of a processed container. -/
theorem values_exact {es : List SEnumValue} {lsb msb : Int} {vs : List IEnumValue} {out : List EnumValue} {w1 w2 : List Warn}
    (h1 : processEnumValues es lsb msb = .ok vs w1) (h2 : finalizeEnumValues vs lsb msb = .ok out w2) : ValuesOf es (msb - lsb + 1) out := by
  obtain ⟨os, h3, h4, h5⟩ := values_accepted.1 ⟨vs, w1, h1⟩
  obtain ⟨st, w, h6, h7⟩ := (loop_all es).1 os h3 h4
  obtain ⟨st', evs, h8, -, h9⟩ := processEnumValues_spec h1
  rw [h6] at h8
  injection h8 with h8 _
  simp only [Prod.mk.injEq] at h8
  obtain ⟨rfl, rfl⟩ := h8
  obtain ⟨f1, f2, -⟩ := finalizeEnumValues_spec h2
  have hmem : ∀ v, v ∈ out ↔ inFieldRange v.value (msb - lsb + 1) = true ∧ ∃ b, (⟨v.name, v.description, some v.value, b⟩ : IEnumValue) ∈ vs := by
    intro v
    rw [f2, List.mem_map]
    constructor
    · rintro ⟨u, hu, rfl⟩
      obtain ⟨hu, hr⟩ := List.mem_filter.1 hu
      obtain ⟨x, hx⟩ := Option.isSome_iff_exists.1 (f1 u hu)
      obtain ⟨n, ds, vl, b⟩ := u
      simp only at hx
      subst hx
      exact ⟨hr, b, hu⟩
    · rintro ⟨hr, b, hb⟩
      exact ⟨_, List.mem_filter.2 ⟨hb, hr⟩, rfl⟩
  have kept : ∀ n ds x, (⟨n, ds, some x, false⟩ : IEnumValue) ∈ keep [] os ↔ ∃ b, (⟨n, ds, some x, b⟩ : IEnumValue) ∈ (keep [] os).map clearDefault := by
    intro n ds x
    constructor
    · intro h
      exact ⟨false, List.mem_map.2 ⟨_, h, rfl⟩⟩
    · rintro ⟨b, h⟩
      obtain ⟨u, hu, he⟩ := List.mem_map.1 h
      obtain ⟨n', d', v', b'⟩ := u
      unfold clearDefault at he
      cases b'
      · simp only [Bool.false_eq_true, if_false] at he
        injection he with a1 a2 a3 a4
        subst a1; subst a2; subst a3
        exact hu
      · simp at he
  have vals : ∀ x : Int, some x ∈ ((keep [] os).map clearDefault).map (·.value) ↔ ∃ u ∈ keep [] os, u.isDefault = false ∧ u.value = some x := by
    intro x
    rw [List.map_map, List.mem_map]
    constructor
    · rintro ⟨u, hu, he⟩
      refine ⟨u, hu, ?_⟩
      simp only [Function.comp_apply] at he
      unfold clearDefault at he
      cases hb : u.isDefault
      · rw [hb] at he; simpa using he
      · rw [hb] at he; simp at he
    · rintro ⟨u, hu, hb, he⟩
      refine ⟨u, hu, ?_⟩
      simp only [Function.comp_apply]
      unfold clearDefault
      rw [hb]; simpa using he
  refine ⟨os, h3, (enumCore h1 h2).1, ?_, ?_, h4⟩
  · intro v
    rw [hmem, inRange_iff]
    unfold ValueOf
    rw [intText_eq]
    have : ∀ {A B C P Q : Prop}, (A ∧ B ∧ C → (P ↔ Q)) → ((A ∧ B ∧ C) ∧ P ↔ A ∧ B ∧ C ∧ Q) := by
      intro A B C P Q h
      constructor
      · rintro ⟨⟨a, b, c⟩, p⟩; exact ⟨a, b, c, (h ⟨a, b, c⟩).1 p⟩
      · rintro ⟨a, b, c, q⟩; exact ⟨⟨a, b, c⟩, (h ⟨a, b, c⟩).2 q⟩
    refine this fun hr => ?_
    rcases h9 with ⟨h9, rfl⟩ | ⟨d, h9, hw, rfl⟩
    · have nod : ∀ o ∈ keep [] os, o.isDefault = false := by
        intro o ho
        cases hb : o.isDefault
        · rfl
        · have := h7.dflt (clearDefault o) (List.mem_map.2 ⟨o, ho, rfl⟩) (by rw [clearDefault_isDefault]; exact hb)
          rw [h9] at this
          cases this
      simp only [(sortBy_perm _).mem_iff]
      rw [kept]
      constructor
      · intro h; exact .inl h
      · rintro (h | ⟨o, ho, hb, -⟩)
        · exact h
        · rw [nod o ho] at hb; cases hb
    · simp only [(sortBy_perm _).mem_iff, List.mem_append]
      obtain ⟨hd, hd'⟩ := h7.dflt' d h9
      obtain ⟨d0, hd0, rfl⟩ := List.mem_map.1 hd
      rw [clearDefault_isDefault] at hd'
      constructor
      · rintro ⟨b, h | h⟩
        · exact .inl ((kept _ _ _).2 ⟨b, (List.mem_filter.1 h).1⟩)
        · obtain ⟨x, hx, he⟩ := List.mem_map.1 h
          injection he with a1 a2 a3 a4
          injection a3 with a3
          subst a3
          refine .inr ⟨d0, hd0, hd', by rw [← a1, clearDefault_name], by rw [← a2, clearDefault_description], ?_⟩
          intro u hu hb he
          have := (List.mem_filter.1 hx).2
          simp only [decide_eq_true_eq] at this
          exact this ((vals _).2 ⟨u, hu, hb, he⟩)
      · rintro (h | ⟨o, ho, hb, hn, hds, hv⟩)
        · refine ⟨false, .inl (List.mem_filter.2 ⟨?_, rfl⟩)⟩
          exact List.mem_map.2 ⟨_, h, rfl⟩
        · have hod : clearDefault o = clearDefault d0 := by
            have := h7.dflt (clearDefault o) (List.mem_map.2 ⟨o, ho, rfl⟩) (by rw [clearDefault_isDefault]; exact hb)
            rw [h9] at this
            injection this with this
            exact this.symm
          refine ⟨false, .inr (List.mem_map.2 ⟨v.value, List.mem_filter.2 ⟨?_, ?_⟩, ?_⟩)⟩
          · exact (mem_fieldValues _ _).2 ⟨hr.1, hr.2.2⟩
          · simp only [decide_eq_true_eq]
            intro h
            obtain ⟨u, hu, hb', he⟩ := (vals _).1 h
            exact hv u hu hb' he
          · rw [← hod, clearDefault_name, clearDefault_description, ← hn, ← hds]
  · intro o ho hb hv
    have : ∃ u ∈ vs, u.value = none := by
      refine ⟨o, ?_, hv⟩
      have hc : clearDefault o = o := by unfold clearDefault; rw [hb]; rfl
      have hm : o ∈ (keep [] os).map clearDefault := List.mem_map.2 ⟨o, ho, hc⟩
      rcases h9 with ⟨-, rfl⟩ | ⟨d, -, -, rfl⟩
      · exact (sortBy_perm _).mem_iff.2 hm
      · refine (sortBy_perm _).mem_iff.2 (List.mem_append.2 (.inl (List.mem_filter.2 ⟨hm, by rw [hb]; rfl⟩)))
    obtain ⟨u, hu, hn⟩ := this
    have := f1 u hu
    rw [hn] at this
    cases this

end Svd
