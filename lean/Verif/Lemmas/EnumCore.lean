import Verif.Lemmas.EnumVal
/- The values of a container through processing and finalisation. -/
namespace Svd
open Spec

theorem extendDefault_spec {evs : List IEnumValue} {d : IEnumValue} {lsb msb : Int} {evs' : List IEnumValue}
    {ws : List Warn} (h : extendDefault evs d lsb msb = .ok evs' ws) :
    0 ≤ msb - lsb + 1 ∧
    evs' = evs.filter (fun v => !v.isDefault) ++
      ((fieldValues (msb - lsb + 1).toNat).filter fun v => decide (some v ∉ evs.map (·.value))).map
        (fun v => { name := d.name ++ '_' :: intStr v, description := d.description, value := some v,
                    isDefault := false }) ∧ ws = [] := by
  unfold extendDefault at h
  split at h
  · simp at h
  · rename_i hw
    simp only [M.pure_eq_ok] at h
    obtain ⟨h, rfl⟩ := h
    refine ⟨by omega, ?_, rfl⟩
    rw [← h, List.filter_append]
    congr 1
    rw [List.filter_eq_self.2]
    · congr 1
      apply List.filter_congr
      intro v _
      have : (evs.filterMap (·.value)).contains v = decide (some v ∈ evs.map (·.value)) := by
        rw [Bool.eq_iff_iff]
        simp [List.mem_filterMap]
      simp only [this, decide_not]
    · intro a ha
      obtain ⟨v, _, rfl⟩ := List.mem_map.1 ha
      rfl

/-- The result of processing a container before sorting. -/
theorem processEnumValues_spec {ps : List SEnumValue} {lsb msb : Int} {vs : List IEnumValue} {ws : List Warn}
    (h : processEnumValues ps lsb msb = .ok vs ws) :
    ∃ st evs, validateLoop ({}, []) ps = .ok (st, evs) ws ∧ EVInv st evs ∧
      ((st.seenDefault = none ∧ vs = sortBy evKeyLe evs) ∨
       ∃ d, st.seenDefault = some d ∧ 0 ≤ msb - lsb + 1 ∧ vs = sortBy evKeyLe (evs.filter (fun v => !v.isDefault) ++
        ((fieldValues (msb - lsb + 1).toNat).filter fun v => decide (some v ∉ evs.map (·.value))).map
          (fun v => { name := d.name ++ '_' :: intStr v, description := d.description, value := some v,
                      isDefault := false }))) := by
  unfold processEnumValues at h
  simp only [M.bind_eq_ok, M.pure_eq_ok] at h
  obtain ⟨⟨st, evs⟩, w1, w2, h1, ⟨evs', w3, w4, h2, ⟨rfl, rfl⟩, rfl⟩, rfl⟩ := h
  have hinv := (validateLoop_spec EVInv.init ps h1).1
  simp only at h2
  cases hd : st.seenDefault with
  | none =>
    rw [hd] at h2
    simp only [M.pure_eq_ok] at h2
    obtain ⟨rfl, rfl⟩ := h2
    exact ⟨st, evs, by simpa using h1, hinv, Or.inl ⟨hd, rfl⟩⟩
  | some d =>
    rw [hd] at h2
    simp only at h2
    obtain ⟨h3, h4, rfl⟩ := extendDefault_spec h2
    exact ⟨st, evs, by simpa using h1, hinv, Or.inr ⟨d, hd, h3, by rw [h4]⟩⟩

theorem map_getD_filter_mem {evs : List IEnumValue} (hs : ∀ v ∈ evs, v.value.isSome) (x : Int) :
    x ∈ evs.map (fun v => v.value.getD 0) ↔ some x ∈ evs.map (·.value) := by
  simp only [List.mem_map]
  constructor
  · rintro ⟨v, hv, rfl⟩
    obtain ⟨y, hy⟩ := Option.isSome_iff_exists.1 (hs v hv)
    exact ⟨v, hv, by simp [hy]⟩
  · rintro ⟨v, hv, h⟩
    exact ⟨v, hv, by simp [h]⟩

/-- The values written into the processed container are ascending and in range; and complete if there is a default. -/
theorem enumCore {ps : List SEnumValue} {lsb msb : Int} {vs : List IEnumValue} {out : List EnumValue}
    {w1 w2 : List Warn} (h1 : processEnumValues ps lsb msb = .ok vs w1)
    (h2 : finalizeEnumValues vs lsb msb = .ok out w2) :
    Ascending (out.map (·.value)) ∧ (∀ v ∈ out, 0 ≤ v.value ∧ v.value < 2 ^ (msb - lsb + 1).toNat) ∧
    (∀ st evs w, validateLoop ({}, []) ps = .ok (st, evs) w → st.seenDefault.isSome →
      out.map (·.value) = fieldValues (msb - lsb + 1).toNat) := by
  obtain ⟨hsome, rfl, rfl⟩ := finalizeEnumValues_spec h2
  obtain ⟨st, evs, hl, hinv, hcases⟩ := processEnumValues_spec h1
  have hmap : ∀ l : List IEnumValue,
      (l.map (fun v => ({ name := v.name, description := v.description, value := v.value.getD 0 } : EnumValue))).map
        (·.value) = l.map fun v => v.value.getD 0 := by
    intro l; simp [List.map_map, Function.comp]
  -- distinct values before sorting
  have hasc : Ascending (vs.map fun v => v.value.getD 0) := by
    rcases hcases with ⟨-, rfl⟩ | ⟨d, -, hw, rfl⟩
    · exact sorted_ascending (values_nodup hinv.noClash fun v hv => hsome v (by simpa using hv))
    · apply sorted_ascending
      have hs' : ∀ v ∈ evs.filter (fun v => !v.isDefault), v.value.isSome := by
        intro v hv
        exact hsome v (by simp only [mem_sortBy, List.mem_append]; exact Or.inl hv)
      rw [List.map_append, List.pairwise_append]
      refine ⟨values_nodup (hinv.noClash.sublist (List.filter_sublist)) hs', ?_, ?_⟩
      · rw [List.map_map]
        have : ((fun v : IEnumValue => v.value.getD 0) ∘ fun v : Int =>
            ({ name := d.name ++ '_' :: intStr v, description := d.description, value := some v,
               isDefault := false } : IEnumValue)) = id := by funext v; rfl
        rw [this, List.map_id]
        exact ((fieldValues_ascending _).sublist (List.filter_sublist)).imp (by intro a b h; omega)
      · intro a ha b hb hab
        subst hab
        rw [map_getD_filter_mem hs'] at ha
        simp only [List.mem_map, List.mem_filter, decide_eq_true_eq] at ha hb
        obtain ⟨u, ⟨hu, -⟩, hua⟩ := ha
        obtain ⟨_, ⟨x, ⟨-, hx⟩, rfl⟩, rfl⟩ := hb
        exact hx ⟨u, hu, by simpa using hua⟩
  have hfilter : (vs.filter fun v => inFieldRange (v.value.getD 0) (msb - lsb + 1)).map (fun v => v.value.getD 0)
      = (vs.map fun v => v.value.getD 0).filter fun x => inFieldRange x (msb - lsb + 1) := by
    rw [List.filter_map]; rfl
  rw [hmap, hfilter]
  refine ⟨hasc.sublist (List.filter_sublist), ?_, ?_⟩
  · intro v hv
    obtain ⟨u, hu, rfl⟩ := List.mem_map.1 hv
    have hr := (List.mem_filter.1 hu).2
    rw [inFieldRange_iff, mem_fieldValues] at hr
    exact hr.2
  · intro st' evs' w' hl' hd
    rw [hl] at hl'
    simp only [M.ok.injEq, Prod.mk.injEq] at hl'
    obtain ⟨⟨rfl, rfl⟩, rfl⟩ := hl'
    rcases hcases with ⟨hn, -⟩ | ⟨d, hd', hw, rfl⟩
    · rw [hn] at hd; cases hd
    · refine ascending_ext (hasc.sublist (List.filter_sublist)) (fieldValues_ascending _) ?_
      intro x
      simp only [List.mem_filter, inFieldRange_iff]
      constructor
      · rintro ⟨-, -, h⟩; exact h
      · intro hx
        refine ⟨?_, hw, hx⟩
        by_cases hc : some x ∈ evs.map (·.value)
        · obtain ⟨u, hu, hux⟩ := List.mem_map.1 hc
          refine List.mem_map.2 ⟨u, ?_, by simp [hux]⟩
          simp only [mem_sortBy, List.mem_append, List.mem_filter]
          refine Or.inl ⟨hu, ?_⟩
          cases hud : u.isDefault with
          | false => rfl
          | true => have := hinv.cleared u hu hud; rw [this] at hux; cases hux
        · refine List.mem_map.2 ⟨{ name := d.name ++ '_' :: intStr x, description := d.description, value := some x,
                                   isDefault := false }, ?_, ?_⟩
          · simp only [mem_sortBy, List.mem_append, List.mem_map, List.mem_filter]
            exact Or.inr ⟨x, ⟨hx, by simpa using hc⟩, rfl⟩
          · rfl

/-- Which default is seen by the validator. -/
theorem foldM_seenDefault {st : EVState} {evs : List IEnumValue} (h : EVInv st evs) {vs : List IEnumValue}
    {r : EVState × List IEnumValue} {ws : List Warn} (hr : M.foldM validateStep (st, evs) vs = .ok r ws) :
    r.1.seenDefault.isSome ↔ ∃ e ∈ r.2, e.isDefault = true := by
  have hi := (validate_foldM h vs hr).1
  constructor
  · intro hs
    obtain ⟨d, hd⟩ := Option.isSome_iff_exists.1 hs
    exact ⟨d, hi.dflt' d hd⟩
  · rintro ⟨e, he, hd⟩
    rw [hi.dflt e he hd]; rfl

end Svd
