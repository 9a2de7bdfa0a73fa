import Verif.Spec.Notes
import Verif.Lemmas.EnumExact
import Verif.Lemmas.Reserved
/-
The warnings of `createContainer` are those that the entries call for.
-/
namespace Svd
open Spec

/-- One value. -/
theorem notes_step {st : EVState} {prev : List IEnumValue} (h : EVInv st (prev.map clearDefault)) (v : IEnumValue)
    {r : EVState × List IEnumValue} {ws : List Warn} (hr : validateStep (st, prev.map clearDefault) v = .ok r ws) (w : Warn) :
    w ∈ ws ↔ ValueNote prev v w := by
  have hn : v.name ∈ st.seenNames ↔ ∃ u ∈ prev, u.name = v.name := by
    rw [h.names, List.mem_map]
    constructor
    · rintro ⟨_, hu, h1⟩
      obtain ⟨u, hu', rfl⟩ := List.mem_map.1 hu
      refine ⟨u, hu', ?_⟩
      rw [← h1]; unfold clearDefault; split <;> rfl
    · rintro ⟨u, hu, h1⟩
      refine ⟨_, List.mem_map.2 ⟨u, hu, rfl⟩, ?_⟩
      rw [← h1]; unfold clearDefault; split <;> rfl
  have hv : ∀ x, x ∈ st.seenValues ↔ ∃ u ∈ prev, u.isDefault = false ∧ u.value = some x := by
    intro x
    rw [h.vals, List.mem_map]
    constructor
    · rintro ⟨_, hu, h1⟩
      obtain ⟨u, hu', rfl⟩ := List.mem_map.1 hu
      unfold clearDefault at h1
      split at h1
      · cases h1
      · rename_i hd
        exact ⟨u, hu', by simpa using hd, h1⟩
    · rintro ⟨u, hu, h1, h2⟩
      exact ⟨_, List.mem_map.2 ⟨u, hu, rfl⟩, by unfold clearDefault; rw [h1]; exact h2⟩
  have hrep : prev.any (repeats · v) = true ↔ (v.name ∈ st.seenNames ∨ ∃ x, v.value = some x ∧ x ∈ st.seenValues) := by
    rw [any_repeats, clash_iff h]
  unfold validateStep isValueValid at hr
  simp only [M.bind_eq_ok] at hr
  obtain ⟨⟨st', o⟩, w1, w2, h1, h2, rfl⟩ := hr
  simp only [M.pure_eq_ok] at h2
  obtain ⟨rfl, rfl⟩ := h2
  rw [List.append_nil]
  split at h1
  · rename_i hc
    have hc' : v.name ∈ st.seenNames := by simpa using hc
    simp only [M.bind_eq_ok, M.warn_eq_ok, M.pure_eq_ok, Prod.mk.injEq] at h1
    obtain ⟨_, _, _, rfl, ⟨⟨rfl, rfl⟩, rfl⟩, rfl⟩ := h1
    constructor
    · intro hw
      obtain ⟨u, hu, h3⟩ := hn.1 hc'
      simp at hw
      subst hw
      exact .name hu h3
    · intro hw
      cases hw with
      | name => simp
      | number h3 =>
        obtain ⟨u, hu, h4⟩ := hn.1 hc'
        exact absurd h4 (h3 u hu)
      | default h3 => rw [hrep.2 (.inl hc')] at h3; cases h3
  · rename_i hc
    have hc' : v.name ∉ st.seenNames := by simpa using hc
    have hno : ∀ u ∈ prev, u.name ≠ v.name := fun u hu h3 => hc' (hn.2 ⟨u, hu, h3⟩)
    by_cases hs : seenValue st v.value = true
    · rw [if_pos hs] at h1
      simp only [M.bind_eq_ok, M.warn_eq_ok, M.pure_eq_ok, Prod.mk.injEq] at h1
      obtain ⟨_, _, _, rfl, ⟨⟨rfl, rfl⟩, rfl⟩, rfl⟩ := h1
      cases hx : v.value with
      | none => rw [hx] at hs; cases hs
      | some x =>
        have hx' : x ∈ st.seenValues := by rw [hx] at hs; simpa [seenValue] using hs
        constructor
        · intro hw
          obtain ⟨u, hu, h3, h4⟩ := (hv x).1 hx'
          simp at hw
          subst hw
          exact .number hno hu h3 h4 hx
        · intro hw
          cases hw with
          | name hu h3 => exact absurd h3 (hno _ hu)
          | number _ _ _ _ h3 => rw [hx] at h3; injection h3 with h3; subst h3; simp
          | default h3 => rw [hrep.2 (.inr ⟨x, hx, hx'⟩)] at h3; cases h3
    · rw [if_neg hs] at h1
      have hns : ¬ ∃ x, v.value = some x ∧ x ∈ st.seenValues := by
        rintro ⟨x, h3, h4⟩
        apply hs
        rw [h3]
        simpa [seenValue] using h4
      have hrf : prev.any (repeats · v) = false := by
        rw [Bool.eq_false_iff]
        intro h3
        rcases hrep.1 h3 with h3 | h3
        · exact hc' h3
        · exact hns h3
      have rest : ∀ w, ValueNote prev v w ↔ v.isDefault = true ∧ ∃ x, v.value = some x ∧ w = .enumDefaultHasValue v.name x := by
        intro w
        constructor
        · intro hw
          cases hw with
          | name hu h3 => exact absurd h3 (hno _ hu)
          | number _ hu h3 h4 h5 => exact absurd ⟨_, h5, (hv _).2 ⟨_, hu, h3, h4⟩⟩ hns
          | default _ h3 h4 => exact ⟨h3, _, h4, rfl⟩
        · rintro ⟨h3, x, h4, rfl⟩
          exact .default hrf h3 h4
      rw [rest]
      rw [M.bind_eq_ok] at h1
      obtain ⟨⟨st2, v2⟩, w3, w4, h3, h4, rfl⟩ := h1
      simp only [M.pure_eq_ok] at h4
      obtain ⟨-, rfl⟩ := h4
      rw [List.append_nil]
      split at h3
      · rename_i hd
        rw [M.bind_eq_ok] at h3
        obtain ⟨_, w5, w6, h5, h6, rfl⟩ := h3
        split at h6
        · cases h6
        · simp only [M.pure_eq_ok] at h6
          obtain ⟨-, rfl⟩ := h6
          rw [List.append_nil]
          cases hx : v.value with
          | none =>
            rw [hx] at h5
            simp only [M.pure_eq_ok] at h5
            obtain ⟨-, rfl⟩ := h5
            simp
          | some x =>
            rw [hx] at h5
            simp only [M.warn_eq_ok] at h5
            subst h5
            simp [hd]
      · rename_i hd
        simp only [M.pure_eq_ok] at h3
        obtain ⟨-, rfl⟩ := h3
        simp [hd]

/-- The values `os` offered after `prev` call for the warning. -/
def OfferNote (prev os : List IEnumValue) (w : Warn) : Prop := ∃ a v b, os = a ++ v :: b ∧ ValueNote (prev ++ keep prev a) v w

theorem offerNote_cons {prev : List IEnumValue} {v : IEnumValue} {os : List IEnumValue} {w : Warn} :
    OfferNote prev (v :: os) w ↔ ValueNote prev v w ∨ OfferNote (prev ++ keep prev [v]) os w := by
  have hk : ∀ a, prev ++ keep prev (v :: a) = prev ++ keep prev [v] ++ keep (prev ++ keep prev [v]) a := by
    intro a
    have := keep_append [v] a prev
    rw [List.singleton_append] at this
    rw [this, List.append_assoc]
  constructor
  · rintro ⟨a, u, b, h1, h2⟩
    cases a with
    | nil =>
      simp only [List.nil_append, List.cons.injEq] at h1
      obtain ⟨rfl, rfl⟩ := h1
      exact .inl (by simpa [keep] using h2)
    | cons x a =>
      simp only [List.cons_append, List.cons.injEq] at h1
      obtain ⟨rfl, rfl⟩ := h1
      rw [hk] at h2
      exact .inr ⟨a, u, b, rfl, h2⟩
  · rintro (h | ⟨a, u, b, rfl, h2⟩)
    · exact ⟨[], v, os, rfl, by simpa [keep] using h⟩
    · exact ⟨v :: a, u, b, rfl, by rw [hk]; exact h2⟩

theorem offerNote_append (xs ys : List IEnumValue) (w : Warn) : ∀ prev : List IEnumValue,
    OfferNote prev (xs ++ ys) w ↔ OfferNote prev xs w ∨ OfferNote (prev ++ keep prev xs) ys w := by
  induction xs with
  | nil =>
    intro prev
    have : ¬ OfferNote prev [] w := by rintro ⟨a, v, b, h, -⟩; cases a <;> cases h
    simp [keep, this]
  | cons v xs ih =>
    intro prev
    rw [List.cons_append, offerNote_cons, offerNote_cons, ih, or_assoc]
    have := keep_append [v] xs prev
    rw [List.singleton_append] at this
    rw [this, List.append_assoc]

/-- What becomes of the values kept. -/
theorem step_kept {st : EVState} {prev : List IEnumValue} (h : EVInv st (prev.map clearDefault)) (v : IEnumValue)
    {r : EVState × List IEnumValue} {ws : List Warn} (hr : validateStep (st, prev.map clearDefault) v = .ok r ws) :
    r.2 = (prev ++ keep prev [v]).map clearDefault ∧ EVInv r.1 r.2 := by
  rcases validateStep_spec h v hr with ⟨hc, rfl, -⟩ | ⟨hc, hr', hi, -, -⟩
  · have : prev.any (repeats · v) = true := any_repeats.2 hc
    simp only [keep, this, if_true, List.append_nil]
    exact ⟨trivial, h⟩
  · have : prev.any (repeats · v) = false := by
      rw [Bool.eq_false_iff]; exact fun h => hc (any_repeats.1 h)
    refine ⟨?_, hi⟩
    rw [hr']
    simp [keep, this]

theorem notes_fold (vs : List IEnumValue) : ∀ (prev : List IEnumValue) (st : EVState), EVInv st (prev.map clearDefault) →
    ∀ {r : EVState × List IEnumValue} {ws : List Warn}, M.foldM validateStep (st, prev.map clearDefault) vs = .ok r ws →
    (∀ w, w ∈ ws ↔ OfferNote prev vs w) ∧ r.2 = (prev ++ keep prev vs).map clearDefault ∧ EVInv r.1 r.2 := by
  induction vs with
  | nil =>
    intro prev st h r ws hr
    have : M.foldM validateStep (st, prev.map clearDefault) [] = M.pure (st, prev.map clearDefault) := rfl
    rw [this, M.pure_eq_ok] at hr
    obtain ⟨rfl, rfl⟩ := hr
    refine ⟨fun w => ⟨(fun h => by cases h), ?_⟩, by simp [keep], h⟩
    rintro ⟨a, v, b, h, -⟩
    cases a <;> cases h
  | cons v vs ih =>
    intro prev st h r ws hr
    have hL : M.foldM validateStep (st, prev.map clearDefault) (v :: vs) =
        M.bind (validateStep (st, prev.map clearDefault) v) fun acc => M.foldM validateStep acc vs := rfl
    rw [hL, M.bind_eq_ok] at hr
    obtain ⟨⟨st1, evs⟩, w1, w2, h1, h2, rfl⟩ := hr
    obtain ⟨h3, h4⟩ := step_kept h v h1
    simp only at h3 h4
    subst h3
    obtain ⟨h5, h6, h7⟩ := ih _ _ h4 h2
    refine ⟨fun w => ?_, ?_, h7⟩
    · rw [List.mem_append, notes_step h v h1, h5, offerNote_cons]
    · have := keep_append [v] vs prev
      rw [List.singleton_append] at this
      rw [h6, this, List.append_assoc]

theorem notes_loop (es : List SEnumValue) : ∀ (prev : List IEnumValue) (st : EVState), EVInv st (prev.map clearDefault) →
    ∀ {r : EVState × List IEnumValue} {ws : List Warn}, validateLoop (st, prev.map clearDefault) es = .ok r ws →
    ∃ os, Offers es os ∧ ∀ w, w ∈ ws ↔ (w = .enumReserved ∧ ∃ e ∈ es, Reserved e.name) ∨ OfferNote prev os w := by
  induction es with
  | nil =>
    intro prev st h r ws hr
    have : validateLoop (st, prev.map clearDefault) [] = M.pure (st, prev.map clearDefault) := rfl
    rw [this, M.pure_eq_ok] at hr
    obtain ⟨rfl, rfl⟩ := hr
    refine ⟨[], .nil, fun w => ⟨(fun h => by cases h), ?_⟩⟩
    rintro (⟨-, e, he, -⟩ | ⟨a, v, b, h, -⟩)
    · cases he
    · cases a <;> cases h
  | cons e es ih =>
    intro prev st h r ws hr
    have hL : validateLoop (st, prev.map clearDefault) (e :: es) =
        M.bind (M.bind (resolveWildcard e) fun vs => M.foldM validateStep (st, prev.map clearDefault) vs) fun acc => validateLoop acc es := rfl
    rw [hL, M.bind_eq_ok] at hr
    obtain ⟨⟨st1, evs⟩, w1, w2, h1, h2, rfl⟩ := hr
    rw [M.bind_eq_ok] at h1
    obtain ⟨vs, w3, w4, h3, h4, rfl⟩ := h1
    obtain ⟨h5, h6, h7⟩ := notes_fold vs prev st h h4
    simp only at h6 h7
    subst h6
    obtain ⟨os, h8, h9⟩ := ih _ _ h7 h2
    refine ⟨vs ++ os, offers_cons.2 ⟨vs, w3, os, h3, rfl, h8⟩, fun w => ?_⟩
    have hw3 : w ∈ w3 ↔ w = .enumReserved ∧ Reserved e.name := by
      obtain ⟨l, hne, -, h10⟩ := resolveWildcard_spec h3
      rcases h10 with ⟨h10, -, rfl⟩ | ⟨h10, rfl, -⟩
      · rw [reserved_iff]
        obtain ⟨y, l', rfl⟩ := List.exists_cons_of_ne_nil hne
        simp only [List.mem_map, h10, and_true]
        constructor
        · rintro ⟨_, -, rfl⟩; rfl
        · rintro rfl; exact ⟨y, by simp, rfl⟩
      · rw [reserved_iff]
        simp [h10]
    rw [List.mem_append, List.mem_append, hw3, h5, h9, offerNote_append]
    constructor
    · rintro ((⟨a, b⟩ | a) | (⟨a, e', b, c⟩ | a))
      · exact .inl ⟨a, e, by simp, b⟩
      · exact .inr (.inl a)
      · exact .inl ⟨a, e', by simp [b], c⟩
      · exact .inr (.inr a)
    · rintro (⟨a, e', b, c⟩ | a | a)
      · rcases List.mem_cons.1 b with rfl | b
        · exact .inl (.inl ⟨a, c⟩)
        · exact .inr (.inl ⟨a, e', b, c⟩)
      · exact .inl (.inr a)
      · exact .inr (.inr a)

theorem extendDefault_quiet {evs : List IEnumValue} {dflt : IEnumValue} {lsb msb : Int} {l : List IEnumValue} {ws : List Warn}
    (h : extendDefault evs dflt lsb msb = .ok l ws) : ws = [] := by
  unfold extendDefault at h
  split at h
  · cases h
  · simp only [M.pure_eq_ok] at h
    exact h.2

/-- The warnings of a container. -/
theorem container_notes {c : SEnumContainer} {lsb msb : Int} {k : IEnumContainer} {ws : List Warn}
    (h : createContainer c lsb msb = .ok k ws) (w : Warn) : w ∈ ws ↔ EntriesNote c.values w := by
  unfold createContainer processEnumValues at h
  simp only [M.bind_eq_ok, M.pure_eq_ok] at h
  obtain ⟨vs, w1, w2, ⟨⟨st, evs⟩, w3, w4, h1, ⟨evs', w5, w6, h2, ⟨-, rfl⟩, rfl⟩, rfl⟩, ⟨-, rfl⟩, rfl⟩ := h
  have hw5 : w5 = [] := by
    simp only at h2
    split at h2
    · exact extendDefault_quiet h2
    · simp only [M.pure_eq_ok] at h2; exact h2.2
  subst hw5
  simp only [List.append_nil]
  obtain ⟨os, h3, h4⟩ := notes_loop c.values [] {} EVInv.init h1
  rw [h4]
  constructor
  · rintro (⟨rfl, e, he, hn⟩ | ⟨a, v, b, rfl, hn⟩)
    · exact .reserved he hn
    · exact .value h3 (by simpa using hn)
  · intro hn
    cases hn with
    | reserved he hn => exact .inl ⟨rfl, _, he, hn⟩
    | value ho hn =>
      have := offers_unique ho h3
      subst this
      exact .inr ⟨_, _, _, rfl, by simpa using hn⟩

end Svd
