import Verif.Lemmas.EnumConv
import Verif.Lemmas.Reserved
/- Which literals are accepted, and what they denote. -/
namespace Svd
open Spec

theorem lowerC_eq_of_small {c d : Char} (h : lowerC c = d) (hd : ¬ (97 ≤ d.toNat ∧ d.toNat ≤ 122)) : c = d := by
  by_cases hc : 65 ≤ c.toNat ∧ c.toNat ≤ 90
  · have := lowerC_upper c hc
    rw [h] at this
    omega
  · rw [lowerC_small c hc] at h; exact h

theorem lowerC_eq_cases {c d : Char} (h : lowerC c = d) : c = d ∨ c.toNat + 32 = d.toNat := by
  by_cases hc : 65 ≤ c.toNat ∧ c.toNat ≤ 90
  · have := lowerC_upper c hc
    rw [h] at this
    exact Or.inr this.symm
  · rw [lowerC_small c hc] at h; exact Or.inl h

theorem char_eq_of_toNat {c d : Char} (h : c.toNat = d.toNat) : c = d := by
  rw [← char_ofNat_toNat c, ← char_ofNat_toNat d, h]

theorem plain_lower {c : Char} (h : PlainC c) : PlainC (lowerC c) := by
  by_cases hc : 65 ≤ c.toNat ∧ c.toNat ≤ 90
  · have h1 := lowerC_upper c hc
    have aux : ∀ d : Char, ¬ (97 ≤ d.toNat ∧ d.toNat ≤ 122) → lowerC c ≠ d := by
      rintro d hd rfl; omega
    refine ⟨aux _ (by decide), aux _ (by decide), aux _ (by decide), ?_⟩
    unfold isSpaceC
    simp only [h1]
    simp
    omega
  · rw [lowerC_small c hc]; exact h

theorem pattern_of_lower {t : Str} (h : LPat (lower t)) (hne : lower t ≠ []) : IsPattern t := by
  refine ⟨by rintro rfl; exact hne rfl, ?_⟩
  intro c hc
  have := h (lowerC c) (List.mem_map.2 ⟨c, hc, rfl⟩)
  rcases this with h1 | h1 | h1
  · exact Or.inl (lowerC_eq_of_small h1 (by decide))
  · exact Or.inr (Or.inl (lowerC_eq_of_small h1 (by decide)))
  · rcases lowerC_eq_cases h1 with h2 | h2
    · exact Or.inr (Or.inr (Or.inl h2))
    · exact Or.inr (Or.inr (Or.inr (char_eq_of_toNat (by simpa using h2))))

theorem bin_accept {t : Str} {vs : List Int} (hp : ∀ c ∈ t, PlainC c) (hb : 'b' ∉ t ∧ 'B' ∉ t)
    (hv : binaryWithWildcard (lower t) = some vs) : IsPattern t := by
  have := binaryWithWildcard_accept (lower_idem t) ?_ hv
  · exact pattern_of_lower this.1 this.2
  · intro c hc
    obtain ⟨d, hd, rfl⟩ := List.mem_map.1 hc
    refine ⟨plain_lower (hp d hd), ?_⟩
    intro h
    rcases lowerC_eq_cases h with h1 | h1
    · exact hb.1 (h1 ▸ hd)
    · have : d = 'B' := char_eq_of_toNat (by simpa using h1)
      exact hb.2 (this ▸ hd)

theorem hex_accept {t : Str} {v : Int} (hp : ∀ c ∈ t, PlainC c) (hv : pyInt 16 ('0' :: 'x' :: t) = some v) :
    t ≠ [] ∧ ∀ c ∈ t, IsHex c := by
  rw [pyInt_plain] at hv
  · cases hu : unsignedInt 16 ('0' :: 'x' :: t) with
    | none => rw [hu] at hv; cases hv
    | some n =>
    have hn : digitsAfterPrefix 16 t = some n := hu
    have hd : digits 16 t = some n := by
      unfold digitsAfterPrefix at hn
      split at hn
      · exact absurd rfl (hp '_' (by simp)).1
      · exact hn
    have hc := digitsGo_chars hd (plain_no_underscore hp)
    refine ⟨hc.2 rfl, fun c hcm => ?_⟩
    obtain ⟨d, h1, -⟩ := hc.1 c hcm
    exact digitVal_isHex h1
  · intro c hc
    simp only [List.mem_cons] at hc
    rcases hc with rfl | rfl | hc
    · unfold PlainC; decide
    · unfold PlainC; decide
    · exact hp c hc

/-- Plain literals are accepted only if they are well-formed. -/
theorem convert_accept {lit : Str} {vs : List Int} {ws : List Warn} (hpl : PlainLit lit)
    (h : convertEnumValue lit = .ok vs ws) : WellFormedLit lit := by
  obtain ⟨hp, hh, hb⟩ := hpl
  have hp' : ∀ c ∈ lit, PlainC c := by unfold PlainC; rw [← isSpace_eq]; exact hp
  unfold convertEnumValue at h
  simp only at h
  cases lit with
  | nil => simp [lower, replaceAll, replaceGo, isDigitStr, List.isPrefixOf] at h
  | cons c t =>
    by_cases hc : c = '#'
    · subst hc
      have hs : replaceAll ['#'] (s%"0b") (lower ('#' :: t)) = '0' :: 'b' :: lower t := by
        have ht : '#' ∉ lower t := by
          intro hm
          obtain ⟨d, hd, hl⟩ := List.mem_map.1 hm
          have := lowerC_eq_of_small hl (by decide)
          exact hh (by simpa [this] using hd)
        have : lower ('#' :: t) = ['#'] ++ lower t := rfl
        rw [this, replaceAll_single, List.flatMap_append, ← replaceAll_single, ← replaceAll_single,
          replaceAll_single_not_mem _ _ (lower t) ht]
        rfl
      rw [hs] at h
      simp only [List.isPrefixOf, BEq.rfl, Bool.and_self, if_true, List.drop_succ_cons, List.drop_zero,
        M.ofOption_eq_ok] at h
      exact Or.inr (Or.inr ⟨['#'], t, Or.inr (Or.inr rfl),
        bin_accept (fun c hc => hp' c (by simp [hc])) (hb ['#'] t (Or.inr (Or.inr rfl)) rfl) h.1, rfl⟩)
    · have hs : replaceAll ['#'] (s%"0b") (lower (c :: t)) = lower (c :: t) := by
        apply replaceAll_single_not_mem
        intro hm
        obtain ⟨d, hd, hl⟩ := List.mem_map.1 hm
        have := lowerC_eq_of_small hl (by decide)
        subst this
        rcases List.mem_cons.1 hd with h1 | h1
        · exact hc h1.symm
        · exact hh (by simpa using h1)
      rw [hs] at h
      have two : ∀ a : Char, (['0', a]).isPrefixOf (lower (c :: t)) = true →
          ∃ b t', t = b :: t' ∧ c = '0' ∧ lowerC b = a := by
        intro a ha
        cases t with
        | nil => simp [lower, List.isPrefixOf] at ha
        | cons b t' =>
          simp only [lower, List.map_cons, List.isPrefixOf, Bool.and_true, Bool.and_eq_true, beq_iff_eq] at ha
          exact ⟨b, t', rfl, lowerC_eq_of_small ha.1.symm (by decide), ha.2.symm⟩
      split at h
      · rename_i hpre
        obtain ⟨b, t', rfl, rfl, hb'⟩ := two 'b' hpre
        have hbb : b = 'b' ∨ b = 'B' := by
          rcases lowerC_eq_cases hb' with h1 | h1
          · exact Or.inl h1
          · exact Or.inr (char_eq_of_toNat (by simpa using h1))
        have hbp : BinPrefix ['0', b] := by
          rcases hbb with rfl | rfl
          · exact Or.inl rfl
          · exact Or.inr (Or.inl rfl)
        simp only [lower, List.map_cons, List.drop_succ_cons, List.drop_zero, M.ofOption_eq_ok] at h
        exact Or.inr (Or.inr ⟨['0', b], t', hbp,
          bin_accept (fun c hc => hp' c (by simp [hc])) (hb ['0', b] t' hbp rfl) h.1, rfl⟩)
      · split at h
        · rename_i hpre
          obtain ⟨b, t', rfl, rfl, hb'⟩ := two 'x' hpre
          have hbb : b = 'x' ∨ b = 'X' := by
            rcases lowerC_eq_cases hb' with h1 | h1
            · exact Or.inl h1
            · exact Or.inr (char_eq_of_toNat (by simpa using h1))
          simp only [lower, List.map_cons, M.ofOption_eq_ok, Option.map_eq_some_iff, hb'] at h
          obtain ⟨⟨v, hv, -⟩, -⟩ := h
          have h0 : lowerC '0' = '0' := by decide
          rw [h0] at hv
          have := hex_accept (t := t'.map lowerC) ?_ hv
          · refine Or.inr (Or.inl ⟨['0', b], t', by rcases hbb with rfl | rfl <;> simp, ?_, ?_, rfl⟩)
            · rintro rfl; exact this.1 rfl
            · intro c hc
              exact isHex_lower.1 (this.2 _ (List.mem_map.2 ⟨c, hc, rfl⟩))
          · intro c hc
            obtain ⟨d, hd, rfl⟩ := List.mem_map.1 hc
            exact plain_lower (hp' d (by simp [hd]))
        · split at h
          · rename_i hd
            left
            refine ⟨by simp, ?_⟩
            intro a ha
            unfold isDigitStr at hd
            simp only [Bool.and_eq_true, List.all_eq_true] at hd
            have h2 := hd.2 (lowerC a) (List.mem_map.2 ⟨a, ha, rfl⟩)
            have h3 := isDec_iff.2 h2
            have h4 : ¬ (97 ≤ (lowerC a).toNat ∧ (lowerC a).toNat ≤ 122) := by
              unfold IsDec at h3
              have e9 : '9'.toNat = 57 := by decide
              omega
            rw [← lowerC_eq_of_small rfl h4] at h3
            exact h3
          · simp at h

/-- The values of a well-formed literal are exactly the integers it denotes, ascending. -/
theorem convert_wellFormed {lit : Str} (h : WellFormedLit lit) :
    ∃ vs, convertEnumValue lit = .ok vs [] ∧ Ascending vs ∧ ∀ v, v ∈ vs → Denotes lit v := by
  rcases h with ⟨h1, h2⟩ | ⟨pre, s, h1, h2, h3, rfl⟩ | ⟨pre, p, h1, h2, rfl⟩
  · exact ⟨_, convert_dec h1 h2, by simp [Ascending], by simpa using .dec h1 h2⟩
  · exact ⟨_, convert_hex h1 h2 h3, by simp [Ascending], by simpa using .hex h1 h2 h3⟩
  · have hl := lower_pattern h2
    refine ⟨_, convert_bin h1 h2, patVals_ascending _ hl.1, ?_⟩
    intro v hv
    rw [patVals_mem_int _ hl.1, matches_lower h2] at hv
    exact .bin h1 h2 hv

theorem denotes_wellFormed {lit : Str} {v : Int} (h : Denotes lit v) : WellFormedLit lit := by
  cases h with
  | dec h1 h2 => exact Or.inl ⟨h1, h2⟩
  | hex h1 h2 h3 => exact Or.inr (Or.inl ⟨_, _, h1, h2, h3, rfl⟩)
  | bin h1 h2 _ => exact Or.inr (Or.inr ⟨_, _, h1, h2, rfl⟩)

theorem convert_denotes {lit : Str} {v : Int} (h : Denotes lit v) :
    ∃ vs, convertEnumValue lit = .ok vs [] ∧ v ∈ vs := by
  cases h with
  | dec h1 h2 => exact ⟨_, convert_dec h1 h2, by simp⟩
  | hex h1 h2 h3 => exact ⟨_, convert_hex h1 h2 h3, by simp⟩
  | bin h1 h2 h3 =>
    have hl := lower_pattern h2
    refine ⟨_, convert_bin h1 h2, ?_⟩
    rw [patVals_mem_int _ hl.1, matches_lower h2]
    exact h3

end Svd
