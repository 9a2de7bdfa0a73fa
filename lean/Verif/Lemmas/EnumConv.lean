import Verif.Lemmas.EnumVal
/- Decimal, hexadecimal and binary literals; characterisation of accepted literals. -/
namespace Svd
open Spec

theorem char_ofNat_toNat (c : Char) : Char.ofNat c.toNat = c := Char.ofNat_toNat c

theorem lowerC_small (c : Char) (h : ¬ (65 ≤ c.toNat ∧ c.toNat ≤ 90)) : lowerC c = c := by
  unfold lowerC; rw [if_neg h]

theorem toNat_ofNat_small {n : Nat} (h : n < 128) : (Char.ofNat n).toNat = n := by
  have : ∀ k : Fin 128, (Char.ofNat k.1).toNat = k.1 := by decide +kernel
  exact this ⟨n, h⟩

theorem lowerC_upper (c : Char) (h : 65 ≤ c.toNat ∧ c.toNat ≤ 90) : (lowerC c).toNat = c.toNat + 32 := by
  unfold lowerC; rw [if_pos h]; exact toNat_ofNat_small (by omega)

theorem isDec_digitVal {c : Char} (h : IsDec c) : digitVal c = some (decDigit c) ∧ decDigit c < 10 ∧ c ≠ '_' := by
  unfold IsDec at h
  have h0 : '0'.toNat = 48 := by decide
  have h9 : '9'.toNat = 57 := by decide
  rw [h0, h9] at h
  refine ⟨?_, ?_, ?_⟩
  · unfold digitVal decDigit; simp [h0]; intro h1; omega
  · unfold decDigit; omega
  · rintro rfl
    have : '_'.toNat = 95 := by decide
    omega

theorem isHex_digitVal {c : Char} (h : IsHex c) : digitVal c = some (hexDigit c) ∧ hexDigit c < 16 ∧ c ≠ '_' := by
  unfold IsHex at h
  have e1 : '0'.toNat = 48 := by decide
  have e2 : '9'.toNat = 57 := by decide
  have e3 : 'a'.toNat = 97 := by decide
  have e4 : 'f'.toNat = 102 := by decide
  have e5 : 'A'.toNat = 65 := by decide
  have e6 : 'F'.toNat = 70 := by decide
  rw [e1, e2, e3, e4, e5, e6] at h
  have hu : c ≠ '_' := by
    rintro rfl
    have : '_'.toNat = 95 := by decide
    omega
  refine ⟨?_, ?_, hu⟩
  · unfold digitVal hexDigit
    simp only [e1, e3, e5]
    rcases h with h | h | h
    · rw [if_pos h, if_neg (by omega), if_neg (by omega)]
    · rw [if_neg (by omega), if_pos h, if_pos (by omega)]; congr 1; omega
    · rw [if_neg (by omega), if_neg (by omega), if_pos h, if_neg (by omega), if_pos (by omega)]; congr 1; omega
  · unfold hexDigit
    simp only [e1, e3, e5]
    split
    · omega
    · split <;> omega

theorem digitVal_isHex {c : Char} {d : Nat} (h : digitVal c = some d) : IsHex c := by
  unfold digitVal at h
  unfold IsHex
  have e1 : '0'.toNat = 48 := by decide
  have e2 : '9'.toNat = 57 := by decide
  have e3 : 'a'.toNat = 97 := by decide
  have e4 : 'f'.toNat = 102 := by decide
  have e5 : 'A'.toNat = 65 := by decide
  have e6 : 'F'.toNat = 70 := by decide
  rw [e1, e2, e3, e4, e5, e6]
  simp only at h
  split at h
  · rename_i h'; exact Or.inl h'
  · split at h
    · rename_i h'; exact Or.inr (Or.inl h')
    · split at h
      · rename_i h'; exact Or.inr (Or.inr h')
      · cases h

theorem isDec_iff {c : Char} : IsDec c ↔ isDigitC c = true := by
  unfold IsDec isDigitC
  have h0 : '0'.toNat = 48 := by decide
  have h9 : '9'.toNat = 57 := by decide
  rw [h0, h9]; simp

theorem isDec_lower {c : Char} (h : IsDec c) : lowerC c = c := by
  apply lowerC_small
  unfold IsDec at h
  have h9 : '9'.toNat = 57 := by decide
  omega

theorem isHex_lower {c : Char} : IsHex (lowerC c) ↔ IsHex c := by
  unfold IsHex
  have e1 : '0'.toNat = 48 := by decide
  have e2 : '9'.toNat = 57 := by decide
  have e3 : 'a'.toNat = 97 := by decide
  have e4 : 'f'.toNat = 102 := by decide
  have e5 : 'A'.toNat = 65 := by decide
  have e6 : 'F'.toNat = 70 := by decide
  rw [e1, e2, e3, e4, e5, e6]
  by_cases h : 65 ≤ c.toNat ∧ c.toNat ≤ 90
  · rw [lowerC_upper c h]; omega
  · rw [lowerC_small c h]

theorem hexDigit_lower {c : Char} (hc : IsHex c) : hexDigit (lowerC c) = hexDigit c := by
  unfold IsHex at hc
  unfold hexDigit
  have e1 : '0'.toNat = 48 := by decide
  have e2 : '9'.toNat = 57 := by decide
  have e3 : 'a'.toNat = 97 := by decide
  have e4 : 'f'.toNat = 102 := by decide
  have e5 : 'A'.toNat = 65 := by decide
  have e6 : 'F'.toNat = 70 := by decide
  rw [e1, e2, e3, e4, e5, e6] at hc
  rw [e1, e3, e5]
  by_cases h : 65 ≤ c.toNat ∧ c.toNat ≤ 90
  · rw [lowerC_upper c h, if_pos (by omega), if_neg (by omega), if_pos (by omega)]; omega
  · rw [lowerC_small c h]

theorem numeral_lower_hex {s : Str} (h : ∀ c ∈ s, IsHex c) : numeral hexDigit 16 (lower s) = numeral hexDigit 16 s := by
  induction s with
  | nil => rfl
  | cons c s ih =>
    show numeral hexDigit 16 (lowerC c :: lower s) = _
    rw [numeral_cons, numeral_cons, ih (fun d hd => h d (by simp [hd])), hexDigit_lower (h c (by simp))]
    simp [lower]

theorem hex_no_space {c : Char} (h : IsHex c) : isSpaceC c = false := by
  unfold IsHex at h
  have e1 : '0'.toNat = 48 := by decide
  have e2 : '9'.toNat = 57 := by decide
  have e3 : 'a'.toNat = 97 := by decide
  have e4 : 'f'.toNat = 102 := by decide
  have e5 : 'A'.toNat = 65 := by decide
  have e6 : 'F'.toNat = 70 := by decide
  rw [e1, e2, e3, e4, e5, e6] at h
  have : ∀ k : Fin 128, 33 ≤ k.1 → isSpaceC (Char.ofNat k.1) = false := by decide +kernel
  have := this ⟨c.toNat, by omega⟩ (by simp only; omega)
  simp only [char_ofNat_toNat] at this
  exact this

theorem dec_isHex {c : Char} (h : IsDec c) : IsHex c := Or.inl h

theorem lower_dec {s : Str} (h : ∀ c ∈ s, IsDec c) : lower s = s := by
  unfold lower
  have : s.map lowerC = s.map id := List.map_congr_left (fun c hc => isDec_lower (h c hc))
  rw [this]; simp

theorem hash_not_hex : ¬ IsHex '#' := by unfold IsHex; decide

/-! ### decimal -/

theorem convert_dec {s : Str} (hne : s ≠ []) (h : ∀ c ∈ s, IsDec c) :
    convertEnumValue s = .ok [(numeral decDigit 10 s : Int)] [] := by
  have hno : '#' ∉ s := fun hh => hash_not_hex (dec_isHex (h _ hh))
  unfold convertEnumValue
  rw [lower_dec h, replaceAll_single_not_mem _ _ _ hno]
  have hb : ¬ (s%"0b").isPrefixOf s = true := by
    intro hp
    have := List.isPrefixOf_iff_prefix.1 hp
    have : 'b' ∈ s := this.subset (by simp)
    have := h _ this
    revert this; unfold IsDec; decide
  have hx : ¬ (s%"0x").isPrefixOf s = true := by
    intro hp
    have := List.isPrefixOf_iff_prefix.1 hp
    have : 'x' ∈ s := this.subset (by simp)
    have := h _ this
    revert this; unfold IsDec; decide
  have hd : isDigitStr s = true := by
    unfold isDigitStr
    simp only [Bool.and_eq_true, Bool.not_eq_true', List.all_eq_true]
    exact ⟨by cases s <;> simp_all, fun c hc => isDec_iff.1 (h c hc)⟩
  have hns : ∀ t, s ≠ '-' :: t := by
    rintro t rfl
    have := h '-' (by simp)
    revert this; unfold IsDec; decide
  have hps : ∀ t, s ≠ '+' :: t := by
    rintro t rfl
    have := h '+' (by simp)
    revert this; unfold IsDec; decide
  simp only [hb, hx, hd, if_false, if_true, Bool.false_eq_true]
  rw [pyInt_noSign (strip_of_no_space fun c hc => hex_no_space (dec_isHex (h c hc))) hns hps]
  have : unsignedInt 10 s = digits 10 s := rfl
  rw [this, digits_numeral (val := decDigit) s (fun c hc => isDec_digitVal (h c hc)) hne]
  rfl

/-! ### hexadecimal -/

theorem digitsAfterPrefix_hex {s : Str} (hne : s ≠ []) (h : ∀ c ∈ s, IsHex c) :
    digitsAfterPrefix 16 s = some (numeral hexDigit 16 s) := by
  have : digitsAfterPrefix 16 s = digits 16 s := by
    unfold digitsAfterPrefix
    split
    · have := (isHex_digitVal (h '_' (by simp))).2.2
      exact absurd rfl this
    · rfl
  rw [this, digits_numeral (val := hexDigit) s (fun c hc => isHex_digitVal (h c hc)) hne]

theorem convert_hex {pre s : Str} (hpre : pre = s%"0x" ∨ pre = s%"0X") (hne : s ≠ []) (h : ∀ c ∈ s, IsHex c) :
    convertEnumValue (pre ++ s) = .ok [(numeral hexDigit 16 s : Int)] [] := by
  have hl : ∀ c ∈ lower s, IsHex c := by
    intro c hc
    obtain ⟨d, hd, rfl⟩ := List.mem_map.1 hc
    exact isHex_lower.2 (h d hd)
  have hno : '#' ∉ lower s := fun hh => hash_not_hex (hl _ hh)
  have hlow : lower (pre ++ s) = '0' :: 'x' :: lower s := by
    rcases hpre with rfl | rfl <;> rfl
  unfold convertEnumValue
  rw [hlow, replaceAll_single_not_mem _ _ _ (by simp [hno])]
  have hb : ¬ (s%"0b").isPrefixOf ('0' :: 'x' :: lower s) = true := by simp [List.isPrefixOf]
  have hx : (s%"0x").isPrefixOf ('0' :: 'x' :: lower s) = true := by simp [List.isPrefixOf]
  simp only [hb, hx, if_false, if_true]
  rw [pyInt_noSign (strip_of_no_space ?_) (by simp) (by simp)]
  · have : unsignedInt 16 ('0' :: 'x' :: lower s) = digitsAfterPrefix 16 (lower s) := rfl
    rw [this, digitsAfterPrefix_hex (by simpa [lower] using hne) hl, numeral_lower_hex h]
    rfl
  · intro c hc
    simp only [List.mem_cons] at hc
    rcases hc with rfl | rfl | hc
    · decide
    · decide
    · exact hex_no_space (hl c hc)

/-! ### binary without don't-care bits -/

theorem convert_bits {pre s : Str} (hpre : BinPrefix pre) (hne : s ≠ []) (h : ∀ c ∈ s, IsBin c) :
    convertEnumValue (pre ++ s) = .ok [(numeral decDigit 2 s : Int)] [] := by
  have hp : IsPattern s := ⟨hne, fun c hc => by rcases h c hc with h | h <;> simp [h]⟩
  rw [convert_bin hpre hp]
  have hl : lower s = s := lower_dec (fun c hc => by rcases h c hc with h | h <;> rw [h] <;> unfold IsDec <;> decide)
  rw [hl]
  have hx : ¬ 'x' ∈ s := fun hh => by rcases h _ hh with h | h <;> simp at h
  simp only [patVals, exps_no_x s hx, List.map_cons, List.map_nil, bval]

/-! ### acceptance implies one of the three forms (for literals without `_`, signs, blanks, inner `#`/`b`) -/

/-- Characters that `int()` treats specially inside a literal. -/
def PlainC (c : Char) : Prop := c ≠ '_' ∧ c ≠ '+' ∧ c ≠ '-' ∧ isSpaceC c = false

theorem digitsGo_chars {b acc : Nat} {us : Bool} {s : Str} {n : Nat} (h : digitsGo b acc us s = some n)
    (hs : '_' ∉ s) : (∀ c ∈ s, ∃ d, digitVal c = some d ∧ d < b) ∧ (us = true → s ≠ []) := by
  induction s generalizing acc us with
  | nil =>
    refine ⟨fun c hc => by simp at hc, fun hu => ?_⟩
    subst hu; simp [digitsGo] at h
  | cons c cs ih =>
    simp only [List.mem_cons, not_or] at hs
    have hc : ¬ c = '_' := fun e => hs.1 e.symm
    simp only [digitsGo, hc, if_false] at h
    cases hd : digitVal c with
    | none => rw [hd] at h; simp at h
    | some d =>
      rw [hd] at h
      simp only at h
      split at h
      · rename_i hlt
        have := (ih h hs.2).1
        refine ⟨fun x hx => ?_, fun _ => by simp⟩
        rcases List.mem_cons.1 hx with rfl | hx
        · exact ⟨d, hd, hlt⟩
        · exact this x hx
      · cases h

theorem pyInt_plain {base : Nat} {s : Str} (h : ∀ c ∈ s, PlainC c) :
    pyInt base s = (unsignedInt base s).map (fun n => (n : Int)) := by
  apply pyInt_noSign (strip_of_no_space fun c hc => (h c hc).2.2.2)
  · rintro t rfl; exact (h '-' (by simp)).2.2.1 rfl
  · rintro t rfl; exact (h '+' (by simp)).2.1 rfl

theorem plain_no_underscore {s : Str} (h : ∀ c ∈ s, PlainC c) : '_' ∉ s := fun hh => (h _ hh).1 rfl

theorem digitVal_lt2 {c : Char} {d : Nat} (h : digitVal c = some d) (hd : d < 2) : c = '0' ∨ c = '1' := by
  have hh := isHex_digitVal (digitVal_isHex h)
  rw [hh.1] at h
  have hd' : hexDigit c < 2 := by rw [Option.some.inj h]; exact hd
  have hx := digitVal_isHex hh.1
  unfold IsHex at hx
  unfold hexDigit at hd'
  have e1 : '0'.toNat = 48 := by decide
  have e2 : '9'.toNat = 57 := by decide
  have e3 : 'a'.toNat = 97 := by decide
  have e4 : 'f'.toNat = 102 := by decide
  have e5 : 'A'.toNat = 65 := by decide
  have e6 : 'F'.toNat = 70 := by decide
  rw [e1, e2, e3, e4, e5, e6] at hx
  rw [e1, e3, e5] at hd'
  have : c.toNat = 48 ∨ c.toNat = 49 := by
    split at hd'
    · omega
    · split at hd' <;> omega
  rcases this with h | h
  · left; rw [← char_ofNat_toNat c, h]
  · right; rw [← char_ofNat_toNat c, h]

theorem pyInt2_accept {t : Str} {v : Int} (h : ∀ c ∈ t, PlainC c ∧ c ≠ 'b' ∧ c ≠ 'B') (hv : pyInt 2 t = some v) :
    Bits t ∧ t ≠ [] := by
  rw [pyInt_plain fun c hc => (h c hc).1] at hv
  have : unsignedInt 2 t = digits 2 t := by
    unfold unsignedInt
    simp only [show (2 : Nat) ≠ 16 by omega, if_false, if_true]
    split
    · exact absurd rfl (h 'b' (by simp)).2.1
    · exact absurd rfl (h 'B' (by simp)).2.2
    · rfl
  rw [this] at hv
  cases hd : digits 2 t with
  | none => rw [hd] at hv; cases hv
  | some n =>
    have hc := digitsGo_chars hd (plain_no_underscore fun c hc => (h c hc).1)
    refine ⟨fun c hcm => ?_, hc.2 rfl⟩
    obtain ⟨d, h1, h2⟩ := hc.1 c hcm
    exact digitVal_lt2 h1 h2

theorem exps_ne_nil (p : Str) : exps p ≠ [] := by
  induction p with
  | nil => simp [exps]
  | cons c s ih => simp only [exps]; split <;> simp [ih]

theorem exps_chars (p : Str) : ∀ t ∈ exps p, (∀ c ∈ p, c ≠ 'x' → c ∈ t) ∧ (∀ c ∈ t, c ∈ p ∨ c = '0' ∨ c = '1') ∧
    (p ≠ [] → t ≠ []) := by
  induction p with
  | nil => intro t ht; simp [exps] at ht; subst ht; simp
  | cons c s ih =>
    intro t ht
    have key : ∀ b, (c = b ∨ (c = 'x' ∧ (b = '0' ∨ b = '1'))) → t ∈ (exps s).map (b :: ·) →
        (∀ d ∈ c :: s, d ≠ 'x' → d ∈ t) ∧ (∀ d ∈ t, d ∈ c :: s ∨ d = '0' ∨ d = '1') ∧ (c :: s ≠ [] → t ≠ []) := by
      intro b hb h
      obtain ⟨u, hu, rfl⟩ := List.mem_map.1 h
      obtain ⟨h1, h2, -⟩ := ih u hu
      refine ⟨?_, ?_, fun _ => by simp⟩
      · intro d hd hdx
        rcases List.mem_cons.1 hd with rfl | hd
        · rcases hb with rfl | ⟨rfl, -⟩
          · simp
          · exact absurd rfl hdx
        · exact List.mem_cons_of_mem _ (h1 d hd hdx)
      · intro d hd
        rcases List.mem_cons.1 hd with rfl | hd
        · rcases hb with rfl | ⟨rfl, hb⟩
          · left; simp
          · exact Or.inr hb
        · rcases h2 d hd with h | h
          · exact Or.inl (by simp [h])
          · exact Or.inr h
    simp only [exps] at ht
    split at ht
    · rename_i hx
      rcases List.mem_append.1 ht with h | h
      · exact key '0' (Or.inr ⟨hx, Or.inl rfl⟩) h
      · exact key '1' (Or.inr ⟨hx, Or.inr rfl⟩) h
    · exact key c (Or.inl rfl) ht

theorem binaryWithWildcard_accept {u : Str} {vs : List Int} (hl : lower u = u)
    (h : ∀ c ∈ u, PlainC c ∧ c ≠ 'b') (hv : binaryWithWildcard u = some vs) : LPat u ∧ u ≠ [] := by
  have hB : ∀ c ∈ u, c ≠ 'B' := by
    rintro c hc rfl
    have : 'B' ∈ lower u := by rw [hl]; exact hc
    obtain ⟨d, -, hd⟩ := List.mem_map.1 this
    by_cases h' : 65 ≤ d.toNat ∧ d.toNat ≤ 90
    · have := lowerC_upper d h'
      rw [hd] at this
      have e : 'B'.toNat = 66 := by decide
      omega
    · rw [lowerC_small d h'] at hd
      subst hd
      revert h'; decide
  unfold binaryWithWildcard at hv
  rw [hl] at hv
  split at hv
  · rw [replaceX_exps] at hv
    cases he : exps u with
    | nil => exact absurd he (exps_ne_nil u)
    | cons t ts =>
      rw [he] at hv
      simp only [intsBase2] at hv
      have ht : t ∈ exps u := by rw [he]; simp
      obtain ⟨h1, h2, h3⟩ := exps_chars u t ht
      cases hp : pyInt 2 t with
      | none => rw [hp] at hv; cases hv
      | some v =>
        have hb := pyInt2_accept (t := t) (v := v) ?_ hp
        · constructor
          · intro c hc
            by_cases hx : c = 'x'
            · exact Or.inr (Or.inr hx)
            · rcases hb.1 c (h1 c hc hx) with h | h
              · exact Or.inl h
              · exact Or.inr (Or.inl h)
          · rintro rfl
            simp [exps] at he
            exact hb.2 he.1
        · intro c hc
          rcases h2 c hc with h' | h' | h'
          · exact ⟨(h c h').1, (h c h').2, hB c h'⟩
          · subst h'; unfold PlainC; decide
          · subst h'; unfold PlainC; decide
  · cases hp : pyInt 2 u with
    | none => rw [hp] at hv; cases hv
    | some v =>
      have hb := pyInt2_accept (fun c hc => ⟨(h c hc).1, (h c hc).2, hB c hc⟩) hp
      exact ⟨fun c hc => by rcases hb.1 c hc with h | h <;> simp [h], hb.2⟩

theorem convert_err {lit : Str} {e : Exn} (h : convertEnumValue lit = .err e) : ∃ p, e = .process p := by
  unfold convertEnumValue at h
  simp only at h
  split at h
  · unfold M.ofOption at h; split at h <;> simp at h; exact ⟨_, h.symm⟩
  · split at h
    · unfold M.ofOption at h; split at h <;> simp at h; exact ⟨_, h.symm⟩
    · split at h
      · unfold M.ofOption at h; split at h <;> simp at h; exact ⟨_, h.symm⟩
      · simp at h; exact ⟨_, h.symm⟩

end Svd
