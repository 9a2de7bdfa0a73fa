import Verif.Spec.EnumLit
import Verif.Lemmas.Literal
import Verif.Lemmas.EnumDev
/-
The conversion of the literals of enumerated values, for every text.
-/
namespace Svd
open Spec

theorem spelled_eq (lit : Str) : spelled lit = replaceAll ['#'] (s%"0b") (lower lit) := by
  unfold spelled
  rw [hashes_eq, lowerText_eq]
  rfl

/-- Signs and surrounding white space. -/
theorem signed_text {uf : Str → Option Nat} {U : Str → Nat → Prop} (hU : ∀ w n, uf w = some n ↔ U w n)
    (hch : ∀ u n, U u n → u ≠ [] ∧ ∀ c ∈ u, (48 ≤ c.toNat ∧ c.toNat ≤ 57 ∨ 65 ≤ c.toNat ∧ c.toNat ≤ 122)) (v : Str) (i : Int) :
    (match strip v with
      | '-' :: t => (uf t).map (fun n : Nat => -(n : Int))
      | '+' :: t => (uf t).map (fun n : Nat => (n : Int))
      | t => (uf t).map (fun n : Nat => (n : Int))) = some i ↔
    ∃ a sign u b, ∃ n : Nat, v = a ++ sign ++ u ++ b ∧ Blank a ∧ Blank b ∧ U u n ∧
      (((sign = [] ∨ sign = ['+']) ∧ i = (n : Int)) ∨ (sign = ['-'] ∧ i = -(n : Int))) := by
  have hsp : ∀ c : Char, (48 ≤ c.toNat ∧ c.toNat ≤ 57 ∨ 65 ≤ c.toNat ∧ c.toNat ≤ 122) → isSpaceC c = false ∧ c ≠ '-' ∧ c ≠ '+' := by
    intro c hc
    refine ⟨?_, ?_, ?_⟩
    · rcases hc with hc | hc
      · unfold isSpaceC; simp; omega
      · unfold isSpaceC; simp; omega
    · rintro rfl; revert hc; decide
    · rintro rfl; revert hc; decide
  have hpos : ∀ u : Str, (∀ t, u ≠ '-' :: t) → (∀ t, u ≠ '+' :: t) → (match u with
      | '-' :: t => (uf t).map (fun n : Nat => -(n : Int))
      | '+' :: t => (uf t).map (fun n : Nat => (n : Int))
      | t => (uf t).map (fun n : Nat => (n : Int))) = (uf u).map fun n : Nat => (n : Int) := by
    intro u h1 h2
    split
    · exact absurd rfl (h1 _)
    · exact absurd rfl (h2 _)
    · rfl
  constructor
  · intro h
    obtain ⟨a, b, ha, hb, hv⟩ := strip_decomp v
    generalize strip v = w at h hv
    by_cases h1 : ∃ t, w = '-' :: t
    · obtain ⟨t, rfl⟩ := h1
      simp only [Option.map_eq_some_iff] at h
      obtain ⟨n, hn, rfl⟩ := h
      exact ⟨a, ['-'], t, b, n, by simpa using hv, ha, hb, (hU _ _).1 hn, Or.inr ⟨rfl, rfl⟩⟩
    by_cases h2 : ∃ t, w = '+' :: t
    · obtain ⟨t, rfl⟩ := h2
      simp only [Option.map_eq_some_iff] at h
      obtain ⟨n, hn, rfl⟩ := h
      exact ⟨a, ['+'], t, b, n, by simpa using hv, ha, hb, (hU _ _).1 hn, Or.inl ⟨Or.inr rfl, rfl⟩⟩
    rw [hpos w (fun t e => h1 ⟨t, e⟩) (fun t e => h2 ⟨t, e⟩), Option.map_eq_some_iff] at h
    obtain ⟨n, hn, rfl⟩ := h
    exact ⟨a, [], w, b, n, by simpa using hv, ha, hb, (hU _ _).1 hn, Or.inl ⟨Or.inl rfl, rfl⟩⟩
  · rintro ⟨a, sign, u, b, n, hv, ha, hb, hu, hs⟩
    obtain ⟨hne, hch⟩ := hch _ _ hu
    have hs' : sign = [] ∨ sign = ['+'] ∨ sign = ['-'] := by
      rcases hs with ⟨h | h, _⟩ | ⟨h, _⟩ <;> simp [h]
    have hstrip : strip v = sign ++ u := by
      rw [hv, List.append_assoc a]
      refine strip_between ha hb ?_ ?_ (by simp [hne])
      · intro c hc
        cases u with
        | nil => exact absurd rfl hne
        | cons x xs =>
          rcases hs' with rfl | rfl | rfl
          · simp at hc; subst hc; exact (hsp _ (hch _ (by simp))).1
          · simp at hc; subst hc; decide
          · simp at hc; subst hc; decide
      · intro c hc
        have : c ∈ u.getLast? := by
          rw [List.getLast?_append, List.getLast?_eq_some_getLast hne] at hc
          rw [List.getLast?_eq_some_getLast hne]; exact hc
        exact (hsp _ (hch _ (List.mem_of_getLast? this))).1
    rw [hstrip]
    have huv := (hU _ _).2 hu
    have h1 : ∀ t, u ≠ '-' :: t := fun t e => (hsp '-' (hch _ (by simp [e]))).2.1 rfl
    have h2 : ∀ t, u ≠ '+' :: t := fun t e => (hsp '+' (hch _ (by simp [e]))).2.2 rfl
    rcases hs with ⟨rfl | rfl, rfl⟩ | ⟨rfl, rfl⟩
    · rw [List.nil_append, hpos u h1 h2, huv]; rfl
    · simp [huv]
    · simp [huv]

/-- An unsigned number in base 2. -/
def Bin2 (w : Str) (n : Nat) : Prop :=
  ∃ u s t, w = u ++ s ∧ (u = [] ∨ u = s%"0b" ∨ u = s%"0B" ∨ u = s%"0b_" ∨ u = s%"0B_") ∧ Grouped IsBin s t ∧ n = numeral decDigit 2 t

theorem bin_digit (c : Char) (d : Nat) : (digitVal c = some d ∧ d < 2) ↔ (IsBin c ∧ d = decDigit c) := by
  constructor
  · rintro ⟨h, hd⟩
    rcases digitVal_lt2 h hd with rfl | rfl
    · exact ⟨.inl rfl, by have : digitVal '0' = some 0 := by decide
                          rw [this] at h; injection h with h; rw [← h]; rfl⟩
    · exact ⟨.inr rfl, by have : digitVal '1' = some 1 := by decide
                          rw [this] at h; injection h with h; rw [← h]; rfl⟩
  · rintro ⟨rfl | rfl, rfl⟩ <;> decide

theorem hex_digit (c : Char) (d : Nat) : (digitVal c = some d ∧ d < 16) ↔ (IsHex c ∧ d = hexDigit c) := by
  constructor
  · rintro ⟨h, hd⟩
    have := digitVal_isHex h
    have h2 := (isHex_digitVal this).1
    rw [h] at h2
    injection h2 with h2
    exact ⟨this, h2⟩
  · rintro ⟨h, rfl⟩
    exact ⟨(isHex_digitVal h).1, (isHex_digitVal h).2.1⟩

theorem unsigned2_text (w : Str) (n : Nat) : unsignedInt 2 w = some n ↔ Bin2 w n := by
  have hd := digits_grouped (b := 2) (P := IsBin) (val := decDigit) bin_digit
  have hp := digitsAfterPrefix_grouped (b := 2) (P := IsBin) (val := decDigit) bin_digit
  have no : ∀ (c : Char) (t u : Str), c ≠ '0' → c ≠ '1' → c ≠ '_' → ¬ Grouped IsBin ('0' :: c :: t) u := by
    intro c t u h0 h1 h2 h
    rcases h.chars c (by simp) with h | h
    · rcases h with h | h
      · exact h0 h
      · exact h1 h
    · exact h2 h
  by_cases hb : ∃ t, w = '0' :: 'b' :: t
  · obtain ⟨t, rfl⟩ := hb
    have h1 : unsignedInt 2 ('0' :: 'b' :: t) = digitsAfterPrefix 2 t := by simp [unsignedInt]
    rw [h1, hp]
    constructor
    · rintro ⟨us, u, r, rfl | rfl, h2, h3, h4⟩
      · exact ⟨s%"0b", u, r, by rw [h2]; rfl, by simp, h3, h4⟩
      · exact ⟨s%"0b_", u, r, by rw [h2]; rfl, by simp, h3, h4⟩
    · rintro ⟨u, s, r, h2, rfl | rfl | rfl | rfl | rfl, h3, h4⟩
      · rw [List.nil_append] at h2
        subst h2
        exact absurd h3 (no 'b' t r (by decide) (by decide) (by decide))
      · simp only [List.cons_append, List.nil_append, List.cons.injEq, true_and] at h2
        exact ⟨[], s, r, .inl rfl, h2, h3, h4⟩
      · simp at h2
      · simp only [List.cons_append, List.nil_append, List.cons.injEq, true_and] at h2
        exact ⟨['_'], s, r, .inr rfl, h2, h3, h4⟩
      · simp at h2
  by_cases hB : ∃ t, w = '0' :: 'B' :: t
  · obtain ⟨t, rfl⟩ := hB
    have h1 : unsignedInt 2 ('0' :: 'B' :: t) = digitsAfterPrefix 2 t := by simp [unsignedInt]
    rw [h1, hp]
    constructor
    · rintro ⟨us, u, r, rfl | rfl, h2, h3, h4⟩
      · exact ⟨s%"0B", u, r, by rw [h2]; rfl, by simp, h3, h4⟩
      · exact ⟨s%"0B_", u, r, by rw [h2]; rfl, by simp, h3, h4⟩
    · rintro ⟨u, s, r, h2, rfl | rfl | rfl | rfl | rfl, h3, h4⟩
      · rw [List.nil_append] at h2
        subst h2
        exact absurd h3 (no 'B' t r (by decide) (by decide) (by decide))
      · simp at h2
      · simp only [List.cons_append, List.nil_append, List.cons.injEq, true_and] at h2
        exact ⟨[], s, r, .inl rfl, h2, h3, h4⟩
      · simp at h2
      · simp only [List.cons_append, List.nil_append, List.cons.injEq, true_and] at h2
        exact ⟨['_'], s, r, .inr rfl, h2, h3, h4⟩
  have h1 : unsignedInt 2 w = digits 2 w := by
    unfold unsignedInt
    rw [if_neg (by decide), if_pos rfl]
    split
    · exact absurd ⟨_, rfl⟩ hb
    · exact absurd ⟨_, rfl⟩ hB
    · rfl
  rw [h1, hd]
  constructor
  · rintro ⟨t, h3, h4⟩
    exact ⟨[], w, t, rfl, .inl rfl, h3, h4⟩
  · rintro ⟨u, s, r, rfl, rfl | rfl | rfl | rfl | rfl, h3, h4⟩
    · exact ⟨r, h3, h4⟩
    · exact absurd ⟨_, rfl⟩ hb
    · exact absurd ⟨_, rfl⟩ hB
    · exact absurd ⟨_, rfl⟩ hb
    · exact absurd ⟨_, rfl⟩ hB

theorem pyInt2_text (v : Str) (i : Int) : pyInt 2 v = some i ↔ BinText v i := by
  have := signed_text unsigned2_text (fun u n h => by
    obtain ⟨u, s, t, rfl, hu, h2, -⟩ := h
    refine ⟨by simp [h2.ne_nil], ?_⟩
    have hs : ∀ c ∈ s, (48 ≤ c.toNat ∧ c.toNat ≤ 57 ∨ 65 ≤ c.toNat ∧ c.toNat ≤ 122) := by
      intro c hc
      rcases h2.chars c hc with (rfl | rfl) | rfl <;> decide
    intro c hc
    rw [List.mem_append] at hc
    rcases hc with hc | hc
    · rcases hu with rfl | rfl | rfl | rfl | rfl
      · cases hc
      all_goals revert c; decide
    · exact hs c hc) v i
  have he : pyInt 2 v = (match strip v with
      | '-' :: t => (unsignedInt 2 t).map (fun n : Nat => -(n : Int))
      | '+' :: t => (unsignedInt 2 t).map (fun n : Nat => (n : Int))
      | t => (unsignedInt 2 t).map (fun n : Nat => (n : Int))) := by
    have hm : ∀ t, (unsignedInt 2 t).map (fun n : Nat => (n : Int)) = (do let a ← unsignedInt 2 t; pure (a : Int)) := by
      intro t; cases unsignedInt 2 t <;> rfl
    have hn : ∀ t, (unsignedInt 2 t).map (fun n : Nat => -(n : Int)) = (do let a ← unsignedInt 2 t; pure (a : Int) : Option Int).map (fun n => -n) := by
      intro t; cases unsignedInt 2 t <;> rfl
    simp only [hm, hn]
    unfold pyInt
    simp only [Option.map_id']
    generalize strip v = w
    by_cases h1 : ∃ t, w = '-' :: t
    · obtain ⟨t, rfl⟩ := h1; rfl
    by_cases h2 : ∃ t, w = '+' :: t
    · obtain ⟨t, rfl⟩ := h2; rfl
    split
    · exact absurd ⟨_, rfl⟩ h1
    · exact absurd ⟨_, rfl⟩ h2
    split
    · exact absurd ⟨_, rfl⟩ h1
    · exact absurd ⟨_, rfl⟩ h2
    · rfl
  rw [he, this]
  unfold BinText
  constructor
  · rintro ⟨a, sign, w, b, n, rfl, ha, hb, ⟨u, s, t, rfl, hu, hg, rfl⟩, hs⟩
    exact ⟨a, sign, u, s, t, b, by simp, ha, hb, hg, hu, hs⟩
  · rintro ⟨a, sign, u, s, t, b, rfl, ha, hb, hg, hu, hs⟩
    exact ⟨a, sign, u ++ s, b, _, by simp, ha, hb, ⟨u, s, t, rfl, hu, hg, rfl⟩, hs⟩

theorem choices_eq (s : Str) : choices s = exps s := by
  induction s with
  | nil => rfl
  | cons c s ih => simp only [choices, exps, ih]

theorem intsBase2_text (l : List Str) (vs : List Int) : intsBase2 l = some vs ↔ Entrywise BinText l vs := by
  induction l generalizing vs with
  | nil =>
    simp only [intsBase2, Option.some.injEq]
    constructor
    · rintro rfl; exact .nil
    · intro h; cases h; rfl
  | cons b bs ih =>
    simp only [intsBase2]
    constructor
    · intro h
      split at h
      · cases h
      · rename_i v hv
        split at h
        · cases h
        · rename_i vs' hvs
          injection h with h
          subst h
          exact .cons ((pyInt2_text _ _).1 hv) ((ih _).1 hvs)
    · intro h
      cases h with
      | cons h1 h2 =>
        rw [(pyInt2_text _ _).2 h1, (ih _).2 h2]

theorem binary_text {p : Str} (hl : lower p = p) (vs : List Int) : binaryWithWildcard p = some vs ↔ Entrywise BinText (choices p) vs := by
  unfold binaryWithWildcard
  rw [hl, choices_eq]
  by_cases hx : p.contains 'x' = true
  · rw [if_pos hx, replaceX_exps, intsBase2_text]
  · rw [if_neg hx, exps_no_x p (by simpa using hx), Option.map_eq_some_iff, ← intsBase2_text]
    simp only [intsBase2]
    cases pyInt 2 p with
    | none => simp
    | some v => simp

theorem spelled_lower (lit : Str) : lower (spelled lit) = spelled lit := by
  have h0 : ∀ c, lowerC (lowerC c) = lowerC c := by
    intro c
    by_cases h : 65 ≤ c.toNat ∧ c.toNat ≤ 90
    · have := lowerC_upper c h
      exact lowerC_small _ (by omega)
    · rw [lowerC_small c h, lowerC_small c h]
  unfold spelled hashes
  rw [lowerText_eq]
  induction lit with
  | nil => rfl
  | cons c s ih =>
    have e : lower (c :: s) = lowerC c :: lower s := rfl
    rw [e, List.flatMap_cons]
    have e2 : ∀ a b : Str, lower (a ++ b) = lower a ++ lower b := fun a b => List.map_append
    rw [e2, ih]
    congr 1
    split
    · decide
    · simp only [lower, List.map_cons, List.map_nil, h0]

theorem lower_drop {p : Str} {a b : Char} (h : lower (a :: b :: p) = a :: b :: p) : lower p = p := by
  simp only [lower, List.map_cons, List.cons.injEq] at h
  exact h.2.2

theorem strip_right {u b : Str} (hne : u ≠ []) (hu : ∀ c ∈ u, isSpaceC c = false) (hb : Blank b) : strip (u ++ b) = u := by
  have := strip_between (a := []) (b := b) (t := u) (by intro c hc; cases hc) hb (fun c hc => hu c (List.mem_of_head? hc))
    (fun c hc => hu c (List.mem_of_getLast? hc)) hne
  simpa using this

theorem pyInt16_text (w : Str) (i : Int) : pyInt 16 ('0' :: 'x' :: w) = some i ↔
    ∃ us s t b, w = us ++ s ++ b ∧ (us = [] ∨ us = ['_']) ∧ Grouped IsHex s t ∧ Blank b ∧ i = (numeral hexDigit 16 t : Int) := by
  have hp := digitsAfterPrefix_grouped (b := 16) (P := IsHex) (val := hexDigit) hex_digit
  obtain ⟨a, b, ha, hb, hv⟩ := strip_decomp ('0' :: 'x' :: w)
  have key : ∀ v, strip ('0' :: 'x' :: w) = '0' :: 'x' :: v → pyInt 16 ('0' :: 'x' :: w) = (digitsAfterPrefix 16 v).map fun n : Nat => (n : Int) := by
    intro v h
    unfold pyInt
    rw [h]
    have : unsignedInt 16 ('0' :: 'x' :: v) = digitsAfterPrefix 16 v := by simp [unsignedInt]
    show ((do let a ← unsignedInt 16 ('0' :: 'x' :: v); pure (a : Int) : Option Int).map fun n => n) = _
    rw [this]
    cases digitsAfterPrefix 16 v <;> rfl
  constructor
  · intro h
    have nb : ∀ c : Char, isSpaceC c = false → ∀ x : Str, Blank x → c ∉ x := by
      intro c hc x hx hm
      have := hx c hm
      rw [isSpace_eq, hc] at this
      cases this
    have ha' : a = [] := by
      cases a with
      | nil => rfl
      | cons c a' =>
        simp only [List.cons_append, List.cons.injEq] at hv
        exact absurd (by rw [← hv.1]; simp) (nb '0' (by decide) _ ha)
    subst ha'
    rw [List.nil_append] at hv
    obtain ⟨v, hs⟩ : ∃ v, strip ('0' :: 'x' :: w) = '0' :: 'x' :: v := by
      generalize strip ('0' :: 'x' :: w) = u at hv
      match u, hv with
      | [], hv => exact absurd (by rw [List.nil_append] at hv; rw [← hv]; simp) (nb '0' (by decide) _ hb)
      | [c], hv =>
        simp only [List.cons_append, List.nil_append, List.cons.injEq] at hv
        exact absurd (by rw [← hv.2]; simp) (nb 'x' (by decide) _ hb)
      | c :: c' :: v, hv =>
        simp only [List.cons_append, List.cons.injEq] at hv
        obtain ⟨rfl, rfl, -⟩ := hv
        exact ⟨v, rfl⟩
    rw [key v hs, Option.map_eq_some_iff] at h
    obtain ⟨n, hn, rfl⟩ := h
    obtain ⟨us, u, t, h1, h2, h3, h4⟩ := (hp _ _).1 hn
    rw [hs] at hv
    simp only [List.cons_append, List.cons.injEq, true_and] at hv
    exact ⟨us, u, t, b, by rw [hv, h2], h1, h3, hb, by rw [h4]⟩
  · rintro ⟨us, s, t, b, rfl, hus, hg, hb, rfl⟩
    have : strip ('0' :: 'x' :: (us ++ s ++ b)) = '0' :: 'x' :: (us ++ s) := by
      have h1 : '0' :: 'x' :: (us ++ s ++ b) = ('0' :: 'x' :: (us ++ s)) ++ b := by simp
      rw [h1]
      refine strip_right (by simp) ?_ hb
      intro c hc
      simp only [List.mem_cons, List.mem_append] at hc
      rcases hc with rfl | rfl | hc | hc
      · decide
      · decide
      · rcases hus with rfl | rfl
        · cases hc
        · simp at hc; subst hc; decide
      · rcases hg.chars c hc with h | rfl
        · exact hex_no_space h
        · decide
    rw [key _ this, (hp _ _).2 ⟨us, s, t, hus, rfl, hg, rfl⟩]
    rfl

theorem convert_reads (lit : Str) (vs : List Int) : convertEnumValue lit = .ok vs [] ↔ Reads lit vs := by
  have hop : ∀ (o : Option (List Int)) (e : Exn), M.ofOption o e = .ok vs [] ↔ o = some vs := by
    intro o e
    cases o with
    | none => exact ⟨(fun h => by cases h), (fun h => by cases h)⟩
    | some x => exact ⟨(fun h => by cases h; rfl), (fun h => by cases h; rfl)⟩
  have hpre : ∀ (a b : Char) (s : Str), ([a, b] : Str).isPrefixOf s = true ↔ ∃ p, s = a :: b :: p := by
    intro a b s
    match s with
    | [] => simp [List.isPrefixOf]
    | [c] => simp [List.isPrefixOf]
    | c :: c' :: p =>
      simp only [List.isPrefixOf, Bool.and_true, Bool.and_eq_true, beq_iff_eq, List.cons.injEq]
      exact ⟨fun h => ⟨p, h.1.symm, h.2.symm, rfl⟩, fun ⟨_, h1, h2, _⟩ => ⟨h1.symm, h2.symm⟩⟩
  have hl := spelled_lower lit
  unfold convertEnumValue
  rw [← spelled_eq]
  simp only
  by_cases h1 : (s%"0b").isPrefixOf (spelled lit) = true
  · rw [if_pos h1, hop]
    obtain ⟨p, hp⟩ := (hpre _ _ _).1 h1
    rw [hp] at hl
    have hd : (spelled lit).drop 2 = p := by rw [hp]; rfl
    rw [hd, binary_text (lower_drop hl)]
    constructor
    · intro h; exact .bin hp h
    · intro h
      cases h with
      | dec _ h2 =>
        exact absurd (h2 'b' (by rw [hp]; simp)) (by unfold IsDec; decide)
      | hex h2 => rw [hp] at h2; simp at h2
      | bin h2 h3 =>
        rw [hp] at h2
        simp only [List.cons_append, List.nil_append, List.cons.injEq, true_and] at h2
        subst h2
        exact h3
  rw [if_neg h1]
  by_cases h2 : (s%"0x").isPrefixOf (spelled lit) = true
  · rw [if_pos h2, hop]
    obtain ⟨p, hp⟩ := (hpre _ _ _).1 h2
    rw [Option.map_eq_some_iff]
    constructor
    · rintro ⟨v, hv, rfl⟩
      rw [hp] at hv
      obtain ⟨us, s, t, b, rfl, h3, h4, h5, rfl⟩ := (pyInt16_text _ _).1 hv
      exact .hex (by rw [hp]; simp) h3 h4 h5
    · intro h
      cases h with
      | dec _ h2 =>
        exact absurd (h2 'x' (by rw [hp]; simp)) (by unfold IsDec; decide)
      | @hex us s t b h2 h3 h4 h5 =>
        refine ⟨_, ?_, rfl⟩
        rw [h2]
        exact (pyInt16_text _ _).2 ⟨us, s, t, b, rfl, h3, h4, h5, rfl⟩
      | bin h2 => rw [hp] at h2; simp at h2
  rw [if_neg h2]
  by_cases h3 : isDigitStr (spelled lit) = true
  · have h4 : spelled lit ≠ [] ∧ ∀ c ∈ spelled lit, IsDec c := by
      unfold isDigitStr at h3
      simp only [Bool.and_eq_true, Bool.not_eq_true', List.isEmpty_eq_false_iff, List.all_eq_true] at h3
      exact ⟨h3.1, fun c hc => isDec_iff.2 (h3.2 c hc)⟩
    rw [if_pos h3, hop]
    have h5 : pyInt 10 (spelled lit) = some (numeral decDigit 10 (spelled lit) : Int) := by
      have h6 := convert_dec h4.1 h4.2
      unfold convertEnumValue at h6
      have h7 : replaceAll ['#'] (s%"0b") (lower (spelled lit)) = spelled lit := by
        rw [hl]
        have : ∀ s : Str, (∀ c ∈ s, IsDec c) → hashes s = s := by
          intro s
          induction s with
          | nil => intro _; rfl
          | cons c s ih =>
            intro h
            have hc : c ≠ '#' := by rintro rfl; have := h '#' (by simp); revert this; unfold IsDec; decide
            unfold hashes at ih ⊢
            rw [List.flatMap_cons, if_neg hc, ih fun c hc => h c (List.mem_cons_of_mem _ hc)]
            rfl
        have h8 := this _ h4.2
        rw [hashes_eq] at h8
        exact h8
      rw [h7] at h6
      simp only at h6
      rw [if_neg h1, if_neg h2, if_pos h3] at h6
      cases h9 : pyInt 10 (spelled lit) with
      | none => rw [h9] at h6; simp [M.ofOption, M.throw] at h6
      | some v => rw [h9] at h6; simp [M.ofOption, M.pure] at h6; rw [h6]
    rw [h5]
    constructor
    · rintro h
      simp only [Option.map_some, Option.some.injEq] at h
      subst h
      exact .dec h4.1 h4.2
    · intro h
      cases h with
      | dec => rfl
      | hex h6 => exact absurd ((hpre _ _ _).2 ⟨_, h6⟩) h2
      | bin h6 => exact absurd ((hpre _ _ _).2 ⟨_, h6⟩) h1
  · rw [if_neg h3]
    constructor
    · intro h; cases h
    · intro h
      cases h with
      | dec h4 h5 =>
        refine absurd ?_ h3
        unfold isDigitStr
        simp only [Bool.and_eq_true, Bool.not_eq_true', List.isEmpty_eq_false_iff, List.all_eq_true]
        exact ⟨h4, fun c hc => isDec_iff.1 (h5 c hc)⟩
      | hex h6 => exact absurd ((hpre _ _ _).2 ⟨_, h6⟩) h2
      | bin h6 => exact absurd ((hpre _ _ _).2 ⟨_, h6⟩) h1

end Svd
