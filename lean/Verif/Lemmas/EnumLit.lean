import Verif.Model.Enum
import Verif.Lemmas.Digits
import Verif.Spec.Enum
/- Lemmas about enumerated value literals. -/
namespace Svd
open Spec

/-! ### expansion of don't-care bits -/

/-- All ways to fill the `x` of a pattern, in the order `0` before `1`. -/
def exps : Str → List Str
  | [] => [[]]
  | c :: s => if c = 'x' then (exps s).map ('0' :: ·) ++ (exps s).map ('1' :: ·) else (exps s).map (c :: ·)

theorem replaceXWith_cons {c : Char} (hc : c ≠ 'x') (s : Str) (bits : Str) :
    replaceXWith (c :: s) bits = c :: replaceXWith s bits := by
  induction bits generalizing s with
  | nil => rfl
  | cons b rest ih => simp only [replaceXWith, replaceFirstC, hc, if_false]; exact ih _

theorem replaceX_exps (s : Str) : replaceXCombinations s = exps s := by
  unfold replaceXCombinations
  induction s with
  | nil => rfl
  | cons c s ih =>
    by_cases hc : c = 'x'
    · subst hc
      have hl : (('x' :: s).filter (· == 'x')).length = (s.filter (· == 'x')).length + 1 := by simp
      rw [hl]
      simp only [product01, List.map_append, List.map_map, exps, if_true]
      rw [← ih]
      have h0 : ∀ t : Str, replaceXWith ('x' :: s) ('0' :: t) = '0' :: replaceXWith s t := fun t => by
        simp only [replaceXWith, replaceFirstC, if_true, List.cons_append, List.nil_append]
        exact replaceXWith_cons (by decide) s t
      have h1 : ∀ t : Str, replaceXWith ('x' :: s) ('1' :: t) = '1' :: replaceXWith s t := fun t => by
        simp only [replaceXWith, replaceFirstC, if_true, List.cons_append, List.nil_append]
        exact replaceXWith_cons (by decide) s t
      simp only [List.map_map]
      congr 1
      · apply List.map_congr_left; intro t _; exact h0 t
      · apply List.map_congr_left; intro t _; exact h1 t
    · have hl : ((c :: s).filter (· == 'x')).length = (s.filter (· == 'x')).length := by simp [hc]
      rw [hl]
      simp only [exps, hc, if_false]
      rw [← ih, List.map_map]
      apply List.map_congr_left
      intro t _
      exact replaceXWith_cons hc s t

/-- Characters `0`/`1`. -/
def Bits (t : Str) : Prop := ∀ c ∈ t, c = '0' ∨ c = '1'

/-- Patterns over `0`, `1`, `x`. -/
def LPat (p : Str) : Prop := ∀ c ∈ p, c = '0' ∨ c = '1' ∨ c = 'x'

theorem exps_spec (p : Str) (hp : LPat p) : ∀ t ∈ exps p, Bits t ∧ t.length = p.length := by
  induction p with
  | nil => intro t ht; simp [exps] at ht; subst ht; exact ⟨(fun c hc => by simp at hc), rfl⟩
  | cons c s ih =>
    have ih := ih (fun d hd => hp d (by simp [hd]))
    intro t ht
    have key : ∀ b, (b = '0' ∨ b = '1') → t ∈ (exps s).map (b :: ·) → Bits t ∧ t.length = (c :: s).length := by
      intro b hb h
      obtain ⟨u, hu, rfl⟩ := List.mem_map.1 h
      obtain ⟨h1, h2⟩ := ih u hu
      refine ⟨?_, by simp [h2]⟩
      intro d hd
      rcases List.mem_cons.1 hd with rfl | hd
      · exact hb
      · exact h1 d hd
    simp only [exps] at ht
    split at ht
    · rcases List.mem_append.1 ht with h | h
      · exact key '0' (Or.inl rfl) h
      · exact key '1' (Or.inr rfl) h
    · rename_i hx
      rcases hp c (by simp) with rfl | rfl | rfl
      · exact key '0' (Or.inl rfl) ht
      · exact key '1' (Or.inr rfl) ht
      · exact absurd rfl hx

/-! ### numerals -/

theorem digitsGo_numeral {b : Nat} {val : Char → Nat} (s : Str) (acc : Nat) (us : Bool)
    (h : ∀ c ∈ s, digitVal c = some (val c) ∧ val c < b ∧ c ≠ '_') (hs : s ≠ [] ∨ us = false) :
    digitsGo b acc us s = some (s.foldl (fun a c => a * b + val c) acc) := by
  induction s generalizing acc us with
  | nil => rcases hs with hs | hs
           · exact absurd rfl hs
           · simp [digitsGo, hs]
  | cons c cs ih =>
    obtain ⟨h1, h2, h3⟩ := h c (by simp)
    simp only [digitsGo, h3, if_false, h1, h2, if_true, List.foldl_cons]
    exact ih _ _ (fun d hd => h d (by simp [hd])) (Or.inr rfl)

theorem digits_numeral {b : Nat} {val : Char → Nat} (s : Str)
    (h : ∀ c ∈ s, digitVal c = some (val c) ∧ val c < b ∧ c ≠ '_') (hs : s ≠ []) :
    digits b s = some (numeral val b s) := digitsGo_numeral s 0 true h (Or.inl hs)

theorem foldl_numeral_acc (val : Char → Nat) (b : Nat) (s : Str) (acc : Nat) :
    s.foldl (fun a c => a * b + val c) acc = acc * b ^ s.length + numeral val b s := by
  unfold numeral
  induction s generalizing acc with
  | nil => simp
  | cons c cs ih =>
    simp only [List.foldl_cons, List.length_cons]
    rw [ih, ih (0 * b + val c)]
    simp only [Nat.pow_succ', Nat.add_mul, Nat.zero_mul, Nat.zero_add, ← Nat.mul_assoc]
    omega

theorem numeral_cons (val : Char → Nat) (b : Nat) (c : Char) (s : Str) :
    numeral val b (c :: s) = val c * b ^ s.length + numeral val b s := by
  show List.foldl _ _ _ = _
  simp only [List.foldl_cons, Nat.zero_mul, Nat.zero_add]
  exact foldl_numeral_acc val b s (val c)

/-- Value of a bit string. -/
def bval (t : Str) : Nat := numeral decDigit 2 t

theorem bval_lt (t : Str) (ht : Bits t) : bval t < 2 ^ t.length := by
  induction t with
  | nil => simp [bval, numeral]
  | cons c s ih =>
    have ih := ih (fun d hd => ht d (by simp [hd]))
    have : decDigit c ≤ 1 := by rcases ht c (by simp) with rfl | rfl <;> decide
    unfold bval at *
    rw [numeral_cons, List.length_cons, Nat.pow_succ']
    have : decDigit c * 2 ^ s.length ≤ 1 * 2 ^ s.length := Nat.mul_le_mul_right _ this
    omega

theorem bits_strip {t : Str} (ht : Bits t) : strip t = t := by
  apply strip_of_no_space
  intro c hc
  rcases ht c hc with rfl | rfl <;> decide

theorem bits_noprefix {t : Str} (ht : Bits t) : unsignedInt 2 t = digits 2 t := by
  unfold unsignedInt
  simp only [show (2 : Nat) ≠ 16 by omega, if_false, if_true]
  split
  · rename_i u
    have := ht 'b' (by simp)
    simp at this
  · rename_i u
    have := ht 'B' (by simp)
    simp at this
  · rfl

theorem pyInt2_bits {t : Str} (ht : Bits t) (hne : t ≠ []) : pyInt 2 t = some (bval t : Int) := by
  rw [pyInt_noSign (bits_strip ht), bits_noprefix ht, digits_numeral (val := decDigit) t ?_ hne]
  · rfl
  · intro c hc
    rcases ht c hc with rfl | rfl <;> decide
  · intro u hu
    have := ht '-' (by rw [hu]; simp)
    simp at this
  · intro u hu
    have := ht '+' (by rw [hu]; simp)
    simp at this

theorem intsBase2_bits (l : List Str) (h : ∀ t ∈ l, Bits t ∧ t ≠ []) :
    intsBase2 l = some (l.map fun t => (bval t : Int)) := by
  induction l with
  | nil => rfl
  | cons t l ih =>
    have h1 := h t (by simp)
    simp only [intsBase2, pyInt2_bits h1.1 h1.2, ih (fun u hu => h u (by simp [hu])), List.map_cons]

theorem exps_no_x (p : Str) (h : ¬ 'x' ∈ p) : exps p = [p] := by
  induction p with
  | nil => rfl
  | cons c s ih =>
    simp only [List.mem_cons, not_or] at h
    have hc : ¬ c = 'x' := fun hh => h.1 hh.symm
    simp [exps, ih h.2, hc]

/-- The integers of a pattern. -/
def patVals (p : Str) : List Int := (exps p).map fun t => (bval t : Int)

/-- Lower-casing a pattern gives a pattern over `0`, `1`, `x`. -/
theorem lower_pattern {p : Str} (hp : IsPattern p) : LPat (lower p) ∧ lower p ≠ [] := by
  refine ⟨?_, by simpa [lower] using hp.1⟩
  intro c hc
  obtain ⟨d, hd, rfl⟩ := List.mem_map.1 hc
  rcases hp.2 d hd with rfl | rfl | rfl | rfl <;> decide

theorem lower_lower_pat {p : Str} (hp : LPat p) : lower p = p := by
  unfold lower
  rw [List.map_congr_left (g := id)]
  · simp
  · intro c hc
    rcases hp c hc with rfl | rfl | rfl <;> decide

theorem binaryWithWildcard_pat {p : Str} (hp : LPat p) (hne : p ≠ []) :
    binaryWithWildcard p = some (patVals p) := by
  unfold binaryWithWildcard
  rw [lower_lower_pat hp]
  split
  · rw [replaceX_exps]
    apply intsBase2_bits
    intro t ht
    obtain ⟨h1, h2⟩ := exps_spec p hp t ht
    refine ⟨h1, fun h => hne ?_⟩
    subst h
    exact List.length_eq_zero_iff.1 h2.symm
  · rename_i hx
    have hx' : ¬ 'x' ∈ p := by simpa using hx
    have hb : Bits p := by
      intro c hc
      rcases hp c hc with h | h | h
      · exact Or.inl h
      · exact Or.inr h
      · exact absurd (h ▸ hc) hx'
    rw [pyInt2_bits hb hne]
    simp [patVals, exps_no_x p hx']

/-! ### ascending and complete -/

theorem patVals_ascending (p : Str) (hp : LPat p) : Ascending (patVals p) := by
  unfold patVals Ascending
  induction p with
  | nil => simp [exps]
  | cons c s ih =>
    have hs : LPat s := fun d hd => hp d (by simp [hd])
    have ih := ih hs
    have hmap : ∀ b : Char, ((exps s).map (b :: ·)).map (fun t => (bval t : Int))
        = ((exps s).map fun t => (bval t : Int)).map (fun v => ((decDigit b * 2 ^ s.length : Nat) : Int) + v) := by
      intro b
      simp only [List.map_map]
      apply List.map_congr_left
      intro t ht
      have := (exps_spec s hs t ht).2
      simp only [Function.comp, bval, numeral_cons, this]
      simp
    have hshift : ∀ k : Int, (((exps s).map fun t => (bval t : Int)).map (fun v => k + v)).Pairwise (· < ·) := by
      intro k
      rw [List.pairwise_map]
      exact ih.imp (by intro a b h; omega)
    simp only [exps]
    split
    · rw [List.map_append, hmap, hmap, List.pairwise_append]
      refine ⟨hshift _, hshift _, ?_⟩
      intro a ha b hb
      simp only [List.mem_map] at ha hb
      obtain ⟨_, ⟨t, ht, rfl⟩, rfl⟩ := ha
      obtain ⟨_, ⟨u, hu, rfl⟩, rfl⟩ := hb
      have h1 := bval_lt t (exps_spec s hs t ht).1
      rw [(exps_spec s hs t ht).2] at h1
      simp only [show decDigit '0' = 0 by decide, show decDigit '1' = 1 by decide]
      have : ((bval t : Nat) : Int) < ((2 ^ s.length : Nat) : Int) := by exact_mod_cast h1
      simp only [Nat.zero_mul, Nat.one_mul]
      omega
    · rw [hmap]; exact hshift _

theorem testBit_top {n k : Nat} (h : n < 2 ^ (k + 1)) : n.testBit k = decide (2 ^ k ≤ n) := by
  rw [Nat.testBit_eq_decide_div_mod_eq]
  have h1 : n / 2 ^ k < 2 := by
    apply Nat.div_lt_of_lt_mul
    rw [← Nat.pow_succ]; exact h
  by_cases hle : 2 ^ k ≤ n
  · have : 1 ≤ n / 2 ^ k := (Nat.le_div_iff_mul_le (Nat.two_pow_pos k)).2 (by omega)
    have : n / 2 ^ k = 1 := by omega
    simp [this, hle]
  · have : n / 2 ^ k = 0 := Nat.div_eq_of_lt (by omega)
    simp [this, hle]

/-- `Matches` peels off the first character. -/
theorem matches_cons (c : Char) (s : Str) (n : Nat) :
    Matches (c :: s) (n : Int) ↔
      ∃ b m : Nat, b ≤ 1 ∧ n = b * 2 ^ s.length + m ∧ m < 2 ^ s.length ∧ Matches s (m : Int) ∧ (c = '0' → b = 0) ∧
        (c = '1' → b = 1) := by
  constructor
  · rintro ⟨n', hn', hlt, hbits⟩
    have : n = n' := by exact_mod_cast hn'
    subst this
    simp only [List.length_cons] at hlt hbits
    refine ⟨n / 2 ^ s.length, n % 2 ^ s.length, ?_, ?_, Nat.mod_lt _ (Nat.two_pow_pos _), ?_, ?_, ?_⟩
    · have : n / 2 ^ s.length < 2 := Nat.div_lt_of_lt_mul (by rw [← Nat.pow_succ]; exact hlt)
      omega
    · rw [Nat.mul_comm]; exact (Nat.div_add_mod _ _).symm
    · refine ⟨_, rfl, Nat.mod_lt _ (Nat.two_pow_pos _), ?_⟩
      intro i hi
      have := hbits (i + 1) (by omega)
      simp only [List.getElem_cons_succ] at this
      have hidx : s.length + 1 - 1 - (i + 1) = s.length - 1 - i := by omega
      rw [hidx] at this
      rw [Nat.testBit_mod_two_pow]
      have hlt2 : s.length - 1 - i < s.length := by omega
      simp only [hlt2, decide_true, Bool.true_and]
      exact this
    · intro hc
      have h := (hbits 0 (by omega)).1 (by simpa using hc)
      simp only [Nat.add_sub_cancel, Nat.sub_zero] at h
      rw [testBit_top hlt] at h
      exact Nat.div_eq_of_lt (by simpa using h)
    · intro hc
      have h := (hbits 0 (by omega)).2 (by simpa using hc)
      simp only [Nat.add_sub_cancel, Nat.sub_zero] at h
      rw [testBit_top hlt] at h
      have h : 2 ^ s.length ≤ n := by simpa using h
      have h1 : 1 ≤ n / 2 ^ s.length := (Nat.le_div_iff_mul_le (Nat.two_pow_pos _)).2 (by omega)
      have : n / 2 ^ s.length < 2 := Nat.div_lt_of_lt_mul (by rw [← Nat.pow_succ]; exact hlt)
      omega
  · rintro ⟨b, m, hb, rfl, hm, ⟨m', hm', -, hbits⟩, h0, h1⟩
    have : m = m' := by exact_mod_cast hm'
    subst this
    have hlt : b * 2 ^ s.length + m < 2 ^ (s.length + 1) := by
      rw [Nat.pow_succ']
      have : b * 2 ^ s.length ≤ 1 * 2 ^ s.length := Nat.mul_le_mul_right _ hb
      omega
    refine ⟨_, rfl, by simpa using hlt, ?_⟩
    intro i hi
    simp only [List.length_cons] at hi ⊢
    cases i with
    | zero =>
      simp only [List.getElem_cons_zero, Nat.add_sub_cancel, Nat.sub_zero]
      rw [testBit_top hlt]
      constructor
      · intro hc
        have := h0 hc; subst this
        simp only [decide_eq_false_iff_not]; omega
      · intro hc
        have := h1 hc; subst this
        simp only [decide_eq_true_eq]; omega
    | succ j =>
      simp only [List.getElem_cons_succ]
      have hj : j < s.length := by omega
      have hidx : s.length + 1 - 1 - (j + 1) = s.length - 1 - j := by omega
      rw [hidx]
      have hlt2 : s.length - 1 - j < s.length := by omega
      have : (b * 2 ^ s.length + m).testBit (s.length - 1 - j) = m.testBit (s.length - 1 - j) := by
        have h3 : (b * 2 ^ s.length + m) % 2 ^ s.length = m := by
          rw [Nat.add_comm, Nat.mul_comm, Nat.add_mul_mod_self_left, Nat.mod_eq_of_lt hm]
        have h4 := Nat.testBit_mod_two_pow (b * 2 ^ s.length + m) s.length (s.length - 1 - j)
        rw [h3] at h4
        simpa [hlt2] using h4.symm
      rw [this]
      exact hbits j hj

theorem patVals_mem (p : Str) (hp : LPat p) (n : Nat) : (n : Int) ∈ patVals p ↔ Matches p (n : Int) := by
  induction p generalizing n with
  | nil =>
    simp only [patVals, exps, List.map_cons, List.map_nil, List.mem_singleton, bval, numeral, List.foldl_nil]
    constructor
    · intro h
      have : n = 0 := by exact_mod_cast h
      subst this
      exact ⟨0, rfl, by decide, fun i h => by simp at h⟩
    · rintro ⟨m, h1, h2, -⟩
      have : m < 1 := by simpa using h2
      rw [h1]
      have : m = 0 := by omega
      subst this; rfl
  | cons c s ih =>
    have hs : LPat s := fun d hd => hp d (by simp [hd])
    have ih := ih hs
    rw [matches_cons]
    have hmem : ∀ b : Char, (n : Int) ∈ ((exps s).map (b :: ·)).map (fun t => (bval t : Int)) ↔
        ∃ m : Nat, m < 2 ^ s.length ∧ n = decDigit b * 2 ^ s.length + m ∧ (m : Int) ∈ patVals s := by
      intro b
      simp only [List.map_map, List.mem_map, Function.comp]
      constructor
      · rintro ⟨t, ht, hval⟩
        have ht2 := exps_spec s hs t ht
        have hv : bval (b :: t) = n := by exact_mod_cast hval
        refine ⟨bval t, by rw [← ht2.2]; exact bval_lt t ht2.1, ?_, List.mem_map.2 ⟨t, ht, rfl⟩⟩
        rw [← hv]; simp only [bval, numeral_cons, ht2.2]
      · rintro ⟨m, hm, rfl, hmem⟩
        obtain ⟨t, ht, hval⟩ := List.mem_map.1 hmem
        have ht2 := exps_spec s hs t ht
        have hv : bval t = m := by exact_mod_cast hval
        refine ⟨t, ht, ?_⟩
        simp only [bval, numeral_cons, ht2.2]
        unfold bval at hv
        rw [hv]
    have hp' : patVals (c :: s) = (exps (c :: s)).map fun t => (bval t : Int) := rfl
    rw [hp']
    simp only [exps]
    split
    · rename_i hc
      subst hc
      rw [List.map_append, List.mem_append, hmem, hmem]
      simp only [show decDigit '0' = 0 by decide, show decDigit '1' = 1 by decide]
      constructor
      · rintro (⟨m, h1, h2, h3⟩ | ⟨m, h1, h2, h3⟩)
        · exact ⟨0, m, by omega, h2, h1, (ih m).1 h3, fun h => absurd h (by decide), fun h => absurd h (by decide)⟩
        · exact ⟨1, m, by omega, h2, h1, (ih m).1 h3, fun h => absurd h (by decide), fun h => absurd h (by decide)⟩
      · rintro ⟨b, m, h1, h2, h3, h4, -, -⟩
        rcases Nat.le_one_iff_eq_zero_or_eq_one.1 h1 with rfl | rfl
        · exact Or.inl ⟨m, h3, h2, (ih m).2 h4⟩
        · exact Or.inr ⟨m, h3, h2, (ih m).2 h4⟩
    · rename_i hc
      rw [hmem]
      rcases hp c (by simp) with rfl | rfl | rfl
      · simp only [show decDigit '0' = 0 by decide]
        constructor
        · rintro ⟨m, h1, h2, h3⟩
          exact ⟨0, m, by omega, h2, h1, (ih m).1 h3, fun _ => rfl, fun h => absurd h (by decide)⟩
        · rintro ⟨b, m, h1, h2, h3, h4, h5, -⟩
          have := h5 trivial; subst this
          exact ⟨m, h3, h2, (ih m).2 h4⟩
      · simp only [show decDigit '1' = 1 by decide]
        constructor
        · rintro ⟨m, h1, h2, h3⟩
          exact ⟨1, m, by omega, h2, h1, (ih m).1 h3, fun h => absurd h (by decide), fun _ => rfl⟩
        · rintro ⟨b, m, h1, h2, h3, h4, -, h5⟩
          have := h5 trivial; subst this
          exact ⟨m, h3, h2, (ih m).2 h4⟩
      · exact absurd rfl hc

theorem patVals_nonneg (p : Str) : ∀ v ∈ patVals p, ∃ n : Nat, v = (n : Int) := by
  intro v hv
  obtain ⟨t, _, rfl⟩ := List.mem_map.1 hv
  exact ⟨_, rfl⟩

theorem patVals_mem_int (p : Str) (hp : LPat p) (v : Int) : v ∈ patVals p ↔ Matches p v := by
  constructor
  · intro h
    obtain ⟨n, rfl⟩ := patVals_nonneg p v h
    exact (patVals_mem p hp n).1 h
  · rintro ⟨n, rfl, h⟩
    exact (patVals_mem p hp n).2 ⟨n, rfl, h⟩

/-- Case does not matter for matching. -/
theorem matches_lower {p : Str} (hp : IsPattern p) (v : Int) : Matches (lower p) v ↔ Matches p v := by
  unfold Matches
  have hlen : (lower p).length = p.length := by simp [lower]
  have hget : ∀ i (h : i < p.length), (lower p)[i]'(by rw [hlen]; exact h) = lowerC p[i] := by
    intro i h; simp [lower]
  have hc : ∀ i (h : i < p.length), (lowerC p[i] = '0' ↔ p[i] = '0') ∧ (lowerC p[i] = '1' ↔ p[i] = '1') := by
    intro i h
    rcases hp.2 p[i] (List.getElem_mem h) with h | h | h | h <;> rw [h] <;> decide
  constructor
  · rintro ⟨n, h1, h2, h3⟩
    rw [hlen] at h2
    refine ⟨n, h1, h2, fun i hi => ?_⟩
    have := h3 i (by rw [hlen]; exact hi)
    rw [hget i hi, hlen, (hc i hi).1, (hc i hi).2] at this
    exact this
  · rintro ⟨n, h1, h2, h3⟩
    refine ⟨n, h1, by rw [hlen]; exact h2, fun i hi => ?_⟩
    have hi' : i < p.length := by rw [hlen] at hi; exact hi
    have := h3 i hi'
    rw [hget i hi', hlen, (hc i hi').1, (hc i hi').2]
    exact this

end Svd
