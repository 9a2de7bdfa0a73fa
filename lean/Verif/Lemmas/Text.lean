import Verif.Spec.Text
import Verif.Model.Py
import Verif.Lemmas.Basic
/- The model's string functions are those of `Spec/Text.lean`. -/
namespace Svd
open Spec

theorem contains_range {l : List Char} {a b : Nat} (h : l.map (·.toNat) = List.range' a b) (c : Char) :
    l.contains c = (decide (a ≤ c.toNat) && decide (c.toNat < a + b)) := by
  rw [Bool.eq_iff_iff]
  simp only [List.contains_iff_mem, Bool.and_eq_true, decide_eq_true_eq]
  have h1 : c.toNat ∈ l.map (·.toNat) ↔ a ≤ c.toNat ∧ c.toNat < a + b := by
    rw [h, List.mem_range'_1]
  rw [← h1, List.mem_map]
  constructor
  · exact fun h => ⟨c, h, rfl⟩
  · rintro ⟨d, hd, he⟩
    have : d = c := by
      apply Char.ext
      apply UInt32.toNat_inj.1
      exact he
    exact this ▸ hd

theorem isDigit_eq : isDigit = isDigitC := by
  funext c
  unfold isDigit isDigitC
  rw [contains_range (a := 48) (b := 10) (by decide)]
  rw [Bool.eq_iff_iff]
  simp only [Bool.and_eq_true, decide_eq_true_eq]
  omega

theorem isUpper_eq : isUpper = isUpperC := by
  funext c
  unfold isUpper isUpperC
  rw [contains_range (a := 65) (b := 26) (by decide)]
  rw [Bool.eq_iff_iff]
  simp only [Bool.and_eq_true, decide_eq_true_eq]
  omega

theorem isWord_eq : isWord = isWordC := by
  funext c
  unfold isWord isWordC
  rw [contains_range (a := 97) (b := 26) (by decide), isDigit_eq, isUpper_eq]
  have : decide (c.toNat < 97 + 26) = decide (c.toNat ≤ 122) := by
    rw [Bool.eq_iff_iff]
    simp only [decide_eq_true_eq]
    omega
  rw [this]

theorem isSpace_eq : isSpace = isSpaceC := by
  funext c
  unfold isSpace isSpaceC
  rw [Bool.eq_iff_iff]
  simp only [List.contains_iff_mem, List.mem_cons, List.not_mem_nil, Bool.and_eq_true, Bool.or_eq_true, decide_eq_true_eq,
    beq_iff_eq, or_false]
  omega

theorem digitChar_eq (d : Nat) (h : d < 16) : Nat.digitChar d = digitChar d := by
  revert d
  decide

theorem toBaseAux_eq (b : Nat) (hb : 2 ≤ b) (hb' : b ≤ 16) : ∀ (f n : Nat) (acc : Str), n < f → toBaseAux b f n acc = Nat.toDigitsCore b f n acc := by
  intro f
  induction f with
  | zero => intro n acc h; omega
  | succ f ih =>
    intro n acc h
    rw [toBaseAux, Nat.toDigitsCore]
    by_cases hn : n < b
    · rw [if_pos hn, if_pos (Nat.div_eq_of_lt hn), Nat.mod_eq_of_lt hn, digitChar_eq n (by omega)]
    · have h0 : n / b ≠ 0 := by
        intro h0
        rcases (Nat.div_eq_zero_iff).1 h0 with h1 | h1 <;> omega
      rw [if_neg hn, if_neg h0, digitChar_eq _ (by have := Nat.mod_lt n (show 0 < b by omega); omega)]
      apply ih
      have := Nat.div_lt_self (show 0 < n by omega) (show 1 < b by omega)
      omega

theorem natText_eq : natText = natStr := by
  funext n
  exact (toBaseAux_eq 10 (by omega) (by omega) (n + 1) n [] (by omega)).symm

theorem intText_eq : intText = intStr := by
  funext i
  cases i <;> simp [intText, intStr, natText_eq]

theorem toLower_eq (c : Char) : c.toLower = lowerC c := by
  by_cases h : 65 ≤ c.toNat ∧ c.toNat ≤ 90
  · obtain ⟨n, hn⟩ : ∃ n, n = c.toNat := ⟨_, rfl⟩
    have hc : c = Char.ofNat n := by rw [hn, Char.ofNat_toNat]
    have hlt : n < 91 := by omega
    have hge : 65 ≤ n := by omega
    subst hc
    clear hn h
    revert n
    decide
  · rw [lowerC, if_neg h]
    unfold Char.toLower
    rw [dif_neg]
    rintro ⟨h1, h2⟩
    exact h ⟨UInt32.le_iff_toNat_le.1 h1, UInt32.le_iff_toNat_le.1 h2⟩

theorem lowerText_eq : lowerText = lower := by
  funext s
  exact List.map_congr_left fun c _ => toLower_eq c

theorem trim_eq : trim = strip := by
  funext s
  unfold trim strip rstrip lstrip
  rw [isSpace_eq]

theorem fillList_eq (i s : Str) : fillList i s = replaceAll (s%"%s") i s := by
  unfold replaceAll
  induction s using fillList.induct with
  | case1 t ih =>
    rw [fillList, ih]
    simp [replaceGo, List.isPrefixOf]
  | case2 c t hne ih =>
    rw [fillList, ih]
    · rw [replaceGo, if_neg]
      intro hp
      cases t with
      | nil => simp [List.isPrefixOf] at hp
      | cons d t =>
        simp [List.isPrefixOf] at hp
        exact hne t hp.1.symm (by rw [hp.2])
    · exact hne
  | case3 => rfl

theorem fillArray_eq (i s : Str) : fillArray i s = replaceAll (s%"[%s]") i s := by
  unfold replaceAll
  induction s using fillArray.induct with
  | case1 t ih =>
    rw [fillArray, ih]
    simp [replaceGo, List.isPrefixOf]
  | case2 c t hne ih =>
    rw [fillArray, ih]
    · rw [replaceGo, if_neg]
      intro hp
      match t, hp with
      | [], hp => simp [List.isPrefixOf] at hp
      | [_], hp => simp [List.isPrefixOf] at hp
      | [_, _], hp => simp [List.isPrefixOf] at hp
      | x :: y :: z :: t, hp =>
        simp [List.isPrefixOf] at hp
        exact hne t hp.1.symm (by rw [hp.2.1, hp.2.2.1, hp.2.2.2])
    · exact hne
  | case3 => rfl

theorem strLe_iff (a b : Str) : strLe a b = true ↔ a ≤ b := by
  induction a generalizing b with
  | nil => simp [strLe]
  | cons x a ih =>
    cases b with
    | nil => simp [strLe]
    | cons y b =>
      have hlt : ∀ u v : Char, u < v ↔ u.toNat < v.toNat := fun u v => UInt32.lt_iff_toNat_lt
      have heq : ∀ u v : Char, u = v ↔ u.toNat = v.toNat := fun u v =>
        ⟨fun h => by rw [h], fun h => Char.ext (UInt32.toNat_inj.1 h)⟩
      rw [List.cons_le_cons_iff, ← ih, hlt, heq, strLe]
      split
      · simp; omega
      · split
        · simp; omega
        · have : x.toNat = y.toNat := by omega
          simp [this]

theorem takeWhile_all {p : Char → Bool} (s : Str) (h : s.takeWhile p = s) : ∀ c ∈ s, p c = true := by
  induction s with
  | nil => simp
  | cons a s ih =>
    rw [List.takeWhile_cons] at h
    split at h
    · rename_i ha
      simp only [List.cons.injEq, true_and] at h
      intro c hc
      rcases List.mem_cons.1 hc with rfl | hc
      · exact ha
      · exact ih h c hc
    · simp at h

theorem all_takeWhile {p : Char → Bool} {s : Str} (h : ∀ c ∈ s, p c = true) : s.takeWhile p = s := by
  induction s with
  | nil => rfl
  | cons a s ih => rw [List.takeWhile_cons, if_pos (h a (by simp)), ih (fun c hc => h c (by simp [hc]))]

theorem lastName_eq (path : Str) : lastName path = (splitC '.' path).getLastD [] := by
  have key : ∀ s : Str, ∃ l : List Str, splitC '.' s = l ∧ l ≠ [] ∧ l.getLastD [] = (s.reverse.takeWhile (· ≠ '.')).reverse ∧
      ('.' ∉ s → l = [s]) ∧ ('.' ∈ s → 2 ≤ l.length) := by
    intro s
    induction s with
    | nil => exact ⟨_, rfl, by simp [splitC], by simp [splitC], by simp [splitC], by simp⟩
    | cons c s ih =>
      obtain ⟨l, hl, hne, hlast, h1, h2⟩ := ih
      refine ⟨_, rfl, ?_, ?_, ?_, ?_⟩
      · rw [splitC]
        split
        · simp
        · split <;> simp
      · rw [splitC, hl, List.reverse_cons]
        by_cases hd : '.' ∈ s
        · have hlen := h2 hd
          have hstop : (s.reverse ++ [c]).takeWhile (· ≠ '.') = s.reverse.takeWhile (· ≠ '.') := by
            rw [List.takeWhile_append]
            split
            · rename_i hh
              have hall : s.reverse.takeWhile (· ≠ '.') = s.reverse :=
                (List.takeWhile_sublist _).eq_of_length hh
              exact absurd (takeWhile_all _ hall) (fun h => by simpa using h '.' (List.mem_reverse.2 hd))
            · rfl
          rw [hstop, ← hlast]
          match l, hlen with
          | a :: b :: t, _ =>
            split
            · simp
            · simp
        · have := h1 hd
          subst this
          have hall : s.reverse.takeWhile (· ≠ '.') = s.reverse := by
            apply all_takeWhile
            intro x hx
            simp only [ne_eq, decide_eq_true_eq]
            rintro rfl
            exact hd (List.mem_reverse.1 hx)
          rw [List.takeWhile_append, hall]
          by_cases hc : c = '.'
          · simp [hc]
          · simp [hc]
      · intro hd
        simp only [List.mem_cons, not_or] at hd
        rw [splitC, hl, h1 hd.2, if_neg (Ne.symm hd.1)]
      · intro hd
        rw [splitC, hl]
        by_cases hc : c = '.'
        · rw [if_pos hc]
          cases l with
          | nil => exact absurd rfl hne
          | cons _ _ => simp
        · rw [if_neg hc]
          have : '.' ∈ s := by
            rcases List.mem_cons.1 hd with h | h
            · exact absurd h.symm hc
            · exact h
          have := h2 this
          cases l with
          | nil => simp at this
          | cons a t => simpa using this
  obtain ⟨l, hl, -, h, -⟩ := key path
  rw [hl, h]
  rfl

theorem fill_list (i s : Str) : fill (s%"%s") i s = replaceAll (s%"%s") i s := by
  unfold fill
  rw [if_neg (by decide), fillList_eq]

theorem fill_array (i s : Str) : fill (s%"[%s]") i s = replaceAll (s%"[%s]") i s := by
  unfold fill
  rw [if_pos (by decide), fillArray_eq]

end Svd
