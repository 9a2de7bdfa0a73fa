import Verif.Lemmas.Basic
/- Lemmas about integers as text. -/
namespace Svd

theorem digitVal_digitChar {d : Nat} (h : d < 16) : digitVal (digitChar d) = some d := by
  have : ∀ d : Fin 16, digitVal (digitChar d.1) = some d.1 := by decide +kernel
  exact this ⟨d, h⟩

theorem digitChar_ne_underscore {d : Nat} (h : d < 16) : digitChar d ≠ '_' := by
  have : ∀ d : Fin 16, digitChar d.1 ≠ '_' := by decide +kernel
  exact this ⟨d, h⟩

theorem digitChar_not_space {d : Nat} (h : d < 16) : isSpaceC (digitChar d) = false := by
  have : ∀ d : Fin 16, isSpaceC (digitChar d.1) = false := by decide +kernel
  exact this ⟨d, h⟩

theorem digitChar_isDigit {d : Nat} (h : d < 10) : isDigitC (digitChar d) = true := by
  have : ∀ d : Fin 10, isDigitC (digitChar d.1) = true := by decide +kernel
  exact this ⟨d, h⟩

theorem digitChar_inj {d e : Nat} (hd : d < 16) (he : e < 16) (h : digitChar d = digitChar e) : d = e := by
  have h1 := digitVal_digitChar hd
  have h2 := digitVal_digitChar he
  rw [h, h2] at h1
  exact (Option.some.inj h1).symm

theorem digitsGo_digitChar {b a d : Nat} {us : Bool} {s : Str} (hd : d < b) (hb : b ≤ 16) :
    digitsGo b a us (digitChar d :: s) = digitsGo b (a * b + d) false s := by
  simp [digitsGo, digitChar_ne_underscore (show d < 16 by omega), digitVal_digitChar (show d < 16 by omega), hd]

theorem digitsGo_toBaseAux {b : Nat} (hb : 2 ≤ b) (hb' : b ≤ 16) (f n : Nat) (us : Bool) (acc : Str) (hf : n < f) :
    digitsGo b 0 us (toBaseAux b f n acc) = digitsGo b n false acc := by
  induction f generalizing n us acc with
  | zero => omega
  | succ f ih =>
    unfold toBaseAux
    split
    · rename_i h
      rw [digitsGo_digitChar h hb']; simp
    · rename_i h
      have h1 : n / b < n := Nat.div_lt_self (by omega) (by omega)
      rw [ih _ _ _ (by omega), digitsGo_digitChar (Nat.mod_lt _ (by omega)) hb', Nat.mul_comm,
        Nat.div_add_mod]

/-- Reading back the digits of `n`. -/
theorem digits_toBase {b : Nat} (hb : 2 ≤ b) (hb' : b ≤ 16) (n : Nat) : digits b (toBase b n) = some n := by
  unfold digits toBase
  rw [digitsGo_toBaseAux hb hb' _ _ _ _ (by omega)]
  simp [digitsGo]

theorem toBaseAux_chars {b : Nat} (hb : 2 ≤ b) (f n : Nat) (acc : Str) :
    ∀ c ∈ toBaseAux b f n acc, c ∈ acc ∨ ∃ d, d < b ∧ c = digitChar d := by
  induction f generalizing n acc with
  | zero => intro c hc; exact Or.inl hc
  | succ f ih =>
    intro c hc
    unfold toBaseAux at hc
    split at hc
    · rename_i h
      rcases List.mem_cons.1 hc with rfl | hc
      · exact Or.inr ⟨n, h, rfl⟩
      · exact Or.inl hc
    · rcases ih _ _ c hc with h | h
      · rcases List.mem_cons.1 h with rfl | h
        · exact Or.inr ⟨n % b, Nat.mod_lt _ (by omega), rfl⟩
        · exact Or.inl h
      · exact Or.inr h

theorem toBase_chars {b : Nat} (hb : 2 ≤ b) (n : Nat) : ∀ c ∈ toBase b n, ∃ d, d < b ∧ c = digitChar d := by
  intro c hc
  rcases toBaseAux_chars hb _ _ _ c hc with h | h
  · cases h
  · exact h

/-- The first digit is `0` only for `0`. -/
theorem toBaseAux_head {b : Nat} (hb : 2 ≤ b) (f n : Nat) (acc : Str) (hf : n < f) :
    ∃ d t, d < b ∧ toBaseAux b f n acc = digitChar d :: t ∧ (0 < n → 0 < d) ∧ (n = 0 → d = 0 ∧ t = acc) := by
  induction f generalizing n acc with
  | zero => omega
  | succ f ih =>
    unfold toBaseAux
    split
    · rename_i h
      exact ⟨n, acc, h, rfl, id, fun h0 => ⟨h0, rfl⟩⟩
    · rename_i h
      have h1 : n / b < n := Nat.div_lt_self (by omega) (by omega)
      obtain ⟨d, t, h2, h3, h4, -⟩ := ih (n / b) (digitChar (n % b) :: acc) (by omega)
      refine ⟨d, t, h2, h3, fun _ => h4 (Nat.div_pos (by omega) (by omega)), fun h0 => by omega⟩

theorem toBase_head {b : Nat} (hb : 2 ≤ b) (n : Nat) :
    ∃ d t, d < b ∧ toBase b n = digitChar d :: t ∧ (0 < n → 0 < d) ∧ (n = 0 → d = 0 ∧ t = []) :=
  toBaseAux_head hb _ _ _ (by omega)

theorem toBase_ne_nil {b : Nat} (hb : 2 ≤ b) (n : Nat) : toBase b n ≠ [] := by
  obtain ⟨d, t, -, h, -⟩ := toBase_head hb n
  rw [h]; simp

theorem toBase_inj {b : Nat} (hb : 2 ≤ b) (hb' : b ≤ 16) {m n : Nat} (h : toBase b m = toBase b n) : m = n := by
  have h1 := digits_toBase hb hb' m
  rw [h, digits_toBase hb hb' n] at h1
  exact (Option.some.inj h1).symm

theorem natStr_inj {m n : Nat} (h : natStr m = natStr n) : m = n := toBase_inj (by omega) (by omega) h

theorem natStr_chars (n : Nat) : ∀ c ∈ natStr n, ∃ d, d < 10 ∧ c = digitChar d := toBase_chars (by omega) n

theorem natStr_digits (n : Nat) : ∀ c ∈ natStr n, isDigitC c = true := by
  intro c hc
  obtain ⟨d, hd, rfl⟩ := natStr_chars n c hc
  exact digitChar_isDigit hd

theorem natStr_ne_nil (n : Nat) : natStr n ≠ [] := toBase_ne_nil (by omega) n

theorem isDigitStr_natStr (n : Nat) : isDigitStr (natStr n) = true := by
  unfold isDigitStr
  have := natStr_ne_nil n
  cases h : natStr n with
  | nil => exact absurd h this
  | cons c cs =>
    have h1 := natStr_digits n
    rw [h] at h1
    simp only [List.isEmpty_cons, Bool.not_false, Bool.true_and, List.all_eq_true]
    exact h1

theorem not_minus_digit {d : Nat} (h : d < 16) : digitChar d ≠ '-' := by
  have : ∀ d : Fin 16, digitChar d.1 ≠ '-' := by decide +kernel
  exact this ⟨d, h⟩
theorem not_plus_digit {d : Nat} (h : d < 16) : digitChar d ≠ '+' := by
  have : ∀ d : Fin 16, digitChar d.1 ≠ '+' := by decide +kernel
  exact this ⟨d, h⟩

theorem intStr_inj {i j : Int} (h : intStr i = intStr j) : i = j := by
  have hne : ∀ n m : Nat, natStr n ≠ '-' :: natStr m := by
    intro n m hh
    have := natStr_chars n '-' (by rw [hh]; simp)
    obtain ⟨d, hd, h2⟩ := this
    exact not_minus_digit (by omega) h2.symm
  cases i with
  | ofNat n =>
    cases j with
    | ofNat m => exact congrArg Int.ofNat (natStr_inj h)
    | negSucc m => exact absurd h (hne _ _)
  | negSucc n =>
    cases j with
    | ofNat m => exact absurd h.symm (hne _ _)
    | negSucc m =>
      simp only [intStr, List.cons.injEq, true_and] at h
      have := natStr_inj h
      congr 1; omega

/-! ### strip -/

theorem dropWhile_eq_self {p : Char → Bool} {s : Str} (h : ∀ c ∈ s.head?, p c = false) : s.dropWhile p = s := by
  cases s with
  | nil => rfl
  | cons c cs =>
    have := h c (by simp)
    simp [List.dropWhile_cons, this]

theorem strip_eq_self {s : Str} (h1 : ∀ c ∈ s.head?, isSpaceC c = false)
    (h2 : ∀ c ∈ s.getLast?, isSpaceC c = false) : strip s = s := by
  unfold strip lstrip rstrip
  rw [dropWhile_eq_self h1, dropWhile_eq_self (by simpa using h2), List.reverse_reverse]

theorem strip_of_no_space {s : Str} (h : ∀ c ∈ s, isSpaceC c = false) : strip s = s :=
  strip_eq_self (fun c hc => h c (List.mem_of_mem_head? hc)) (fun c hc => h c (List.mem_of_mem_getLast? hc))

theorem natStr_no_space (n : Nat) : ∀ c ∈ natStr n, isSpaceC c = false := by
  intro c hc
  obtain ⟨d, hd, rfl⟩ := natStr_chars n c hc
  exact digitChar_not_space (by omega)

theorem intStr_no_space (i : Int) : ∀ c ∈ intStr i, isSpaceC c = false := by
  cases i with
  | ofNat n => exact natStr_no_space n
  | negSucc n =>
    intro c hc
    simp only [intStr, List.mem_cons] at hc
    rcases hc with rfl | hc
    · decide
    · exact natStr_no_space _ c hc

theorem hexStr_no_space (i : Int) : ∀ c ∈ hexStr i, isSpaceC c = false := by
  have key : ∀ n, ∀ c ∈ toBase 16 n, isSpaceC c = false := by
    intro n c hc
    obtain ⟨d, hd, rfl⟩ := toBase_chars (by omega) n c hc
    exact digitChar_not_space hd
  cases i with
  | ofNat n =>
    intro c hc
    simp only [hexStr, List.mem_cons] at hc
    rcases hc with rfl | rfl | hc
    · decide
    · decide
    · exact key _ c hc
  | negSucc n =>
    intro c hc
    simp only [hexStr, List.mem_cons] at hc
    rcases hc with rfl | rfl | rfl | hc
    · decide
    · decide
    · decide
    · exact key _ c hc

theorem pyInt_noSign {base : Nat} {s : Str} (h : strip s = s) (h1 : ∀ t, s ≠ '-' :: t) (h2 : ∀ t, s ≠ '+' :: t) :
    pyInt base s = (unsignedInt base s).map (fun n => (n : Int)) := by
  unfold pyInt
  rw [h]
  split
  · exact absurd rfl (h1 _)
  · exact absurd rfl (h2 _)
  · rfl

theorem unsignedInt_natStr10 (n : Nat) : unsignedInt 10 (natStr n) = some n := by
  simp only [unsignedInt]
  exact digits_toBase (by omega) (by omega) n

theorem natStr_ne_sign (n : Nat) : (∀ t, natStr n ≠ '-' :: t) ∧ (∀ t, natStr n ≠ '+' :: t) := by
  constructor
  · intro t h
    obtain ⟨d, hd, h2⟩ := natStr_chars n '-' (by rw [h]; simp)
    exact not_minus_digit (by omega) h2.symm
  · intro t h
    obtain ⟨d, hd, h2⟩ := natStr_chars n '+' (by rw [h]; simp)
    exact not_plus_digit (by omega) h2.symm

theorem pyInt_natStr10 (n : Nat) : pyInt 10 (natStr n) = some (n : Int) := by
  rw [pyInt_noSign (strip_of_no_space (natStr_no_space n)) (natStr_ne_sign n).1 (natStr_ne_sign n).2,
    unsignedInt_natStr10]
  rfl

/-- The first digit as a character: `'0'` only for zero. -/
theorem natStr_zero : natStr 0 = ['0'] := by decide +kernel

theorem natStr_head_ne_zero {n : Nat} (h : 0 < n) : ∀ t, natStr n ≠ '0' :: t := by
  intro t ht
  obtain ⟨d, t', hd, h1, h2, -⟩ := toBase_head (b := 10) (by omega) n
  have : digitChar d :: t' = '0' :: t := by rw [← h1]; exact ht
  have h3 := (List.cons.inj this).1
  have : d = 0 := digitChar_inj (d := d) (e := 0) (by omega) (by omega) h3
  have := h2 h
  omega

theorem unsignedInt_natStr0 (n : Nat) : unsignedInt 0 (natStr n) = some n := by
  rcases Nat.eq_zero_or_pos n with rfl | h
  · decide +kernel
  · have h0 := natStr_head_ne_zero h
    unfold unsignedInt
    simp only [show (0 : Nat) ≠ 16 by omega, show (0 : Nat) ≠ 2 by omega, if_false, if_true]
    split
    all_goals first
      | (rename_i heq; exact absurd heq (h0 _))
      | exact digits_toBase (by omega) (by omega) n

theorem pyInt_natStr0 (n : Nat) : pyInt 0 (natStr n) = some (n : Int) := by
  rw [pyInt_noSign (strip_of_no_space (natStr_no_space n)) (natStr_ne_sign n).1 (natStr_ne_sign n).2,
    unsignedInt_natStr0]
  rfl

theorem pyInt_intStr0 (i : Int) : pyInt 0 (intStr i) = some i := by
  cases i with
  | ofNat n => exact pyInt_natStr0 n
  | negSucc n =>
    unfold pyInt
    rw [strip_of_no_space (intStr_no_space _)]
    simp only [intStr, unsignedInt_natStr0, Option.map_some]
    rfl

theorem digitsAfterPrefix_toBase {b : Nat} (hb : 2 ≤ b) (hb' : b ≤ 16) (n : Nat) :
    digitsAfterPrefix b (toBase b n) = some n := by
  unfold digitsAfterPrefix
  split
  · rename_i t heq
    obtain ⟨d, hd, h2⟩ := toBase_chars hb n '_' (by rw [heq]; simp)
    exact absurd h2.symm (digitChar_ne_underscore (by omega))
  · exact digits_toBase hb hb' n

theorem pyInt_hexStr0 (i : Int) : pyInt 0 (hexStr i) = some i := by
  unfold pyInt
  rw [strip_of_no_space (hexStr_no_space _)]
  cases i with
  | ofNat n =>
    simp [hexStr, unsignedInt, digitsAfterPrefix_toBase]
  | negSucc n =>
    simp [hexStr, unsignedInt, digitsAfterPrefix_toBase]
    omega

end Svd
