import Verif.Spec.Literal
import Verif.Lemmas.XmlInt
/-
The parser reads exactly the integer literals.
-/
namespace Svd
open Spec

theorem hashes_eq (v : Str) : hashes v = rep v := by
  unfold hashes
  induction v with
  | nil => rfl
  | cons c v ih =>
    by_cases h : c = '#'
    · subst h; rw [rep_hash, ← ih]; rfl
    · rw [rep_cons h, ← ih]; simp [h]

section
variable {b : Nat} {val : Char → Nat} {P : Char → Prop}

theorem Spec.Grouped.ne_nil {s t : Str} (h : Grouped P s t) : s ≠ [] := by cases h <;> simp

theorem Spec.Grouped.head {s t : Str} (h : Grouped P s t) : ∀ c ∈ s.head?, P c := by
  cases h <;> simp_all

theorem Spec.Grouped.last' {s t : Str} (h : Grouped P s t) : ∀ c ∈ s.getLast?, P c := by
  induction h with
  | last h => simpa using h
  | @next c0 s0 t0 h h2 ih =>
    intro c hc
    cases s0 with
    | nil => exact absurd rfl h2.ne_nil
    | cons x xs => exact ih c (by simpa [List.getLast?_cons_cons] using hc)
  | @group c0 s0 t0 h h2 ih =>
    intro c hc
    cases s0 with
    | nil => exact absurd rfl h2.ne_nil
    | cons x xs => exact ih c (by simpa [List.getLast?_cons_cons] using hc)

theorem digitsGo_grouped (hP : ∀ c d, (digitVal c = some d ∧ d < b) ↔ (P c ∧ d = val c)) (s : Str) : ∀ (acc n : Nat),
    (digitsGo b acc true s = some n ↔ ∃ t, Grouped P s t ∧ n = t.foldl (fun a c => a * b + val c) acc) ∧
    (digitsGo b acc false s = some n ↔ (s = [] ∧ n = acc) ∨ (∃ t, Grouped P s t ∧ n = t.foldl (fun a c => a * b + val c) acc) ∨
      (∃ s' t, s = '_' :: s' ∧ Grouped P s' t ∧ n = t.foldl (fun a c => a * b + val c) acc)) := by
  have hu : ¬ P '_' := fun h => by
    have := ((hP '_' (val '_')).2 ⟨h, rfl⟩).1
    simp [digitVal] at this
  induction s with
  | nil =>
    intro acc n
    constructor
    · simp only [digitsGo]
      constructor
      · intro h; simp at h
      · rintro ⟨t, h, _⟩; cases h
    · simp only [digitsGo]
      constructor
      · intro h; left; exact ⟨trivial, (Option.some.inj h).symm⟩
      · rintro (h | ⟨t, h, _⟩ | ⟨s', t, h, _⟩)
        · simp [h.2]
        · cases h
        · simp at h
  | cons c s ih =>
    intro acc n
    by_cases hc : c = '_'
    · subst hc
      constructor
      · simp only [digitsGo]
        constructor
        · intro h; simp at h
        · rintro ⟨t, h, _⟩
          cases h with
          | last h => exact absurd h hu
          | next h _ => exact absurd h hu
          | group h _ => exact absurd h hu
      · simp only [digitsGo, if_true, Bool.false_eq_true, if_false]
        rw [(ih acc n).1]
        constructor
        · rintro ⟨t, h1, h2⟩
          exact Or.inr (Or.inr ⟨s, t, rfl, h1, h2⟩)
        · rintro (h | ⟨t, h, _⟩ | ⟨s', t, h, h1, h2⟩)
          · simp at h
          · cases h with
            | last h => exact absurd h hu
            | next h _ => exact absurd h hu
            | group h _ => exact absurd h hu
          · simp only [List.cons.injEq, true_and] at h
            subst h
            exact ⟨t, h1, h2⟩
    · have key : ∀ us, digitsGo b acc us (c :: s) = some n ↔ ∃ t, Grouped P (c :: s) t ∧ n = t.foldl (fun a c => a * b + val c) acc := by
        intro us
        simp only [digitsGo, hc, if_false]
        by_cases hp : P c
        · obtain ⟨h1, h2⟩ := (hP c (val c)).2 ⟨hp, rfl⟩
          rw [h1]
          simp only [h2, if_true]
          rw [(ih _ n).2]
          constructor
          · rintro (⟨h, h'⟩ | ⟨t, h, h'⟩ | ⟨s', t, h, h', h''⟩)
            · subst h; exact ⟨[c], .last hp, by simp [h']⟩
            · exact ⟨c :: t, .next hp h, by simpa using h'⟩
            · subst h; exact ⟨c :: t, .group hp h', by simpa using h''⟩
          · rintro ⟨t, h, h'⟩
            cases h with
            | last h => exact Or.inl ⟨rfl, by simpa using h'⟩
            | next _ h => exact Or.inr (Or.inl ⟨_, h, by simpa using h'⟩)
            | group _ h => exact Or.inr (Or.inr ⟨_, _, rfl, h, by simpa using h'⟩)
        · have h1 : (match digitVal c with | some d => if d < b then digitsGo b (acc * b + d) false s else none | none => none) = none := by
            cases hd : digitVal c with
            | none => rfl
            | some d =>
              by_cases hlt : d < b
              · exact absurd ((hP c d).1 ⟨hd, hlt⟩).1 hp
              · simp [hlt]
          constructor
          · intro h; exact absurd (h.symm.trans h1) (by simp)
          · rintro ⟨t, h, _⟩
            cases h with
            | last h => exact absurd h hp
            | next h _ => exact absurd h hp
            | group h _ => exact absurd h hp
      refine ⟨key true, ?_⟩
      rw [key false]
      constructor
      · intro h; exact Or.inr (Or.inl h)
      · rintro (⟨h, _⟩ | h | ⟨s', t, h, _⟩)
        · simp at h
        · exact h
        · simp only [List.cons.injEq] at h; exact absurd h.1 hc

theorem digits_grouped (hP : ∀ c d, (digitVal c = some d ∧ d < b) ↔ (P c ∧ d = val c)) (s : Str) (n : Nat) :
    digits b s = some n ↔ ∃ t, Grouped P s t ∧ n = numeral val b t := (digitsGo_grouped hP s 0 n).1

theorem digitsAfterPrefix_grouped (hP : ∀ c d, (digitVal c = some d ∧ d < b) ↔ (P c ∧ d = val c)) (s : Str) (n : Nat) :
    digitsAfterPrefix b s = some n ↔ ∃ us u t, (us = [] ∨ us = ['_']) ∧ s = us ++ u ∧ Grouped P u t ∧ n = numeral val b t := by
  have hu : ¬ P '_' := fun h => by
    have := ((hP '_' (val '_')).2 ⟨h, rfl⟩).1
    simp [digitVal] at this
  have hno : ∀ s t, ¬ Grouped P ('_' :: s) t := by
    intro s t h
    cases h with
    | last h => exact absurd h hu
    | next h _ => exact absurd h hu
    | group h _ => exact absurd h hu
  cases s with
  | nil =>
    simp only [digitsAfterPrefix]
    rw [digits_grouped hP]
    constructor
    · rintro ⟨t, h, _⟩; cases h
    · rintro ⟨us, u, t, h, h', h'', h3⟩
      have : u = [] := by
        have := congrArg List.length h'
        simp at this
        exact List.length_eq_zero_iff.1 (by omega)
      subst this; cases h''
  | cons c s =>
    by_cases hc : c = '_'
    · subst hc
      simp only [digitsAfterPrefix]
      rw [digits_grouped hP]
      constructor
      · rintro ⟨t, h, h'⟩; exact ⟨['_'], s, t, Or.inr rfl, rfl, h, h'⟩
      · rintro ⟨us, u, t, h | h, h', h'', h3⟩
        · subst h; simp at h'; subst h'; exact absurd h'' (hno _ _)
        · subst h; simp at h'; subst h'; exact ⟨t, h'', h3⟩
    · have : digitsAfterPrefix b (c :: s) = digits b (c :: s) := by
        unfold digitsAfterPrefix
        split
        · rename_i h; simp only [List.cons.injEq] at h; exact absurd h.1 hc
        · rfl
      rw [this, digits_grouped hP]
      constructor
      · rintro ⟨t, h, h'⟩; exact ⟨[], _, t, Or.inl rfl, rfl, h, h'⟩
      · rintro ⟨us, u, t, h | h, h', h'', h3⟩
        · subst h; simp at h'; subst h'; exact ⟨t, h'', h3⟩
        · subst h; simp at h'; exact absurd h'.1 hc
end

theorem uval_noPrefix {w : Str} (h : ∀ t, w ≠ '0' :: 'x' :: t ∧ w ≠ '0' :: 'X' :: t ∧ w ≠ '0' :: 'b' :: t ∧
    w ≠ '0' :: 'B' :: t ∧ w ≠ '0' :: 'o' :: t ∧ w ≠ '0' :: 'O' :: t) : uval w = digits 10 w := by
  unfold uval
  have h0 : unsignedInt 0 w = digits 10 w ∨ (unsignedInt 0 w = none) := by
    unfold unsignedInt
    simp only [(by decide : ¬ (0 : Nat) = 16), (by decide : ¬ (0 : Nat) = 2), if_false, if_true]
    split
    · exact absurd rfl (h _).1
    · exact absurd rfl (h _).2.1
    · exact absurd rfl (h _).2.2.1
    · exact absurd rfl (h _).2.2.2.1
    · exact absurd rfl (h _).2.2.2.2.1
    · exact absurd rfl (h _).2.2.2.2.2
    · split
      · rename_i e; exact Or.inl e.symm
      · exact Or.inr rfl
    · exact Or.inl rfl
  rcases h0 with h0 | h0
  · rw [h0, unsignedInt10_eq]; cases digits 10 w <;> rfl
  · rw [h0, unsignedInt10_eq]

/-- A literal with a prefix letter is no decimal one. -/
theorem not_grouped_dec {p : Char} (hp : ¬ IsDec p) (hu : p ≠ '_') (t u : Str) : ¬ Grouped IsDec ('0' :: p :: t) u := by
  intro h
  cases h with
  | next _ h => exact hp (h.head p (by simp))
  | group _ _ => exact hu rfl

theorem uval_withPrefix {b : Nat} {val : Char → Nat} {P : Char → Prop} (hP : ∀ c d, (digitVal c = some d ∧ d < b) ↔ (P c ∧ d = val c))
    {p : Char} (hp : ¬ IsDec p) (hu : p ≠ '_') (h0 : ∀ t, unsignedInt 0 ('0' :: p :: t) = digitsAfterPrefix b t) (t : Str) (n : Nat) :
    uval ('0' :: p :: t) = some n ↔ ∃ us u v, (us = [] ∨ us = ['_']) ∧ t = us ++ u ∧ Grouped P u v ∧ n = numeral val b v := by
  rw [← digitsAfterPrefix_grouped hP]
  have : uval ('0' :: p :: t) = digitsAfterPrefix b t := by
    unfold uval
    rw [h0]
    cases h : digitsAfterPrefix b t with
    | some n => rfl
    | none =>
      simp only [unsignedInt10_eq]
      cases h' : digits 10 ('0' :: p :: t) with
      | none => rfl
      | some m =>
        obtain ⟨u, hu', _⟩ := (digits_grouped dec_class _ _).1 h'
        exact absurd hu' (not_grouped_dec hp hu _ _)
  rw [this]

theorem uval_text (w : Str) (n : Nat) : uval w = some n ↔ UnsignedText w n := by
  have pre : ∀ {b : Nat} {val : Char → Nat} {P : Char → Prop} {p : Char} {t : Str},
      (∀ c d, (digitVal c = some d ∧ d < b) ↔ (P c ∧ d = val c)) → ¬ IsDec p → p ≠ '_' →
      (∀ t, unsignedInt 0 ('0' :: p :: t) = digitsAfterPrefix b t) → Radix ['0', p] P val b →
      (∀ P' val' b', Radix ['0', p] P' val' b' → P' = P ∧ val' = val ∧ b' = b) →
      (uval ('0' :: p :: t) = some n ↔ UnsignedText ('0' :: p :: t) n) := by
    intro b val P p t hP hd hu h0 hr huniq
    rw [uval_withPrefix hP hd hu h0]
    constructor
    · rintro ⟨us, u, v, h1, rfl, h3, rfl⟩
      exact UnsignedText.pre hr h1 h3
    · intro h
      generalize hw : '0' :: p :: t = w at h
      cases h with
      | dec h => subst hw; exact absurd h (not_grouped_dec hd hu _ _)
      | @pre pre us s v P' val' b' h1 h2 h3 =>
        have h4 : ∃ q, pre = ['0', q] := by
          cases h1 with
          | hex h => rcases h with rfl | rfl <;> exact ⟨_, rfl⟩
          | bin h => rcases h with rfl | rfl <;> exact ⟨_, rfl⟩
          | oct h => rcases h with rfl | rfl <;> exact ⟨_, rfl⟩
        obtain ⟨q, rfl⟩ := h4
        simp only [List.cons_append, List.nil_append, List.cons.injEq, true_and] at hw
        obtain ⟨rfl, rfl⟩ := hw
        obtain ⟨rfl, rfl, rfl⟩ := huniq _ _ _ h1
        exact ⟨us, s, v, h2, rfl, h3, rfl⟩
  have d (c : Char) (h : ¬ (48 ≤ c.toNat ∧ c.toNat ≤ 57)) : ¬ IsDec c := h
  by_cases hx : ∃ t, w = '0' :: 'x' :: t
  · obtain ⟨t, rfl⟩ := hx
    refine pre hex_class (d _ (by decide)) (by decide) (fun _ => rfl) (.hex (Or.inl rfl)) ?_
    intro P' val' b' h
    cases h with
    | hex _ => exact ⟨rfl, rfl, rfl⟩
    | bin h => rcases h with h | h <;> simp at h
    | oct h => rcases h with h | h <;> simp at h
  by_cases hX : ∃ t, w = '0' :: 'X' :: t
  · obtain ⟨t, rfl⟩ := hX
    refine pre hex_class (d _ (by decide)) (by decide) (fun _ => rfl) (.hex (Or.inr rfl)) ?_
    intro P' val' b' h
    cases h with
    | hex _ => exact ⟨rfl, rfl, rfl⟩
    | bin h => rcases h with h | h <;> simp at h
    | oct h => rcases h with h | h <;> simp at h
  by_cases hb : ∃ t, w = '0' :: 'b' :: t
  · obtain ⟨t, rfl⟩ := hb
    refine pre bin_class (d _ (by decide)) (by decide) (fun _ => rfl) (.bin (Or.inl rfl)) ?_
    intro P' val' b' h
    cases h with
    | bin _ => exact ⟨rfl, rfl, rfl⟩
    | hex h => rcases h with h | h <;> simp at h
    | oct h => rcases h with h | h <;> simp at h
  by_cases hB : ∃ t, w = '0' :: 'B' :: t
  · obtain ⟨t, rfl⟩ := hB
    refine pre bin_class (d _ (by decide)) (by decide) (fun _ => rfl) (.bin (Or.inr rfl)) ?_
    intro P' val' b' h
    cases h with
    | bin _ => exact ⟨rfl, rfl, rfl⟩
    | hex h => rcases h with h | h <;> simp at h
    | oct h => rcases h with h | h <;> simp at h
  by_cases ho : ∃ t, w = '0' :: 'o' :: t
  · obtain ⟨t, rfl⟩ := ho
    refine pre oct_class (d _ (by decide)) (by decide) (fun _ => rfl) (.oct (Or.inl rfl)) ?_
    intro P' val' b' h
    cases h with
    | oct _ => exact ⟨rfl, rfl, rfl⟩
    | hex h => rcases h with h | h <;> simp at h
    | bin h => rcases h with h | h <;> simp at h
  by_cases hO : ∃ t, w = '0' :: 'O' :: t
  · obtain ⟨t, rfl⟩ := hO
    refine pre oct_class (d _ (by decide)) (by decide) (fun _ => rfl) (.oct (Or.inr rfl)) ?_
    intro P' val' b' h
    cases h with
    | oct _ => exact ⟨rfl, rfl, rfl⟩
    | hex h => rcases h with h | h <;> simp at h
    | bin h => rcases h with h | h <;> simp at h
  rw [uval_noPrefix (fun t => ⟨fun h => hx ⟨t, h⟩, fun h => hX ⟨t, h⟩, fun h => hb ⟨t, h⟩, fun h => hB ⟨t, h⟩, fun h => ho ⟨t, h⟩, fun h => hO ⟨t, h⟩⟩),
    digits_grouped dec_class]
  constructor
  · rintro ⟨t, h, rfl⟩; exact .dec h
  · intro h
    cases h with
    | dec h => exact ⟨_, h, rfl⟩
    | pre h1 h2 h3 =>
      exfalso
      cases h1 with
      | hex h =>
        rcases h with rfl | rfl
        · exact hx ⟨_, rfl⟩
        · exact hX ⟨_, rfl⟩
      | bin h =>
        rcases h with rfl | rfl
        · exact hb ⟨_, rfl⟩
        · exact hB ⟨_, rfl⟩
      | oct h =>
        rcases h with rfl | rfl
        · exact ho ⟨_, rfl⟩
        · exact hO ⟨_, rfl⟩

theorem Spec.Grouped.chars {P : Char → Prop} {s t : Str} (h : Grouped P s t) : ∀ c ∈ s, P c ∨ c = '_' := by
  induction h with
  | last h => intro c hc; simp only [List.mem_singleton] at hc; exact Or.inl (hc ▸ h)
  | next h _ ih =>
    intro c hc
    rcases List.mem_cons.1 hc with rfl | hc
    · exact Or.inl h
    · exact ih c hc
  | group h _ ih =>
    intro c hc
    rcases List.mem_cons.1 hc with rfl | hc
    · exact Or.inl h
    · rcases List.mem_cons.1 hc with rfl | hc
      · exact Or.inr rfl
      · exact ih c hc

/-- The characters of a literal. -/
theorem Spec.UnsignedText.chars {u : Str} {n : Nat} (h : UnsignedText u n) :
    u ≠ [] ∧ ∀ c ∈ u, (48 ≤ c.toNat ∧ c.toNat ≤ 57 ∨ 65 ≤ c.toNat ∧ c.toNat ≤ 122) := by
  have hg : ∀ {P : Char → Prop} {s t : Str}, (∀ c, P c → (48 ≤ c.toNat ∧ c.toNat ≤ 57 ∨ 65 ≤ c.toNat ∧ c.toNat ≤ 122)) → Grouped P s t →
      ∀ c ∈ s, (48 ≤ c.toNat ∧ c.toNat ≤ 57 ∨ 65 ≤ c.toNat ∧ c.toNat ≤ 122) := by
    intro P s t hP h c hc
    rcases h.chars c hc with h | rfl
    · exact hP c h
    · decide
  have hdec : ∀ c, IsDec c → (48 ≤ c.toNat ∧ c.toNat ≤ 57 ∨ 65 ≤ c.toNat ∧ c.toNat ≤ 122) := fun c h => Or.inl h
  cases h with
  | dec h => exact ⟨h.ne_nil, hg hdec h⟩
  | @pre pre us s t P val b h1 h2 h3 =>
    refine ⟨by simp [h3.ne_nil], fun c hc => ?_⟩
    simp only [List.mem_append] at hc
    rcases hc with (hc | hc) | hc
    · cases h1 with
      | hex h => rcases h with rfl | rfl <;> simp at hc <;> rcases hc with rfl | rfl <;> decide
      | bin h => rcases h with rfl | rfl <;> simp at hc <;> rcases hc with rfl | rfl <;> decide
      | oct h => rcases h with rfl | rfl <;> simp at hc <;> rcases hc with rfl | rfl <;> decide
    · rcases h2 with rfl | rfl
      · simp at hc
      · simp at hc; subst hc; decide
    · refine hg ?_ h3 c hc
      cases h1 with
      | hex _ =>
        rintro c (h | h | h)
        · exact Or.inl h
        · have e3 : 'a'.toNat = 97 := rfl
          have e4 : 'f'.toNat = 102 := rfl
          omega
        · have e5 : 'A'.toNat = 65 := rfl
          have e6 : 'F'.toNat = 70 := rfl
          omega
      | bin _ => intro c h; have := (isBin_toNat c).1 h; omega
      | oct _ =>
        intro c h
        have e1 : '0'.toNat = 48 := rfl
        have e2 : '7'.toNat = 55 := rfl
        unfold IsOct at h
        omega

theorem toInt_text (v : Str) (i : Int) : toInt v = .ok i [] ↔ IntText v i := by
  have hor : toInt v = .ok i [] ↔ signed (strip (rep v)) = some i := by
    rw [toInt_eq]
    cases signed (strip (rep v)) with
    | none => simp [M.throw]
    | some j => simp [M.pure]
  rw [hor]
  unfold IntText
  rw [hashes_eq]
  have hsp : ∀ c : Char, (48 ≤ c.toNat ∧ c.toNat ≤ 57 ∨ 65 ≤ c.toNat ∧ c.toNat ≤ 122) → isSpaceC c = false ∧ c ≠ '-' ∧ c ≠ '+' := by
    intro c hc
    refine ⟨?_, ?_, ?_⟩
    · rcases hc with hc | hc
      · unfold isSpaceC; simp; omega
      · unfold isSpaceC; simp; omega
    · rintro rfl; revert hc; decide
    · rintro rfl; revert hc; decide
  have hpos : ∀ u : Str, (∀ t, u ≠ '-' :: t) → (∀ t, u ≠ '+' :: t) → signed u = (uval u).map fun n : Nat => (n : Int) := by
    intro u h1 h2
    unfold signed
    split
    · exact absurd rfl (h1 _)
    · exact absurd rfl (h2 _)
    · rfl
  constructor
  · intro h
    obtain ⟨a, b, ha, hb, hv⟩ := strip_decomp (rep v)
    generalize strip (rep v) = w at h hv
    by_cases h1 : ∃ t, w = '-' :: t
    · obtain ⟨t, rfl⟩ := h1
      simp only [signed, Option.map_eq_some_iff] at h
      obtain ⟨n, hn, rfl⟩ := h
      exact ⟨a, ['-'], t, b, n, by simpa using hv, ha, hb, (uval_text _ _).1 hn, Or.inr ⟨rfl, rfl⟩⟩
    by_cases h2 : ∃ t, w = '+' :: t
    · obtain ⟨t, rfl⟩ := h2
      simp only [signed, Option.map_eq_some_iff] at h
      obtain ⟨n, hn, rfl⟩ := h
      exact ⟨a, ['+'], t, b, n, by simpa using hv, ha, hb, (uval_text _ _).1 hn, Or.inl ⟨Or.inr rfl, rfl⟩⟩
    rw [hpos w (fun t e => h1 ⟨t, e⟩) (fun t e => h2 ⟨t, e⟩), Option.map_eq_some_iff] at h
    obtain ⟨n, hn, rfl⟩ := h
    exact ⟨a, [], w, b, n, by simpa using hv, ha, hb, (uval_text _ _).1 hn, Or.inl ⟨Or.inl rfl, rfl⟩⟩
  · rintro ⟨a, sign, u, b, n, hv, ha, hb, hu, hs⟩
    obtain ⟨hne, hch⟩ := hu.chars
    have hs' : sign = [] ∨ sign = ['+'] ∨ sign = ['-'] := by
      rcases hs with ⟨h | h, _⟩ | ⟨h, _⟩ <;> simp [h]
    have hstrip : strip (rep v) = sign ++ u := by
      rw [hv, List.append_assoc a]
      refine strip_between ha hb ?_ ?_ (by simp [hne])
      · intro c hc
        cases u with
        | nil => exact absurd rfl hne
        | cons x xs =>
          rcases hs' with rfl | rfl | rfl
          · simp at hc; subst hc; exact (hsp _ (hch _ (by simp))).1
          · simp at hc; subst hc; decide
          · simp at hc; subst hc; decide
      · intro c hc
        have : c ∈ u.getLast? := by
          rw [List.getLast?_append, List.getLast?_eq_some_getLast hne] at hc
          rw [List.getLast?_eq_some_getLast hne]; exact hc
        exact (hsp _ (hch _ (List.mem_of_getLast? this))).1
    rw [hstrip]
    have huv := (uval_text _ _).2 hu
    have h1 : ∀ t, u ≠ '-' :: t := fun t e => (hsp '-' (hch _ (by simp [e]))).2.1 rfl
    have h2 : ∀ t, u ≠ '+' :: t := fun t e => (hsp '+' (hch _ (by simp [e]))).2.2 rfl
    rcases hs with ⟨rfl | rfl, rfl⟩ | ⟨rfl, rfl⟩
    · rw [List.nil_append, hpos u h1 h2, huv]; rfl
    · simp [signed, huv]
    · simp [signed, huv]

end Svd
