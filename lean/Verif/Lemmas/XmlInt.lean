import Verif.Spec.Xml
import Verif.Lemmas.EnumAccept
/-
Integer literals as read by the parser.
-/
namespace Svd
open Spec

/-- `s.replace('#', '0b')`. -/
def rep (s : Str) : Str := replaceAll ['#'] (s%"0b") s

theorem rep_nil : rep [] = [] := rfl
theorem rep_hash (s : Str) : rep ('#' :: s) = '0' :: 'b' :: rep s := by
  simp [rep, replaceAll, replaceGo, List.isPrefixOf]
theorem rep_cons {c : Char} (h : c ≠ '#') (s : Str) : rep (c :: s) = c :: rep s := by
  have : ('#' == c) = false := by simpa using fun h' => h h'.symm
  simp [rep, replaceAll, replaceGo, List.isPrefixOf, this]

theorem rep_append (a b : Str) : rep (a ++ b) = rep a ++ rep b := by
  induction a with
  | nil => rfl
  | cons c a ih =>
    by_cases h : c = '#'
    · subst h; simp only [List.cons_append, rep_hash, ih]
    · simp only [List.cons_append, rep_cons h, ih]

theorem rep_of_not_mem {s : Str} (h : '#' ∉ s) : rep s = s := by
  induction s with
  | nil => rfl
  | cons c s ih =>
    simp only [List.mem_cons, not_or] at h
    rw [rep_cons (fun x => h.1 x.symm), ih h.2]

/-- No `b` in the result means no `#` in the argument. -/
theorem rep_no_b {s : Str} (h : 'b' ∉ rep s) : rep s = s := by
  refine rep_of_not_mem ?_
  induction s with
  | nil => simp
  | cons c s ih =>
    by_cases hc : c = '#'
    · subst hc; rw [rep_hash] at h; simp at h
    · rw [rep_cons hc] at h
      simp only [List.mem_cons, not_or] at h ⊢
      exact ⟨fun x => hc x.symm, ih h.2⟩

theorem rep_blank {s : Str} (h : Blank s) : rep s = s :=
  rep_of_not_mem fun hm => by have := h _ hm; revert this; decide

theorem rep_mem_underscore {s : Str} : '_' ∈ rep s ↔ '_' ∈ s := by
  induction s with
  | nil => rfl
  | cons c s ih =>
    by_cases hc : c = '#'
    · subst hc; simp [rep_hash, ih]
    · simp [rep_cons hc, ih]

theorem blank_iff {s : Str} : Blank s ↔ ∀ c ∈ s, isSpaceC c = true := by
  unfold Blank
  rw [isSpace_eq]

/-- What `strip` removes. -/
theorem strip_decomp (s : Str) : ∃ a b, Blank a ∧ Blank b ∧ s = a ++ strip s ++ b := by
  refine ⟨s.takeWhile isSpaceC, ((lstrip s).reverse.takeWhile isSpaceC).reverse, ?_, ?_, ?_⟩
  · rw [blank_iff]; exact fun c hc => List.all_eq_true.1 List.all_takeWhile c hc
  · rw [blank_iff]; intro c hc; exact List.all_eq_true.1 List.all_takeWhile c (List.mem_reverse.1 hc)
  · have h1 : (lstrip s) = strip s ++ ((lstrip s).reverse.takeWhile isSpaceC).reverse := by
      unfold strip rstrip
      rw [← List.reverse_append, List.takeWhile_append_dropWhile, List.reverse_reverse]
    rw [List.append_assoc, ← h1]
    exact (List.takeWhile_append_dropWhile).symm

theorem dropWhile_blank_append {a t : Str} (h : Blank a) : (a ++ t).dropWhile isSpaceC = t.dropWhile isSpaceC := by
  rw [blank_iff] at h
  induction a with
  | nil => rfl
  | cons c a ih =>
    rw [List.cons_append, List.dropWhile_cons_of_pos (h c (List.mem_cons_self ..))]
    exact ih fun x hx => h x (List.mem_cons_of_mem _ hx)

/-- A text without blanks at its ends, between blanks. -/
theorem strip_between {a t b : Str} (ha : Blank a) (hb : Blank b) (h1 : ∀ c ∈ t.head?, isSpaceC c = false)
    (h2 : ∀ c ∈ t.getLast?, isSpaceC c = false) (hne : t ≠ []) : strip (a ++ t ++ b) = t := by
  unfold strip lstrip
  rw [List.append_assoc, dropWhile_blank_append ha]
  have h3 : (t ++ b).dropWhile isSpaceC = t ++ b := by
    refine dropWhile_eq_self ?_
    cases t with
    | nil => exact absurd rfl hne
    | cons c t => exact h1
  rw [h3]
  unfold rstrip
  rw [List.reverse_append, dropWhile_blank_append (fun c hc => hb c (List.mem_reverse.1 hc)), dropWhile_eq_self,
    List.reverse_reverse]
  rwa [List.head?_reverse]

theorem strip_ends (s : Str) : (∀ c ∈ (strip s).head?, isSpaceC c = false) ∧ (∀ c ∈ (strip s).getLast?, isSpaceC c = false) := by
  have hd : ∀ (l : Str), ∀ c ∈ (l.dropWhile isSpaceC).head?, isSpaceC c = false := by
    intro l c hc
    have := List.head?_dropWhile_not isSpaceC l
    rw [Option.mem_def] at hc
    rw [hc] at this
    simpa using this
  constructor
  · intro c hc
    have h1 : (strip s).head? = (lstrip s).head? ∨ strip s = [] := by
      by_cases he : strip s = []
      · exact .inr he
      · left
        unfold strip rstrip at he ⊢
        have hsub : ((lstrip s).reverse.dropWhile isSpaceC).reverse <+: lstrip s := by
          rw [← List.reverse_suffix, List.reverse_reverse]
          exact List.dropWhile_suffix _
        obtain ⟨t, ht⟩ := hsub
        generalize ((lstrip s).reverse.dropWhile isSpaceC).reverse = q at ht he ⊢
        rw [← ht]
        cases q with
        | nil => exact absurd rfl he
        | cons x y => simp
    rcases h1 with h1 | h1
    · rw [h1] at hc; exact hd s c hc
    · rw [h1] at hc; simp at hc
  · intro c hc
    unfold strip rstrip at hc
    rw [List.getLast?_reverse] at hc
    exact hd _ c hc

theorem strip_strip (s : Str) : strip (strip s) = strip s := strip_eq_self (strip_ends s).1 (strip_ends s).2

theorem strip_blank {s : Str} (h : Blank s) : strip s = [] := by
  have : lstrip s = [] := by
    unfold lstrip
    have := dropWhile_blank_append (t := []) h
    simpa using this
  unfold strip; rw [this]; rfl

theorem rep_strip (s : Str) : strip (rep s) = rep (strip s) := by
  obtain ⟨a, b, ha, hb, hs⟩ := strip_decomp s
  obtain ⟨h1, h2⟩ := strip_ends s
  generalize strip s = t at *
  subst hs
  rw [rep_append, rep_append, rep_blank ha, rep_blank hb]
  cases ht : t with
  | nil =>
    rw [rep_nil, List.append_nil]
    exact strip_blank fun c hc => (List.mem_append.1 hc).elim (ha c) (hb c)
  | cons c t' =>
    rw [← ht]
    have hne : t ≠ [] := by rw [ht]; simp
    refine strip_between ha hb ?_ ?_ ?_
    · intro x hx
      rw [ht] at hx h1
      by_cases hc : c = '#'
      · subst hc; rw [rep_hash] at hx; simp at hx; subst hx; decide
      · rw [rep_cons hc] at hx; exact h1 x hx
    · intro x hx
      obtain ⟨l, y, rfl⟩ : ∃ l y, t = l ++ [y] := ⟨t.dropLast, t.getLast hne, (List.dropLast_concat_getLast hne).symm⟩
      rw [rep_append] at hx
      by_cases hc : y = '#'
      · subst hc; rw [rep_hash, rep_nil] at hx; simp at hx; subst hx; decide
      · rw [rep_cons hc, rep_nil] at hx; simp at hx
        exact h2 x (by simp [hx])
    · intro h
      rw [ht] at h
      by_cases hc : c = '#'
      · subst hc; rw [rep_hash] at h; simp at h
      · rw [rep_cons hc] at h; simp at h

/-! ### digits -/

theorem digits_iff {b : Nat} {val : Char → Nat} {P : Char → Prop} (hP : ∀ c d, (digitVal c = some d ∧ d < b) ↔ (P c ∧ d = val c))
    {s : Str} (hu : '_' ∉ s) {n : Nat} : digits b s = some n ↔ s ≠ [] ∧ (∀ c ∈ s, P c) ∧ n = numeral val b s := by
  have hd : ∀ c ∈ s, P c → digitVal c = some (val c) ∧ val c < b ∧ c ≠ '_' := fun c hc hp =>
    ⟨((hP c _).2 ⟨hp, rfl⟩).1, ((hP c _).2 ⟨hp, rfl⟩).2, fun e => hu (e ▸ hc)⟩
  constructor
  · intro h
    obtain ⟨h1, h2⟩ := digitsGo_chars h hu
    have h3 : ∀ c ∈ s, P c := fun c hc => by
      obtain ⟨d, hd, hb⟩ := h1 c hc
      exact ((hP c d).1 ⟨hd, hb⟩).1
    refine ⟨h2 rfl, h3, ?_⟩
    rw [digits_numeral (val := val) s (fun c hc => hd c hc (h3 c hc)) (h2 rfl)] at h
    exact (Option.some.inj h).symm
  · rintro ⟨h1, h2, rfl⟩
    exact digits_numeral (val := val) s (fun c hc => hd c hc (h2 c hc)) h1

theorem dec_class (c : Char) (d : Nat) : (digitVal c = some d ∧ d < 10) ↔ (IsDec c ∧ d = decDigit c) := by
  have e1 : '0'.toNat = 48 := rfl
  have e2 : '9'.toNat = 57 := rfl
  unfold digitVal IsDec decDigit
  simp only [e1, e2]
  split
  · simp only [Option.some.injEq]; omega
  · split
    · simp only [Option.some.injEq]; omega
    · split
      · simp only [Option.some.injEq]; omega
      · simp; omega

theorem oct_class (c : Char) (d : Nat) :
    (digitVal c = some d ∧ d < 8) ↔ (('0'.toNat ≤ c.toNat ∧ c.toNat ≤ '7'.toNat) ∧ d = decDigit c) := by
  have e1 : '0'.toNat = 48 := rfl
  have e2 : '7'.toNat = 55 := rfl
  unfold digitVal decDigit
  simp only [e1, e2]
  split
  · simp only [Option.some.injEq]; omega
  · split
    · simp only [Option.some.injEq]; omega
    · split
      · simp only [Option.some.injEq]; omega
      · simp; omega

theorem isBin_toNat (c : Char) : IsBin c ↔ (48 ≤ c.toNat ∧ c.toNat ≤ 49) := by
  constructor
  · rintro (rfl | rfl) <;> decide
  · intro h
    have : c.toNat = 48 ∨ c.toNat = 49 := by omega
    rcases this with h | h
    · exact .inl (char_eq_of_toNat (d := '0') h)
    · exact .inr (char_eq_of_toNat (d := '1') h)

theorem bin_class (c : Char) (d : Nat) : (digitVal c = some d ∧ d < 2) ↔ (IsBin c ∧ d = decDigit c) := by
  have e1 : '0'.toNat = 48 := rfl
  rw [isBin_toNat]
  unfold digitVal decDigit
  simp only [e1]
  split
  · simp only [Option.some.injEq]; omega
  · split
    · simp only [Option.some.injEq]; omega
    · split
      · simp only [Option.some.injEq]; omega
      · simp; omega

theorem hex_class (c : Char) (d : Nat) : (digitVal c = some d ∧ d < 16) ↔ (IsHex c ∧ d = hexDigit c) := by
  have e1 : '0'.toNat = 48 := rfl
  have e2 : '9'.toNat = 57 := rfl
  have e3 : 'a'.toNat = 97 := rfl
  have e4 : 'f'.toNat = 102 := rfl
  have e5 : 'A'.toNat = 65 := rfl
  have e6 : 'F'.toNat = 70 := rfl
  unfold digitVal IsHex hexDigit
  simp only [e1, e2, e3, e4, e5, e6]
  split
  · rw [if_neg (by omega), if_neg (by omega)]; simp only [Option.some.injEq]; omega
  · split
    · rw [if_pos (by omega)]; simp only [Option.some.injEq]; omega
    · split
      · rw [if_neg (by omega), if_pos (by omega)]; simp only [Option.some.injEq]; omega
      · simp; omega

theorem digitsAfterPrefix_eq {b : Nat} {s : Str} (hu : '_' ∉ s) : digitsAfterPrefix b s = digits b s := by
  unfold digitsAfterPrefix
  split
  · simp at hu
  · rfl

/-! ### unsigned literals -/

/-- `int(w, 0)`, or else `int(w)`, on the unsigned part. -/
def uval (w : Str) : Option Nat :=
  match unsignedInt 0 w with
  | some n => some n
  | none => unsignedInt 10 w

theorem unsignedInt10_eq (w : Str) : unsignedInt 10 w = digits 10 w := rfl

/-- Without a prefix the value is the decimal one. -/
theorem uval_plain {w : Str} (hu : '_' ∉ w) (h : ∀ t, w ≠ '0' :: 'x' :: t ∧ w ≠ '0' :: 'X' :: t ∧ w ≠ '0' :: 'b' :: t ∧
    w ≠ '0' :: 'B' :: t ∧ w ≠ '0' :: 'o' :: t ∧ w ≠ '0' :: 'O' :: t) : uval w = digits 10 w := by
  unfold uval
  have h0 : unsignedInt 0 w = digits 10 w ∨ (unsignedInt 0 w = none) := by
    unfold unsignedInt
    rw [if_neg (by decide), if_neg (by decide), if_pos rfl]
    split
    · exact absurd rfl (h _).1
    · exact absurd rfl (h _).2.1
    · exact absurd rfl (h _).2.2.1
    · exact absurd rfl (h _).2.2.2.1
    · exact absurd rfl (h _).2.2.2.2.1
    · exact absurd rfl (h _).2.2.2.2.2
    · split
      · rename_i h'; left; rw [h']
      · exact .inr rfl
    · exact .inl rfl
  rcases h0 with h0 | h0
  · rw [h0]
    split
    · rename_i h'; rw [h']
    · rfl
  · rw [h0]; rfl

theorem digits_none_of_mem {b : Nat} {s : Str} (hu : '_' ∉ s) {c : Char} (hc : c ∈ s) (h : ∀ d, digitVal c = some d → ¬ d < b) :
    digits b s = none := by
  cases hd : digits b s with
  | none => rfl
  | some n =>
    obtain ⟨d, h1, h2⟩ := (digitsGo_chars hd hu).1 c hc
    exact absurd h2 (h d h1)

/-- With a prefix the value is that of the rest. -/
theorem uval_prefix {b : Nat} {p : Char} {t : Str} (hu : '_' ∉ t)
    (h0 : unsignedInt 0 ('0' :: p :: t) = digitsAfterPrefix b t) (hp : p ≠ '_') (hp' : ∀ d, digitVal p = some d → ¬ d < 10) :
    uval ('0' :: p :: t) = digits b t := by
  unfold uval
  rw [h0, digitsAfterPrefix_eq hu]
  cases h : digits b t with
  | some n => rfl
  | none =>
    rw [unsignedInt10_eq]
    exact digits_none_of_mem (by simp [hu, Ne.symm hp]) (c := p) (by simp) hp'

theorem rep_eq_of_digits {b : Nat} (hb : b ≤ 10) {v : Str} {n : Nat} (hu : '_' ∉ v) (h : digits b (rep v) = some n) : rep v = v := by
  refine rep_no_b fun hm => ?_
  obtain ⟨d, h1, h2⟩ := (digitsGo_chars h (mt rep_mem_underscore.1 hu)).1 _ hm
  have : digitVal 'b' = some 11 := by decide
  rw [this] at h1
  simp only [Option.some.injEq] at h1
  omega

theorem rep_head {v : Str} {c : Char} {t : Str} (hc : c ≠ '0') (h : rep v = c :: t) : ∃ t', v = c :: t' ∧ rep t' = t := by
  cases v with
  | nil => cases h
  | cons d v =>
    by_cases hd : d = '#'
    · subst hd; rw [rep_hash] at h; injection h with h1 h2; exact absurd h1.symm hc
    · rw [rep_cons hd] at h; injection h with h1 h2; exact ⟨v, by rw [h1], h2⟩

theorem rep_head0 {v : Str} {t : Str} (h : rep v = '0' :: t) (hv : ∀ s, v ≠ '#' :: s) : ∃ t', v = '0' :: t' ∧ rep t' = t := by
  cases v with
  | nil => cases h
  | cons d v =>
    by_cases hd : d = '#'
    · subst hd; exact absurd rfl (hv v)
    · rw [rep_cons hd] at h; injection h with h1 h2; exact ⟨v, by rw [h1], h2⟩

theorem class_rep {b : Nat} {P : Char → Prop} {val : Char → Nat} (hb : b ≤ 10) (hP : ∀ c d, (digitVal c = some d ∧ d < b) ↔ (P c ∧ d = val c))
    {t : Str} (hu : '_' ∉ t) {n : Nat} : digits b (rep t) = some n ↔ t ≠ [] ∧ (∀ c ∈ t, P c) ∧ n = numeral val b t := by
  constructor
  · intro h
    have h' := rep_eq_of_digits hb hu h
    rw [h'] at h
    exact (digits_iff hP hu).1 h
  · intro h
    rw [rep_of_not_mem fun hm => ?_]
    · exact (digits_iff hP hu).2 h
    · have := ((hP '#' _).2 ⟨h.2.1 _ hm, rfl⟩).1
      have h2 : digitVal '#' = none := by decide
      rw [h2] at this; cases this

theorem hexLit_not_dec {p : Char} (hp : ¬ IsDec p) {s u : Str} (h : ∀ c ∈ s, IsDec c) (e : s = '0' :: p :: u) : False :=
  hp (h p (by rw [e]; simp))

/-- What the parser accepts as the unsigned part of an integer. -/
theorem uval_iff {v : Str} (hu : '_' ∉ v) (hx : '#' ∈ v → 'x' ∉ v ∧ 'X' ∉ v) {n : Nat} :
    uval (rep v) = some n ↔ UnsignedLit v n := by
  have nd : ∀ p ∈ ['x', 'X', 'b', 'B', 'o', 'O', '#'], ¬ IsDec p := by
    intro p hp
    simp only [List.mem_cons, List.not_mem_nil, or_false] at hp
    rcases hp with rfl | rfl | rfl | rfl | rfl | rfl | rfl <;> simp [IsDec]
  by_cases h1 : ∃ t, v = '#' :: t
  · obtain ⟨t, rfl⟩ := h1
    have hut : '_' ∉ t := fun h => hu (List.mem_cons_of_mem _ h)
    rw [rep_hash, uval_prefix (b := 2) (mt rep_mem_underscore.1 hut) rfl (by decide) (by decide), class_rep (by decide) bin_class hut]
    constructor
    · rintro ⟨h1, h2, rfl⟩
      exact .bin (pre := s%"#") (.inr (.inr rfl)) h1 h2
    · intro h
      generalize hv : '#' :: t = w at h
      cases h with
      | dec a b => exact absurd (b '#' (by rw [← hv]; simp)) (nd '#' (by simp))
      | hex a b c => rcases a with rfl | rfl <;> simp at hv
      | bin a b c =>
        rcases a with rfl | rfl | rfl
        · simp at hv
        · simp at hv
        · simp only [List.cons_append, List.nil_append, List.cons.injEq, true_and] at hv
          subst hv; exact ⟨b, c, rfl⟩
      | oct a b c => rcases a with rfl | rfl <;> simp at hv
  · have h1' : ∀ t, v ≠ '#' :: t := fun t e => h1 ⟨t, e⟩
    by_cases h2 : ∃ p t, v = '0' :: p :: t ∧ p ∈ ['x', 'X', 'b', 'B', 'o', 'O']
    · obtain ⟨p, t, rfl, hp⟩ := h2
      have hut : '_' ∉ t := fun h => hu (by simp [h])
      have hpn : p ≠ '#' := by rintro rfl; simp at hp
      rw [rep_cons (by decide), rep_cons hpn]
      have hrt := mt rep_mem_underscore.1 hut
      simp only [List.mem_cons, List.not_mem_nil, or_false] at hp
      have hexc : (p = 'x' ∨ p = 'X') → ((uval ('0' :: p :: rep t) = some n) ↔ UnsignedLit ('0' :: p :: t) n) := by
        intro hp
        have hno : '#' ∉ t := by
          intro hm
          have := hx (by simp [hm])
          rcases hp with rfl | rfl <;> simp at this
        rw [rep_of_not_mem hno, uval_prefix (b := 16) hut (by rcases hp with rfl | rfl <;> rfl)
          (by rcases hp with rfl | rfl <;> decide) (by rcases hp with rfl | rfl <;> decide), digits_iff hex_class hut]
        constructor
        · rintro ⟨k1, k2, rfl⟩
          rcases hp with rfl | rfl
          · exact .hex (pre := s%"0x") (.inl rfl) k1 k2
          · exact .hex (pre := s%"0X") (.inr rfl) k1 k2
        · intro h
          generalize hv : '0' :: p :: t = w at h
          cases h with
          | dec a b => exact absurd (b p (by rw [← hv]; simp)) (nd p (by rcases hp with rfl | rfl <;> simp))
          | hex a b c => rcases a with rfl | rfl <;> rcases hp with rfl | rfl <;> simp at hv <;> subst hv <;> exact ⟨b, c, rfl⟩
          | bin a b c => rcases a with rfl | rfl | rfl <;> rcases hp with rfl | rfl <;> simp at hv
          | oct a b c => rcases a with rfl | rfl <;> rcases hp with rfl | rfl <;> simp at hv
      have binc : (p = 'b' ∨ p = 'B') → ((uval ('0' :: p :: rep t) = some n) ↔ UnsignedLit ('0' :: p :: t) n) := by
        intro hp
        rw [uval_prefix (b := 2) hrt (by rcases hp with rfl | rfl <;> rfl)
          (by rcases hp with rfl | rfl <;> decide) (by rcases hp with rfl | rfl <;> decide), class_rep (by decide) bin_class hut]
        constructor
        · rintro ⟨k1, k2, rfl⟩
          rcases hp with rfl | rfl
          · exact .bin (pre := s%"0b") (.inl rfl) k1 k2
          · exact .bin (pre := s%"0B") (.inr (.inl rfl)) k1 k2
        · intro h
          generalize hv : '0' :: p :: t = w at h
          cases h with
          | dec a b => exact absurd (b p (by rw [← hv]; simp)) (nd p (by rcases hp with rfl | rfl <;> simp))
          | bin a b c => rcases a with rfl | rfl | rfl <;> rcases hp with rfl | rfl <;> simp at hv <;> subst hv <;> exact ⟨b, c, rfl⟩
          | hex a b c => rcases a with rfl | rfl <;> rcases hp with rfl | rfl <;> simp at hv
          | oct a b c => rcases a with rfl | rfl <;> rcases hp with rfl | rfl <;> simp at hv
      have octc : (p = 'o' ∨ p = 'O') → ((uval ('0' :: p :: rep t) = some n) ↔ UnsignedLit ('0' :: p :: t) n) := by
        intro hp
        rw [uval_prefix (b := 8) hrt (by rcases hp with rfl | rfl <;> rfl)
          (by rcases hp with rfl | rfl <;> decide) (by rcases hp with rfl | rfl <;> decide), class_rep (by decide) oct_class hut]
        constructor
        · rintro ⟨k1, k2, rfl⟩
          rcases hp with rfl | rfl
          · exact .oct (pre := s%"0o") (.inl rfl) k1 k2
          · exact .oct (pre := s%"0O") (.inr rfl) k1 k2
        · intro h
          generalize hv : '0' :: p :: t = w at h
          cases h with
          | dec a b => exact absurd (b p (by rw [← hv]; simp)) (nd p (by rcases hp with rfl | rfl <;> simp))
          | oct a b c => rcases a with rfl | rfl <;> rcases hp with rfl | rfl <;> simp at hv <;> subst hv <;> exact ⟨b, c, rfl⟩
          | hex a b c => rcases a with rfl | rfl <;> rcases hp with rfl | rfl <;> simp at hv
          | bin a b c => rcases a with rfl | rfl | rfl <;> rcases hp with rfl | rfl <;> simp at hv
      rcases hp with hp | hp | hp | hp | hp | hp
      · exact hexc (.inl hp)
      · exact hexc (.inr hp)
      · exact binc (.inl hp)
      · exact binc (.inr hp)
      · exact octc (.inl hp)
      · exact octc (.inr hp)
    · have hnp : ∀ p ∈ ['x', 'X', 'b', 'B', 'o', 'O'], ∀ t, rep v ≠ '0' :: p :: t := by
        intro p hp t e
        obtain ⟨t', rfl, e2⟩ := rep_head0 e h1'
        obtain ⟨t'', rfl, -⟩ := rep_head (by rintro rfl; simp at hp) e2
        exact h2 ⟨p, t'', rfl, hp⟩
      rw [uval_plain (mt rep_mem_underscore.1 hu) (fun t => ⟨hnp 'x' (by simp) t, hnp 'X' (by simp) t, hnp 'b' (by simp) t,
        hnp 'B' (by simp) t, hnp 'o' (by simp) t, hnp 'O' (by simp) t⟩), class_rep (by decide) dec_class hu]
      constructor
      · rintro ⟨h1, h2, rfl⟩; exact .dec h1 h2
      · intro h
        cases h with
        | dec a b => exact ⟨a, b, rfl⟩
        | hex a b c => rcases a with rfl | rfl <;> exact absurd ⟨_, _, rfl, by simp⟩ h2
        | oct a b c => rcases a with rfl | rfl <;> exact absurd ⟨_, _, rfl, by simp⟩ h2
        | bin a b c =>
          rcases a with rfl | rfl | rfl
          · exact absurd ⟨_, _, rfl, by simp⟩ h2
          · exact absurd ⟨_, _, rfl, by simp⟩ h2
          · exact absurd rfl (h1' _)

/-! ### signed literals -/

/-- The sign of an integer literal. -/
def signed : Str → Option Int
  | '-' :: t => (uval t).map fun n : Nat => -(n : Int)
  | '+' :: t => (uval t).map fun n : Nat => (n : Int)
  | t => (uval t).map fun n : Nat => (n : Int)

theorem toInt_eq (v : Str) : toInt v = match signed (strip (rep v)) with
    | some i => M.pure i
    | none => M.throw .notImplemented := by
  show (match pyInt 0 (rep v) with | some i => M.pure i | none => match pyInt 10 (rep v) with | some i => M.pure i | none => M.throw .notImplemented) = _
  have e0 : ∀ b w, (∀ u, strip w ≠ '-' :: u) → (∀ u, strip w ≠ '+' :: u) →
      pyInt b w = (unsignedInt b (strip w)).map (fun n : Nat => (n : Int)) := by
    intro b w h1 h2
    unfold pyInt
    split
    · rename_i e; exact absurd e (h1 _)
    · rename_i e; exact absurd e (h2 _)
    · cases unsignedInt b (strip w) <;> rfl
  have e1 : ∀ b w u, strip w = '-' :: u → pyInt b w = (unsignedInt b u).map (fun n : Nat => -(n : Int)) := by
    intro b w u h
    unfold pyInt
    rw [h]
    simp only []
    cases unsignedInt b u <;> rfl
  have e2 : ∀ b w u, strip w = '+' :: u → pyInt b w = (unsignedInt b u).map (fun n : Nat => (n : Int)) := by
    intro b w u h
    unfold pyInt
    rw [h]
    simp only []
    cases unsignedInt b u <;> rfl
  by_cases h1 : ∃ u, strip (rep v) = '-' :: u
  · obtain ⟨u, hu⟩ := h1
    rw [e1 _ _ _ hu, e1 _ _ _ hu, hu]
    simp only [signed, uval]
    cases unsignedInt 0 u <;> cases unsignedInt 10 u <;> rfl
  · by_cases h2 : ∃ u, strip (rep v) = '+' :: u
    · obtain ⟨u, hu⟩ := h2
      rw [e2 _ _ _ hu, e2 _ _ _ hu, hu]
      simp only [signed, uval]
      cases unsignedInt 0 u <;> cases unsignedInt 10 u <;> rfl
    · rw [e0 _ _ (fun u e => h1 ⟨u, e⟩) (fun u e => h2 ⟨u, e⟩), e0 _ _ (fun u e => h1 ⟨u, e⟩) (fun u e => h2 ⟨u, e⟩)]
      have e3 : signed (strip (rep v)) = (uval (strip (rep v))).map fun n : Nat => (n : Int) := by
        unfold signed
        split
        · rename_i e; exact absurd ⟨_, e⟩ h1
        · rename_i e; exact absurd ⟨_, e⟩ h2
        · rfl
      rw [e3]
      unfold uval
      cases unsignedInt 0 (strip (rep v)) <;> cases unsignedInt 10 (strip (rep v)) <;> rfl

/-- The integers the parser reads: exactly the integer literals (for texts without underscore, and without both `#`
and `x`). -/
theorem toInt_iff {v : Str} (hu : '_' ∉ v) (hx : '#' ∈ v → 'x' ∉ v ∧ 'X' ∉ v) (i : Int) :
    toInt v = .ok i [] ↔ IntLit v i := by
  obtain ⟨a, b, ha, hb, hv⟩ := strip_decomp v
  have hsub : ∀ c, c ∈ strip v → c ∈ v := fun c hc => by rw [hv]; simp [hc]
  rw [toInt_eq, rep_strip]
  have hor : ∀ o : Option Int, ((match o with | some i => M.pure i | none => M.throw .notImplemented : M Int) = .ok i []) ↔ o = some i := by
    intro o
    cases o with
    | none => simp [M.throw]
    | some j => simp [M.pure]
  rw [hor]
  have huv : ∀ u, (∀ c ∈ u, c ∈ v) → ∀ n, uval (rep u) = some n ↔ UnsignedLit u n := fun u h n =>
    uval_iff (fun hm => hu (h _ hm)) (fun hm => ⟨fun e => (hx (h _ hm)).1 (h _ e), fun e => (hx (h _ hm)).2 (h _ e)⟩)
  -- the literal is determined by the stripped text
  have ulit : ∀ {u n}, UnsignedLit u n → u ≠ [] ∧ (∀ t, u ≠ '-' :: t) ∧ (∀ t, u ≠ '+' :: t) ∧ ∀ c ∈ u, isSpaceC c = false := by
    have hsp : ∀ c : Char, (48 ≤ c.toNat ∧ c.toNat ≤ 57 ∨ 65 ≤ c.toNat ∧ c.toNat ≤ 122 ∨ c = '#') → isSpaceC c = false ∧ c ≠ '-' ∧ c ≠ '+' := by
      intro c hc
      refine ⟨?_, ?_, ?_⟩
      · rcases hc with hc | hc | rfl
        · unfold isSpaceC; simp; omega
        · unfold isSpaceC; simp; omega
        · decide
      · rintro rfl; revert hc; decide
      · rintro rfl; revert hc; decide
    intro u n h
    have : u ≠ [] ∧ ∀ c ∈ u, (48 ≤ c.toNat ∧ c.toNat ≤ 57 ∨ 65 ≤ c.toNat ∧ c.toNat ≤ 122 ∨ c = '#') := by
      have e1 : '0'.toNat = 48 := rfl
      have e2 : '9'.toNat = 57 := rfl
      have e3 : 'a'.toNat = 97 := rfl
      have e4 : 'f'.toNat = 102 := rfl
      have e5 : 'A'.toNat = 65 := rfl
      have e6 : 'F'.toNat = 70 := rfl
      have e7 : '7'.toNat = 55 := rfl
      cases h with
      | dec h1 h2 => exact ⟨h1, fun c hc => by have := h2 c hc; unfold IsDec at this; omega⟩
      | hex h0 h1 h2 =>
        refine ⟨by simp [h1], fun c hc => ?_⟩
        rcases List.mem_append.1 hc with hc | hc
        · rcases h0 with rfl | rfl <;> simp at hc <;> rcases hc with rfl | rfl <;> decide
        · have := h2 c hc; unfold IsHex at this; omega
      | bin h0 h1 h2 =>
        refine ⟨by simp [h1], fun c hc => ?_⟩
        rcases List.mem_append.1 hc with hc | hc
        · rcases h0 with rfl | rfl | rfl <;> simp at hc
          · rcases hc with rfl | rfl <;> decide
          · rcases hc with rfl | rfl <;> decide
          · subst hc; decide
        · have := (isBin_toNat c).1 (h2 c hc); omega
      | oct h0 h1 h2 =>
        refine ⟨by simp [h1], fun c hc => ?_⟩
        rcases List.mem_append.1 hc with hc | hc
        · rcases h0 with rfl | rfl <;> simp at hc <;> rcases hc with rfl | rfl <;> decide
        · have := h2 c hc; omega
    refine ⟨this.1, ?_, ?_, fun c hc => (hsp c (this.2 c hc)).1⟩
    · rintro t rfl; exact (hsp '-' (this.2 _ (by simp))).2.1 rfl
    · rintro t rfl; exact (hsp '+' (this.2 _ (by simp))).2.2 rfl
  have ns : ∀ {t : Str}, t ≠ [] → (∀ c ∈ t, isSpaceC c = false) → ∀ {a b}, Blank a → Blank b → strip (a ++ t ++ b) = t := by
    intro t hne h a b ha hb
    refine strip_between ha hb (fun c hc => h c (List.mem_of_mem_head? hc)) (fun c hc => h c (List.mem_of_mem_getLast? hc)) hne
  have plain : ∀ {t : Str}, (∀ u, t ≠ '-' :: u) → (∀ u, t ≠ '+' :: u) → signed (rep t) = (uval (rep t)).map fun n : Nat => (n : Int) := by
    intro t h1 h2
    unfold signed
    split
    · rename_i e
      obtain ⟨t', h, -⟩ := rep_head (by decide) e
      exact absurd h (h1 _)
    · rename_i e
      obtain ⟨t', h, -⟩ := rep_head (by decide) e
      exact absurd h (h2 _)
    · rfl
  constructor
  · intro h
    by_cases h1 : ∃ u, strip v = '-' :: u
    · obtain ⟨u, hu'⟩ := h1
      rw [hu', rep_cons (by decide)] at h
      simp only [signed, Option.map_eq_some_iff] at h
      obtain ⟨n, hn, rfl⟩ := h
      rw [huv u (fun c hc => hsub c (by rw [hu']; simp [hc]))] at hn
      rw [hv, hu']
      exact .minus ha hb hn
    · by_cases h2 : ∃ u, strip v = '+' :: u
      · obtain ⟨u, hu'⟩ := h2
        rw [hu', rep_cons (by decide)] at h
        simp only [signed, Option.map_eq_some_iff] at h
        obtain ⟨n, hn, rfl⟩ := h
        rw [huv u (fun c hc => hsub c (by rw [hu']; simp [hc]))] at hn
        rw [hv, hu']
        exact .plus ha hb hn
      · rw [plain (fun u e => h1 ⟨u, e⟩) (fun u e => h2 ⟨u, e⟩)] at h
        simp only [Option.map_eq_some_iff] at h
        obtain ⟨n, hn, rfl⟩ := h
        rw [huv _ hsub] at hn
        rw [hv]
        exact .pos ha hb hn
  · intro h
    cases h with
    | pos h1 h2 h3 =>
      obtain ⟨k1, k2, k3, k4⟩ := ulit h3
      have e := ns k1 k4 h1 h2
      rw [e] at hsub ⊢
      rw [plain k2 k3, (huv _ hsub _).2 h3]; rfl
    | plus h1 h2 h3 =>
      obtain ⟨k1, k2, k3, k4⟩ := ulit h3
      have e := ns (t := '+' :: _) (by simp) (by
        intro c hc
        rcases List.mem_cons.1 hc with rfl | hc
        · decide
        · exact k4 c hc) h1 h2
      rw [e] at hsub ⊢
      rw [rep_cons (by decide)]
      simp only [signed, (huv _ (fun c hc => hsub c (List.mem_cons_of_mem _ hc)) _).2 h3, Option.map_some]
    | minus h1 h2 h3 =>
      obtain ⟨k1, k2, k3, k4⟩ := ulit h3
      have e := ns (t := '-' :: _) (by simp) (by
        intro c hc
        rcases List.mem_cons.1 hc with rfl | hc
        · decide
        · exact k4 c hc) h1 h2
      rw [e] at hsub ⊢
      rw [rep_cons (by decide)]
      simp only [signed, (huv _ (fun c hc => hsub c (List.mem_cons_of_mem _ hc)) _).2 h3, Option.map_some]

theorem toInt_cases (v : Str) : (∃ i, toInt v = .ok i []) ∨ toInt v = .err .notImplemented := by
  rw [toInt_eq]
  cases signed (strip (rep v)) with
  | none => exact .inr rfl
  | some i => exact .inl ⟨i, rfl⟩

theorem toInt_intStr (i : Int) : toInt (intStr i) = .ok i [] := by
  have h : '#' ∉ intStr i := by
    intro h
    have hn : ∀ n, '#' ∉ natStr n := fun n hm => by have := natStr_digits n _ hm; revert this; decide
    cases i with
    | ofNat n => exact hn n h
    | negSucc n => simp only [intStr, List.mem_cons] at h; rcases h with h | h; exact absurd h (by decide); exact hn _ h
  show (match pyInt 0 (rep (intStr i)) with | some i => M.pure i | none => match pyInt 10 (rep (intStr i)) with | some i => M.pure i | none => M.throw .notImplemented) = _
  rw [rep_of_not_mem h, pyInt_intStr0]; rfl

theorem toInt_hexStr (i : Int) : toInt (hexStr i) = .ok i [] := by
  have h : '#' ∉ hexStr i := by
    intro h
    have hn : ∀ n, '#' ∉ toBase 16 n := fun n hm => by
      obtain ⟨d, hd, e⟩ := toBase_chars (by decide) n _ hm
      have := digitVal_digitChar hd
      rw [← e] at this; revert this; simp [digitVal]
    cases i with
    | ofNat n => simp only [hexStr, List.mem_cons] at h; rcases h with h | h | h; exact absurd h (by decide); exact absurd h (by decide); exact hn _ h
    | negSucc n =>
      simp only [hexStr, List.mem_cons] at h
      rcases h with h | h | h | h
      · exact absurd h (by decide)
      · exact absurd h (by decide)
      · exact absurd h (by decide)
      · exact hn _ h
  show (match pyInt 0 (rep (hexStr i)) with | some i => M.pure i | none => match pyInt 10 (rep (hexStr i)) with | some i => M.pure i | none => M.throw .notImplemented) = _
  rw [rep_of_not_mem h, pyInt_hexStr0]; rfl

end Svd
