import Verif.Spec.DimText
import Verif.Lemmas.EnumReads
import Verif.Props.Dim
/-
The reading of `dimIndex`, exactly.
-/
namespace Svd
open Spec

theorem pieces_split {sep : Char} : ∀ {s : Str} {l : List Str}, Pieces sep s l → splitC sep s = l := by
  intro s l h
  induction h with
  | last h => exact splitC_none h
  | more h _ ih => rw [splitC_cons h, ih]

theorem split_pieces (sep : Char) : ∀ (s : Str), Pieces sep s (splitC sep s) := by
  intro s
  induction s with
  | nil => exact .last (by simp)
  | cons c s ih =>
    simp only [splitC]
    split
    · rename_i h
      subst h
      exact .more (a := []) (by simp) ih
    · rename_i h
      cases hs : splitC sep s with
      | nil => rw [hs] at ih; cases ih
      | cons x l =>
        rw [hs] at ih
        generalize hxl : x :: l = xl at ih
        cases ih with
        | last hn =>
          simp only [List.cons.injEq] at hxl
          obtain ⟨rfl, rfl⟩ := hxl
          exact .last (by simp [hn, Ne.symm h])
        | @more a t l' hn hp =>
          simp only [List.cons.injEq] at hxl
          obtain ⟨rfl, rfl⟩ := hxl
          exact .more (a := c :: x) (by simp [hn, Ne.symm h]) hp

theorem takeWhile_drop (p : Char → Bool) (s : Str) : s = s.takeWhile p ++ s.drop (s.takeWhile p).length := by
  induction s with
  | nil => rfl
  | cons c s ih =>
    simp only [List.takeWhile_cons]
    split
    · simp only [List.cons_append, List.length_cons, List.drop_succ_cons]
      rw [← ih]
    · rfl

theorem in_takeWhile (p : Char → Bool) (s : Str) : ∀ c ∈ s.takeWhile p, p c = true := by
  induction s with
  | nil => simp
  | cons c s ih =>
    simp only [List.takeWhile_cons]
    split
    · intro x hx
      rcases List.mem_cons.1 hx with rfl | hx
      · assumption
      · exact ih x hx
    · simp

theorem numberRange_iff (s : Str) : matchNumRange s = true ↔ NumberRange s := by
  constructor
  · intro h
    unfold matchNumRange at h
    simp only [Bool.and_eq_true, Bool.not_eq_true', List.isEmpty_eq_false_iff] at h
    obtain ⟨h1, h2⟩ := h
    have hd := takeWhile_drop isDigitC s
    generalize hr : s.drop (s.takeWhile isDigitC).length = r at h2 hd
    split at h2
    · rename_i c r'
      exact ⟨_, c, _, ⟨h1, fun c hc => by rw [isDigit_eq]; exact in_takeWhile _ _ c hc⟩, by rw [isDigit_eq]; exact h2, hd⟩
    · cases h2
  · rintro ⟨a, c, r, ha, hc, rfl⟩
    unfold matchNumRange
    simp only
    rw [takeWhile_append_stop ha.digits (by simp; decide)]
    simp [ha.1, isDigit_eq ▸ hc]

theorem letterRange_iff (s : Str) : matchLetterRange s = true ↔ LetterRange s := by
  unfold matchLetterRange
  constructor
  · intro h
    split at h
    · rename_i x y r
      simp only [Bool.and_eq_true] at h
      exact ⟨x, y, r, (upper_iff).2 h.1, (upper_iff).2 h.2, rfl⟩
    · cases h
  · rintro ⟨x, y, r, hx, hy, rfl⟩
    rw [upper_iff] at hx hy
    simp [hx, hy]

theorem itemList_iff (s : Str) : matchCommaList s = true ↔ ItemList s := by
  constructor
  · intro h
    unfold matchCommaList at h
    simp only [Bool.and_eq_true, Bool.not_eq_true', List.isEmpty_eq_false_iff] at h
    obtain ⟨h1, h2⟩ := h
    have hd := takeWhile_drop isWordC s
    generalize hr : s.drop (s.takeWhile isWordC).length = r at h2 hd
    split at h2
    · rename_i t
      have hw : Word (s.takeWhile isWordC) := ⟨h1, fun c hc => by rw [isWord_eq]; exact in_takeWhile _ _ c hc⟩
      have ht := List.takeWhile_append_dropWhile (p := isSpaceC) (l := t)
      generalize hq : t.dropWhile isSpaceC = q at h2 ht
      split at h2
      · rename_i c r'
        refine ⟨_, t.takeWhile isSpaceC, c, r', hw, fun c hc => by rw [isSpace_eq]; exact in_takeWhile _ _ c hc, by rw [isWord_eq]; exact h2, ?_⟩
        rw [ht]; exact hd
      · cases h2
    · cases h2
  · rintro ⟨a, b, c, r, ha, hb, hc, rfl⟩
    rw [isWord_eq] at hc
    unfold matchCommaList
    simp only
    rw [takeWhile_append_stop ha.chars (by simp; decide)]
    simp only [List.drop_left, Bool.and_eq_true, Bool.not_eq_true', List.isEmpty_eq_false_iff]
    refine ⟨ha.1, ?_⟩
    rw [dropWhile_blank_append (a := b) hb, dropWhile_eq_self (by simp [(word_char hc).2.2])]
    exact hc

theorem pyInt10_signed (v : Str) (i : Int) : pyInt 10 v = some i ↔
    ∃ a sign u b, ∃ n : Nat, v = a ++ sign ++ u ++ b ∧ Blank a ∧ Blank b ∧ (∃ t, Grouped IsDec u t ∧ n = numeral decDigit 10 t) ∧
      (((sign = [] ∨ sign = ['+']) ∧ i = (n : Int)) ∨ (sign = ['-'] ∧ i = -(n : Int))) := by
  have hd := digits_grouped (b := 10) (P := IsDec) (val := decDigit) dec_class
  have hu : ∀ w n, unsignedInt 10 w = some n ↔ ∃ t, Grouped IsDec w t ∧ n = numeral decDigit 10 t := hd
  have hch : ∀ u n, (∃ t, Grouped IsDec u t ∧ n = numeral decDigit 10 t) → u ≠ [] ∧ ∀ c ∈ u, (48 ≤ c.toNat ∧ c.toNat ≤ 57 ∨ 65 ≤ c.toNat ∧ c.toNat ≤ 122) := by
    rintro u n ⟨t, h, -⟩
    refine ⟨h.ne_nil, fun c hc => ?_⟩
    rcases h.chars c hc with h | rfl
    · left; exact h
    · decide
  have := signed_text hu hch v i
  have he : pyInt 10 v = (match strip v with
      | '-' :: t => (unsignedInt 10 t).map (fun n : Nat => -(n : Int))
      | '+' :: t => (unsignedInt 10 t).map (fun n : Nat => (n : Int))
      | t => (unsignedInt 10 t).map (fun n : Nat => (n : Int))) := by
    have hm : ∀ t, (unsignedInt 10 t).map (fun n : Nat => (n : Int)) = (do let a ← unsignedInt 10 t; pure (a : Int)) := by
      intro t; cases unsignedInt 10 t <;> rfl
    have hn : ∀ t, (unsignedInt 10 t).map (fun n : Nat => -(n : Int)) = (do let a ← unsignedInt 10 t; pure (a : Int) : Option Int).map (fun n => -n) := by
      intro t; cases unsignedInt 10 t <;> rfl
    simp only [hm, hn]
    unfold pyInt
    simp only [Option.map_id']
    generalize strip v = w
    by_cases h1 : ∃ t, w = '-' :: t
    · obtain ⟨t, rfl⟩ := h1; rfl
    by_cases h2 : ∃ t, w = '+' :: t
    · obtain ⟨t, rfl⟩ := h2; rfl
    split
    · exact absurd ⟨_, rfl⟩ h1
    · exact absurd ⟨_, rfl⟩ h2
    · split
      · exact absurd ⟨_, rfl⟩ h1
      · exact absurd ⟨_, rfl⟩ h2
      · rfl
  rw [he]
  exact this

theorem pyInt10_text {c : Char} {r : Str} (hc : isDigitC c = true) (i : Int) :
    pyInt 10 (c :: r) = some i ↔ ∃ s t b, c :: r = s ++ b ∧ Grouped IsDec s t ∧ Blank b ∧ i = (decValue t : Int) := by
  rw [pyInt10_signed]
  constructor
  · rintro ⟨a, sign, u, b, n, hv, ha, hb, ⟨t, hg, rfl⟩, hs⟩
    have hsp : isSpaceC c = false := by
      simp only [isDigitC, Bool.and_eq_true, decide_eq_true_eq] at hc
      unfold isSpaceC; simp; omega
    have ha' : a = [] := by
      cases a with
      | nil => rfl
      | cons x a =>
        simp only [List.cons_append, List.cons.injEq] at hv
        have := ha x (by simp)
        rw [← hv.1, isSpace_eq, hsp] at this
        cases this
    subst ha'
    rw [List.nil_append] at hv
    have hsg : sign = [] := by
      rcases hs with ⟨rfl | rfl, -⟩ | ⟨rfl, -⟩
      · rfl
      · simp only [List.cons_append, List.cons.injEq] at hv
        rw [hv.1] at hc; revert hc; decide
      · simp only [List.cons_append, List.cons.injEq] at hv
        rw [hv.1] at hc; revert hc; decide
    subst hsg
    rcases hs with ⟨-, rfl⟩ | ⟨h, -⟩
    · exact ⟨u, t, b, hv, hg, hb, rfl⟩
    · cases h
  · rintro ⟨s, t, b, h1, h2, h3, rfl⟩
    exact ⟨[], [], s, b, _, by rw [h1]; simp, by simp [Blank], h3, ⟨t, h2, rfl⟩, .inl ⟨.inl rfl, rfl⟩⟩

theorem grouped_no_minus {s t b : Str} (h : Grouped IsDec s t) (hb : Blank b) : '-' ∉ s ++ b := by
  intro hm
  rcases List.mem_append.1 hm with hm | hm
  · rcases h.chars _ hm with h | h
    · revert h; unfold IsDec; decide
    · cases h
  · have := hb _ hm
    rw [isSpace_eq] at this
    revert this; decide

theorem grouped_head {s t : Str} (h : Grouped IsDec s t) : ∃ c r, s = c :: r ∧ isDigitC c = true := by
  have key : ∀ c, IsDec c → isDigitC c = true := fun c hc => by simpa [isDigitC, IsDec] using hc
  cases h with
  | last h => exact ⟨_, _, rfl, key _ h⟩
  | next h _ => exact ⟨_, _, rfl, key _ h⟩
  | group h _ => exact ⟨_, _, rfl, key _ h⟩

theorem splitC_two {c : Char} {s a b : Str} (h : splitC c s = [a, b]) : s = a ++ c :: b ∧ c ∉ a ∧ c ∉ b := by
  have hp := split_pieces c s
  rw [h] at hp
  generalize hl : [a, b] = l at hp
  cases hp with
  | last hn => cases hl
  | @more a' t l' hn hp =>
    simp only [List.cons.injEq] at hl
    obtain ⟨rfl, rfl⟩ := hl
    generalize hl : [b] = l at hp
    cases hp with
    | last hn' =>
      simp only [List.cons.injEq, and_true] at hl
      subst hl
      exact ⟨rfl, hn, hn'⟩
    | more _ hp =>
      simp only [List.cons.injEq] at hl
      obtain ⟨-, rfl⟩ := hl
      cases hp

/-- What a `dimIndex` is read as, for every text. -/
theorem dimIndexList_reads (n : Int) (di : Option Str) (l : List Str) (ws : List Warn) :
    dimIndexList n di = .ok l ws ↔ DimReads n di l ∧ ws = [] := by
  constructor
  · intro h
    cases di with
    | none =>
      simp only [dimIndexList, M.pure_eq_ok] at h
      obtain ⟨rfl, rfl⟩ := h
      refine ⟨?_, rfl⟩
      have := DimReads.absent (n := n)
      rw [rangeFrom_zero, ← natText_eq]
      exact this
    | some s =>
      unfold dimIndexList at h
      simp only at h
      by_cases hn : NumberRange s
      · rw [if_pos ((numberRange_iff s).2 hn)] at h
        split at h
        · rename_i a b hab
          obtain ⟨rfl, ha, hb⟩ := splitC_two hab
          obtain ⟨a', c, r, h1, h2, h3⟩ := hn
          have hm : '-' ∉ a' := digit_ne_minus h1.digits
          have h4 := splitC_cons (b := c :: r) hm
          rw [← h3, hab] at h4
          simp only [List.cons.injEq] at h4
          obtain ⟨rfl, h4⟩ := h4
          rw [List.append_cancel_left_eq] at h3
          simp only [List.cons.injEq, true_and] at h3
          subst h3
          rw [isDigit_eq] at h2
          split at h
          · rename_i x y hx hy
            rw [decValue_digits h1] at hx
            injection hx with hx
            obtain ⟨s, t, b, h5, h6, h7, rfl⟩ := (pyInt10_text h2 y).1 hy
            subst hx
            split at h
            · cases h
            · rename_i hle
              rw [M.pure_eq_ok] at h
              obtain ⟨rfl, rfl⟩ := h
              refine ⟨?_, rfl⟩
              rw [h5, intRange_dec _ _ (by omega)]
              exact .numbers h1 h6 h7 (by omega)
          · cases h
        · cases h
      · rw [if_neg (by rw [numberRange_iff]; exact hn)] at h
        by_cases hl : LetterRange s
        · rw [if_pos ((letterRange_iff s).2 hl)] at h
          obtain ⟨x, y, r, hx, hy, rfl⟩ := hl
          have hx' : x ≠ '-' := by rintro rfl; revert hx; decide
          have hy' : y ≠ '-' := by rintro rfl; revert hy; decide
          split at h
          · rename_i a b hab
            obtain ⟨h1, ha, hb⟩ := splitC_two hab
            split at h
            · rename_i a' b' u v
              simp only [List.cons_append, List.nil_append, List.cons.injEq, true_and] at h1
              obtain ⟨rfl, rfl, rfl⟩ := h1
              split at h
              · cases h
              · rename_i hlt
                rw [M.pure_eq_ok] at h
                obtain ⟨rfl, rfl⟩ := h
                refine ⟨?_, rfl⟩
                rw [letters_range]
                exact .letters hx hy (by omega)
            · cases h
          · cases h
        · rw [if_neg (by rw [letterRange_iff]; exact hl)] at h
          by_cases hi : ItemList s
          · rw [if_pos ((itemList_iff s).2 hi), M.pure_eq_ok] at h
            obtain ⟨rfl, rfl⟩ := h
            refine ⟨.items hn hl hi ?_, rfl⟩
            rw [isSpace_eq]
            exact split_pieces _ _
          · rw [if_neg (by rw [itemList_iff]; exact hi)] at h
            split at h
            · rename_i hw
              rw [M.pure_eq_ok] at h
              obtain ⟨rfl, rfl⟩ := h
              refine ⟨.single hn hl hi ?_, rfl⟩
              unfold matchWord at hw
              split at hw
              · exact ⟨_, _, rfl, by rw [isWord_eq]; exact hw⟩
              · cases hw
            · cases h
  · rintro ⟨h, rfl⟩
    cases h with
    | absent => exact dimIndexList_denotes .absent
    | @numbers a s t b h1 h2 h3 h4 =>
      obtain ⟨c, r, rfl, hc⟩ := grouped_head h2
      have hn : NumberRange (a ++ '-' :: (c :: r ++ b)) := ⟨a, c, r ++ b, h1, by rw [isDigit_eq]; exact hc, rfl⟩
      unfold dimIndexList
      simp only
      rw [if_pos ((numberRange_iff _).2 hn), splitC_cons (digit_ne_minus h1.digits), splitC_none (grouped_no_minus h2 h3)]
      have hy : pyInt 10 (c :: r ++ b) = some (decValue t : Int) := (pyInt10_text (r := r ++ b) hc _).2 ⟨_, t, b, rfl, h2, h3, rfl⟩
      simp only [decValue_digits h1, hy]
      rw [if_neg (by omega), intRange_dec _ _ h4]
      rfl
    | letters hx hy hlt => exact dimIndexList_denotes (.letters hx hy hlt)
    | @items s l h1 h2 h3 h4 =>
      unfold dimIndexList
      simp only
      rw [if_neg (by rw [numberRange_iff]; exact h1), if_neg (by rw [letterRange_iff]; exact h2), if_pos ((itemList_iff s).2 h3)]
      rw [isSpace_eq] at h4
      rw [pieces_split h4]
      rfl
    | @single s h1 h2 h3 h4 =>
      unfold dimIndexList
      simp only
      obtain ⟨c, r, rfl, hc⟩ := h4
      rw [if_neg (by rw [numberRange_iff]; exact h1), if_neg (by rw [letterRange_iff]; exact h2), if_neg (by rw [itemList_iff]; exact h3),
        if_pos (show matchWord (c :: r) = true by rw [isWord_eq] at hc; exact hc)]
      rfl

theorem indices_of {name : Str} {n : Int} {di : Option Str} {mark : Str} {idx : List Str} {P Q R S : Prop}
    (h : (mark = arrMark ∧ hasSub arrMark name = true ∧ P ∧ idx = (List.range n.toNat).map natStr ∧ Q) ∨
      (mark = lstMark ∧ hasSub arrMark name = false ∧ R ∧ dimIndexList n di = .ok idx [] ∧ S)) : IndicesOf name n di idx := by
  rcases h with ⟨-, ha, -, rfl, -⟩ | ⟨-, ha, -, hd, -⟩
  · rw [← natText_eq]
    exact .array (hasSub_iff.1 ha)
  · exact .list (hasSub_false.1 ha) ((dimIndexList_reads _ _ _ _).1 hd).1

end Svd
