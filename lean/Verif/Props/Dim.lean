import Verif.Spec.Dim
import Verif.Lemmas.Text
import Verif.Lemmas.Digits
import Verif.Lemmas.OriginInv
import Verif.Lemmas.Cover
import Verif.Props.Sample
/- C07-C10: dim expansion. -/
namespace Svd
open Spec

/-! ### characters -/

theorem Spec.Decimal.digits {s : Str} (h : Decimal s) : ∀ c ∈ s, isDigitC c = true := isDigit_eq ▸ h.2
theorem Spec.Word.chars {s : Str} (h : Word s) : ∀ c ∈ s, isWordC c = true := isWord_eq ▸ h.2
theorem Spec.BlankPad.spaces {s : Str} (h : BlankPad s) : ∀ c ∈ s, isSpaceC c = true := isSpace_eq ▸ h
theorem decimal_intro {s : Str} (h : s ≠ []) (hd : ∀ c ∈ s, isDigitC c = true) : Decimal s := ⟨h, isDigit_eq ▸ hd⟩
theorem word_intro {s : Str} (h : s ≠ []) (hd : ∀ c ∈ s, isWordC c = true) : Word s := ⟨h, isWord_eq ▸ hd⟩
theorem upper_iff {c : Char} : isUpper c = true ↔ isUpperC c = true := by rw [isUpper_eq]

/-! ### substrings and replacement -/

theorem isPrefixOf_append {p s : Str} : p.isPrefixOf s = true ↔ ∃ t, s = p ++ t := by
  rw [List.isPrefixOf_iff_prefix]
  constructor
  · rintro ⟨t, h⟩; exact ⟨t, h.symm⟩
  · rintro ⟨t, h⟩; exact ⟨t, h.symm⟩

theorem hasSub_iff {pat s : Str} : hasSub pat s = true ↔ Contains pat s := by
  induction s with
  | nil =>
    simp only [hasSub, List.isEmpty_iff, Contains]
    constructor
    · rintro rfl; exact ⟨[], [], rfl⟩
    · rintro ⟨a, b, h⟩
      have := congrArg List.length h
      simp at this
      exact List.length_eq_zero_iff.1 (by omega)
  | cons c cs ih =>
    simp only [hasSub, Bool.or_eq_true, isPrefixOf_append, ih]
    constructor
    · rintro (⟨t, h⟩ | ⟨a, b, h⟩)
      · exact ⟨[], t, by simpa using h⟩
      · exact ⟨c :: a, b, by simp [h]⟩
    · rintro ⟨a, b, h⟩
      cases a with
      | nil => exact Or.inl ⟨b, by simpa using h⟩
      | cons x a =>
        simp only [List.cons_append, List.cons.injEq] at h
        exact Or.inr ⟨a, b, h.2⟩

theorem hasSub_false {pat s : Str} : hasSub pat s = false ↔ ¬ Contains pat s := by
  rw [← hasSub_iff]; simp

/-- Number of characters kept and number of occurrences replaced. -/
def replCount (pat : Str) : Nat → Str → Nat × Nat
  | _, [] => (0, 0)
  | k + 1, _ :: cs => replCount pat k cs
  | 0, c :: cs =>
      if pat.isPrefixOf (c :: cs) then ((replCount pat (pat.length - 1) cs).1, (replCount pat (pat.length - 1) cs).2 + 1)
      else ((replCount pat 0 cs).1 + 1, (replCount pat 0 cs).2)

theorem replaceGo_length (pat new : Str) (k : Nat) (s : Str) :
    (replaceGo pat new k s).length = (replCount pat k s).1 + (replCount pat k s).2 * new.length := by
  induction s generalizing k with
  | nil => cases k <;> simp [replaceGo, replCount]
  | cons c cs ih =>
    cases k with
    | succ k => simp only [replaceGo, replCount]; exact ih k
    | zero =>
      simp only [replaceGo, replCount]
      split
      · simp only [List.length_append, ih, Nat.add_mul, Nat.one_mul]; omega
      · simp only [List.length_cons, ih]; omega

theorem replCount_pos {pat s : Str} (h : hasSub pat s = true) (hp : pat ≠ []) : 0 < (replCount pat 0 s).2 := by
  induction s with
  | nil => simp [hasSub, hp] at h
  | cons c cs ih =>
    simp only [hasSub, Bool.or_eq_true] at h
    simp only [replCount]
    split
    · simp
    · rename_i h1
      rcases h with h | h
      · exact absurd h h1
      · exact ih h

theorem replaceGo_head_inj {pat i j s : Str} (hl : i.length = j.length) (h : hasSub pat s = true) (hp : pat ≠ [])
    (he : replaceGo pat i 0 s = replaceGo pat j 0 s) : i = j := by
  induction s with
  | nil => simp [hasSub, hp] at h
  | cons c cs ih =>
    simp only [hasSub, Bool.or_eq_true] at h
    simp only [replaceGo] at he
    split at he
    · exact (List.append_inj he hl).1
    · rename_i h1
      rcases h with h | h
      · exact absurd h h1
      · simp only [List.cons.injEq, true_and] at he
        exact ih h he

/-- Different indices give different names. -/
theorem replaceAll_inj {pat i j s : Str} (h : hasSub pat s = true) (hp : pat ≠ [])
    (he : replaceAll pat i s = replaceAll pat j s) : i = j := by
  have h1 := congrArg List.length he
  simp only [replaceAll, replaceGo_length] at h1
  have h2 := replCount_pos h hp
  have h3 : (replCount pat 0 s).2 * i.length = (replCount pat 0 s).2 * j.length := by omega
  exact replaceGo_head_inj (Nat.eq_of_mul_eq_mul_left h2 h3) h hp he

theorem replaceAll_absent {pat new s : Str} (h : hasSub pat s = false) : replaceAll pat new s = s := by
  unfold replaceAll
  induction s with
  | nil => rfl
  | cons c s ih =>
    simp only [hasSub, Bool.or_eq_false_iff] at h
    rw [replaceGo, if_neg (by simp [h.1]), ih h.2]

/-- `replaceAll` replaces the first occurrence and goes on behind it. -/
theorem replaceAll_once {pat new a b : Str} (hp : pat ≠ [])
    (ha : ∀ x y, a = x ++ y → y ≠ [] → pat.isPrefixOf (y ++ (pat ++ b)) = false) :
    replaceAll pat new (a ++ (pat ++ b)) = a ++ (new ++ replaceAll pat new b) := by
  induction a with
  | nil =>
    cases pat with
    | nil => exact absurd rfl hp
    | cons c cs =>
      simp only [replaceAll, List.nil_append, List.cons_append, replaceGo]
      rw [if_pos (by rw [isPrefixOf_append]; exact ⟨b, rfl⟩)]
      congr 1
      simp only [List.length_cons, Nat.add_sub_cancel]
      have : ∀ (k : Nat) (l : Str), l.length = k → replaceGo (c :: cs) new k (l ++ b) = replaceGo (c :: cs) new 0 b := by
        intro k
        induction k with
        | zero => intro l hl; rw [List.length_eq_zero_iff.1 hl]; rfl
        | succ k ih =>
          intro l hl
          cases l with
          | nil => simp at hl
          | cons y l =>
            simp only [List.cons_append, replaceGo]
            exact ih l (by simpa using hl)
      exact this _ _ rfl
  | cons x a ih =>
    have h0 := ha [] (x :: a) rfl (by simp)
    simp only [replaceAll, List.cons_append, replaceGo] at ih ⊢
    have h1 : pat.isPrefixOf (x :: (a ++ (pat ++ b))) = false := h0
    rw [if_neg (by rw [h1]; decide), ih]
    intro u v huv hv
    exact ha (x :: u) v (by simp [huv]) hv

/-! ### C08 -/

theorem decValue_digits {s : Str} (h : Decimal s) : pyInt 10 s = some (decValue s : Int) := by
  have hd : ∀ (l : Str) (a : Nat) (us : Bool), (∀ c ∈ l, isDigitC c = true) → (us = true → l ≠ []) →
      digitsGo 10 a us l = some (l.foldl (fun v c => v * 10 + (c.toNat - 48)) a) := by
    intro l
    induction l with
    | nil => intro a us _ h2; cases us <;> simp [digitsGo] at h2 ⊢
    | cons c l ih =>
      intro a us h1 _
      have hc := h1 c (by simp)
      simp only [isDigitC, Bool.and_eq_true, decide_eq_true_eq] at hc
      have hu : c ≠ '_' := by rintro rfl; simp at hc
      have hv : digitVal c = some (c.toNat - 48) := by
        unfold digitVal
        simp only
        rw [if_pos hc]
      simp only [digitsGo, if_neg hu, hv, List.foldl_cons]
      rw [if_pos (by omega)]
      exact ih _ _ (fun x hx => h1 x (by simp [hx])) (by simp)
  have hns : ∀ c ∈ s, isSpaceC c = false := by
    intro c hc
    have := h.digits c hc
    simp only [isDigitC, Bool.and_eq_true, decide_eq_true_eq] at this
    simp only [isSpaceC]
    simp
    omega
  have hhead : ∀ x, isDigitC x = false → ∀ t, s ≠ x :: t := by
    rintro x hx t rfl
    rw [h.digits x (by simp)] at hx
    cases hx
  rw [pyInt_noSign (strip_of_no_space hns) (hhead _ (by decide)) (hhead _ (by decide))]
  simp only [unsignedInt, digits]
  rw [if_neg (by decide), if_neg (by decide), if_neg (by decide), hd s 0 true h.digits (fun _ => h.1)]
  rfl

theorem takeWhile_digits {s : Str} (hs : ∀ c ∈ s, isDigitC c = true) {c : Char} (hc : isDigitC c = false) (t : Str) :
    (s ++ c :: t).takeWhile isDigitC = s := by
  induction s with
  | nil => simp [hc]
  | cons a s ih =>
    simp only [List.cons_append, List.takeWhile_cons, hs a (by simp), if_true]
    rw [ih (fun x hx => hs x (by simp [hx]))]

theorem bitRange_match_rest {x y : Str} (hx : Decimal x) (hy : Decimal y) (rest : Str) :
    matchBitRange (rangeText x y ++ rest) = some (x, y) := by
  have h1 : (x ++ ':' :: (y ++ ']' :: rest)).takeWhile isDigitC = x :=
    takeWhile_digits hx.digits (by decide) _
  have h2 : (y ++ ']' :: rest).takeWhile isDigitC = y :=
    takeWhile_digits hy.digits (by decide) _
  unfold rangeText
  simp only [List.append_assoc, List.cons_append, List.nil_append]
  unfold matchBitRange
  simp only [h1, List.drop_left, h2]
  simp [hx.1, hy.1]

theorem bitRange_match {x y : Str} (hx : Decimal x) (hy : Decimal y) :
    matchBitRange (rangeText x y) = some (x, y) := by
  have := bitRange_match_rest hx hy []
  rwa [List.append_nil] at this

theorem takeWhile_drop_append (p : Char → Bool) (s : Str) : s = s.takeWhile p ++ s.drop (s.takeWhile p).length := by
  induction s with
  | nil => rfl
  | cons a s ih =>
    rw [List.takeWhile_cons]
    split
    · simpa using ih
    · simp

theorem takeWhile_mem {p : Char → Bool} {s : Str} : ∀ c ∈ s.takeWhile p, p c = true := by
  induction s with
  | nil => simp
  | cons a s ih =>
    rw [List.takeWhile_cons]
    split
    · rename_i ha
      intro c hc
      rcases List.mem_cons.1 hc with rfl | hc
      · exact ha
      · exact ih c hc
    · simp

theorem bitRange_match_inv {r a b : Str} (h : matchBitRange r = some (a, b)) :
    Decimal a ∧ Decimal b ∧ ∃ rest, r = rangeText a b ++ rest := by
  unfold matchBitRange at h
  split at h
  · rename_i t
    simp only at h
    have e1 := takeWhile_drop_append isDigitC t
    split at h
    · rename_i u hu
      have e2 := takeWhile_drop_append isDigitC u
      split at h
      · rename_i v hv
        split at h
        · cases h
        · rename_i hne
          simp only [Option.some.injEq, Prod.mk.injEq] at h
          obtain ⟨rfl, rfl⟩ := h
          simp only [Bool.or_eq_true, List.isEmpty_iff, not_or] at hne
          refine ⟨decimal_intro hne.1 takeWhile_mem, decimal_intro hne.2 takeWhile_mem, v, ?_⟩
          rw [hu] at e1
          rw [hv] at e2
          unfold rangeText
          simp only [List.append_assoc, List.cons_append, List.nil_append]
          rw [← e2, ← e1]
      · cases h
    · cases h
  · cases h

/-- The position of a field in terms of its attributes. -/
theorem bits_iff {f : SField} {base : Option IFieldHd} {m l : Int} :
    (∃ w, fieldMsbLsb f base = .ok (m, l) w) ↔ BitsOf f base m l := by
  have hor : ∀ (o x : Option Int), orIfNone o x = o.or x := fun o x => by cases o <;> rfl
  constructor
  · rintro ⟨w, h⟩
    unfold fieldMsbLsb at h
    simp only [hor] at h
    simp only [M.bind_eq_ok] at h
    obtain ⟨s3, w1, w2, h1, h2, rfl⟩ := h
    cases s3 with
    | none => simp [M.throw] at h2
    | some x =>
      obtain ⟨m', l'⟩ := x
      simp only [M.bind_eq_ok, M.pure_eq_ok, Prod.mk.injEq] at h2
      obtain ⟨_, _, _, -, ⟨⟨hm', hl'⟩, -⟩, -⟩ := h2
      subst hm' hl'
      cases hr : f.bitRange with
      | some r =>
        rw [hr] at h1
        simp only [M.bind_eq_ok, M.pure_eq_ok, Option.some.injEq] at h1
        obtain ⟨_, _, _, h1, ⟨rfl, -⟩, -⟩ := h1
        unfold bitRangePos at h1
        cases hm : matchBitRange r with
        | none => rw [hm] at h1; simp [M.throw] at h1
        | some ab =>
          obtain ⟨a, b⟩ := ab
          obtain ⟨ha, hb, rest, rfl⟩ := bitRange_match_inv hm
          rw [hm] at h1
          simp only [decValue_digits ha, decValue_digits hb] at h1
          have := BitsOf.range (base := base) hr ha hb
          split at h1
          · simp only [M.bind_eq_ok, M.pure_eq_ok, Prod.mk.injEq] at h1
            obtain ⟨_, _, _, -, ⟨⟨rfl, rfl⟩, -⟩, -⟩ := h1
            have e1 : max (decValue a) (decValue b) = decValue b := by omega
            have e2 : min (decValue a) (decValue b) = decValue a := by omega
            rw [e1, e2] at this
            exact this
          · simp only [M.pure_eq_ok, Prod.mk.injEq] at h1
            obtain ⟨⟨rfl, rfl⟩, -⟩ := h1
            have e1 : max (decValue a) (decValue b) = decValue a := by omega
            have e2 : min (decValue a) (decValue b) = decValue b := by omega
            rw [e1, e2] at this
            exact this
      | none =>
        rw [hr] at h1
        simp only [M.pure_eq_ok] at h1
        obtain ⟨h1, -⟩ := h1
        clear hor
        split at h1
        · rename_i hc
          split at h1
          · rename_i lo mo hl hm
            simp only [Option.some.injEq, Prod.mk.injEq] at h1
            obtain ⟨rfl, rfl⟩ := h1
            refine .lsbMsb hr ?_ hl hm
            simpa [Option.isSome_iff_ne_none] using hc
          · rename_i hne
            have hcond : (f.lsb = none ∧ f.msb = none) ∨ (base = none ∧ (f.lsb = none ∨ f.msb = none)) := by
              cases base with
              | some b => cases hl : f.lsb <;> cases hm : f.msb <;> simp [hl, hm] at hne
              | none =>
                cases hl : f.lsb with
                | none => simp
                | some _ =>
                  cases hm : f.msb with
                  | none => simp
                  | some _ => simp [hl, hm] at hne
            split at h1
            · rename_i hc
              split at h1
              · rename_i o w ho hw
                simp only [Option.some.injEq, Prod.mk.injEq] at h1
                obtain ⟨rfl, rfl⟩ := h1
                refine .offsetWidth hr hcond ?_ ho hw
                simpa [Option.isSome_iff_ne_none] using hc
              · cases h1
            · cases h1
        · rename_i hc0
          have hcond : (f.lsb = none ∧ f.msb = none) ∨ (base = none ∧ (f.lsb = none ∨ f.msb = none)) :=
            Or.inl (by simpa using hc0)
          split at h1
          · rename_i hc
            split at h1
            · rename_i o w ho hw
              simp only [Option.some.injEq, Prod.mk.injEq] at h1
              obtain ⟨rfl, rfl⟩ := h1
              refine .offsetWidth hr hcond ?_ ho hw
              simpa [Option.isSome_iff_ne_none] using hc
            · cases h1
          · cases h1
  · intro h
    have fin : ∀ (m l : Int) (w : List Warn) (x : M (Option (Int × Int))), x = .ok (some (m, l)) w → ∃ w', (M.bind x fun s3 =>
        match s3 with
        | none => M.throw (.process .noFieldPosition)
        | some (m, l) => M.bind (M.warnIf (decide (m < l)) (.msbLtLsb f.name)) fun _ => M.pure (m, l)) = .ok (m, l) w' := by
      rintro m l w x rfl
      by_cases hlt : m < l
      · exact ⟨_, by simp only [M.bind, M.warnIf, hlt, decide_true, if_true, M.pure]; rfl⟩
      · exact ⟨_, by simp only [M.bind, M.warnIf, hlt, decide_false, M.pure]; rfl⟩
    unfold fieldMsbLsb
    simp only [hor]
    cases h with
    | @range x y rest hr hx hy =>
      rw [hr]
      simp only [bitRangePos, bitRange_match_rest hx hy, decValue_digits hx, decValue_digits hy]
      by_cases hlt : (decValue x : Int) < decValue y
      · have e1 : max (decValue x) (decValue y) = decValue y := by omega
        have e2 : min (decValue x) (decValue y) = decValue x := by omega
        rw [if_pos hlt, e1, e2]
        exact fin _ _ _ _ rfl
      · have e1 : max (decValue x) (decValue y) = decValue x := by omega
        have e2 : min (decValue x) (decValue y) = decValue y := by omega
        rw [if_neg hlt, e1, e2]
        exact fin _ _ _ _ rfl
    | lsbMsb hr hc hl hm =>
      have hc' : (f.lsb.isSome || f.msb.isSome) = true := by simpa [Option.isSome_iff_ne_none] using hc
      rw [hr]
      simp only [hc', if_true, hl, hm]
      exact fin _ _ _ _ rfl
    | @offsetWidth o w hr hcond hc ho hw =>
      have hc' : (f.bitOffset.isSome || f.bitWidth.isSome) = true := by simpa [Option.isSome_iff_ne_none] using hc
      rw [hr]
      simp only [hc', if_true, ho, hw]
      rcases hcond with ⟨h1, h2⟩ | ⟨rfl, h1 | h1⟩
      · rw [h1, h2]; exact fin _ _ _ _ rfl
      · rw [h1]
        cases f.msb <;> exact fin _ _ _ _ rfl
      · rw [h1]
        cases f.lsb <;> exact fin _ _ _ _ rfl

theorem bits_unique {f : SField} {base : Option IFieldHd} {m l m' l' : Int} (h : BitsOf f base m l) (h' : BitsOf f base m' l') :
    m = m' ∧ l = l' := by
  obtain ⟨w, e⟩ := bits_iff.2 h
  obtain ⟨w', e'⟩ := bits_iff.2 h'
  rw [e] at e'
  simp only [M.ok.injEq, Prod.mk.injEq] at e'
  exact e'.1

theorem splitC_none {c : Char} {s : Str} (h : c ∉ s) : splitC c s = [s] := by
  induction s with
  | nil => rfl
  | cons x s ih =>
    simp only [List.mem_cons, not_or] at h
    simp only [splitC, if_neg (Ne.symm h.1), ih h.2]

theorem splitC_cons {c : Char} {a b : Str} (h : c ∉ a) : splitC c (a ++ (c :: b)) = a :: splitC c b := by
  induction a with
  | nil => simp [splitC]
  | cons x a ih =>
    simp only [List.mem_cons, not_or] at h
    simp only [List.cons_append, splitC, if_neg (Ne.symm h.1), ih h.2]

theorem takeWhile_append_stop {p : Char → Bool} {a b : Str} (ha : ∀ c ∈ a, p c = true) (hb : ∀ c ∈ b.head?, p c = false) :
    (a ++ b).takeWhile p = a := by
  induction a with
  | nil =>
    cases b with
    | nil => rfl
    | cons x b => simp [List.takeWhile_cons, hb x (by simp)]
  | cons x a ih =>
    simp only [List.cons_append, List.takeWhile_cons, ha x (by simp), if_true]
    rw [ih (fun c hc => ha c (by simp [hc]))]

theorem digit_ne_minus {s : Str} (h : ∀ c ∈ s, isDigitC c = true) : '-' ∉ s := by
  intro hm; have := h _ hm; revert this; decide

theorem decimal_head {b : Str} (h : Decimal b) : ∃ c t, b = c :: t ∧ isDigitC c = true := by
  cases b with
  | nil => exact absurd rfl h.1
  | cons c t => exact ⟨c, t, rfl, h.digits c (by simp)⟩

theorem matchNumRange_dec {a b : Str} (ha : Decimal a) (hb : Decimal b) : matchNumRange (a ++ ('-' :: b)) = true := by
  obtain ⟨c, t, rfl, hc⟩ := decimal_head hb
  unfold matchNumRange
  simp only
  rw [takeWhile_append_stop ha.digits (by simp; decide)]
  simp [ha.1, hc]

theorem upper_not_digit {c : Char} (h : isUpperC c = true) : isDigitC c = false := by
  simp only [isUpperC, Bool.and_eq_true, decide_eq_true_eq] at h
  simp only [isDigitC]
  simp; omega

theorem intRange_dec (a b : Nat) (h : a ≤ b) : (intRange a b).map intStr = decimals a b := by
  unfold intRange decimals
  rw [rangeFrom_zero, List.map_map]
  have : ((b : Int) - a + 1).toNat = b + 1 - a := by omega
  rw [this]
  apply List.map_congr_left
  intro k _
  simp only [Function.comp]
  have : (a : Int) + Int.ofNat k = Int.ofNat (a + k) := by simp
  rw [this, natText_eq]; rfl

theorem letters_range (x y : Char) : (rangeFrom x.toNat (y.toNat + 1 - x.toNat)).map (fun n => [Char.ofNat n]) = letters x y := by
  unfold letters
  rw [rangeFrom_eq, List.range'_eq_map_range, List.map_map]
  rfl

theorem commaList_eq (first : Str) (rest : List (Str × Str)) :
    commaList first rest = first ++ rest.flatMap fun p => (',' :: p.1) ++ p.2 := by
  induction rest generalizing first with
  | nil => simp [commaList]
  | cons p rest ih =>
    obtain ⟨pad, item⟩ := p
    simp only [commaList, ih, List.flatMap_cons]
    simp

theorem word_char {c : Char} (h : isWordC c = true) : c ≠ '-' ∧ c ≠ ',' ∧ isSpaceC c = false := by
  simp only [isWordC, isDigitC, isUpperC, Bool.or_eq_true, Bool.and_eq_true, decide_eq_true_eq, beq_iff_eq] at h
  refine ⟨?_, ?_, ?_⟩
  · rintro rfl; revert h; decide
  · rintro rfl; revert h; decide
  · rcases h with ((rfl | h) | h) | h
    · decide
    all_goals
      simp only [isSpaceC]
      simp
      omega

theorem drop_takeWhile {p : Char → Bool} (l : Str) : l.drop (l.takeWhile p).length = l.dropWhile p := by
  induction l with
  | nil => rfl
  | cons x l ih =>
    simp only [List.takeWhile_cons, List.dropWhile_cons]
    split
    · simpa using ih
    · rfl

theorem word_not_ranges {s t : Str} (hw : Word s) (ht : ∀ c ∈ t.head?, c = ',') :
    matchNumRange (s ++ t) = false ∧ matchLetterRange (s ++ t) = false := by
  have hne : ∀ c ∈ s, c ≠ '-' := fun c hc => (word_char (hw.chars c hc)).1
  constructor
  · unfold matchNumRange
    simp only
    rw [drop_takeWhile]
    have : ∀ u : Str, (∀ c ∈ u, c ≠ '-') → ∀ x y, (u ++ t).dropWhile isDigitC ≠ '-' :: x :: y := by
      intro u
      induction u with
      | nil =>
        intro _ x y h
        cases t with
        | nil => simp at h
        | cons c t =>
          have := ht c (by simp)
          subst this
          simp only [List.nil_append, List.dropWhile_cons] at h
          rw [if_neg (by decide)] at h
          simp at h
      | cons c u ih =>
        intro hu x y h
        simp only [List.cons_append, List.dropWhile_cons] at h
        split at h
        · exact ih (fun d hd => hu d (by simp [hd])) x y h
        · simp only [List.cons.injEq] at h
          exact hu c (by simp) h.1
    have h0 := this s hne
    cases h1 : (s ++ t).dropWhile isDigitC with
    | nil => simp
    | cons c l =>
      cases l with
      | nil =>
        rw [h1] at h0
        simp
      | cons x y =>
        rw [h1] at h0
        have : c ≠ '-' := fun hc => h0 x y (by rw [hc])
        simp only [Bool.and_eq_false_imp]
        intro _
        trivial
  · unfold matchLetterRange
    split
    · rename_i a b r heq
      cases s with
      | nil => exact absurd rfl hw.1
      | cons c s =>
        cases s with
        | nil =>
          simp only [List.cons_append, List.nil_append, List.cons.injEq] at heq
          have := ht '-' (by rw [heq.2]; simp)
          simp at this
        | cons e s =>
          simp only [List.cons_append, List.cons.injEq] at heq
          exact absurd heq.2.1 (hne e (by simp))
    · rfl

theorem splitC_items (rest : List (Str × Str)) (first : Str) (hf : ',' ∉ first) (hr : ∀ p ∈ rest, ',' ∉ p.2) :
    splitC ',' (first ++ rest.flatMap fun p => ',' :: p.2) = first :: rest.map (·.2) := by
  induction rest generalizing first with
  | nil => simp [splitC_none hf]
  | cons p rest ih =>
    simp only [List.flatMap_cons, List.cons_append, List.map_cons]
    rw [splitC_cons hf, ih _ (hr p (by simp)) (fun q hq => hr q (by simp [hq]))]

/-- A well formed dimIndex: the indices it denotes, if their number is `dim`; otherwise a ProcessException. -/
theorem dimIndexList_denotes {n : Int} {s : Option Str} {l : List Str} (h : DimDenotes n s l) :
    dimIndexList n s = .ok l [] := by
  cases h with
  | absent => simp [dimIndexList, rangeFrom_zero, M.pure, natText_eq]
  | @numbers a b ha hb hle =>
    unfold dimIndexList
    simp only [matchNumRange_dec ha hb, if_true]
    rw [splitC_cons (digit_ne_minus ha.digits), splitC_none (digit_ne_minus hb.digits)]
    simp only [decValue_digits ha, decValue_digits hb]
    rw [if_neg (by omega), intRange_dec _ _ hle]
    rfl
  | @letters x y hx hy hlt =>
    rw [upper_iff] at hx hy
    unfold dimIndexList
    have h1 : matchNumRange [x, '-', y] = false := by
      unfold matchNumRange
      simp [upper_not_digit hx]
    have h2 : matchLetterRange [x, '-', y] = true := by simp [matchLetterRange, hx, hy]
    have hx' : x ≠ '-' := by rintro rfl; revert hx; decide
    have hy' : y ≠ '-' := by rintro rfl; revert hy; decide
    have h3 : splitC '-' [x, '-', y] = [[x], [y]] := by
      simp [splitC, hx', hy']
    simp only [h1, h2, h3]
    simp only [Bool.false_eq_true, if_false, if_true]
    rw [if_neg (by omega), letters_range]
    rfl
  | @items first rest hr hw hws =>
    unfold dimIndexList
    simp only
    rw [commaList_eq]
    obtain ⟨⟨pad, item⟩, rest', rfl⟩ := List.exists_cons_of_ne_nil hr
    obtain ⟨h1, h2⟩ := word_not_ranges (t := ((pad, item) :: rest').flatMap fun p => (',' :: p.1) ++ p.2) hw (by simp)
    simp only [h1, h2]
    have h3 : matchCommaList (first ++ ((pad, item) :: rest').flatMap fun p => (',' :: p.1) ++ p.2) = true := by
      unfold matchCommaList
      simp only
      rw [takeWhile_append_stop hw.chars (by simp; decide)]
      simp only [List.flatMap_cons, List.cons_append, List.drop_left, Bool.and_eq_true, Bool.not_eq_true', List.isEmpty_eq_false_iff]
      refine ⟨hw.1, ?_⟩
      have hp := hws (pad, item) (by simp)
      obtain ⟨c, t, hct⟩ := List.exists_cons_of_ne_nil hp.2.1
      simp only at hct
      have hc : isWordC c = true := hp.2.chars c (by simp [hct])
      have : ∀ u : Str, (∀ x ∈ u, isSpaceC x = true) → ∀ v, (u ++ (c :: v)).dropWhile isSpaceC = c :: v := by
        intro u
        induction u with
        | nil => intro _ v; simp [List.dropWhile_cons, (word_char hc).2.2]
        | cons x u ih =>
          intro hu v
          simp only [List.cons_append, List.dropWhile_cons, hu x (by simp), if_true]
          exact ih (fun y hy => hu y (by simp [hy])) v
      have h5 := this pad hp.1.spaces (t ++ rest'.flatMap fun p => (',' :: p.1) ++ p.2)
      subst hct
      simp only [List.append_assoc, List.cons_append] at h5 ⊢
      rw [h5]
      exact hc
    simp only [h3]
    simp only [Bool.false_eq_true, if_false, if_true]
    have hfil : ∀ w : Str, Word w → w.filter (fun c => !isSpaceC c) = w := by
      intro w hw
      rw [List.filter_eq_self]
      intro c hc
      simp [(word_char (hw.chars c hc)).2.2]
    have hbl : ∀ w : Str, BlankPad w → w.filter (fun c => !isSpaceC c) = [] := by
      intro w hw
      rw [List.filter_eq_nil_iff]
      intro c hc
      simp [hw.spaces c hc]
    have hall : (first ++ ((pad, item) :: rest').flatMap fun p => (',' :: p.1) ++ p.2).filter (fun c => !isSpaceC c) =
        first ++ ((pad, item) :: rest').flatMap fun p => ',' :: p.2 := by
      rw [List.filter_append, hfil _ hw]
      congr 1
      generalize (pad, item) :: rest' = l at hws
      induction l with
      | nil => rfl
      | cons p l ih =>
        rw [List.flatMap_cons, List.flatMap_cons, List.filter_append, ih (fun q hq => hws q (by simp [hq])),
          List.filter_append, List.filter_cons, if_pos (by decide), hbl _ (hws p (by simp)).1,
          hfil _ (hws p (by simp)).2]
        simp
    rw [hall, splitC_items _ _ (fun hm => (word_char (hw.chars _ hm)).2.1 rfl)
      (fun p hp hm => (word_char ((hws p hp).2.chars _ hm)).2.1 rfl)]
    rfl
  | @single w hw =>
    unfold dimIndexList
    obtain ⟨h1, h2⟩ := word_not_ranges (t := []) hw (by simp)
    rw [List.append_nil] at h1 h2
    have h3 : matchCommaList w = false := by
      unfold matchCommaList
      simp only
      have := takeWhile_append_stop (b := []) hw.chars (by simp)
      rw [List.append_nil] at this
      rw [this]
      simp
    have h4 : matchWord w = true := by
      cases w with
      | nil => exact absurd rfl hw.1
      | cons c t => exact hw.chars c (by simp)
    simp [h1, h2, h3, h4, M.pure]

/-- C08: a dimIndex denoting `dim` indices expands to exactly these. -/
theorem C08_denoted {n : Int} {s : Option Str} {l : List Str} (h : DimDenotes n s l) (hn : 1 ≤ n) (hl : (l.length : Int) = n) :
    processDimIndex n s = .ok l [] :=
  processDimIndex_ok.2 ⟨hn, dimIndexList_denotes h, hl, rfl⟩

/-- C08: a dimIndex denoting another number of indices is rejected with a ProcessException. -/
theorem C08_wrong_count {n : Int} {s : Option Str} {l : List Str} (h : DimDenotes n s l) (hl : (l.length : Int) ≠ n) :
    ∃ e, processDimIndex n s = .err (.process e) := by
  unfold processDimIndex
  split
  · exact ⟨_, rfl⟩
  · rw [dimIndexList_denotes h]
    exact ⟨.dimIndexCount, by simp [M.bind, hl, M.throw]⟩

/-- C08: whatever the string, an accepted dimIndex yields exactly `dim` indices. -/
theorem C08_length {n : Int} {s : Option Str} {l : List Str} {ws : List Warn} (h : processDimIndex n s = .ok l ws) :
    (l.length : Int) = n := (processDimIndex_ok.1 h).2.2.1

/-- C08: a descending range is rejected with a ProcessException. -/
theorem C08_descending {n : Int} {a b : Str} (ha : Decimal a) (hb : Decimal b) (h : decValue b < decValue a) :
    ∃ e, processDimIndex n (some (a ++ ('-' :: b))) = .err (.process e) := by
  unfold processDimIndex
  split
  · exact ⟨_, rfl⟩
  · refine ⟨.dimIndexOrder, ?_⟩
    have : dimIndexList n (some (a ++ ('-' :: b))) = M.throw (.process .dimIndexOrder) := by
      unfold dimIndexList
      simp only [matchNumRange_dec ha hb, if_true]
      rw [splitC_cons (digit_ne_minus ha.digits), splitC_none (digit_ne_minus hb.digits)]
      simp only [decValue_digits ha, decValue_digits hb]
      rw [if_pos (by omega)]
    rw [this]; rfl

theorem C08_descending_letters {n : Int} {x y : Char} (hx : isUpper x = true) (hy : isUpper y = true)
    (h : y.toNat ≤ x.toNat) : ∃ e, processDimIndex n (some [x, '-', y]) = .err (.process e) := by
  rw [upper_iff] at hx hy
  unfold processDimIndex
  split
  · exact ⟨_, rfl⟩
  · refine ⟨.dimIndexOrder, ?_⟩
    have : dimIndexList n (some [x, '-', y]) = M.throw (.process .dimIndexOrder) := by
      unfold dimIndexList
      have h1 : matchNumRange [x, '-', y] = false := by
        unfold matchNumRange
        simp [upper_not_digit hx]
      have h2 : matchLetterRange [x, '-', y] = true := by simp [matchLetterRange, hx, hy]
      have hx' : x ≠ '-' := by rintro rfl; revert hx; decide
      have hy' : y ≠ '-' := by rintro rfl; revert hy; decide
      have h3 : splitC '-' [x, '-', y] = [[x], [y]] := by
        simp [splitC, hx', hy']
      simp only [h1, h2, h3]
      simp only [Bool.false_eq_true, if_false, if_true]
      rw [if_pos h]
    rw [this]; rfl

/-- C08 (limit of the claim): malformed strings that start like a range end in `ValueError`/`TypeError`, not in a
ProcessException. -/
theorem C08_malformed_ranges : processDimIndex 3 (some (s%"1-2-3")) = .err .valueError ∧
    processDimIndex 2 (some (s%"A-BC")) = .err .typeError := by decide +kernel

/-- The hypotheses are met, for each form of the index. -/
theorem C08_sample :
    processDimIndex 3 none = .ok [s%"0", s%"1", s%"2"] [] ∧
    processDimIndex 3 (some (s%"09-11")) = .ok [s%"9", s%"10", s%"11"] [] ∧
    processDimIndex 3 (some (s%"B-D")) = .ok [s%"B", s%"C", s%"D"] [] ∧
    processDimIndex 3 (some (s%"x, y,  z_1")) = .ok [s%"x", s%"y", s%"z_1"] [] := by
  refine ⟨C08_denoted .absent (by decide) (by decide), ?_, ?_, ?_⟩
  · exact C08_denoted (.numbers (a := s%"09") (b := s%"11") ⟨by decide, by decide⟩ ⟨by decide, by decide⟩ (by decide))
      (by decide) (by decide)
  · exact C08_denoted (.letters (x := 'B') (y := 'D') (by decide) (by decide) (by decide)) (by decide) (by decide)
  · exact C08_denoted (.items (first := s%"x") (rest := [(s%" ", s%"y"), (s%"  ", s%"z_1")]) (by decide)
      ⟨by decide, by decide⟩ (by unfold BlankPad Word; decide)) (by decide) (by decide)

/-! ### C09 -/

theorem nodup_map_inj {α β : Type} {f : α → β} (hf : ∀ x y, f x = f y → x = y) {l : List α} (h : l.Nodup) :
    (l.map f).Nodup := by
  induction l with
  | nil => simp
  | cons x l ih =>
    rw [List.nodup_cons] at h
    rw [List.map_cons, List.nodup_cons]
    refine ⟨?_, ih h.2⟩
    rw [List.mem_map]
    rintro ⟨y, hy, he⟩
    exact h.1 (hf _ _ he ▸ hy)

theorem natStrs_nodup (n : Nat) : ((List.range n).map natStr).Nodup :=
  nodup_map_inj (fun _ _ h => natStr_inj h) List.nodup_range

theorem decimals_nodup (a b : Nat) : (decimals a b).Nodup :=
  nodup_map_inj (fun x y h => by rw [natText_eq] at h; have := natStr_inj h; omega) List.nodup_range

theorem toNat_ofNat_ascii {n : Nat} (h : n < 128) : (Char.ofNat n).toNat = n := by
  have : ∀ k : Fin 128, (Char.ofNat k.val).toNat = k.val := by decide +kernel
  exact this ⟨n, h⟩

theorem letters_nodup {x y : Char} (hy : isUpperC y = true) : (letters x y).Nodup := by
  unfold letters
  have hy' : y.toNat ≤ 90 := by simp only [isUpperC, Bool.and_eq_true, decide_eq_true_eq] at hy; exact hy.2
  have key : ∀ l : List Nat, l.Nodup → (∀ k ∈ l, x.toNat + k ≤ 90) → (l.map fun k => [Char.ofNat (x.toNat + k)]).Nodup := by
    intro l
    induction l with
    | nil => simp
    | cons k l ih =>
      intro h hk
      rw [List.nodup_cons] at h
      rw [List.map_cons, List.nodup_cons]
      refine ⟨?_, ih h.2 (fun j hj => hk j (by simp [hj]))⟩
      rw [List.mem_map]
      rintro ⟨j, hj, he⟩
      simp only [List.cons.injEq, and_true] at he
      have h1 := hk k (by simp)
      have h2 := hk j (by simp [hj])
      have := congrArg Char.toNat he
      rw [toNat_ofNat_ascii (by omega), toNat_ofNat_ascii (by omega)] at this
      have : j = k := by omega
      exact h.1 (this ▸ hj)
  apply key _ List.nodup_range
  intro k hk
  rw [List.mem_range] at hk
  omega

/-- C09: a dim element never expands to two elements of the same name, provided the index list it uses has no
repetition: an array (`[%s]`) always, a list (`%s`) whenever the indices denoted by dimIndex differ. -/
theorem C09_distinct {ty : Level} {name : Str} {display : Option Str} {n : Int} {dimIndex : Option Str}
    {names : List Str} {displays : List (Option Str)} {ws : List Warn}
    (h : processDim name display (some n) dimIndex ty = .ok (names, displays) ws)
    (hi : Contains arrayMark name ∨ ∃ l, DimDenotes n dimIndex l ∧ l.Nodup) : names.Nodup := by
  obtain ⟨-, -, -, mark, idx, rfl, -, -, hc⟩ := processDim_some h
  rcases hc with ⟨rfl, ha, -, rfl, -⟩ | ⟨rfl, ha, -, hl, -⟩
  · exact nodup_map_inj (fun _ _ he => replaceAll_inj ha (by decide) he) (natStrs_nodup _)
  · rcases hi with hi | ⟨l, hd, hn⟩
    · exact absurd hi (hasSub_false.1 ha)
    · rw [dimIndexList_denotes hd] at hl
      simp only [M.ok.injEq, and_true] at hl
      subst hl
      have hs : hasSub lstMark name = true := by
        unfold processDim at h
        simp only at h
        split at h
        · simp at h
        · rw [if_neg (by simp [ha])] at h
          split at h
          · assumption
          · simp at h
      exact nodup_map_inj (fun _ _ he => replaceAll_inj hs (by decide) he) hn

/-- C09: the default indices, numeric ranges and letter ranges have no repetition. -/
theorem C09_ranges {n : Int} {s : Option Str} {l : List Str} (h : DimDenotes n s l)
    (hs : ∀ t, s = some t → ',' ∉ t) : l.Nodup := by
  cases h with
  | absent => rw [natText_eq]; exact natStrs_nodup _
  | numbers _ _ _ => exact decimals_nodup _ _
  | letters _ hy _ => exact letters_nodup (upper_iff.1 hy)
  | single _ => simp
  | @items first rest hr _ _ =>
    exfalso
    apply hs _ rfl
    rw [commaList_eq]
    obtain ⟨⟨pad, item⟩, rest', rfl⟩ := List.exists_cons_of_ne_nil hr
    simp

/-- The hypotheses are met: the marker may even occur twice. -/
theorem C09_sample : processDim (s%"R%s_%s") none (some 2) (some (s%"A,B")) .register =
    .ok ([s%"RA_A", s%"RB_B"], [none, none]) [] := by decide +kernel

/-! ### C07 -/

/-- The own value, or the value of the base element. -/
def ownOr {α : Type} (own : Option α) (base : Option Processed) (get : IDim → Option α) : Option α :=
  own.or ((base.map (·.dim)).bind get)

theorem ownOr_eq {α : Type} (own : Option α) (base : Option Processed) (get : IDim → Option α) :
    ownOr own base get = orIfNone own ((base.map (·.dim)).bind get) := by
  unfold ownOr orIfNone
  cases own <;> rfl

theorem extractDimOf_outcome {p : Parsed} {b : Option Processed} {isDim : Bool} {names : List Str}
    {displays : List (Option Str)} {w : List Warn} (h : extractDimOf p b = .ok (isDim, names, displays) w) :
    ∃ display, DimOutcome p.level (nameOfDecl p) (ownOr (dimOf p).dim b (·.dim)) (ownOr (dimOf p).dimIndex b (·.dimIndex))
      display isDim names displays w ∧
      (∀ r, p = .reg r → ∀ x, r.displayName = some x → display = some x) := by
  simp only [ownOr_eq]
  unfold extractDimOf at h
  cases p with
  | device => simp at h
  | enum _ => simp at h
  | periph p => exact ⟨_, extractDim_ok h, by simp⟩
  | clu p => exact ⟨_, extractDim_ok h, by simp⟩
  | field p => exact ⟨_, extractDim_ok h, by simp⟩
  | reg p =>
    refine ⟨_, extractDim_ok h, ?_⟩
    rintro r hr x hx
    cases hr
    simp [hx, orIfNone, Parsed.level]

theorem nameOf_nameOfProcessed (x : Processed) : nameOfProcessed x = x.name := by cases x <;> rfl

theorem createDimable_position {i : Nat} {n : Str} {disp : Option Str} {p : Parsed} {b : Option Processed} {x : Processed}
    {w : List Warn} (h : createDimable i n disp p b = .ok x w) :
    ∃ pos, DeclaredAt b p pos ∧ position x = pos + (ownOr (dimOf p).dimIncrement b (·.dimIncrement)).getD 0 * i := by
  have hat : ∀ (q : Int) (o : Option Int), atIndex q o i = q + o.getD 0 * i := by
    intro q o
    cases o <;> simp [atIndex]
  cases x with
  | periph r =>
    obtain ⟨s, b', rfl, rfl, rfl⟩ := createDimable_periph h
    refine ⟨_, .periph, ?_⟩
    simp only [position, processPeripheral, hat, dimOf, ownOr_eq, mergeDim]
    cases b' <;> rfl
  | clu r =>
    obtain ⟨s, b', rfl, rfl, rfl⟩ := createDimable_clu h
    refine ⟨_, .clu, ?_⟩
    simp only [position, processCluster, hat, dimOf, ownOr_eq, mergeDim]
    cases b' <;> rfl
  | reg r =>
    obtain ⟨s, b', rfl, rfl, rfl⟩ := createDimable_reg h
    refine ⟨_, .reg, ?_⟩
    simp only [position, processRegister, hat, dimOf, ownOr_eq, mergeDim]
    cases b' <;> rfl
  | field r =>
    obtain ⟨s, b', rfl, rfl, w', h1⟩ := createDimable_field h
    obtain ⟨m, l, h2, rfl⟩ := processField_ok h1
    refine ⟨_, .field rfl (bits_iff.1 ⟨_, h2⟩), ?_⟩
    simp only [position, fieldAt, hat, dimOf, ownOr_eq, mergeDim]
    cases b' <;> rfl

theorem declaredAt_unique {b : Option Processed} {p : Parsed} {x y : Int} (hx : DeclaredAt b p x) (hy : DeclaredAt b p y) :
    x = y := by
  cases hx with
  | periph => cases hy; rfl
  | clu => cases hy; rfl
  | reg => cases hy; rfl
  | field h1 h2 =>
    cases hy with
    | field h3 h4 =>
      subst h1
      have : Function.Injective (Option.map Processed.field) := by
        intro a b h
        cases a <;> cases b <;> simp_all
      have := this h3
      subst this
      exact (bits_unique h2 h4).2

/-! ### C10 -/

theorem badDim_not_ok {p : Parsed} (hb : BadDim p) {b : Option Processed} (hd : p.derivedFrom = none → b = none)
    {r : Bool × List Str × List (Option Str)} {w : List Warn} : extractDimOf p b ≠ .ok r w := by
  intro h
  obtain ⟨isDim, names, displays⟩ := r
  obtain ⟨display, ho, hdisp⟩ := extractDimOf_outcome h
  have hand : ∀ {a : Str}, Contains arrayMark a → Contains listMark a := by
    rintro a ⟨x, y, rfl⟩
    exact ⟨x ++ ['['], [']'] ++ y, by simp [arrayMark, listMark]⟩
  cases hb with
  | lessThanOne hm hn hlt =>
    rcases ho with ⟨-, -, -, h1, -⟩ | ⟨-, -, n', h2, h3, -⟩
    · exact hasSub_false.1 h1 hm
    · simp only [ownOr, hn, Option.some_or, Option.some.injEq] at h2
      omega
  | markerWithoutDim hm hn hdf =>
    have := hd hdf
    subst this
    rcases ho with ⟨-, -, -, h1, -⟩ | ⟨-, -, n', h2, h3, -⟩
    · exact hasSub_false.1 h1 hm
    · simp [ownOr, hn, orIfNone] at h2
  | fieldArray hm =>
    rcases ho with ⟨-, -, -, h1, -⟩ | ⟨-, -, n', h2, h3, h4, mark, idx, -, -, -, h5⟩
    · exact hasSub_false.1 h1 (hand hm)
    · rcases h5 with ⟨-, -, h6, -⟩ | ⟨-, h6, -⟩
      · exact h6 rfl
      · exact hasSub_false.1 h6 hm
  | peripheralList hm hna =>
    rcases ho with ⟨-, -, -, h1, -⟩ | ⟨-, -, n', h2, h3, h4, mark, idx, -, -, -, h5⟩
    · exact hasSub_false.1 h1 hm
    · rcases h5 with ⟨-, h6, -⟩ | ⟨-, -, h6, -⟩
      · exact hna (hasSub_iff.1 h6)
      · exact h6 rfl
  | displayWithoutName hx hm hn =>
    have := hdisp _ rfl _ hx
    subst this
    rcases ho with ⟨-, -, -, -, h1, -⟩ | ⟨-, -, n', h2, h3, h4, -⟩
    · exact hasSub_false.1 h1 hm
    · exact hn (hasSub_iff.1 h4)
  | listDisplayOfArray hx hm hna ha =>
    have := hdisp _ rfl _ hx
    subst this
    rcases ho with ⟨-, -, -, -, h1, -⟩ | ⟨-, -, n', h2, h3, h4, mark, idx, -, -, -, h5⟩
    · exact hasSub_false.1 h1 hm
    · rcases h5 with ⟨-, -, -, -, h6⟩ | ⟨-, h6, -⟩
      · exact hna (hasSub_iff.1 (h6 (hasSub_iff.2 hm)))
      · exact hasSub_false.1 h6 ha
  | arrayDisplayOfList hx hm hl hna =>
    have := hdisp _ rfl _ hx
    subst this
    rcases ho with ⟨-, -, -, -, h1, -⟩ | ⟨-, -, n', h2, h3, h4, mark, idx, -, -, -, h5⟩
    · exact hasSub_false.1 h1 (hand hm)
    · rcases h5 with ⟨-, h6, -⟩ | ⟨-, -, -, -, h6⟩
      · exact hna (hasSub_iff.1 h6)
      · exact hasSub_false.1 h6 hm

/-- The kinds that can have a dim. -/
def Dimable : Parsed → Prop
  | .device => False
  | .enum _ => False
  | _ => True

theorem dimIndexList_err {n : Int} {s : Option Str} {e : Exn} (h : dimIndexList n s = .err e) :
    (∃ x, e = .process x) ∨ ∃ t, s = some t ∧ (matchNumRange t = true ∨ matchLetterRange t = true) := by
  unfold dimIndexList at h
  split at h
  · simp at h
  · rename_i t
    split at h
    · rename_i h1; exact Or.inr ⟨t, rfl, Or.inl h1⟩
    · split at h
      · rename_i h1; exact Or.inr ⟨t, rfl, Or.inr h1⟩
      · split at h
        · simp at h
        · split at h
          · simp at h
          · simp only [M.throw, M.err.injEq] at h
            exact Or.inl ⟨_, h.symm⟩

theorem extractDim_err {ty : Level} {name : Str} {pd : SDim} {pdisp : Option Str} {bd : Option IDim} {bdisp : Option Str}
    {e : Exn} (h : extractDim ty name pd pdisp bd bdisp = .err e) :
    (∃ x, e = .process x) ∨ ∃ t, orIfNone pd.dimIndex (bd.bind (·.dimIndex)) = some t ∧
      (matchNumRange t = true ∨ matchLetterRange t = true) := by
  unfold extractDim at h
  simp only at h
  generalize (if ty = .register then orIfNone pdisp bdisp else none) = display at h
  split at h
  · simp only [M.throw, M.err.injEq] at h; exact Or.inl ⟨_, h.symm⟩
  simp only [M.bind_eq_err] at h
  rcases h with h | ⟨dim', w, h1, h⟩
  · split at h
    · simp [M.bind_eq_err, M.warn] at h
    · simp at h
  · split at h
    · simp only [M.throw, M.err.injEq] at h; exact Or.inl ⟨_, h.symm⟩
    · rw [M.bind_eq_err] at h
      have h : processDim name display dim'
          (orIfNone pd.dimIndex (bd.bind (·.dimIndex))) ty = .err e := by
        rcases h with h | ⟨a, w, _, h⟩
        · exact h
        · simp at h
      unfold processDim processDimArray processDimList processDimIndex at h
      split at h
      · simp at h
      · repeat' split at h
        all_goals first
          | (simp only [M.throw, M.err.injEq] at h; exact Or.inl ⟨_, h.symm⟩)
          | (simp only [M.pure_ne_err] at h; done)
          | skip
        all_goals
          simp only [M.bind_eq_err, M.pure_ne_err] at h
          rcases h with (h | ⟨a, w, h1, h⟩) | ⟨a, w, h1, h⟩
          · exact dimIndexList_err h
          · split at h
            · simp at h
            · simp only [M.throw, M.err.injEq] at h; exact Or.inl ⟨_, h.symm⟩
          · simp at h

/-- The text begins like a range of numbers or letters. -/
def RangeLike (t : Str) : Prop :=
  (∃ x c rest, t = x ++ '-' :: c :: rest ∧ Decimal x ∧ isDigit c = true) ∨
  ∃ x y rest, t = x :: '-' :: y :: rest ∧ isUpper x = true ∧ isUpper y = true

theorem rangeLike_of {t : Str} (h : matchNumRange t = true ∨ matchLetterRange t = true) : RangeLike t := by
  unfold RangeLike
  rw [isDigit_eq, isUpper_eq]
  rcases h with h | h
  · left
    unfold matchNumRange at h
    simp only [Bool.and_eq_true, Bool.not_eq_true', List.isEmpty_eq_false_iff] at h
    obtain ⟨h1, h2⟩ := h
    have e1 := takeWhile_drop_append isDigitC t
    split at h2
    · rename_i c u hu
      rw [hu] at e1
      exact ⟨_, _, _, e1, decimal_intro h1 takeWhile_mem, h2⟩
    · cases h2
  · right
    unfold matchLetterRange at h
    split at h
    · simp only [Bool.and_eq_true] at h
      exact ⟨_, _, _, rfl, h.1, h.2⟩
    · cases h

/-- C10, at the level of one element: an inconsistent dim specification raises (a ProcessException, unless the
dimIndex string starts like a range, see C08_malformed_ranges). -/
theorem C10_element {p : Parsed} (hb : BadDim p) (hp : Dimable p) {b : Option Processed}
    (hd : p.derivedFrom = none → b = none) :
    ∃ e, extractDimOf p b = .err e ∧ ((∃ x, e = .process x) ∨
      ∃ t, ownOr (dimOf p).dimIndex b (·.dimIndex) = some t ∧ RangeLike t) := by
  cases h : extractDimOf p b with
  | ok r w => exact absurd h (badDim_not_ok hb hd)
  | err e =>
    refine ⟨e, rfl, ?_⟩
    suffices hs : (∃ x, e = .process x) ∨ ∃ t, ownOr (dimOf p).dimIndex b (·.dimIndex) = some t ∧
        (matchNumRange t = true ∨ matchLetterRange t = true) by
      rcases hs with hs | ⟨t, h1, h2⟩
      · exact Or.inl hs
      · exact Or.inr ⟨t, h1, rangeLike_of h2⟩
    simp only [ownOr_eq]
    unfold extractDimOf at h
    cases p with
    | device => exact hp.elim
    | enum _ => exact hp.elim
    | periph p => exact extractDim_err h
    | clu p => exact extractDim_err h
    | field p => exact extractDim_err h
    | reg p => exact extractDim_err h

/-- C10: a device that declares an element with an inconsistent dim specification, at any depth, is never processed
successfully. -/
theorem C10_rejected {ord : List Nat → List Nat} {fuel : Nat} {d : SDevice} {p : Parsed} (hp : Declared d p)
    (hk : Dimable p) (hb : BadDim p) {dev : Device} {ws : List Warn} : processDevice ord fuel d ≠ .ok dev ws := by
  intro h
  obtain ⟨ps, w1, w2, h1, -, -⟩ := processDevice_ok.1 h
  have hl : p.level ≠ .enumcont ∧ p.level ≠ .device := by
    cases p <;> simp_all [Dimable, Parsed.level]
  obtain ⟨ch, y, hm⟩ := made_all h1 hp hl.1 hl.2
  cases hm with
  | base _ hdf hy =>
    obtain ⟨_, _, _, _, _, _, _, _, _, hx, -⟩ := hy
    exact badDim_not_ok hb (fun _ => rfl) hx
  | derive _ hdf _ _ hy =>
    obtain ⟨_, _, _, _, _, _, _, _, _, hx, -⟩ := hy
    exact badDim_not_ok hb (fun hh => by rw [hdf] at hh; cases hh) hx

/-- C07: the hypotheses are met; the third of three registers. -/
theorem C07_sample :
    (extractDimOf (.reg { name := s%"R%s", addressOffset := 8, dim := { dim := some 3, dimIncrement := some 4, dimIndex := some (s%"A-C") } }) none
      = .ok (true, [s%"RA", s%"RB", s%"RC"], [none, none, none]) []) ∧
    Sample.okAnd (createAll (.reg { name := s%"R%s", addressOffset := 8, dim := { dim := some 3, dimIncrement := some 4, dimIndex := some (s%"A-C") } }) none 0
      [s%"RA", s%"RB", s%"RC"] [none, none, none]) (fun xs _ => decide (xs.map (fun x => (nameOfProcessed x, position x)) =
        [(s%"RA", 8), (s%"RB", 12), (s%"RC", 16)])) = true := by decide +kernel

/-- C10: the hypotheses are met by a device with a register list without dim. -/
theorem C10_sample : ∃ (d : SDevice) (p : Parsed), Declared d p ∧ Dimable p ∧ BadDim p ∧
    Sample.errAnd (processDevice id 100 d) (fun e => decide (e = .process .dimNoneName)) = true := by
  refine ⟨{ hd := { name := s%"D", addressUnitBits := 8, width := 32 }
            peripherals := [{ hd := { name := s%"P", baseAddress := 0 }
                              rcs := [.reg { name := s%"R%s", addressOffset := 0 }] }] },
    .reg { name := s%"R%s", addressOffset := 0 }, ?_, trivial, ?_, by decide +kernel⟩
  · exact .reg (List.mem_singleton.2 rfl) (.here (List.mem_singleton.2 rfl))
  · exact .markerWithoutDim ⟨s%"R", [], rfl⟩ rfl rfl

end Svd
