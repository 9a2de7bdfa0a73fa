import Verif.Lemmas.Overlap
/-
The overlap check of peripherals.
-/
namespace Svd
open Spec

/-- The warnings for used and for specified addresses. -/
def pNotAllowed (eff : Bool) (n m : Str) : Warn :=
  if eff then .effectiveOverlapNotAllowed n m else .specifiedOverlapNotAllowed n m
def pPlain (eff : Bool) (n m : Str) : Warn := if eff then .effectiveOverlap n m else .specifiedOverlap n m

/-- What is reported for a peripheral against the interval `(e, n)`. -/
def PRep (lk : AltLookup) (eff : Bool) (y : Peripheral) (e : Int) (n : Str) (w : Warn) : Prop :=
  y.baseAddress ≤ e ∧
  ((∃ a, y.alternatePeripheral = some a ∧ ¬ Connected lk a n ∧ w = pNotAllowed eff y.name n) ∨
   (y.alternatePeripheral = none ∧ ¬ ((lk.lookup n).bind id = some y.name ∧ y.name ≠ []) ∧ w = pPlain eff y.name n))

theorem periphOverlapWarns_mem {eff : Bool} {lk : AltLookup} (hn : (lk.map (·.1)).Nodup) {y : Peripheral}
    {allowed : List Str} {w0 : List Warn} (ha : allowedAlternates lk true y.alternatePeripheral = .ok allowed w0)
    {iv : List (Int × Str)} {w : Warn} : w ∈ periphOverlapWarns eff lk y.name y.baseAddress allowed iv ↔
      ∃ e n, (e, n) ∈ iv ∧ PRep lk eff y e n w := by
  have hall : (y.alternatePeripheral = none ∧ allowed = []) ∨
      ∃ a, y.alternatePeripheral = some a ∧ allowed ≠ [] ∧ ∀ x, x ∈ allowed ↔ Connected lk a x := by
    cases halt : y.alternatePeripheral with
    | none =>
      rw [halt] at ha
      simp only [allowedAlternates, M.pure_eq_ok] at ha
      exact Or.inl ⟨rfl, ha.1.symm⟩
    | some a =>
      rw [halt] at ha
      rcases allowedAlternates_spec hn true a with ⟨l, h1, h2, -⟩ | ⟨-, h1, -⟩
      · rw [h1] at ha
        cases ha
        refine Or.inr ⟨a, rfl, ?_, h2⟩
        intro h0
        have := (h2 a).2 (.refl a)
        rw [h0] at this; cases this
      · rw [h1] at ha; cases ha
  induction iv with
  | nil => simp [periphOverlapWarns]
  | cons p iv ih =>
    obtain ⟨e, n⟩ := p
    rw [periphOverlapWarns, List.mem_append]
    have hx : (w ∈ (if y.baseAddress ≤ e then
        if !allowed.isEmpty then
          if !allowed.contains n then
            [if eff then Warn.effectiveOverlapNotAllowed y.name n else Warn.specifiedOverlapNotAllowed y.name n]
          else []
        else
          if (match (lk.lookup n).bind id with
              | none => true
              | some a => a.isEmpty || a != y.name) then
            [if eff then Warn.effectiveOverlap y.name n else Warn.specifiedOverlap y.name n]
          else []
      else [])) ↔ PRep lk eff y e n w := by
      unfold PRep
      by_cases hb : y.baseAddress ≤ e
      · rw [if_pos hb]
        simp only [hb, true_and]
        rcases hall with ⟨halt, rfl⟩ | ⟨a, halt, h1, h2⟩
        · simp only [List.isEmpty_nil, Bool.not_true, Bool.false_eq_true, if_false, halt, reduceCtorEq, false_and,
            exists_false, false_or, true_and]
          have hcond : (match (lk.lookup n).bind id with
              | none => true
              | some a => a.isEmpty || a != y.name) = true ↔ ¬ ((lk.lookup n).bind id = some y.name ∧ y.name ≠ []) := by
            cases (lk.lookup n).bind id with
            | none => simp
            | some b =>
              simp only [Bool.or_eq_true, List.isEmpty_iff, bne_iff_ne, ne_eq, Option.some.injEq, not_and]
              constructor
              · rintro (rfl | h) h3 h4
                · exact h4 h3.symm
                · exact h h3
              · intro h
                by_cases h3 : b = y.name
                · subst h3
                  by_cases h4 : y.name = []
                  · exact Or.inl h4
                  · exact absurd h4 (h rfl)
                · exact Or.inr h3
          by_cases hc : ((lk.lookup n).bind id = some y.name ∧ y.name ≠ [])
          · rw [if_neg (fun h => hcond.1 h hc)]
            constructor
            · intro h; cases h
            · intro h; exact absurd hc h.1
          · rw [if_pos (hcond.2 hc), List.mem_singleton]
            unfold pPlain
            exact ⟨fun h => ⟨hc, h⟩, fun h => h.2⟩
        · have : allowed.isEmpty = false := by cases allowed with
            | nil => exact absurd rfl h1
            | cons _ _ => rfl
          simp only [this, Bool.not_false, if_true, halt]
          by_cases hc : Connected lk a n
          · have h3 : allowed.contains n = true := List.contains_iff_mem.2 ((h2 n).2 hc)
            simp only [h3, Bool.not_true, Bool.false_eq_true, if_false]
            constructor
            · intro h; cases h
            · rintro (⟨_, h, h4, _⟩ | ⟨h, -, -⟩)
              · cases h; exact absurd hc h4
              · cases h
          · have h3 : allowed.contains n = false := by
              cases h4 : allowed.contains n with
              | false => rfl
              | true => exact absurd ((h2 n).1 (List.contains_iff_mem.1 h4)) hc
            simp only [h3, Bool.not_false, if_true, List.mem_singleton]
            constructor
            · intro h; exact Or.inl ⟨a, rfl, hc, h⟩
            · rintro (⟨_, h, _, h4⟩ | ⟨h, -, -⟩)
              · exact h4
              · cases h
      · rw [if_neg hb]
        simp only [hb, false_and]
        constructor
        · intro h; cases h
        · exact False.elim
    refine (or_congr hx ih).trans ?_
    simp only [List.mem_cons, Prod.mk.injEq]
    constructor
    · rintro (h1 | ⟨e', n', h1, h2⟩)
      · exact ⟨e, n, Or.inl ⟨rfl, rfl⟩, h1⟩
      · exact ⟨e', n', Or.inr h1, h2⟩
    · rintro ⟨e', n', h1 | h1, h2⟩
      · obtain ⟨rfl, rfl⟩ := h1; exact Or.inl h2
      · exact Or.inr ⟨e', n', h1, h2⟩

theorem checkPeriphOverlaps_mem {lk : AltLookup} (hn : (lk.map (·.1)).Nodup) {xs : List Peripheral} :
    ∀ {iv1 iv2 : List (Int × Str)} {ws : List Warn}, checkPeriphOverlaps lk iv1 iv2 xs = .ok () ws →
    (∀ y ∈ xs, ∀ a, y.alternatePeripheral = some a → ∀ z, Connected lk a z → z ∈ lk.map (·.1)) ∧
    ∀ w, w ∈ ws ↔ ∃ pre y post, xs = pre ++ y :: post ∧
      ((∃ e n, (e, n) ∈ iv1 ++ pre.map (fun x => (x.endAddressEffective, x.name)) ∧ PRep lk true y e n w) ∨
       ∃ e n, (e, n) ∈ iv2 ++ pre.map (fun x => (x.endAddress, x.name)) ∧ PRep lk false y e n w) := by
  induction xs with
  | nil =>
    intro iv1 iv2 ws h
    simp only [checkPeriphOverlaps, M.pure_eq_ok] at h
    simp [h.2]
  | cons x xs ih =>
    intro iv1 iv2 ws h
    simp only [checkPeriphOverlaps, M.bind_eq_ok, M.ok.injEq, true_and] at h
    obtain ⟨allowed, wa, wb, h3, ⟨_, w2, w3, h4, ⟨_, w4, w5, h5, h6, rfl⟩, rfl⟩, rfl⟩ := h
    obtain ⟨ih1, ih2⟩ := ih h6
    have hwa : wa = [] ∧ ∀ a, x.alternatePeripheral = some a → ∀ z, Connected lk a z → z ∈ lk.map (·.1) := by
      cases h6 : x.alternatePeripheral with
      | none => rw [h6] at h3; simp only [allowedAlternates, M.pure_eq_ok] at h3; exact ⟨h3.2, by simp⟩
      | some a =>
        rw [h6] at h3
        rcases allowedAlternates_spec hn true a with ⟨l, h7, h8, h9⟩ | ⟨-, h7, -⟩
        · rw [h7] at h3; cases h3
          refine ⟨rfl, fun b hb z hz => ?_⟩
          cases hb
          exact h9 rfl z ((h8 z).2 hz)
        · rw [h7] at h3; cases h3
    refine ⟨?_, ?_⟩
    · intro y hy a ha z hz
      rcases List.mem_cons.1 hy with rfl | hy
      · exact hwa.2 a ha z hz
      · exact ih1 y hy a ha z hz
    intro w
    obtain ⟨rfl, -⟩ := hwa
    rw [List.nil_append, List.mem_append, List.mem_append, ← h4, ← h5, periphOverlapWarns_mem hn h3,
      periphOverlapWarns_mem hn h3, ih2 w]
    constructor
    · rintro (h | h | ⟨pre, y, post, rfl, h⟩)
      · exact ⟨[], x, xs, rfl, Or.inl (by simpa using h)⟩
      · exact ⟨[], x, xs, rfl, Or.inr (by simpa using h)⟩
      · refine ⟨x :: pre, y, post, rfl, ?_⟩
        simpa using h
    · rintro ⟨pre, y, post, h0, h⟩
      cases pre with
      | nil =>
        simp only [List.nil_append, List.cons.injEq] at h0
        obtain ⟨rfl, rfl⟩ := h0
        simp only [List.map_nil, List.append_nil] at h
        rcases h with h | h
        · exact Or.inl h
        · exact Or.inr (Or.inl h)
      | cons a pre =>
        simp only [List.cons_append, List.cons.injEq] at h0
        obtain ⟨rfl, rfl⟩ := h0
        refine Or.inr (Or.inr ⟨pre, y, post, rfl, ?_⟩)
        simpa using h

/-- The overlap warnings of the peripherals: exactly the pairs in which the later one starts within the earlier one and
is not excused. -/
theorem periph_overlaps {raw zs : List Peripheral} {ws : List Warn} (hn : (raw.map (·.name)).Nodup)
    (hz : zs = sortBy periphLe raw) (h : checkPeriphOverlaps (peripheralLookup raw) [] [] zs = .ok () ws) :
    (∀ y ∈ zs, ∀ a, y.alternatePeripheral = some a → ∀ z, Connected (periphAlts zs) a z → ∃ q ∈ zs, q.name = z) ∧
    ∀ w, w ∈ ws ↔ ∃ x y, Before zs x y ∧ ¬ PExcused zs x y ∧
      ((y.baseAddress ≤ x.endAddressEffective ∧ ((y.alternatePeripheral = none ∧ w = .effectiveOverlap y.name x.name) ∨
          (y.alternatePeripheral ≠ none ∧ w = .effectiveOverlapNotAllowed y.name x.name))) ∨
       (y.baseAddress ≤ x.endAddress ∧ ((y.alternatePeripheral = none ∧ w = .specifiedOverlap y.name x.name) ∨
          (y.alternatePeripheral ≠ none ∧ w = .specifiedOverlapNotAllowed y.name x.name)))) := by
  have hlk : peripheralLookup raw = periphAlts raw := rfl
  rw [hlk] at h
  have hnn : ((periphAlts raw).map (·.1)).Nodup := by
    simp only [periphAlts, List.map_map]; exact hn
  obtain ⟨h1, h2⟩ := checkPeriphOverlaps_mem hnn h
  have hperm : ∀ p, p ∈ periphAlts raw ↔ p ∈ periphAlts zs := by
    intro p
    simp only [periphAlts, List.mem_map, hz, mem_sortBy]
  have hcon : ∀ a z, Connected (periphAlts raw) a z ↔ Connected (periphAlts zs) a z := fun a z =>
    ⟨Connected.congr fun p => (hperm p).1, Connected.congr fun p => (hperm p).2⟩
  refine ⟨?_, ?_⟩
  · intro y hy a ha z hc
    have := h1 y hy a ha z ((hcon a z).2 hc)
    simp only [periphAlts, List.map_map, List.mem_map, Function.comp] at this
    obtain ⟨q, hq, rfl⟩ := this
    exact ⟨q, by rw [hz, mem_sortBy]; exact hq, rfl⟩
  intro w
  rw [h2 w]
  have hmain : ∀ eff x y e, Before zs x y → (PRep (periphAlts raw) eff y e x.name w ↔ ¬ PExcused zs x y ∧ y.baseAddress ≤ e ∧
      ((y.alternatePeripheral = none ∧ w = pPlain eff y.name x.name) ∨
          (y.alternatePeripheral ≠ none ∧ w = pNotAllowed eff y.name x.name))) := by
    intro eff x y e hb
    have hxr : x ∈ raw := by
      have : x ∈ zs := hb.subset (by simp)
      rw [hz, mem_sortBy] at this; exact this
    unfold PRep PExcused
    cases ha : y.alternatePeripheral with
    | some a =>
      simp only [Option.some.injEq, exists_eq_left', hcon, reduceCtorEq, false_and, or_false, not_false_eq_true, true_and,
        false_or, ne_eq]
      constructor
      · rintro ⟨a1, a2, a3⟩; exact ⟨a2, a1, a3⟩
      · rintro ⟨a2, a1, a3⟩; exact ⟨a1, a2, a3⟩
    | none =>
      have : ((periphAlts raw).lookup x.name).bind id = x.alternatePeripheral := by
        have hm : (x.name, x.alternatePeripheral) ∈ periphAlts raw := List.mem_map.2 ⟨x, hxr, rfl⟩
        rw [lookup_of_mem hnn hm]; rfl
      simp only [reduceCtorEq, false_and, exists_false, false_or, true_and, this, ne_eq, not_true_eq_false, or_false]
      constructor
      · rintro ⟨a1, a2, a3⟩; exact ⟨a2, a1, a3⟩
      · rintro ⟨a2, a1, a3⟩; exact ⟨a1, a2, a3⟩
  constructor
  · rintro ⟨pre, y, post, hzs, h | h⟩
    all_goals
      obtain ⟨e, n, h4, h5⟩ := h
      rw [List.nil_append] at h4
      simp only [List.mem_map, Prod.mk.injEq] at h4
      obtain ⟨x, hx, rfl, rfl⟩ := h4
      have hb : Before zs x y := before_iff.2 ⟨pre, post, hzs, hx⟩
      obtain ⟨h6, h7, h8⟩ := (hmain _ x y _ hb).1 h5
    · exact ⟨x, y, hb, h6, Or.inl ⟨h7, h8⟩⟩
    · exact ⟨x, y, hb, h6, Or.inr ⟨h7, h8⟩⟩
  · rintro ⟨x, y, hb, h6, h⟩
    obtain ⟨pre, post, hzs, hxp⟩ := before_iff.1 hb
    refine ⟨pre, y, post, hzs, ?_⟩
    rcases h with ⟨h7, h8⟩ | ⟨h7, h8⟩
    · exact Or.inl ⟨_, x.name, by simpa using ⟨x, hxp, rfl, rfl⟩, (hmain true x y _ hb).2 ⟨h6, h7, h8⟩⟩
    · exact Or.inr ⟨_, x.name, by simpa using ⟨x, hxp, rfl, rfl⟩, (hmain false x y _ hb).2 ⟨h6, h7, h8⟩⟩
end Svd
