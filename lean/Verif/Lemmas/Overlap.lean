import Verif.Lemmas.Alt
import Verif.Lemmas.TreeInv
/-
The overlap checks.
-/
namespace Svd
open Spec

theorem registerLookup_eq (xs : List RC) : registerLookup xs = altsOf true xs := by
  induction xs with
  | nil => rfl
  | cons x xs ih =>
    cases x with
    | reg r =>
      simp only [registerLookup, altsOf] at ih
      simp only [registerLookup, altsOf, List.filterMap_cons, isRegister, List.filter_cons, ih]
      have : RC.qualName (.reg r) = scopeName (.reg r) := by
        simp only [RC.qualName, scopeName]
        split
        · rename_i g hg
          rw [hg]
          cases g <;> simp
        · rename_i hg; rw [hg]
      simp [this, declaredAlt]
    | clu c ch =>
      simp only [registerLookup, altsOf] at ih
      simp only [registerLookup, altsOf, List.filterMap_cons, isRegister, List.filter_cons, ih]
      simp

theorem clusterLookup_eq (xs : List RC) : clusterLookup xs = altsOf false xs := by
  induction xs with
  | nil => rfl
  | cons x xs ih =>
    cases x with
    | reg r =>
      simp only [clusterLookup, altsOf] at ih
      simp only [clusterLookup, altsOf, List.filterMap_cons, isRegister, List.filter_cons, ih]
      simp
    | clu c ch =>
      simp only [clusterLookup, altsOf] at ih
      simp only [clusterLookup, altsOf, List.filterMap_cons, isRegister, List.filter_cons, ih]
      simp [scopeName, declaredAlt, RC.qualName]

theorem qualName_eq (x : RC) : x.qualName = scopeName x := by
  cases x with
  | clu c ch => rfl
  | reg r =>
    simp only [RC.qualName, scopeName]
    split
    · rename_i g hg
      rw [hg]
      cases g <;> simp
    · rename_i hg; rw [hg]

theorem inj_of_nodup_map {α β : Type} {f : α → β} {l : List α} (h : (l.map f).Nodup) {x y : α} (hx : x ∈ l) (hy : y ∈ l)
    (e : f x = f y) : x = y := by
  induction l with
  | nil => cases hx
  | cons a l ih =>
    simp only [List.map_cons, List.nodup_cons, List.mem_map, not_exists, not_and] at h
    rcases List.mem_cons.1 hx with rfl | hx'
    · rcases List.mem_cons.1 hy with rfl | hy'
      · rfl
      · exact absurd e.symm (h.1 y hy')
    · rcases List.mem_cons.1 hy with rfl | hy'
      · exact absurd e (h.1 x hx')
      · exact ih h.2 hx' hy'

theorem altsOf_nodup {xs : List RC} (h : (xs.map RC.qualName).Nodup) (b : Bool) : ((altsOf b xs).map (·.1)).Nodup := by
  have : (altsOf b xs).map (·.1) = (xs.filter fun x => isRegister x == b).map RC.qualName := by
    simp only [altsOf, List.map_map]
    apply List.map_congr_left
    intro x _
    exact (qualName_eq x).symm
  rw [this]
  exact (List.filter_sublist.map _).nodup h

theorem mem_altsOf {b : Bool} {xs : List RC} {n : Str} {o : Option Str} :
    (n, o) ∈ altsOf b xs ↔ ∃ x ∈ xs, isRegister x = b ∧ scopeName x = n ∧ declaredAlt x = o := by
  simp only [altsOf, List.mem_map, List.mem_filter, beq_iff_eq, Prod.mk.injEq]
  constructor
  · rintro ⟨x, ⟨h1, h2⟩, h3, h4⟩; exact ⟨x, h1, h2, h3, h4⟩
  · rintro ⟨x, h1, h2, h3, h4⟩; exact ⟨x, ⟨h1, h2⟩, h3, h4⟩

theorem Connected.congr {l l' : List (Str × Option Str)} (h : ∀ p, p ∈ l → p ∈ l') {a b : Str} (hc : Connected l a b) :
    Connected l' a b := by
  induction hc with
  | refl => exact .refl _
  | step _ h1 ih => exact .step ih (h1.imp (h _) (h _))

/-- The condition under which an item with the lookup `lk` and alternate `alt` is reported against the interval of `n`. -/
def Reported (lk : AltLookup) (alt : Option Str) (name n : Str) (na : Prop) (pl : Prop) : Prop :=
  (∃ a, alt = some a ∧ ¬ Connected lk a n ∧ na) ∨ (alt = none ∧ (lk.lookup n).bind id ≠ some name ∧ pl)

theorem overlapWarns_mem {isReg : Bool} {lk : AltLookup} (hn : (lk.map (·.1)).Nodup) {alt : Option Str} {strict : Bool}
    {allowed : List Str} {w0 : List Warn} (ha : allowedAlternates lk strict alt = .ok allowed w0) {name : Str} {base : Int}
    {iv : List (Int × Str)} {w : Warn} : w ∈ overlapWarns isReg lk name base allowed iv ↔
      ∃ e n, (e, n) ∈ iv ∧ base ≤ e ∧ Reported lk alt name n (w = .overlapNotAllowed isReg name n) (w = .overlap isReg name n) := by
  have hall : (alt = none ∧ allowed = []) ∨ ∃ a, alt = some a ∧ allowed ≠ [] ∧ ∀ x, x ∈ allowed ↔ Connected lk a x := by
    cases alt with
    | none =>
      simp only [allowedAlternates, M.pure_eq_ok] at ha
      exact Or.inl ⟨rfl, ha.1.symm⟩
    | some a =>
      rcases allowedAlternates_spec hn strict a with ⟨l, h1, h2, -⟩ | ⟨-, h1, -⟩
      · rw [h1] at ha
        cases ha
        refine Or.inr ⟨a, rfl, ?_, h2⟩
        intro h0
        have := (h2 a).2 (.refl a)
        rw [h0] at this; cases this
      · rw [h1] at ha; cases ha
  induction iv with
  | nil => simp [overlapWarns]
  | cons p iv ih =>
    obtain ⟨e, n⟩ := p
    simp only [overlapWarns, List.mem_append, ih, List.mem_cons, Prod.mk.injEq]
    have hx : (w ∈ (if base ≤ e then
        if !allowed.isEmpty then
          if !allowed.contains n then [Warn.overlapNotAllowed isReg name n] else []
        else
          if (lk.lookup n).bind id ≠ some name then [Warn.overlap isReg name n] else []
      else [])) ↔ base ≤ e ∧ Reported lk alt name n (w = .overlapNotAllowed isReg name n) (w = .overlap isReg name n) := by
      by_cases hb : base ≤ e
      · rw [if_pos hb]
        simp only [hb, true_and]
        rcases hall with ⟨rfl, rfl⟩ | ⟨a, rfl, h1, h2⟩
        · simp only [List.isEmpty_nil, Bool.not_true, Bool.false_eq_true, if_false, Reported]
          split
          · rename_i hc; simp only [List.mem_singleton]
            constructor
            · intro h; exact Or.inr ⟨trivial, hc, h⟩
            · rintro (⟨_, h, _⟩ | ⟨-, -, h⟩)
              · cases h
              · exact h
          · rename_i hc
            constructor
            · intro h; cases h
            · rintro (⟨_, h, _⟩ | ⟨-, h, -⟩)
              · cases h
              · exact absurd h hc
        · have : allowed.isEmpty = false := by cases allowed with
            | nil => exact absurd rfl h1
            | cons _ _ => rfl
          simp only [this, Bool.not_false, if_true, Reported]
          by_cases hc : Connected lk a n
          · have h3 : allowed.contains n = true := List.contains_iff_mem.2 ((h2 n).2 hc)
            simp only [h3, Bool.not_true, Bool.false_eq_true, if_false]
            constructor
            · intro h; cases h
            · rintro (⟨_, h, h4, _⟩ | ⟨h, -, -⟩)
              · cases h; exact absurd hc h4
              · cases h
          · have h3 : allowed.contains n = false := by
              cases h4 : allowed.contains n with
              | false => rfl
              | true => exact absurd ((h2 n).1 (List.contains_iff_mem.1 h4)) hc
            simp only [h3, Bool.not_false, if_true, List.mem_singleton]
            constructor
            · intro h; exact Or.inl ⟨a, rfl, hc, h⟩
            · rintro (⟨_, h, _, h4⟩ | ⟨h, -, -⟩)
              · exact h4
              · cases h
      · rw [if_neg hb]
        simp only [hb, false_and]
        constructor
        · intro h; cases h
        · exact False.elim
    rw [hx]
    constructor
    · rintro (⟨h1, h2⟩ | ⟨e', n', h1, h2, h3⟩)
      · exact ⟨e, n, Or.inl ⟨rfl, rfl⟩, h1, h2⟩
      · exact ⟨e', n', Or.inr h1, h2, h3⟩
    · rintro ⟨e', n', h1 | h1, h2, h3⟩
      · obtain ⟨rfl, rfl⟩ := h1; exact Or.inl ⟨h2, h3⟩
      · exact Or.inr ⟨e', n', h1, h2, h3⟩

/-- What is reported for `y` against the interval `(e, n)`. -/
def RepAt (rl cl : AltLookup) (y : RC) (e : Int) (n : Str) (w : Warn) : Prop :=
  y.baseAddress ≤ e ∧ Reported (if isRegister y then rl else cl) (declaredAlt y) y.name n
    (w = .overlapNotAllowed (isRegister y) y.name n) (w = .overlap (isRegister y) y.name n)

instance (x : RC) : Decidable (NoGroup x) := by unfold NoGroup; cases x <;> infer_instance

/-- The intervals of the elements without alternate group. -/
def intervals (xs : List RC) : List (Int × Str) := (xs.filter fun x => decide (NoGroup x)).map fun x => (x.lastAddr, x.name)

theorem checkRCOverlaps_mem {rl cl : AltLookup} (h1 : (rl.map (·.1)).Nodup) (h2 : (cl.map (·.1)).Nodup) {xs : List RC} :
    ∀ {iv : List (Int × Str)} {ws : List Warn}, checkRCOverlaps rl cl iv xs = .ok () ws →
    ∀ w, w ∈ ws ↔ ∃ pre y post, xs = pre ++ y :: post ∧ NoGroup y ∧ ∃ e n, (e, n) ∈ iv ++ intervals pre ∧ RepAt rl cl y e n w := by
  induction xs with
  | nil =>
    intro iv ws h w
    simp only [checkRCOverlaps, M.pure_eq_ok] at h
    simp [h.2]
  | cons x xs ih =>
    intro iv ws h w
    have tail : ∀ {ws' : List Warn} (hg : NoGroup x), checkRCOverlaps rl cl (iv ++ [(x.lastAddr, x.name)]) xs = .ok () ws' →
        (w ∈ ws' ↔ ∃ pre y post, x :: xs = (x :: pre) ++ y :: post ∧ NoGroup y ∧
          ∃ e n, (e, n) ∈ iv ++ intervals (x :: pre) ∧ RepAt rl cl y e n w) := by
      intro ws' hg h'
      rw [ih h' w]
      have e1 : ∀ pre, intervals (x :: pre) = (x.lastAddr, x.name) :: intervals pre := by
        intro pre; simp [intervals, hg]
      constructor
      · rintro ⟨pre, y, post, rfl, h3, e, n, h4, h5⟩
        exact ⟨pre, y, post, rfl, h3, e, n, by rw [e1]; simpa using h4, h5⟩
      · rintro ⟨pre, y, post, h0, h3, e, n, h4, h5⟩
        simp only [List.cons_append, List.cons.injEq, true_and] at h0
        exact ⟨pre, y, post, h0, h3, e, n, by rw [e1] at h4; simpa using h4, h5⟩
    have split_ex : (∃ pre y post, x :: xs = pre ++ y :: post ∧ NoGroup y ∧
          ∃ e n, (e, n) ∈ iv ++ intervals pre ∧ RepAt rl cl y e n w) ↔
        (NoGroup x ∧ ∃ e n, (e, n) ∈ iv ∧ RepAt rl cl x e n w) ∨
        (∃ pre y post, x :: xs = (x :: pre) ++ y :: post ∧ NoGroup y ∧
          ∃ e n, (e, n) ∈ iv ++ intervals (x :: pre) ∧ RepAt rl cl y e n w) := by
      constructor
      · rintro ⟨pre, y, post, h0, h3, e, n, h4, h5⟩
        cases pre with
        | nil =>
          simp only [List.nil_append, List.cons.injEq] at h0
          obtain ⟨rfl, rfl⟩ := h0
          exact Or.inl ⟨h3, e, n, by simpa [intervals] using h4, h5⟩
        | cons a pre =>
          have h0' := h0
          simp only [List.cons_append, List.cons.injEq] at h0
          obtain ⟨rfl, -⟩ := h0
          exact Or.inr ⟨pre, y, post, h0', h3, e, n, h4, h5⟩
      · rintro (⟨h3, e, n, h4, h5⟩ | ⟨pre, y, post, h0, h3, e, n, h4, h5⟩)
        · exact ⟨[], x, xs, rfl, h3, e, n, by simpa [intervals] using h4, h5⟩
        · exact ⟨x :: pre, y, post, h0, h3, e, n, h4, h5⟩
    rw [split_ex]
    cases x with
    | reg r =>
      simp only [checkRCOverlaps] at h
      split at h
      · rename_i hg
        have hg' : ¬ NoGroup (.reg r) := by
          intro h0
          have h0 : r.alternateGroup = none := h0
          rw [h0] at hg; cases hg
        rw [ih h w]
        have e1 : ∀ pre, intervals (.reg r :: pre) = intervals pre := by
          intro pre; simp [intervals, hg']
        constructor
        · rintro ⟨pre, y, post, rfl, h3, e, n, h4, h5⟩
          exact Or.inr ⟨pre, y, post, rfl, h3, e, n, by rw [e1]; exact h4, h5⟩
        · rintro (⟨h3, -⟩ | ⟨pre, y, post, h0, h3, e, n, h4, h5⟩)
          · exact absurd h3 hg'
          · simp only [List.cons_append, List.cons.injEq, true_and] at h0
            exact ⟨pre, y, post, h0, h3, e, n, by rw [e1] at h4; exact h4, h5⟩
      · rename_i hg
        have hg' : NoGroup (.reg r) := by
          cases h0 : r.alternateGroup with
          | none => exact h0
          | some g => rw [h0] at hg; simp at hg
        simp only [M.bind_eq_ok, M.ok.injEq, true_and] at h
        obtain ⟨allowed, wa, wb, h3, ⟨_, w2, w3, h4, h5, rfl⟩, rfl⟩ := h
        have hwa : wa = [] := by
          cases h6 : r.alternateRegister with
          | none => rw [h6] at h3; simp only [allowedAlternates, M.pure_eq_ok] at h3; exact h3.2
          | some a =>
            rw [h6] at h3
            rcases allowedAlternates_spec h1 false a with ⟨l, h7, -⟩ | ⟨h7, -⟩
            · rw [h7] at h3; cases h3; rfl
            · cases h7
        subst hwa
        rw [List.nil_append, List.mem_append, ← h4, tail hg' h5, overlapWarns_mem h1 h3]
        refine or_congr ?_ Iff.rfl
        constructor
        · rintro ⟨e, n, h6, h7, h8⟩; exact ⟨hg', e, n, h6, h7, h8⟩
        · rintro ⟨-, e, n, h6, h7, h8⟩; exact ⟨e, n, h6, h7, h8⟩
    | clu c ch =>
      have hg' : NoGroup (.clu c ch) := trivial
      simp only [checkRCOverlaps] at h
      simp only [M.bind_eq_ok, M.ok.injEq, true_and] at h
      obtain ⟨allowed, wa, wb, h3, ⟨_, w2, w3, h4, h5, rfl⟩, rfl⟩ := h
      have hwa : wa = [] := by
        cases h6 : c.alternateCluster with
        | none => rw [h6] at h3; simp only [allowedAlternates, M.pure_eq_ok] at h3; exact h3.2
        | some a =>
          rw [h6] at h3
          rcases allowedAlternates_spec h2 true a with ⟨l, h7, -⟩ | ⟨-, h7, -⟩
          · rw [h7] at h3; cases h3; rfl
          · rw [h7] at h3; cases h3
      subst hwa
      rw [List.nil_append, List.mem_append, ← h4, tail hg' h5, overlapWarns_mem h2 h3]
      refine or_congr ?_ Iff.rfl
      constructor
      · rintro ⟨e, n, h6, h7, h8⟩; exact ⟨hg', e, n, h6, h7, h8⟩
      · rintro ⟨-, e, n, h6, h7, h8⟩; exact ⟨e, n, h6, h7, h8⟩

theorem rcName_eq (x : RC) : rcName x = x.name := by cases x <;> rfl
theorem lastAddress_eq (x : RC) : lastAddress x = x.lastAddr := by cases x <;> rfl
theorem firstAddress_eq (x : RC) : firstAddress x = x.baseAddress := by cases x <;> rfl
theorem noGroup_scopeName {x : RC} (h : NoGroup x) : scopeName x = rcName x := by
  cases x with
  | clu c ch => rfl
  | reg r =>
    have h : r.alternateGroup = none := h
    simp only [scopeName, rcName, h]

theorem before_iff {α : Type} {xs : List α} {x y : α} : Before xs x y ↔ ∃ pre post, xs = pre ++ y :: post ∧ x ∈ pre := by
  constructor
  · intro h
    unfold Before at h
    induction xs with
    | nil => cases h
    | cons a xs ih =>
      cases h with
      | cons _ h =>
        obtain ⟨pre, post, rfl, h2⟩ := ih h
        exact ⟨a :: pre, post, rfl, by simp [h2]⟩
      | cons_cons _ h =>
        have : y ∈ xs := h.subset (by simp)
        obtain ⟨pre, post, rfl⟩ := List.append_of_mem this
        exact ⟨x :: pre, post, rfl, by simp⟩
  · rintro ⟨pre, post, rfl, h⟩
    obtain ⟨p1, p2, rfl⟩ := List.append_of_mem h
    have h1 : [x].Sublist (p1 ++ x :: p2) := List.singleton_sublist.2 (by simp)
    exact h1.append (List.singleton_sublist.2 (by simp) : [y].Sublist (y :: post))

/-- The overlap warnings of a scope: exactly the pairs in which the later element starts within the earlier one and is
not excused. -/
theorem scope_overlaps {raw zs : List RC} {ws : List Warn} (hn : (raw.map RC.qualName).Nodup) (hz : zs = sortBy rcLe raw)
    (h : checkRCOverlaps (registerLookup raw) (clusterLookup raw) [] zs = .ok () ws) (w : Warn) :
    w ∈ ws ↔ ∃ x y, Before zs x y ∧ NoGroup x ∧ NoGroup y ∧ firstAddress y ≤ lastAddress x ∧ ¬ Excused zs x y ∧
      ((declaredAlt y = none ∧ w = .overlap (isRegister y) (rcName y) (rcName x)) ∨
       (declaredAlt y ≠ none ∧ w = .overlapNotAllowed (isRegister y) (rcName y) (rcName x))) := by
  rw [registerLookup_eq, clusterLookup_eq] at h
  rw [checkRCOverlaps_mem (altsOf_nodup hn true) (altsOf_nodup hn false) h w]
  have hperm : ∀ p b, p ∈ altsOf b raw ↔ p ∈ altsOf b zs := by
    intro ⟨n, o⟩ b
    rw [mem_altsOf, mem_altsOf]
    simp only [hz, mem_sortBy]
  have hlk : ∀ y : RC, (if isRegister y then altsOf true raw else altsOf false raw) = altsOf (isRegister y) raw := by
    intro y; cases isRegister y <;> simp
  have hmain : ∀ x y, Before zs x y → NoGroup x → ∀ w, (RepAt (altsOf true raw) (altsOf false raw) y x.lastAddr x.name w ↔
      firstAddress y ≤ lastAddress x ∧ ¬ Excused zs x y ∧
      ((declaredAlt y = none ∧ w = .overlap (isRegister y) (rcName y) (rcName x)) ∨
       (declaredAlt y ≠ none ∧ w = .overlapNotAllowed (isRegister y) (rcName y) (rcName x)))) := by
    intro x y hb hx w
    unfold RepAt
    rw [hlk, firstAddress_eq, lastAddress_eq, rcName_eq, rcName_eq]
    refine and_congr_right fun _ => ?_
    unfold Reported Excused
    cases ha : declaredAlt y with
    | some a =>
      have : Connected (altsOf (isRegister y) raw) a x.name ↔ Connected (altsOf (isRegister y) zs) a x.name :=
        ⟨Connected.congr fun p => (hperm p _).1, Connected.congr fun p => (hperm p _).2⟩
      simp [this, rcName_eq]
    | none =>
      have hxz : x ∈ zs := hb.subset (by simp)
      have hxr : x ∈ raw := by rw [hz, mem_sortBy] at hxz; exact hxz
      have : ((altsOf (isRegister y) raw).lookup x.name).bind id = some y.name ↔
          isRegister x = isRegister y ∧ declaredAlt x = some (rcName y) := by
        rw [rcName_eq]
        constructor
        · intro h
          cases hl : (altsOf (isRegister y) raw).lookup x.name with
          | none => rw [hl] at h; cases h
          | some o =>
            rw [hl] at h
            simp only [Option.bind_some, id] at h
            subst h
            obtain ⟨z, hzr, hz1, hz2, hz3⟩ := mem_altsOf.1 (lookup_mem_alt hl)
            have : z = x := by
              have e1 : z.qualName = x.qualName := by
                rw [qualName_eq, qualName_eq, hz2, noGroup_scopeName hx, rcName_eq]
              exact inj_of_nodup_map hn hzr hxr e1
            subst this
            exact ⟨hz1, hz3⟩
        · rintro ⟨h1, h2⟩
          have : (x.name, some y.name) ∈ altsOf (isRegister y) raw :=
            mem_altsOf.2 ⟨x, hxr, h1, by rw [noGroup_scopeName hx, rcName_eq], h2⟩
          rw [lookup_of_mem (altsOf_nodup hn _) this]
          rfl
      simp only [reduceCtorEq, false_and, exists_false, false_or, true_and, ne_eq, not_true_eq_false, or_false, this]
  constructor
  · rintro ⟨pre, y, post, hzs, hy, e, n, h4, h5⟩
    rw [List.nil_append] at h4
    simp only [intervals, List.mem_map, List.mem_filter, decide_eq_true_eq, Prod.mk.injEq] at h4
    obtain ⟨x, ⟨hx, hg⟩, rfl, rfl⟩ := h4
    have hb : Before zs x y := before_iff.2 ⟨pre, post, hzs, hx⟩
    exact ⟨x, y, hb, hg, hy, (hmain x y hb hg w).1 h5⟩
  · rintro ⟨x, y, hb, hx, hy, h5⟩
    obtain ⟨pre, post, hzs, hxp⟩ := before_iff.1 hb
    refine ⟨pre, y, post, hzs, hy, x.lastAddr, x.name, ?_, (hmain x y hb hx w).2 h5⟩
    rw [List.nil_append]
    simp only [intervals, List.mem_map, List.mem_filter, decide_eq_true_eq]
    exact ⟨x, ⟨hxp, hx⟩, rfl⟩
end Svd
