import Verif.Lemmas.Made
/- Inversion of the dim expansion. -/
namespace Svd
open Spec

theorem dimIndexList_ws {n : Int} {s : Option Str} {l : List Str} {ws : List Warn} (h : dimIndexList n s = .ok l ws) :
    ws = [] := by
  unfold dimIndexList at h
  repeat' split at h
  all_goals first
    | (simp only [M.pure_eq_ok] at h; exact h.2)
    | (simp at h; done)

theorem processDimIndex_ok {n : Int} {s : Option Str} {l : List Str} {ws : List Warn} :
    processDimIndex n s = .ok l ws ↔ 1 ≤ n ∧ dimIndexList n s = .ok l [] ∧ (l.length : Int) = n ∧ ws = [] := by
  unfold processDimIndex
  constructor
  · intro h
    split at h
    · simp at h
    · simp only [M.bind_eq_ok] at h
      obtain ⟨l', w1, w2, h1, h2, rfl⟩ := h
      split at h2
      · simp only [M.pure_eq_ok] at h2
        obtain ⟨rfl, rfl⟩ := h2
        have := dimIndexList_ws h1
        subst this
        rename_i h3 h4
        exact ⟨by omega, h1, h4, rfl⟩
      · simp at h2
  · rintro ⟨h1, h2, h3, rfl⟩
    rw [if_neg (by omega), h2]
    simp [M.bind, h3, M.pure]

/-- The outcome of a successful dim expansion. -/
def DimOutcome (ty : Level) (name : Str) (dim : Option Int) (dimIndex display : Option Str)
    (isDim : Bool) (names : List Str) (displays : List (Option Str)) (ws : List Warn) : Prop :=
  (isDim = false ∧ names = [name] ∧ displays = [display] ∧ hasSub lstMark name = false ∧ dispHas lstMark display = false ∧
    ws = (if dim.isSome then [.dimWithoutMarker name] else [])) ∨
  (isDim = true ∧ ws = [] ∧ ∃ n, dim = some n ∧ 1 ≤ n ∧ hasSub lstMark name = true ∧ ∃ mark idx,
    names = idx.map (fun i => replaceAll mark i name) ∧ displays = idx.map (fun i => display.map (replaceAll mark i)) ∧
    (idx.length : Int) = n ∧
    ((mark = arrMark ∧ hasSub arrMark name = true ∧ ty ≠ .field ∧ idx = (List.range n.toNat).map natStr ∧
        (dispHas lstMark display = true → dispHas arrMark display = true)) ∨
     (mark = lstMark ∧ hasSub arrMark name = false ∧ ty ≠ .peripheral ∧ dimIndexList n dimIndex = .ok idx [] ∧
        dispHas arrMark display = false)))

theorem processDim_some {ty : Level} {name : Str} {n : Int} {dimIndex display : Option Str} {names : List Str}
    {displays : List (Option Str)} {ws : List Warn}
    (h : processDim name display (some n) dimIndex ty = .ok (names, displays) ws) :
    ws = [] ∧ 1 ≤ n ∧ hasSub lstMark name = hasSub lstMark name ∧ ∃ mark idx,
    names = idx.map (fun i => replaceAll mark i name) ∧ displays = idx.map (fun i => display.map (replaceAll mark i)) ∧
    (idx.length : Int) = n ∧
    ((mark = arrMark ∧ hasSub arrMark name = true ∧ ty ≠ .field ∧ idx = (List.range n.toNat).map natStr ∧
        (dispHas lstMark display = true → dispHas arrMark display = true)) ∨
     (mark = lstMark ∧ hasSub arrMark name = false ∧ ty ≠ .peripheral ∧ dimIndexList n dimIndex = .ok idx [] ∧
        dispHas arrMark display = false)) := by
  unfold processDim at h
  simp only at h
  split at h
  · simp at h
  rename_i hn
  have hn : 1 ≤ n := by omega
  split at h
  · rename_i ha
    split at h
    · simp at h
    · rename_i hf
      unfold processDimArray at h
      split at h
      · simp at h
      · rename_i hd
        simp only [M.pure_eq_ok, Prod.mk.injEq] at h
        obtain ⟨⟨rfl, rfl⟩, rfl⟩ := h
        refine ⟨rfl, hn, rfl, arrMark, (List.range n.toNat).map natStr, by rw [rangeFrom_zero], by rw [rangeFrom_zero], ?_,
          Or.inl ⟨rfl, ha, hf, rfl, ?_⟩⟩
        · simp; omega
        · intro hl
          simp only [Bool.and_eq_true, Bool.not_eq_true', not_and] at hd
          cases hx : dispHas arrMark display with
          | true => rfl
          | false => exact absurd hl (hd hx)
  · rename_i ha
    split at h
    · rename_i hl
      split at h
      · simp at h
      · rename_i hf
        unfold processDimList at h
        split at h
        · simp at h
        · rename_i hd
          simp only [M.bind_eq_ok, M.pure_eq_ok, Prod.mk.injEq] at h
          obtain ⟨idx, w1, w2, h1, ⟨⟨rfl, rfl⟩, rfl⟩, rfl⟩ := h
          obtain ⟨-, h2, h3, rfl⟩ := processDimIndex_ok.1 h1
          exact ⟨rfl, hn, rfl, lstMark, idx, rfl, rfl, h3, Or.inr ⟨rfl, by simpa using ha, hf, h2, by simpa using hd⟩⟩
    · simp at h

theorem extractDim_ok {ty : Level} {name : Str} {pd : SDim} {pdisp : Option Str} {bd : Option IDim} {bdisp : Option Str}
    {isDim : Bool} {names : List Str} {displays : List (Option Str)} {ws : List Warn}
    (h : extractDim ty name pd pdisp bd bdisp = .ok (isDim, names, displays) ws) :
    DimOutcome ty name (orIfNone pd.dim (bd.bind (·.dim))) (orIfNone pd.dimIndex (bd.bind (·.dimIndex)))
      (if ty = .register then orIfNone pdisp bdisp else none) isDim names displays ws := by
  unfold extractDim at h
  simp only at h
  generalize orIfNone pd.dim (bd.bind (·.dim)) = dim at h ⊢
  generalize orIfNone pd.dimIndex (bd.bind (·.dimIndex)) = dimIndex at h ⊢
  generalize (if ty = .register then orIfNone pdisp bdisp else none) = display at h ⊢
  split at h
  · simp at h
  rename_i h0
  simp only [M.bind_eq_ok] at h
  obtain ⟨dim', w1, w2, h1, h2, rfl⟩ := h
  split at h2
  · simp at h2
  rename_i h3
  simp only [M.bind_eq_ok] at h2
  obtain ⟨⟨ns, ds⟩, w3, w4, h4, h5, rfl⟩ := h2
  simp only [M.pure_eq_ok, Prod.mk.injEq] at h5
  obtain ⟨⟨rfl, rfl, rfl⟩, rfl⟩ := h5
  cases dim' with
  | none =>
    left
    simp only [processDim, M.pure_eq_ok, Prod.mk.injEq] at h4
    obtain ⟨⟨rfl, rfl⟩, rfl⟩ := h4
    simp only [Option.isNone_none, Bool.true_and, Bool.not_eq_true] at h3
    split at h1
    · rename_i h6
      simp only [M.bind_eq_ok, M.warn, M.ok.injEq, M.pure_eq_ok] at h1
      obtain ⟨_, w5, w6, ⟨-, rfl⟩, ⟨-, rfl⟩, rfl⟩ := h1
      simp only [Bool.and_eq_true, Bool.not_eq_true'] at h6
      exact ⟨rfl, rfl, rfl, h6.2, h3, by simp [h6.1]⟩
    · rename_i h6
      simp only [M.pure_eq_ok] at h1
      obtain ⟨rfl, rfl⟩ := h1
      simp only [Option.isNone_none, Bool.true_and, Bool.not_eq_true] at h0
      exact ⟨rfl, rfl, rfl, h0, h3, by simp⟩
  | some n =>
    right
    split at h1
    · simp [M.bind_eq_ok] at h1
    · rename_i h6
      simp only [M.pure_eq_ok] at h1
      obtain ⟨rfl, rfl⟩ := h1
      simp only [Option.isSome_some, Bool.true_and, Bool.not_eq_true, Bool.not_eq_false'] at h6
      obtain ⟨rfl, h7, -, h8⟩ := processDim_some h4
      exact ⟨rfl, rfl, n, rfl, h7, h6, h8⟩

end Svd
