import Verif.Spec.Resolve
import Verif.Lemmas.Text
/- The names of a dotted path. -/
namespace Svd
open Spec

theorem splitC_noDot {s : Str} (h : '.' ∉ s) : splitC '.' s = [s] := by
  induction s with
  | nil => rfl
  | cons c s ih =>
    simp only [List.mem_cons, not_or] at h
    simp [splitC, ih h.2, Ne.symm h.1]

theorem splitC_append {s t : Str} (h : '.' ∉ s) : splitC '.' (s ++ '.' :: t) = s :: splitC '.' t := by
  induction s with
  | nil => simp [splitC]
  | cons c s ih =>
    simp only [List.mem_cons, not_or] at h
    simp [splitC, ih h.2, Ne.symm h.1]

theorem pathNames_split {path : Str} {parts : List Str} (h : PathNames path parts) : splitC '.' path = parts := by
  obtain ⟨h1, h2, rfl⟩ := h
  induction parts with
  | nil => exact absurd rfl h1
  | cons p ps ih =>
    cases ps with
    | nil => exact splitC_noDot (h2 p (by simp))
    | cons q qs =>
      show splitC '.' (p ++ '.' :: dotted (q :: qs)) = _
      rw [splitC_append (h2 p (by simp)), ih (by simp) (fun x hx => h2 x (by simp [hx]))]

/-- Every path has names. -/
theorem pathNames_exists (path : Str) : PathNames path (splitC '.' path) := by
  induction path with
  | nil => exact ⟨by simp [splitC], by simp [splitC], rfl⟩
  | cons c s ih =>
    obtain ⟨h1, h2, h3⟩ := ih
    simp only [splitC]
    cases hs : splitC '.' s with
    | nil => exact absurd hs h1
    | cons p ps =>
      rw [hs] at h2 h3
      by_cases hc : c = '.'
      · subst hc
        simp only [if_true]
        refine ⟨by simp, ?_, by rw [h3]; rfl⟩
        intro q hq
        rcases List.mem_cons.1 hq with rfl | hq
        · simp
        · exact h2 q hq
      · simp only [hc, if_false]
        refine ⟨by simp, ?_, ?_⟩
        · intro q hq
          rcases List.mem_cons.1 hq with rfl | hq
          · have := h2 p (by simp)
            simp [this, Ne.symm hc]
          · exact h2 q (by simp [hq])
        · rw [h3]
          cases ps <;> rfl

end Svd
