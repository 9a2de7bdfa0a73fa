import Verif.Lemmas.Sat
import Verif.Model.Finalize
import Verif.Spec.Alternate
/-
The computation of permitted alternates.
-/
namespace Svd
open Spec

/-- All names that can ever be on the stack. -/
def altNames (lk : AltLookup) : List Str := lk.map (·.1) ++ lk.filterMap (·.2)

theorem altNames_length (lk : AltLookup) : (altNames lk).length ≤ 2 * lk.length := by
  unfold altNames
  have := List.length_filterMap_le (fun p : Str × Option Str => p.2) lk
  simp; omega

theorem lookup_mem_alt {lk : AltLookup} {x : Str} {o : Option Str} (h : lk.lookup x = some o) : (x, o) ∈ lk := by
  induction lk with
  | nil => cases h
  | cons p lk ih =>
    rcases p with ⟨k, v⟩
    rw [List.lookup_cons] at h
    by_cases hk : x = k
    · subst hk; simp at h; simp [h]
    · have : (x == k) = false := by simp [hk]
      rw [this] at h
      exact List.mem_cons_of_mem _ (ih h)

theorem lookup_of_mem {lk : AltLookup} (hn : (lk.map (·.1)).Nodup) {x : Str} {o : Option Str} (h : (x, o) ∈ lk) :
    lk.lookup x = some o := by
  induction lk with
  | nil => cases h
  | cons p lk ih =>
    rcases p with ⟨k, v⟩
    simp only [List.map_cons, List.nodup_cons] at hn
    rw [List.lookup_cons]
    rcases List.mem_cons.1 h with h' | h'
    · simp only [Prod.mk.injEq] at h'
      simp [h'.1, h'.2]
    · have : (x == k) = false := by
        simp only [beq_eq_false_iff_ne, ne_eq]
        rintro rfl
        exact hn.1 (List.mem_map.2 ⟨(x, o), h', rfl⟩)
      rw [this]; exact ih hn.2 h'

theorem lookup_none {lk : AltLookup} {x : Str} : lk.lookup x = none ↔ x ∉ lk.map (·.1) := by
  induction lk with
  | nil => simp
  | cons p lk ih =>
    rcases p with ⟨k, v⟩
    rw [List.lookup_cons]
    by_cases hk : x = k
    · subst hk; simp
    · have : (x == k) = false := by simp [hk]
      rw [this]; simp only [ih, List.map_cons, List.mem_cons, hk, false_or]

/-- The names that get pushed when `cur` is visited. -/
def altPush (lk : AltLookup) (cur : Str) : List Str :=
  (match lk.lookup cur with | some (some p) => [p] | _ => []) ++
    ((lk.filter (fun p => p.2 == some cur)).map (·.1)).reverse

theorem altPush_length (lk : AltLookup) (cur : Str) : (altPush lk cur).length ≤ lk.length + 1 := by
  unfold altPush
  have := List.length_filter_le (fun p : Str × Option Str => p.2 == some cur) lk
  split <;> simp <;> omega

theorem altPush_names {lk : AltLookup} {cur x : Str} (h : x ∈ altPush lk cur) : x ∈ altNames lk := by
  unfold altPush at h
  rcases List.mem_append.1 h with h | h
  · split at h
    · rename_i p hp
      rw [List.mem_singleton.1 h]
      exact List.mem_append_right _ (List.mem_filterMap.2 ⟨_, lookup_mem_alt hp, rfl⟩)
    · cases h
  · simp only [List.mem_reverse, List.mem_map, List.mem_filter] at h
    obtain ⟨p, ⟨hp, -⟩, rfl⟩ := h
    exact List.mem_append_left _ (List.mem_map.2 ⟨_, hp, rfl⟩)

theorem altPush_link {lk : AltLookup} {cur x : Str} (h : x ∈ altPush lk cur) : AltLink lk cur x := by
  unfold altPush at h
  rcases List.mem_append.1 h with h | h
  · split at h
    · rename_i p hp
      rw [List.mem_singleton.1 h]
      exact Or.inl (lookup_mem_alt hp)
    · cases h
  · simp only [List.mem_reverse, List.mem_map, List.mem_filter] at h
    obtain ⟨⟨a, b⟩, ⟨hp, hb⟩, rfl⟩ := h
    simp only [beq_iff_eq] at hb
    exact Or.inr (by rw [← hb]; exact hp)

theorem link_altPush {lk : AltLookup} (hn : (lk.map (·.1)).Nodup) {cur x : Str} (h : AltLink lk cur x) :
    x ∈ altPush lk cur := by
  unfold altPush
  rcases h with h | h
  · rw [lookup_of_mem hn h]; simp
  · apply List.mem_append_right
    simp only [List.mem_reverse, List.mem_map, List.mem_filter]
    exact ⟨_, ⟨h, by simp⟩, rfl⟩

theorem altClosure_step {lk : AltLookup} {strict : Bool} {f : Nat} {allowed rest : List Str} {cur : Str} :
    altClosure lk strict (f + 1) allowed (cur :: rest) =
      if allowed.contains cur then altClosure lk strict f allowed rest
      else if strict && (lk.lookup cur).isNone then M.throw .keyError
      else altClosure lk strict f (cur :: allowed) (altPush lk cur ++ rest) := by
  rw [altClosure]
  split
  · rfl
  · unfold altPush
    cases h : lk.lookup cur with
    | none => cases strict <;> simp
    | some o => cases o <;> cases strict <;> simp

/-- Names not visited yet. -/
def unvisited (U allowed : List Str) : Nat := (U.filter fun x => !allowed.contains x).length

theorem filter_length_le {α : Type} {p q : α → Bool} (h : ∀ x, q x = true → p x = true) (U : List α) :
    (U.filter q).length ≤ (U.filter p).length := by
  induction U with
  | nil => simp
  | cons v U ih =>
    have := h v
    simp only [List.filter_cons]
    cases hq : q v <;> cases hp : p v <;> simp_all <;> omega

theorem filter_length_lt {α : Type} {p q : α → Bool} (h : ∀ x, q x = true → p x = true) {U : List α} {c : α}
    (hc : c ∈ U) (h1 : p c = true) (h2 : q c = false) : (U.filter q).length + 1 ≤ (U.filter p).length := by
  induction U with
  | nil => cases hc
  | cons v U ih =>
    have hv := h v
    have hle := filter_length_le h U
    simp only [List.filter_cons]
    rcases List.mem_cons.1 hc with hcv | hc'
    · rw [← hcv, h1, h2]; simp; exact hle
    · have := ih hc'
      cases hq : q v <;> cases hp : p v <;> simp_all <;> omega

theorem unvisited_cons {U allowed : List Str} {c : Str} (hc : c ∈ U) (hn : allowed.contains c = false) :
    unvisited U (c :: allowed) + 1 ≤ unvisited U allowed :=
  filter_length_lt (fun x hx => by simp at hx ⊢; exact hx.2) hc (by simpa using hn) (by simp)

/-- The loop ends, and visits exactly what is connected. -/
theorem altClosure_spec {lk : AltLookup} (hn : (lk.map (·.1)).Nodup) {a : Str} {strict : Bool} :
    ∀ (f : Nat) (allowed stack : List Str),
      (∀ x ∈ stack, x ∈ a :: altNames lk) →
      unvisited (a :: altNames lk) allowed * (lk.length + 1) + stack.length ≤ f →
      (∀ x ∈ allowed ++ stack, Connected lk a x) → (a ∈ allowed ∨ a ∈ stack) →
      (∀ x ∈ allowed, ∀ y, AltLink lk x y → y ∈ allowed ∨ y ∈ stack) →
      (strict = true → ∀ x ∈ allowed, x ∈ lk.map (·.1)) →
      (∃ l, altClosure lk strict f allowed stack = .ok l [] ∧ (∀ x, x ∈ l ↔ Connected lk a x) ∧
        (strict = true → ∀ x ∈ l, x ∈ lk.map (·.1))) ∨
      (strict = true ∧ altClosure lk strict f allowed stack = .err .keyError ∧ ∃ x, Connected lk a x ∧ x ∉ lk.map (·.1)) := by
  intro f
  induction f with
  | zero =>
    intro allowed stack h1 h2 h3 h4 h5 h6
    have : stack = [] := by cases stack <;> simp_all
    subst this
    refine Or.inl ⟨allowed, rfl, fun x => ⟨fun hx => h3 x (by simp [hx]), fun hx => ?_⟩, h6⟩
    induction hx with
    | refl => simpa using h4
    | step _ hl ih => simpa using h5 _ ih _ hl
  | succ f ih =>
    intro allowed stack h1 h2 h3 h4 h5 h6
    cases stack with
    | nil =>
      refine Or.inl ⟨allowed, by simp [altClosure, M.pure], fun x => ⟨fun hx => h3 x (by simp [hx]), fun hx => ?_⟩, h6⟩
      induction hx with
      | refl => simpa using h4
      | step _ hl ih => simpa using h5 _ ih _ hl
    | cons cur rest =>
      rw [altClosure_step]
      by_cases hc : allowed.contains cur = true
      · rw [if_pos hc]
        have hc' : cur ∈ allowed := by simpa using hc
        refine ih allowed rest (fun x hx => h1 x (by simp [hx])) ?_ (fun x hx => h3 x ?_) ?_ (fun x hx y hy => ?_) h6
        · simp at h2; omega
        · rcases List.mem_append.1 hx with h | h <;> simp [h]
        · rcases h4 with h | h
          · exact Or.inl h
          · rcases List.mem_cons.1 h with h | h
            · exact Or.inl (h ▸ hc')
            · exact Or.inr h
        · rcases h5 x hx y hy with h | h
          · exact Or.inl h
          · rcases List.mem_cons.1 h with h | h
            · exact Or.inl (h ▸ hc')
            · exact Or.inr h
      · have hc' : allowed.contains cur = false := by simpa using hc
        rw [if_neg hc]
        have hcc : Connected lk a cur := h3 cur (by simp)
        split
        · rename_i hk
          simp only [Bool.and_eq_true, Option.isNone_iff_eq_none] at hk
          exact Or.inr ⟨hk.1, rfl, cur, hcc, lookup_none.1 hk.2⟩
        · rename_i hk
          refine ih _ _ ?_ ?_ ?_ ?_ ?_ ?_
          · intro x hx
            rcases List.mem_append.1 hx with h | h
            · exact List.mem_cons_of_mem _ (altPush_names h)
            · exact h1 x (by simp [h])
          · have hu := unvisited_cons (h1 cur (by simp)) hc'
            have hp := altPush_length lk cur
            have := Nat.mul_le_mul_right (lk.length + 1) hu
            simp only [List.length_append, List.length_cons] at h2 ⊢
            rw [Nat.add_mul] at this
            omega
          · intro x hx
            rcases List.mem_append.1 hx with h | h
            · rcases List.mem_cons.1 h with h | h
              · rw [h]; exact hcc
              · exact h3 x (by simp [h])
            · rcases List.mem_append.1 h with h | h
              · exact .step hcc (altPush_link h)
              · exact h3 x (by simp [h])
          · rcases h4 with h | h
            · exact Or.inl (by simp [h])
            · rcases List.mem_cons.1 h with h | h
              · exact Or.inl (by simp [h])
              · exact Or.inr (by simp [h])
          · intro x hx y hy
            rcases List.mem_cons.1 hx with h | h
            · rw [h] at hy
              exact Or.inr (List.mem_append_left _ (link_altPush hn hy))
            · rcases h5 x h y hy with h | h
              · exact Or.inl (by simp [h])
              · rcases List.mem_cons.1 h with h | h
                · exact Or.inl (by simp [h])
                · exact Or.inr (by simp [h])
          · intro hs x hx
            rcases List.mem_cons.1 hx with h | h
            · rw [h]
              simp only [hs, Bool.true_and, Bool.not_eq_true, Option.isNone_eq_false_iff] at hk
              cases hl : lk.lookup cur with
              | none => rw [hl] at hk; simp at hk
              | some o => exact List.mem_map.2 ⟨_, lookup_mem_alt hl, rfl⟩
            · exact h6 hs x h

theorem unvisited_le (U al : List Str) : unvisited U al ≤ U.length := List.length_filter_le _ _

/-- What `allowedAlternates` returns for an element with an alternate. -/
theorem allowedAlternates_spec {lk : AltLookup} (hn : (lk.map (·.1)).Nodup) (strict : Bool) (a : Str) :
    (∃ l, allowedAlternates lk strict (some a) = .ok l [] ∧ (∀ x, x ∈ l ↔ Connected lk a x) ∧
        (strict = true → ∀ x ∈ l, x ∈ lk.map (·.1))) ∨
    (strict = true ∧ allowedAlternates lk strict (some a) = .err .keyError ∧
      ∃ x, Connected lk a x ∧ x ∉ lk.map (·.1)) := by
  refine altClosure_spec hn (altFuel lk) [] [a] (by simp) ?_ ?_ (by simp) (by simp) (by simp)
  · have h1 := unvisited_le (a :: altNames lk) []
    have h2 := altNames_length lk
    simp only [List.length_cons] at h1
    have h3 : unvisited (a :: altNames lk) [] * (lk.length + 1) ≤ (2 * lk.length + 1) * (lk.length + 1) :=
      Nat.mul_le_mul_right _ (by omega)
    have h4 : (2 * lk.length + 1) * (lk.length + 1) ≤ (2 * lk.length + 2) * (lk.length + 2) :=
      Nat.mul_le_mul (by omega) (by omega)
    unfold altFuel
    simp only [List.length_cons, List.length_nil]
    omega
  · intro x hx
    simp at hx
    rw [hx]; exact .refl _
end Svd
