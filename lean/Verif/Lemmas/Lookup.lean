import Verif.Lemmas.Basic
import Verif.Spec.Lookup
/- The path look-up of the resolver. -/
namespace Svd
open Graph Spec

theorem NamedPath.last_name {g : Graph} {ex : Nat} {ns : List Nat} {parts : List Str} {m : Nat}
    (h : NamedPath g ex ns parts m) : g.nameOf m = parts.getLast? ∧ m ≠ ex := by
  induction h with
  | last _ h1 h2 => exact ⟨by rw [h2]; rfl, h1⟩
  | step _ _ _ _ ih => exact ⟨by rw [ih.1]; simp [List.getLast?_cons], ih.2⟩

theorem NamedPath.mono {g : Graph} {ex : Nat} {ns ns' : List Nat} {parts : List Str} {m : Nat}
    (h : NamedPath g ex ns parts m) (hs : ∀ n ∈ ns, n ∈ ns') : NamedPath g ex ns' parts m := by
  cases h with
  | last h0 h1 h2 => exact .last (hs _ h0) h1 h2
  | step h0 h1 h2 h3 => exact .step (hs _ h0) h1 h2 h3

theorem filterAlternates_sub {g : Graph} {is fs : List Nat} {ws : List Warn} (h : filterAlternates g is = .ok fs ws) :
    (∀ i ∈ fs, i ∈ is) ∧ ws = [] := by
  induction is generalizing fs ws with
  | nil => simp only [filterAlternates, M.pure_eq_ok] at h; obtain ⟨rfl, rfl⟩ := h; simp
  | cons i is ih =>
    simp only [filterAlternates] at h
    split at h
    · simp at h
    · simp only [M.bind_eq_ok, M.pure_eq_ok] at h
      obtain ⟨rest, w1, w2, h1, ⟨rfl, rfl⟩, rfl⟩ := h
      obtain ⟨h2, rfl⟩ := ih h1
      refine ⟨?_, rfl⟩
      intro j hj
      split at hj
      · split at hj
        · rcases List.mem_cons.1 hj with rfl | hj
          · simp
          · exact List.mem_cons_of_mem _ (h2 j hj)
        · exact List.mem_cons_of_mem _ (h2 j hj)
      · exact List.mem_cons_of_mem _ (h2 j hj)

/-- The loop returns at most one match; every match has been there before or comes from a node with the right name. -/
theorem searchGo_ok {g : Graph} {ex : Nat} {part : Str} {sub : Nat → M (List Nat)} {ns ms fs : List Nat}
    {ws : List Warn} (h : searchGo g ex part sub ms ns = .ok fs ws) (hl : ms.length ≤ 1) :
    fs.length ≤ 1 ∧ (∀ m ∈ fs, m ∈ ms ∨ ∃ n ∈ ns, n ≠ ex ∧ g.nameOf n = some part ∧ ∃ cs w, sub n = .ok cs w ∧ m ∈ cs) := by
  induction ns generalizing ms ws with
  | nil =>
    simp only [searchGo, M.pure_eq_ok] at h
    obtain ⟨rfl, -⟩ := h
    exact ⟨hl, fun m hm => Or.inl hm⟩
  | cons n ns ih =>
    simp only [searchGo] at h
    have lift : ∀ {m}, (m ∈ ms ∨ ∃ n ∈ ns, n ≠ ex ∧ g.nameOf n = some part ∧ ∃ cs w, sub n = .ok cs w ∧ m ∈ cs) →
        (m ∈ ms ∨ ∃ n' ∈ n :: ns, n' ≠ ex ∧ g.nameOf n' = some part ∧ ∃ cs w, sub n' = .ok cs w ∧ m ∈ cs) := by
      rintro m (h | ⟨n', h1, h2⟩)
      · exact Or.inl h
      · exact Or.inr ⟨n', List.mem_cons_of_mem _ h1, h2⟩
    split at h
    · obtain ⟨a, b⟩ := ih h hl
      exact ⟨a, fun m hm => lift (b m hm)⟩
    · rename_i hne
      split at h
      · obtain ⟨a, b⟩ := ih h hl
        exact ⟨a, fun m hm => lift (b m hm)⟩
      · rename_i hname
        have hname : g.nameOf n = some part := Decidable.of_not_not hname
        simp only [M.bind_eq_ok] at h
        obtain ⟨cs, w1, w2, h1, h2, -⟩ := h
        have new : ∀ {m}, m ∈ ms ++ cs →
            (m ∈ ms ∨ ∃ n' ∈ n :: ns, n' ≠ ex ∧ g.nameOf n' = some part ∧ ∃ cs w, sub n' = .ok cs w ∧ m ∈ cs) := by
          intro m hm
          rcases List.mem_append.1 hm with hm | hm
          · exact Or.inl hm
          · exact Or.inr ⟨n, by simp, hne, hname, cs, w1, h1, hm⟩
        split at h2
        · simp only [M.bind_eq_ok] at h2
          obtain ⟨fs', w3, w4, h3, h4, -⟩ := h2
          split at h4
          · rename_i hlen
            simp only [M.pure_eq_ok] at h4
            obtain ⟨rfl, -⟩ := h4
            exact ⟨by omega, fun m hm => new ((filterAlternates_sub h3).1 m hm)⟩
          · simp at h4
        · rename_i hlen
          obtain ⟨a, b⟩ := ih h2 (by omega)
          refine ⟨a, fun m hm => ?_⟩
          rcases b m hm with h' | ⟨n', h5, h6⟩
          · exact new h'
          · exact Or.inr ⟨n', List.mem_cons_of_mem _ h5, h6⟩

/-- Soundness of the search. -/
theorem searchNodes_ok {g : Graph} {ex : Nat} {lvl : Level} {parts : List Str} {ns ms : List Nat} {ws : List Warn}
    (h : searchNodes g ex lvl parts ns = .ok ms ws) :
    ms.length ≤ 1 ∧ ∀ m ∈ ms, NamedPath g ex ns parts m ∧ g.hasLevel m lvl = true := by
  induction parts generalizing ns ms ws with
  | nil =>
    simp only [searchNodes, M.pure_eq_ok] at h
    obtain ⟨rfl, -⟩ := h
    simp
  | cons part parts ih =>
    simp only [searchNodes] at h
    obtain ⟨a, b⟩ := searchGo_ok h (by simp)
    refine ⟨a, fun m hm => ?_⟩
    rcases b m hm with hm | ⟨n, h1, h2, h3, cs, w, h4, h5⟩
    · cases hm
    · cases parts with
      | nil =>
        simp only [M.pure_eq_ok] at h4
        obtain ⟨rfl, -⟩ := h4
        split at h5
        · rename_i hlvl
          simp only [List.mem_singleton] at h5
          subst h5
          exact ⟨.last h1 h2 h3, hlvl⟩
        · cases h5
      | cons q parts =>
        obtain ⟨h6, h7⟩ := (ih h4).2 m h5
        exact ⟨.step h1 h2 h3 h6, h7⟩

theorem pathResolving_ok {g : Graph} {derived b : Nat} {lvl : Level} {path : Str} {ws : List Warn}
    (h : pathResolving g derived lvl path = .ok (some b) ws) :
    (NamedPath g derived (g.elementSiblings derived) (splitC '.' path) b ∨
      NamedPath g derived (g.elementChildren 0) (splitC '.' path) b) ∧ g.hasLevel b lvl = true := by
  unfold pathResolving at h
  simp only [M.bind_eq_ok] at h
  obtain ⟨m1, w1, w2, h1, h2, -⟩ := h
  split at h2
  · simp only [M.pure_eq_ok, Option.some.injEq] at h2
    obtain ⟨rfl, -⟩ := h2
    have := (searchNodes_ok h1).2 _ (List.mem_singleton.2 rfl)
    exact ⟨Or.inl this.1, this.2⟩
  · simp only [M.bind_eq_ok] at h2
    obtain ⟨m2, w3, w4, h3, h4, -⟩ := h2
    split at h4
    · simp only [M.pure_eq_ok, Option.some.injEq] at h4
      obtain ⟨rfl, -⟩ := h4
      have := (searchNodes_ok h3).2 _ (List.mem_singleton.2 rfl)
      exact ⟨Or.inr this.1, this.2⟩
    · simp at h4

end Svd
