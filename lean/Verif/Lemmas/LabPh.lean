import Verif.Lemmas.Lab
/-
Labels: placeholders.
-/
namespace Svd
open Graph Spec

theorem mem_cons_edges {g : Graph} {a b : Nat} {ty : EdgeT} {es : List Edge} {x y : Nat} :
    (Ch { g with edges := ⟨a, b, ty⟩ :: es } x y ↔ (isChildEdge ⟨a, b, ty⟩ = true ∧ x = a ∧ y = b) ∨ Ch { g with edges := es } x y) ∧
    (De { g with edges := ⟨a, b, ty⟩ :: es } x y ↔ (ty = .derive ∧ x = a ∧ y = b) ∨ De { g with edges := es } x y) ∧
    (Pl { g with edges := ⟨a, b, ty⟩ :: es } x y ↔ (ty = .placeholder ∧ x = a ∧ y = b) ∨ Pl { g with edges := es } x y) := by
  refine ⟨?_, ?_, ?_⟩
  · unfold Ch isChildEdge
    simp only [List.mem_cons, Edge.mk.injEq]
    cases ty <;> simp <;> grind
  · unfold De
    simp only [List.mem_cons, Edge.mk.injEq]
    grind
  · unfold Pl
    simp only [List.mem_cons, Edge.mk.injEq]
    grind

theorem lab_resolvePlaceholder {d : SDevice} {g g' : Graph} {lab : Nat → Pos} {k : Nat} {ws : List Warn} (hi : Inv d g)
    (h : Lab d g lab) (hr : resolvePlaceholder g k = .ok g' ws) : Lab d g' lab := by
  obtain ⟨path, hn, hc⟩ := resolvePlaceholder_cases hr
  rcases hc with rfl | ⟨i, e, b, w, h1, h2, h3, h4⟩
  · exact h
  · have hk : IsP g k := ⟨path, hn⟩
    obtain ⟨hw, hnode, hedge⟩ := removePlaceholder_wf hi.wf (i := k) (by rw [hn]; rfl)
    obtain ⟨h5, h5e⟩ := placeholderChild_ok h1
    obtain ⟨p, hp, hpath⟩ := h.ph k i path hn h5
    have href := refers_of hi h h2 hp hpath h3
    have hb : IsE g b := by
      obtain ⟨-, h6⟩ := pathResolving_ok h3
      obtain ⟨eb, h7, -⟩ := hasLevel_elem h6
      exact ⟨eb, h7⟩
    have hg := (rawAddEdge_nodes h4).1
    generalize hg1 : g.removePlaceholder k = g1 at *
    have hsub : ∀ ed, ed ∈ g1.edges ↔ ed ∈ g.edges ∧ ed.src ≠ k ∧ ed.dst ≠ k := by
      intro ed
      rw [hedge]
      simp
    have helem : ∀ j, g1.elem? j = g.elem? j := by
      intro j
      have := hnode j
      by_cases hj : j = k
      · subst hj
        rw [if_pos rfl] at this
        unfold Graph.elem?
        rw [this, hn]
      · rw [if_neg hj] at this
        unfold Graph.elem?
        rw [this]
    have hCh : ∀ a b, Ch g1 a b ↔ Ch g a b := by
      intro a b
      constructor
      · rintro (h6 | h6)
        · exact Or.inl ((hsub _).1 h6).1
        · exact Or.inr ((hsub _).1 h6).1
      · intro h6
        obtain ⟨ha, hb⟩ := h.tch a b h6
        have hak : a ≠ k := fun hh => isE_notP (hh ▸ ha) hk
        have hbk : b ≠ k := fun hh => isE_notP (hh ▸ hb) hk
        rcases h6 with h6 | h6
        · exact Or.inl ((hsub _).2 ⟨h6, hak, hbk⟩)
        · exact Or.inr ((hsub _).2 ⟨h6, hak, hbk⟩)
    have hPl : ∀ a b, Pl g1 a b → Pl g a b ∧ a ≠ k ∧ b ≠ k := fun a b h6 => (hsub _).1 h6
    have hph : ∀ a q, g1.node? a = some (.ph q) → g.node? a = some (.ph q) := by
      intro a q h6
      rw [hnode] at h6
      split at h6
      · cases h6
      · exact h6
    have hph' : ∀ a q, a ≠ k → g.node? a = some (.ph q) → g1.node? a = some (.ph q) := by
      intro a q h6 h7
      rw [hnode, if_neg h6]; exact h7
    subst hg
    have hv := fun x y => @mem_cons_edges g1 b i .derive g1.edges x y
    refine h.same helem ?_ ?_ ?_ ?_ ?_
    · intro x y
      rw [(hv x y).1, ← hCh]
      simp [isChildEdge]
    · intro x y h6
      rcases (hv x y).2.1.1 h6 with ⟨-, rfl, rfl⟩ | h6
      · exact Or.inr ⟨hb, ⟨e, h2⟩, href⟩
      · exact Or.inl ((hsub _).1 h6).1
    · intro x y h6
      rcases (hv x y).2.2.1 h6 with ⟨h7, -⟩ | h6
      · cases h7
      · obtain ⟨h7, h8, h9⟩ := hPl x y h6
        rcases h.tpl x y h7 with ⟨h10, q, h11⟩ | ⟨⟨q, h10⟩, h11⟩
        · refine Or.inl ⟨h10, ⟨q, hph' y q h9 h11⟩, ?_⟩
          intro e h12 h13
          exact (h.leaf x e y h12 h13).2 h7
        · exact Or.inr ⟨⟨q, hph' x q h8 h10⟩, h11⟩
    · intro x y q h6 h7
      rcases (hv x y).2.2.1 h7 with ⟨h8, -⟩ | h7
      · cases h8
      · exact h.ph x y q (hph x q h6) (hPl x y h7).1
    · intro x m y ⟨q, h6⟩ h7 h8
      rcases (hv x m).2.2.1 h7 with ⟨h9, -⟩ | h7
      · cases h9
      · rcases (hv m y).2.2.1 h8 with ⟨h9, -⟩ | h8
        · cases h9
        · exact h.phIn x m y ⟨q, hph m q h6⟩ (hPl _ _ h7).1 (hPl _ _ h8).1

theorem successors_single {g : Graph} {k c b : Nat} (h : g.successors k = [c]) (hb : Pl g k b) : b = c := by
  have : b ∈ g.successors k := mem_successors.2 ⟨_, hb, rfl, rfl⟩
  rw [h] at this
  simpa using this

theorem lab_ensure {d : SDevice} {phs : List Nat} {g g' : Graph} {lab : Nat → Pos} {ws : List Warn} (h : Lab d g lab)
    (hde : ∀ a b, ¬ De g a b) (hp : ∀ k ∈ phs, IsP g k) (hr : ensurePlaceholderParents g phs = .ok g' ws) : Lab d g' lab := by
  induction phs generalizing g ws with
  | nil =>
    simp only [ensurePlaceholderParents, M.pure_eq_ok] at hr
    obtain ⟨rfl, -⟩ := hr
    exact h
  | cons k phs ih =>
    simp only [ensurePlaceholderParents, M.bind_eq_ok] at hr
    obtain ⟨o, w1, w2, h1, ⟨g1, w3, w4, h2, h3, -⟩, -⟩ := hr
    cases o with
    | none =>
      simp only [M.pure_eq_ok] at h2
      obtain ⟨rfl, -⟩ := h2
      exact ih h hde (fun k hk => hp k (by simp [hk])) h3
    | some p =>
      have hg := (addEdge_nodes h2).1
      have hk := hp k (by simp)
      obtain ⟨c, hc, hpc, hpe⟩ : ∃ c, g.successors k = [c] ∧ Ch g p c ∧ IsE g p := by
        unfold Graph.placeholderCoParent at h1
        split at h1
        · simp at h1
        · rename_i c hc
          split at h1
          · simp at h1
          · rename_i q hq
            simp only [M.pure_eq_ok, Option.some.injEq] at h1
            obtain ⟨rfl, -⟩ := h1
            have hq : q ∈ (g.predecessors c).filter g.isElem := by rw [hq]; simp
            simp only [List.mem_filter] at hq
            obtain ⟨h4, h5⟩ := hq
            obtain ⟨ed, h6, h7, h8⟩ := mem_predecessors.1 h4
            subst h7 h8
            refine ⟨ed.dst, hc, ?_, isE_iff.1 h5⟩
            rcases edge_view h6 with h9 | h9 | h9
            · exact h9
            · exact absurd h9 (hde _ _)
            · rcases h.tpl _ _ h9 with ⟨-, h10⟩ | ⟨h10, -⟩
              · exfalso
                have : ed.dst ∈ g.successors k := by rw [hc]; simp
                obtain ⟨e2, h11, h12, h13⟩ := mem_successors.1 this
                rcases edge_view h11 with h14 | h14 | h14
                · rw [h13] at h14
                  exact isE_notP (h.tch _ _ h14).2 h10
                · exact hde _ _ h14
                · rw [h13, h12] at h14
                  rcases h.tpl _ _ h14 with ⟨h15, -⟩ | ⟨-, h15⟩
                  · exact isE_notP h15 hk
                  · exact isE_notP h15 h10
              · exact (isE_notP (isE_iff.1 h5) h10).elim
          · simp at h1
        · simp at h1
      have hne : ∀ e, g.elem? p = some e → e.level ≠ .enumcont := fun e h4 h5 => (h.leaf p e c h4 h5).1 hpc
      have hv := fun x y => @mem_cons_edges g p k .placeholder g.edges x y
      have hP : ∀ m, IsP g1 m ↔ IsP g m := by subst hg; exact fun m => Iff.rfl
      have hl : Lab d g1 lab := by
        subst hg
        refine h.same (fun _ => rfl) ?_ ?_ ?_ ?_ ?_
        · intro x y
          rw [(hv x y).1]
          simp [isChildEdge]
        · intro x y h6
          rcases (hv x y).2.1.1 h6 with ⟨h7, -⟩ | h6
          · cases h7
          · exact Or.inl h6
        · intro x y h6
          rcases (hv x y).2.2.1 h6 with ⟨-, rfl, rfl⟩ | h6
          · exact Or.inl ⟨hpe, hk, hne⟩
          · rcases h.tpl x y h6 with ⟨h10, h11⟩ | h11
            · exact Or.inl ⟨h10, h11, fun e h12 h13 => (h.leaf x e y h12 h13).2 h6⟩
            · exact Or.inr h11
        · intro x y q h6 h7
          rcases (hv x y).2.2.1 h7 with ⟨-, rfl, rfl⟩ | h7
          · exact (isE_notP hpe ⟨q, h6⟩).elim
          · exact h.ph x y q h6 h7
        · intro x m y h6 h7 h8
          rcases (hv m y).2.2.1 h8 with ⟨-, rfl, rfl⟩ | h9
          · exact (isE_notP hpe h6).elim
          · rcases (hv x m).2.2.1 h7 with ⟨-, rfl, rfl⟩ | h10
            · rw [successors_single (g := g) hc h9]
              exact h.hasChild hpc id
            · exact h.phIn x m y h6 h10 h9
      refine ih hl ?_ (fun m hm => (hP m).2 (hp m (by simp [hm]))) h3
      subst hg
      intro x y h6
      rcases (hv x y).2.1.1 h6 with ⟨h7, -⟩ | h6
      · cases h7
      · exact hde x y h6

end Svd
