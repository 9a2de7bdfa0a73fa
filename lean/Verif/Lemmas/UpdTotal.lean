import Verif.Lemmas.RepTotal
import Verif.Lemmas.LabFinish
/-
Completing an element does not fail: the graph operations of `_update_node` and `_update_dim_node`.
-/
namespace Svd
open Graph Spec

theorem adoptBase_total {ord : List Nat → List Nat} (hord : ∀ l, (ord l).Perm l) {g : Graph} {i : Nat} {bn : Option Nat} (h : WF g)
    (hac : Acyclic g.edges) (hi : (g.node? i).isSome) (hb : ∀ b, bn = some b → De g b i) : ∃ g', adoptBase ord g i bn = .ok g' [] := by
  cases bn with
  | none => exact ⟨g, rfl⟩
  | some b =>
    have hd := hb b rfl
    have h1 : g.removeEdge b i = .ok { g with edges := eraseEdge b i g.edges } [] := by
      unfold Graph.removeEdge
      rw [if_pos]
      · rfl
      · rw [List.any_eq_true]
        exact ⟨_, hd, by simp⟩
    have hs : ∀ e ∈ eraseEdge b i g.edges, e ∈ g.edges := fun e he => eraseEdge_sub he
    have hw1 : WF { g with edges := eraseEdge b i g.edges } := h.of_eq rfl rfl (fun e he => Or.inl (hs e he))
    obtain ⟨g', h2⟩ := replicateDescendants_total hord (src := b) (tgt := i) hw1 (hac.sub hs) hi
    exact ⟨g', M.bind_eq_ok.2 ⟨_, _, _, h1, h2, rfl⟩⟩

theorem updateNode_total {ord : List Nat → List Nat} (hord : ∀ l, (ord l).Perm l) {g : Graph} {i : Nat} {bn : Option Nat} {e : ElemNode}
    {p : Processed} {t : Bool} (h : WF g) (hac : Acyclic g.edges) (he : g.elem? i = some e) (hp : e.processed = none)
    (hb : ∀ b, bn = some b → De g b i) : ∃ g', updateNode ord g i bn p t = .ok g' [] := by
  have hi : (g.node? i).isSome := by rw [elem?_node?.1 he]; rfl
  obtain ⟨g1, h1⟩ := adoptBase_total hord h hac hi hb
  have he1 := (adoptBase_wf h h1 hi).2.elem he
  have h2 : ∃ g', (match g1.elem? i with
      | none => M.throw .keyError
      | some e =>
        if e.processed.isSome then M.throw (.resolve 108)
        else
          let g2 := g1.setElem i { e with isProcessed := true, processed := some p, isDimTemplate := e.isDimTemplate || t }
          M.pure (resolveChildEdges i g2 (g2.elementChildren i))) = .ok g' [] := by
    rw [he1]
    simp only [hp, Option.isSome_none, Bool.false_eq_true, if_false]
    exact ⟨_, rfl⟩
  obtain ⟨g', h2⟩ := h2
  exact ⟨g', M.bind_eq_ok.2 ⟨_, _, _, h1, h2, rfl⟩⟩

theorem addElementChild_total {g : Graph} {par : Nat} {e : ElemNode} {ty : EdgeT} (h : WF g) (hp : (g.node? par).isSome) :
    ∃ r, g.addElementChild par e ty = .ok r [] := by
  have hs := addNode_spec h (.elem e)
  have h1 : (g.addNode (.elem e)).1.rawAddEdge .dagWouldCycle par (g.addNode (.elem e)).2 ty = .ok
      { (g.addNode (.elem e)).1 with edges := ⟨par, (g.addNode (.elem e)).2, ty⟩ :: (g.addNode (.elem e)).1.edges } [] := by
    unfold Graph.rawAddEdge
    rw [if_neg]
    · rfl
    · intro hc
      rcases hasPath_iff.1 hc with hc | hc
      · rw [← hc, hs.1] at hp
        cases hp
      · rw [addNode_edges] at hc
        have : (g.node? (g.addNode (.elem e)).2).isSome := by
          generalize (g.addNode (.elem e)).2 = j at hc
          cases hc with
          | edge h1 => exact (h.edges_valid _ h1).1
          | step h1 _ => exact (h.edges_valid _ h1).1
        rw [hs.1] at this
        cases this
  refine ⟨({ (g.addNode (.elem e)).1 with edges := ⟨par, (g.addNode (.elem e)).2, ty⟩ :: (g.addNode (.elem e)).1.edges },
    (g.addNode (.elem e)).2), ?_⟩
  unfold Graph.addElementChild
  exact M.bind_eq_ok.2 ⟨_, [], [], h1, rfl, rfl⟩

theorem addInstances_total {lvl : Level} {p : Parsed} {xs : List (Nat × Processed)} : ∀ {g : Graph}, WF g → (∀ x ∈ xs, (g.node? x.1).isSome) →
    ∃ r, addInstances lvl p g xs = .ok r [] := by
  induction xs with
  | nil => intro g _ _; exact ⟨_, rfl⟩
  | cons x xs ih =>
    obtain ⟨par, x⟩ := x
    intro g hw h
    obtain ⟨⟨g1, j⟩, h1⟩ := addElementChild_total (e := ⟨some x.name, lvl, true, p, some x, false⟩) (ty := .childR) hw (h (par, x) (by simp))
    have hw1 := addElementChild_wf hw h1 (h (par, x) (by simp))
    obtain ⟨⟨g2, js⟩, h2⟩ := ih (g := g1) hw1.1 (fun y hy => hw1.2.1.isSome (h y (by simp [hy])))
    exact ⟨_, M.bind_eq_ok.2 ⟨_, _, _, h1, M.bind_eq_ok.2 ⟨_, _, _, h2, rfl, rfl⟩, rfl⟩⟩

theorem linkChildren_total {F : List Edge} (hF : Acyclic F) {j : Nat} {cs : List Nat} : ∀ {g : Graph}, (∀ e ∈ g.edges, Linked F e.src e.dst) →
    (∀ c ∈ cs, Linked F j c) → ∃ g', linkChildren j g cs = .ok g' [] ∧ g'.nodes = g.nodes ∧ (∀ e ∈ g'.edges, Linked F e.src e.dst) ∧
      ∀ e ∈ g'.edges, e ∈ g.edges ∨ e.src = j := by
  induction cs with
  | nil => intro g hg _; exact ⟨g, rfl, rfl, hg, fun e he => Or.inl he⟩
  | cons c cs ih =>
    intro g hg hc
    have h1 : g.addEdge j c .childR = .ok { g with edges := ⟨j, c, .childR⟩ :: g.edges } [] :=
      rawAddEdge_total hF hg (hc c (by simp))
    have hg1 : ∀ e ∈ ({ g with edges := ⟨j, c, .childR⟩ :: g.edges } : Graph).edges, Linked F e.src e.dst := by
      intro e he
      rcases List.mem_cons.1 he with rfl | he
      · exact hc c (by simp)
      · exact hg e he
    obtain ⟨g', h2, h3, h4, h5⟩ := ih hg1 (fun x hx => hc x (by simp [hx]))
    refine ⟨g', M.bind_eq_ok.2 ⟨_, _, _, h1, h2, rfl⟩, h3, h4, fun e he => ?_⟩
    rcases h5 e he with h6 | h6
    · rcases List.mem_cons.1 h6 with rfl | h6
      · exact Or.inr rfl
      · exact Or.inl h6
    · exact Or.inr h6

theorem linkInstances_total {F : List Edge} (hF : Acyclic F) {i : Nat} {g0 : Graph} {js : List Nat} : ∀ {g : Graph}, i ∉ js →
    (∀ e ∈ g.edges, Linked F e.src e.dst) → (∀ e ∈ g.edges, e.src = i → e ∈ g0.edges) →
    (∀ j ∈ js, ∀ e ∈ g0.edges, e.src = i → Linked F j e.dst) → ∃ g', linkInstances i g js = .ok g' [] := by
  induction js with
  | nil => intro g _ _ _ _; exact ⟨g, rfl⟩
  | cons j js ih =>
    intro g hi hg h0 hl
    have hij : i ≠ j ∧ i ∉ js := by simpa using hi
    obtain ⟨g1, h1, h2, h3, h4⟩ := linkChildren_total hF (j := j) (cs := g.elementChildren i) hg (by
      intro c hc
      obtain ⟨e, he, h1, rfl, -⟩ := elementChildren_edge hc
      exact hl j (by simp) e (h0 e he h1) h1)
    obtain ⟨g', h5⟩ := ih (g := g1) hij.2 h3 (by
      intro e he hs
      rcases h4 e he with h6 | h6
      · exact h0 e h6 hs
      · exact absurd (hs.symm.trans h6) hij.1) (fun k hk => hl k (by simp [hk]))
    exact ⟨g', M.bind_eq_ok.2 ⟨_, _, _, h1, h5, rfl⟩⟩

/-- A graph that can be projected to an acyclic one is acyclic. -/
theorem acyclic_map {es F : List Edge} (h : Acyclic es) (β : Nat → Nat) (hF : ∀ e ∈ F, Linked es (β e.src) (β e.dst)) : Acyclic F := by
  have : ∀ {a b : Nat}, Conn F a b → Conn es (β a) (β b) := by
    intro a b hc
    induction hc with
    | @edge e he =>
      obtain ⟨e0, h1, h2, h3⟩ := hF e he
      rw [← h2, ← h3]; exact Conn.edge h1
    | @step e b he _ ih =>
      obtain ⟨e0, h1, h2, h3⟩ := hF e he
      rw [← h3] at ih
      rw [← h2]; exact Conn.step h1 ih
  exact fun i hc => h _ (this hc)

theorem updateDimNode_total {ord : List Nat → List Nat} (hord : ∀ l, (ord l).Perm l) {g : Graph} {i : Nat} {bn : Option Nat} {e : ElemNode}
    {xs : List Processed} {p : Processed} (h : WF g) (hac : Acyclic g.edges) (he : g.elem? i = some e) (hp : e.processed = none)
    (hb : ∀ b, bn = some b → De g b i) : ∃ g', updateDimNode ord g i bn xs p = .ok g' [] := by
  obtain ⟨g1, h1⟩ := updateNode_total hord (p := p) (t := true) h hac he hp hb
  obtain ⟨hw1, he1, -, -⟩ := updateNode_wf h h1 he
  have hac1 := ac_updateNode hac h1
  have hlive : ∀ x ∈ (g1.elementParents i).flatMap (fun par => xs.map fun x => (par, x)), (g1.node? x.1).isSome := by
    intro x hx
    obtain ⟨par, hpar, hx⟩ := List.mem_flatMap.1 hx
    obtain ⟨y, -, rfl⟩ := List.mem_map.1 hx
    obtain ⟨ed, h2, rfl, -, -, -⟩ := elementParents_edge hpar
    exact (hw1.edges_valid _ h2).1
  let e1 : ElemNode := { e with isProcessed := true, processed := some p, isDimTemplate := e.isDimTemplate || true }
  have he1 : g1.elem? i = some e1 := he1
  obtain ⟨⟨g2, js⟩, h2⟩ := addInstances_total (lvl := e1.level) (p := e1.parsed) hw1 hlive
  obtain ⟨hw2, hx2, hf, -, hlen, -, hed⟩ := addInstances_effect (e := e1) hw1 h2 hlive
  have hi1 : (g1.node? i).isSome := by rw [elem?_node?.1 he1]; rfl
  have hij : i ∉ js := fun hc => by rw [hf i hc] at hi1; cases hi1
  have hac2 := ac_addInstances hac1 h2
  have new : ∀ j a x, (j, (a, x)) ∈ js.zip ((g1.elementParents i).flatMap (fun par => xs.map fun x => (par, x))) →
      j ∈ js ∧ Linked g1.edges a i ∧ (g1.node? a).isSome := by
    intro j a x hj
    have h3 := List.of_mem_zip hj
    refine ⟨h3.1, ?_, hlive _ h3.2⟩
    obtain ⟨par, hpar, hx⟩ := List.mem_flatMap.1 h3.2
    obtain ⟨y, -, hy⟩ := List.mem_map.1 hx
    injection hy with hy1 hy2
    subst hy1
    obtain ⟨ed, h4, h5, h6, -⟩ := elementParents_edge hpar
    exact ⟨ed, h4, h5, h6⟩
  classical
  let β : Nat → Nat := fun k => if k ∈ js then i else k
  have hβ : ∀ k, (g1.node? k).isSome → β k = k := by
    intro k hk
    simp only [β]
    rw [if_neg]
    intro hc
    rw [hf k hc] at hk
    cases hk
  let F : List Edge := g2.edges ++ js.flatMap fun j => (g1.edges.filter fun e => e.src == i).map fun e => ⟨j, e.dst, .childR⟩
  have hF : Acyclic F := by
    apply acyclic_map hac1 β
    intro ed hm
    simp only [F, List.mem_append, List.mem_flatMap, List.mem_map, List.mem_filter, beq_iff_eq] at hm
    rcases hm with hm | ⟨j, hj, e0, ⟨h3, h4⟩, rfl⟩
    · rcases (hed ed).1 hm with h3 | ⟨j, a, x, h3, rfl⟩
      · rw [hβ _ (hw1.edges_valid _ h3).1, hβ _ (hw1.edges_valid _ h3).2]
        exact ⟨ed, h3, rfl, rfl⟩
      · obtain ⟨h4, h5, h6⟩ := new j a x h3
        simp only
        rw [hβ a h6, show β j = i by simp only [β]; rw [if_pos h4]]
        exact h5
    · simp only
      rw [hβ _ (hw1.edges_valid _ h3).2, show β j = i by simp only [β]; rw [if_pos hj]]
      exact ⟨e0, h3, h4, rfl⟩
  obtain ⟨g3, h3⟩ := linkInstances_total hF (i := i) (g0 := g1) (js := js) (g := g2) hij
    (fun ed hm => ⟨ed, by simp [F, hm], rfl, rfl⟩)
    (fun ed hm hs => by
      rcases (hed ed).1 hm with h3 | ⟨j, a, x, h3, rfl⟩
      · exact h3
      · exfalso
        obtain ⟨h4, ⟨e0, h5, h6, h7⟩, h8⟩ := new j a x h3
        have hs : a = i := hs
        subst hs
        exact hac1 a (by
          have hc := Conn.edge h5
          rw [h6, h7] at hc
          exact hc))
    (fun j hj ed hm hs => ⟨⟨j, ed.dst, .childR⟩, by
      simp only [F, List.mem_append, List.mem_flatMap, List.mem_map, List.mem_filter, beq_iff_eq]
      exact Or.inr ⟨j, hj, ed, ⟨hm, hs⟩, rfl⟩, rfl, rfl⟩)
  refine ⟨g3, M.bind_eq_ok.2 ⟨_, _, _, h1, ?_, rfl⟩⟩
  rw [he1]
  exact M.bind_eq_ok.2 ⟨_, _, _, h2, h3, rfl⟩

end Svd
