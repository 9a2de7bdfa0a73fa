import Verif.Lemmas.Nodes
/- Structural well-formedness of the resolver graph, preserved by every operation. -/
namespace Svd
open Graph

/-- Free slots are empty, edges join existing nodes, the placeholder list lists placeholder nodes. -/
structure WF (g : Graph) : Prop where
  free_none : ∀ i ∈ g.free, g.nodes[i]? = some none
  free_nodup : g.free.Nodup
  edges_valid : ∀ e ∈ g.edges, (g.node? e.src).isSome ∧ (g.node? e.dst).isSome

/-- All nodes of `g` are nodes of `g'`, at the same index. -/
def Ext (g g' : Graph) : Prop := ∀ j n, g.node? j = some n → g'.node? j = some n

theorem Ext.refl (g : Graph) : Ext g g := fun _ _ h => h
theorem Ext.trans {a b c : Graph} (h1 : Ext a b) (h2 : Ext b c) : Ext a c := fun j n h => h2 j n (h1 j n h)
theorem Ext.of_nodes {g g' : Graph} (h : g'.nodes = g.nodes) : Ext g g' := by
  intro j n hn; unfold Graph.node? at *; rw [h]; exact hn
theorem Ext.elem {g g' : Graph} (h : Ext g g') {i : Nat} {e : ElemNode} (he : g.elem? i = some e) :
    g'.elem? i = some e := elem?_node?.2 (h _ _ (elem?_node?.1 he))
theorem Ext.isSome {g g' : Graph} (h : Ext g g') {i : Nat} (he : (g.node? i).isSome) : (g'.node? i).isSome := by
  obtain ⟨n, hn⟩ := Option.isSome_iff_exists.1 he
  rw [h _ _ hn]; rfl

theorem node?_congr {g g' : Graph} (h : g'.nodes = g.nodes) (j : Nat) : g'.node? j = g.node? j := by
  unfold Graph.node?; rw [h]

theorem elem?_congr {g g' : Graph} (h : g'.nodes = g.nodes) (j : Nat) : g'.elem? j = g.elem? j := by
  unfold Graph.elem?; rw [node?_congr h]

theorem node?_lt {g : Graph} {i : Nat} {n : Node} (h : g.node? i = some n) : i < g.nodes.length := by
  unfold Graph.node? at h
  cases hi : g.nodes[i]? with
  | none => rw [hi] at h; cases h
  | some o => exact (List.getElem?_eq_some_iff.1 hi).1

theorem node?_set {g : Graph} {i j : Nat} {o : Option Node} (hi : i < g.nodes.length) (g' : Graph)
    (hg : g'.nodes = g.nodes.set i o) : g'.node? j = if j = i then o else g.node? j := by
  unfold Graph.node?
  rw [hg, List.getElem?_set]
  by_cases h : i = j
  · subst h; simp [hi]
  · have : ¬ j = i := fun hh => h hh.symm
    simp [h, this]

/-- The new node, and nothing else changes. -/
theorem addNode_spec {g : Graph} (h : WF g) (n : Node) :
    g.node? (g.addNode n).2 = none ∧
    (∀ j, (g.addNode n).1.node? j = if j = (g.addNode n).2 then some n else g.node? j) ∧
    (g.addNode n).1.edges = g.edges ∧ (g.addNode n).1.placeholders = g.placeholders := by
  unfold Graph.addNode
  split
  · rename_i i rest hf
    have hi : g.nodes[i]? = some none := h.free_none i (by rw [hf]; simp)
    have hlt : i < g.nodes.length := (List.getElem?_eq_some_iff.1 hi).1
    refine ⟨?_, ?_, rfl, rfl⟩
    · unfold Graph.node?; rw [hi]; rfl
    · intro j
      exact node?_set hlt _ rfl
  · refine ⟨?_, ?_, rfl, rfl⟩
    · unfold Graph.node?
      rw [List.getElem?_eq_none (Nat.le_refl _)]; rfl
    · intro j
      unfold Graph.node?
      simp only
      by_cases hj : j = g.nodes.length
      · subst hj; simp
      · rw [if_neg hj]
        by_cases hlt : j < g.nodes.length
        · rw [List.getElem?_append_left hlt]
        · have h1 : g.nodes.length ≤ j := by omega
          rw [List.getElem?_append_right h1, List.getElem?_eq_none h1, List.getElem?_eq_none (by simp; omega)]

theorem addNode_ext {g : Graph} (h : WF g) (n : Node) : Ext g (g.addNode n).1 := by
  intro j m hm
  rw [(addNode_spec h n).2.1, if_neg]
  · exact hm
  · rintro rfl; rw [(addNode_spec h n).1] at hm; cases hm

theorem addNode_wf {g : Graph} (h : WF g) (n : Node) : WF (g.addNode n).1 := by
  have hs := addNode_spec h n
  have hx := addNode_ext h n
  refine ⟨?_, ?_, ?_⟩
  · unfold Graph.addNode
    split
    · rename_i i rest hf
      intro j hj
      simp only at hj ⊢
      have hnd := h.free_nodup
      rw [hf, List.nodup_cons] at hnd
      have hne : i ≠ j := by rintro rfl; exact hnd.1 hj
      rw [List.getElem?_set_ne hne]
      exact h.free_none j (by rw [hf]; simp [hj])
    · rename_i hf
      intro j hj
      simp only [hf] at hj
      cases hj
  · unfold Graph.addNode
    split
    · rename_i i rest hf
      have hnd := h.free_nodup
      rw [hf, List.nodup_cons] at hnd
      exact hnd.2
    · exact h.free_nodup
  · intro e he
    rw [hs.2.2.1] at he
    have := h.edges_valid e he
    exact ⟨hx.isSome this.1, hx.isSome this.2⟩

theorem WF.of_eq {g g' : Graph} (h : WF g) (h1 : g'.nodes = g.nodes) (h2 : g'.free = g.free)
    (h3 : ∀ e ∈ g'.edges, e ∈ g.edges ∨ ((g.node? e.src).isSome ∧ (g.node? e.dst).isSome)) : WF g' := by
  refine ⟨?_, ?_, ?_⟩
  · rw [h1, h2]; exact h.free_none
  · rw [h2]; exact h.free_nodup
  · intro e he
    simp only [node?_congr h1]
    rcases h3 e he with h' | h'
    · exact h.edges_valid e h'
    · exact h'

theorem rawAddEdge_wf {g g' : Graph} {x : Exn} {a b : Nat} {ty : EdgeT} {ws : List Warn} (h : WF g)
    (hr : g.rawAddEdge x a b ty = .ok g' ws) (ha : (g.node? a).isSome) (hb : (g.node? b).isSome) :
    WF g' ∧ Ext g g' := by
  obtain ⟨rfl, -, -⟩ := rawAddEdge_nodes hr
  refine ⟨h.of_eq rfl rfl ?_, Ext.of_nodes rfl⟩
  intro e he
  rcases List.mem_cons.1 he with rfl | he
  · exact Or.inr ⟨ha, hb⟩
  · exact Or.inl he

theorem addElementChild_wf {g g' : Graph} {p i : Nat} {e : ElemNode} {ty : EdgeT} {ws : List Warn} (h : WF g)
    (hr : g.addElementChild p e ty = .ok (g', i) ws) (hp : (g.node? p).isSome) :
    WF g' ∧ Ext g g' ∧ g'.node? i = some (.elem e) ∧ g.node? i = none := by
  obtain ⟨rfl, rfl, -, -⟩ := addElementChild_ok hr
  have hx := addNode_ext h (.elem e)
  have hs := addNode_spec h (.elem e)
  have hi : (g.addNode (.elem e)).1.node? (g.addNode (.elem e)).2 = some (.elem e) := by rw [hs.2.1]; simp
  refine ⟨(addNode_wf h _).of_eq rfl rfl ?_, hx.trans (Ext.of_nodes rfl), ?_, hs.1⟩
  · intro e' he
    rcases List.mem_cons.1 he with rfl | he
    · exact Or.inr ⟨hx.isSome hp, by rw [hi]; rfl⟩
    · exact Or.inl he
  · exact hi

theorem addPlaceholder_wf {g g' : Graph} {path : Str} {i : Nat} {ws : List Warn} (h : WF g)
    (hr : g.addPlaceholder path i = .ok g' ws) (hp : (g.node? i).isSome) : WF g' ∧ Ext g g' := by
  obtain ⟨rfl, -, -⟩ := addPlaceholder_ok hr
  have hx := addNode_ext h (.ph path)
  have hs := addNode_spec h (.ph path)
  refine ⟨(addNode_wf h _).of_eq rfl rfl ?_, hx.trans (Ext.of_nodes rfl)⟩
  intro e' he
  rcases List.mem_cons.1 he with rfl | he
  · exact Or.inr ⟨by rw [hs.2.1]; simp, hx.isSome hp⟩
  · exact Or.inl he

theorem addChildToGraph_wf {g g' : Graph} {p i : Nat} {e : ElemNode} {ws : List Warn} (h : WF g)
    (hr : addChildToGraph g p e = .ok (g', i) ws) (hp : (g.node? p).isSome) :
    WF g' ∧ Ext g g' ∧ g'.node? i = some (.elem e) := by
  unfold addChildToGraph at hr
  simp only [M.bind_eq_ok] at hr
  obtain ⟨⟨g1, j⟩, w1, w2, h1, h2, rfl⟩ := hr
  obtain ⟨a, b, c, -⟩ := addElementChild_wf h h1 hp
  cases hd : e.parsed.derivedFrom with
  | none =>
    rw [hd] at h2
    simp only [M.pure_eq_ok, Prod.mk.injEq] at h2
    obtain ⟨⟨rfl, rfl⟩, rfl⟩ := h2
    exact ⟨a, b, c⟩
  | some path =>
    rw [hd] at h2
    simp only [M.bind_eq_ok, M.pure_eq_ok, Prod.mk.injEq] at h2
    obtain ⟨g3, w3, w4, h3, ⟨⟨rfl, rfl⟩, rfl⟩, rfl⟩ := h2
    obtain ⟨a', b'⟩ := addPlaceholder_wf a h3 (by rw [c]; rfl)
    exact ⟨a', b.trans b', b' _ _ c⟩

theorem removePlaceholder_wf {g : Graph} {i : Nat} (h : WF g) (hi : (g.node? i).isSome) :
    WF (g.removePlaceholder i) ∧ (∀ j, (g.removePlaceholder i).node? j = if j = i then none else g.node? j) ∧
      (g.removePlaceholder i).edges = g.edges.filter fun e => e.src != i && e.dst != i := by
  obtain ⟨n, hn⟩ := Option.isSome_iff_exists.1 hi
  have hlt := node?_lt hn
  have hnode : ∀ j, (g.removePlaceholder i).node? j = if j = i then none else g.node? j :=
    fun j => node?_set hlt _ rfl
  refine ⟨⟨?_, ?_, ?_⟩, hnode, rfl⟩
  · intro j hj
    have hj' : j = i ∨ j ∈ g.free := by simpa [Graph.removePlaceholder, Graph.removeNode] using hj
    show (g.nodes.set i none)[j]? = some none
    rcases hj' with rfl | hj'
    · simp [hlt]
    · by_cases hij : i = j
      · subst hij; simp [hlt]
      · rw [List.getElem?_set_ne hij]; exact h.free_none j hj'
  · show (i :: g.free).Nodup
    rw [List.nodup_cons]
    refine ⟨?_, h.free_nodup⟩
    intro hf
    have := h.free_none i hf
    unfold Graph.node? at hn
    rw [this] at hn; cases hn
  · intro e he
    have he' : e ∈ g.edges.filter fun e => e.src != i && e.dst != i := he
    rw [List.mem_filter] at he'
    simp only [Bool.and_eq_true, bne_iff_ne] at he'
    rw [hnode, hnode, if_neg he'.2.1, if_neg he'.2.2]
    exact h.edges_valid e he'.1

/-- Replacing the element at an existing index. -/
theorem setElem_wf {g : Graph} {i : Nat} {e : ElemNode} (h : WF g) (hi : (g.node? i).isSome) :
    WF (g.setElem i e) ∧ ∀ j, (g.setElem i e).node? j = if j = i then some (.elem e) else g.node? j := by
  obtain ⟨n, hn⟩ := Option.isSome_iff_exists.1 hi
  have hlt := node?_lt hn
  have hnode : ∀ j, (g.setElem i e).node? j = if j = i then some (.elem e) else g.node? j :=
    fun j => node?_set hlt _ rfl
  refine ⟨⟨?_, h.free_nodup, ?_⟩, hnode⟩
  · intro j hj
    have hj' : j ∈ g.free := hj
    show (g.nodes.set i (some (.elem e)))[j]? = some none
    by_cases hij : i = j
    · subst hij
      have := h.free_none i hj'
      unfold Graph.node? at hn
      rw [this] at hn; cases hn
    · rw [List.getElem?_set_ne hij]; exact h.free_none j hj'
  · intro e' he
    have := h.edges_valid e' he
    rw [hnode, hnode]
    constructor
    · split
      · rfl
      · exact this.1
    · split
      · rfl
      · exact this.2

theorem setElem_elem? {g : Graph} {i j : Nat} {e : ElemNode} (hi : (g.node? i).isSome) :
    (g.setElem i e).elem? j = if j = i then some e else g.elem? j := by
  obtain ⟨n, hn⟩ := Option.isSome_iff_exists.1 hi
  have hnode : (g.setElem i e).node? j = if j = i then some (.elem e) else g.node? j :=
    node?_set (node?_lt hn) _ rfl
  unfold Graph.elem?
  rw [hnode]
  by_cases h : j = i <;> simp [h]

theorem addEdges_wf {g g' : Graph} {es : List Edge} {ws : List Warn} (h : WF g) (hr : g.addEdges es = .ok g' ws)
    (hv : ∀ e ∈ es, (g.node? e.src).isSome ∧ (g.node? e.dst).isSome) : WF g' ∧ Ext g g' := by
  obtain ⟨h1, h2, -, h3, -⟩ := addEdges_nodes hr
  refine ⟨h.of_eq h1 h2 ?_, Ext.of_nodes h1⟩
  intro e he
  rw [h3, List.mem_append, List.mem_reverse] at he
  rcases he with he | he
  · exact Or.inr (hv e he)
  · exact Or.inl he

/-- Replicated nodes: new indices, the mapping points to existing nodes. -/
theorem replicateNodes_wf {g g' : Graph} {m m' : List (Nat × Nat)} {is : List Nat} {ws : List Warn} (h : WF g)
    (hr : g.replicateNodes m is = .ok (g', m') ws) (hm : ∀ p ∈ m, (g.node? p.2).isSome) :
    WF g' ∧ Ext g g' ∧ (∀ p ∈ m', (g'.node? p.2).isSome) ∧ g'.edges = g.edges ∧ ws = [] := by
  induction is generalizing g m ws with
  | nil =>
    simp only [Graph.replicateNodes, M.pure_eq_ok, Prod.mk.injEq] at hr
    obtain ⟨⟨rfl, rfl⟩, rfl⟩ := hr
    exact ⟨h, Ext.refl _, hm, rfl, rfl⟩
  | cons i is ih =>
    simp only [Graph.replicateNodes] at hr
    split at hr
    · simp at hr
    · rename_i n hn
      have hs := addNode_spec h n
      have hx := addNode_ext h n
      have hw := addNode_wf h n
      have key : ∀ g2 : Graph, g2.nodes = (g.addNode n).1.nodes → g2.free = (g.addNode n).1.free →
          g2.edges = (g.addNode n).1.edges →
          replicateNodes g2 (m ++ [(i, (g.addNode n).2)]) is = .ok (g', m') ws →
          WF g' ∧ Ext g g' ∧ (∀ p ∈ m', (g'.node? p.2).isSome) ∧ g'.edges = g.edges ∧ ws = [] := by
        intro g2 e1 e2 e3 hr
        have hw2 : WF g2 := hw.of_eq e1 e2 (fun e he => Or.inl (by rw [← e3]; exact he))
        have hx2 : Ext g g2 := hx.trans (Ext.of_nodes e1)
        obtain ⟨a, b, c, d, f⟩ := ih hw2 hr (by
          intro p hp
          rcases List.mem_append.1 hp with hp | hp
          · exact hx2.isSome (hm p hp)
          · simp only [List.mem_singleton] at hp
            subst hp
            rw [node?_congr e1, hs.2.1]; simp)
        exact ⟨a, hx2.trans b, c, by rw [d, e3, hs.2.2.1], f⟩
      cases n with
      | ph path =>
        exact key { (g.addNode (.ph path)).1 with
          placeholders := (g.addNode (.ph path)).1.placeholders ++ [(g.addNode (.ph path)).2] } rfl rfl rfl hr
      | elem e => exact key _ rfl rfl rfl hr

theorem mapIdx_valid {g : Graph} {m : List (Nat × Nat)} (hm : ∀ p ∈ m, (g.node? p.2).isSome) {i : Nat}
    (hi : (g.node? i).isSome) : (g.node? (mapIdx m i)).isSome := by
  unfold Graph.mapIdx
  cases h : m.lookup i with
  | none => exact hi
  | some j =>
    have : (i, j) ∈ m := by
      induction m with
      | nil => cases h
      | cons p m ih =>
        obtain ⟨a, b⟩ := p
        simp only [List.lookup] at h
        split at h
        · rename_i hab
          simp only [Option.some.injEq] at h
          have : i = a := by simpa using hab
          subst this; subst h; simp
        · exact List.mem_cons_of_mem _ (ih (fun p hp => hm p (by simp [hp])) h)
    exact hm _ this

theorem outEdges_mem {g : Graph} {i : Nat} {e : Edge} (h : e ∈ g.outEdges i) : e ∈ g.edges ∧ e.src = i := by
  simpa [Graph.outEdges] using h
theorem inEdges_mem {g : Graph} {i : Nat} {e : Edge} (h : e ∈ g.inEdges i) : e ∈ g.edges ∧ e.dst = i := by
  simpa [Graph.inEdges] using h

theorem replicateEdges_wf {m : List (Nat × Nat)} {sel is : List Nat} {g g' : Graph} {ws : List Warn} (h : WF g)
    (hr : replicateEdges m sel g is = .ok g' ws) (hm : ∀ p ∈ m, (g.node? p.2).isSome) : WF g' ∧ Ext g g' := by
  induction is generalizing g ws with
  | nil =>
    simp only [Graph.replicateEdges, M.pure_eq_ok] at hr
    obtain ⟨rfl, -⟩ := hr
    exact ⟨h, Ext.refl _⟩
  | cons i is ih =>
    simp only [Graph.replicateEdges, M.bind_eq_ok] at hr
    obtain ⟨g1, w1, w2, h1, ⟨g2, w3, w4, h2, h3, rfl⟩, rfl⟩ := hr
    obtain ⟨a1, b1⟩ := addEdges_wf h h1 (by
      intro e he
      obtain ⟨e', he', rfl⟩ := List.mem_map.1 he
      obtain ⟨he', -⟩ := List.mem_filter.1 he'
      obtain ⟨he1, hsrc⟩ := outEdges_mem he'
      have := h.edges_valid _ he1
      rw [hsrc] at this
      exact ⟨mapIdx_valid hm this.1, mapIdx_valid hm this.2⟩)
    have hm1 : ∀ p ∈ m, (g1.node? p.2).isSome := fun p hp => b1.isSome (hm p hp)
    obtain ⟨a2, b2⟩ := addEdges_wf a1 h2 (by
      intro e he
      obtain ⟨e', he', rfl⟩ := List.mem_map.1 he
      obtain ⟨he', -⟩ := List.mem_filter.1 he'
      obtain ⟨he1, hdst⟩ := inEdges_mem he'
      have := a1.edges_valid _ he1
      rw [hdst] at this
      exact ⟨this.1, mapIdx_valid hm1 this.2⟩)
    obtain ⟨a3, b3⟩ := ih a2 h3 (fun p hp => b2.isSome (hm1 p hp))
    exact ⟨a3, b1.trans (b2.trans b3)⟩

theorem replicateDescendants_wf {ord : List Nat → List Nat} {g g' : Graph} {a b : Nat} {ws : List Warn} (h : WF g)
    (hr : g.replicateDescendants ord a b = .ok g' ws) (hb : (g.node? b).isSome) : WF g' ∧ Ext g g' := by
  unfold Graph.replicateDescendants at hr
  simp only [M.bind_eq_ok] at hr
  obtain ⟨⟨g1, m⟩, w1, w2, h1, ⟨g2, w3, w4, h2, h3, rfl⟩, rfl⟩ := hr
  obtain ⟨a1, b1, c1, -, -⟩ := replicateNodes_wf h h1 (by simp)
  obtain ⟨a2, b2⟩ := replicateEdges_wf a1 h2 c1
  obtain ⟨a3, b3⟩ := addEdges_wf a2 h3 (by
    intro e he
    obtain ⟨e', he', rfl⟩ := List.mem_map.1 he
    obtain ⟨he', -⟩ := List.mem_filter.1 he'
    obtain ⟨he1, -⟩ := outEdges_mem he'
    have := a2.edges_valid _ he1
    exact ⟨(b1.trans b2).isSome hb, mapIdx_valid (fun p hp => b2.isSome (c1 p hp)) this.2⟩)
  exact ⟨a3, b1.trans (b2.trans b3)⟩

theorem eraseEdge_sub {a b : Nat} {es : List Edge} {e : Edge} (h : e ∈ eraseEdge a b es) : e ∈ es := by
  induction es with
  | nil => cases h
  | cons x xs ih =>
    simp only [eraseEdge] at h
    split at h
    · exact List.mem_cons_of_mem _ h
    · rcases List.mem_cons.1 h with rfl | h
      · simp
      · exact List.mem_cons_of_mem _ (ih h)

theorem adoptBase_wf {ord : List Nat → List Nat} {g g' : Graph} {i : Nat} {base : Option Nat} {ws : List Warn}
    (h : WF g) (hr : adoptBase ord g i base = .ok g' ws) (hi : (g.node? i).isSome) : WF g' ∧ Ext g g' := by
  unfold adoptBase at hr
  split at hr
  · simp only [M.pure_eq_ok] at hr; obtain ⟨rfl, -⟩ := hr; exact ⟨h, Ext.refl _⟩
  · simp only [M.bind_eq_ok] at hr
    obtain ⟨g1, w1, w2, h1, h2, rfl⟩ := hr
    obtain ⟨rfl, -, -⟩ := removeEdge_ok h1
    rename_i b0
    have h1 := h.of_eq (g' := { g with edges := eraseEdge b0 i g.edges }) rfl rfl
      (fun e he => Or.inl (eraseEdge_sub he))
    obtain ⟨a, b⟩ := replicateDescendants_wf h1 h2 hi
    exact ⟨a, (Ext.of_nodes rfl).trans b⟩

theorem retypeEdge_mem {a b : Nat} {ty : EdgeT} {es : List Edge} {e : Edge} (h : e ∈ retypeEdge a b ty es) :
    ∃ e' ∈ es, e'.src = e.src ∧ e'.dst = e.dst ∧ (e' = e ∨ (e.src = a ∧ e.dst = b ∧ e.ty = ty)) := by
  induction es with
  | nil => cases h
  | cons x xs ih =>
    simp only [retypeEdge] at h
    split at h
    · rename_i hx
      simp only [Bool.and_eq_true, beq_iff_eq] at hx
      rcases List.mem_cons.1 h with rfl | h
      · exact ⟨x, by simp, rfl, rfl, Or.inr ⟨hx.1, hx.2, rfl⟩⟩
      · exact ⟨e, by simp [h], rfl, rfl, Or.inl rfl⟩
    · rcases List.mem_cons.1 h with rfl | h
      · exact ⟨e, by simp, rfl, rfl, Or.inl rfl⟩
      · obtain ⟨e', he', h'⟩ := ih h
        exact ⟨e', by simp [he'], h'⟩

theorem resolveChildEdges_mem {i : Nat} {cs : List Nat} {g : Graph} {e : Edge}
    (h : e ∈ (resolveChildEdges i g cs).edges) :
    ∃ e' ∈ g.edges, e'.src = e.src ∧ e'.dst = e.dst ∧ (e' = e ∨ (e.src = i ∧ e.dst ∈ cs ∧ e.ty = .childR)) := by
  induction cs generalizing g with
  | nil => exact ⟨e, h, rfl, rfl, Or.inl rfl⟩
  | cons c cs ih =>
    simp only [resolveChildEdges] at h
    obtain ⟨e1, h1, h2, h3, h4⟩ := ih h
    obtain ⟨e2, h5, h6, h7, h8⟩ := retypeEdge_mem (show e1 ∈ retypeEdge i c .childR g.edges from h1)
    refine ⟨e2, h5, by rw [h6, h2], by rw [h7, h3], ?_⟩
    rcases h4 with rfl | ⟨h4, h4', h4''⟩
    · rcases h8 with rfl | ⟨ha, hb, hc⟩
      · exact Or.inl rfl
      · exact Or.inr ⟨ha, by simp [hb], hc⟩
    · exact Or.inr ⟨h4, by simp [h4'], h4''⟩

theorem resolveChildEdges_wf {i : Nat} {g : Graph} {cs : List Nat} (h : WF g) : WF (resolveChildEdges i g cs) := by
  refine h.of_eq resolveChildEdges_nodes.1 resolveChildEdges_nodes.2.2 ?_
  intro e he
  obtain ⟨e', h1, h2, h3, -⟩ := resolveChildEdges_mem he
  right
  rw [← h2, ← h3]
  exact h.edges_valid e' h1

/-- Nodes after `_update_node`. -/
theorem updateNode_wf {ord : List Nat → List Nat} {g g' : Graph} {i : Nat} {base : Option Nat} {p : Processed}
    {t : Bool} {ws : List Warn} {e : ElemNode} (h : WF g) (hr : updateNode ord g i base p t = .ok g' ws)
    (he : g.elem? i = some e) :
    WF g' ∧ g'.elem? i = some { e with isProcessed := true, processed := some p,
                                       isDimTemplate := e.isDimTemplate || t } ∧ e.processed = none ∧
      (∀ j n, j ≠ i → g.node? j = some n → g'.node? j = some n) := by
  obtain ⟨g1, e1, h1, h2, h3, rfl⟩ := updateNode_ok hr
  have hi : (g.node? i).isSome := by rw [elem?_node?.1 he]; rfl
  obtain ⟨a, b⟩ := adoptBase_wf h h1 hi
  have : e1 = e := by have := b.elem he; rw [h2] at this; exact Option.some.inj this
  subst this
  have hi1 := b.isSome hi
  obtain ⟨c, d⟩ := setElem_wf (e := { e1 with isProcessed := true, processed := some p,
                                              isDimTemplate := e1.isDimTemplate || t }) a hi1
  refine ⟨resolveChildEdges_wf c, ?_, h3, ?_⟩
  · rw [elem?_congr resolveChildEdges_nodes.1, setElem_elem? hi1, if_pos rfl]
  · intro j n hj hn
    rw [node?_congr resolveChildEdges_nodes.1, d, if_neg hj]
    exact b _ _ hn

theorem addInstances_wf {lvl : Level} {parsed : Parsed} {g g' : Graph} {xs : List (Nat × Processed)} {js : List Nat}
    {ws : List Warn} (h : WF g) (hr : addInstances lvl parsed g xs = .ok (g', js) ws)
    (hx : ∀ x ∈ xs, (g.node? x.1).isSome) :
    WF g' ∧ Ext g g' ∧ (∀ j ∈ js, (g'.node? j).isSome) := by
  induction xs generalizing g js ws with
  | nil =>
    simp only [addInstances, M.pure_eq_ok, Prod.mk.injEq] at hr
    obtain ⟨⟨rfl, rfl⟩, -⟩ := hr
    exact ⟨h, Ext.refl _, by simp⟩
  | cons x xs ih =>
    obtain ⟨par, x⟩ := x
    simp only [addInstances, M.bind_eq_ok, M.pure_eq_ok, Prod.mk.injEq] at hr
    obtain ⟨⟨g1, j⟩, w1, w2, h1, ⟨⟨g2, js'⟩, w3, w4, h2, ⟨⟨rfl, rfl⟩, rfl⟩, rfl⟩, rfl⟩ := hr
    obtain ⟨a, b, c, -⟩ := addElementChild_wf h h1 (hx (par, x) (by simp))
    obtain ⟨a', b', c'⟩ := ih a h2 (fun y hy => b.isSome (hx y (by simp [hy])))
    refine ⟨a', b.trans b', ?_⟩
    intro k hk
    rcases List.mem_cons.1 hk with rfl | hk
    · exact b'.isSome (by rw [c]; rfl)
    · exact c' k hk

theorem elementChildren_edge {g : Graph} {i c : Nat} (h : c ∈ g.elementChildren i) :
    ∃ e ∈ g.edges, e.src = i ∧ e.dst = c ∧ isChildEdge e = true ∧ g.isElem c = true := by
  unfold Graph.elementChildren at h
  obtain ⟨e, he, rfl⟩ := List.mem_map.1 h
  obtain ⟨h1, h2⟩ := List.mem_filter.1 he
  obtain ⟨h3, h4⟩ := outEdges_mem h1
  simp only [Bool.and_eq_true] at h2
  exact ⟨e, h3, h4, rfl, h2.2, h2.1⟩

theorem elementParents_edge {g : Graph} {i c : Nat} (h : c ∈ g.elementParents i) :
    ∃ e ∈ g.edges, e.src = c ∧ e.dst = i ∧ isChildEdge e = true ∧ g.isElem c = true := by
  unfold Graph.elementParents at h
  obtain ⟨e, he, rfl⟩ := List.mem_map.1 h
  obtain ⟨h1, h2⟩ := List.mem_filter.1 he
  obtain ⟨h3, h4⟩ := inEdges_mem h1
  simp only [Bool.and_eq_true] at h2
  exact ⟨e, h3, rfl, h4, h2.2, h2.1⟩

theorem linkInstances_wf {i : Nat} {g g' : Graph} {js : List Nat} {ws : List Warn} (h : WF g)
    (hr : linkInstances i g js = .ok g' ws) (hj : ∀ j ∈ js, (g.node? j).isSome) : WF g' ∧ Ext g g' := by
  induction js generalizing g ws with
  | nil =>
    simp only [linkInstances, M.pure_eq_ok] at hr
    obtain ⟨rfl, -⟩ := hr; exact ⟨h, Ext.refl _⟩
  | cons j js ih =>
    simp only [linkInstances, M.bind_eq_ok] at hr
    obtain ⟨g1, w1, w2, h1, h2, rfl⟩ := hr
    obtain ⟨a, b, c, d, -⟩ := linkChildren_nodes h1
    have hw : WF g1 := h.of_eq a c (by
      intro e he
      rw [d, List.mem_append, List.mem_reverse] at he
      rcases he with he | he
      · obtain ⟨k, hk, rfl⟩ := List.mem_map.1 he
        obtain ⟨e', he', -, rfl, -⟩ := elementChildren_edge hk
        exact Or.inr ⟨hj j (by simp), (h.edges_valid e' he').2⟩
      · exact Or.inl he)
    obtain ⟨a', b'⟩ := ih hw h2 (fun k hk => by rw [node?_congr a]; exact hj k (by simp [hk]))
    exact ⟨a', (Ext.of_nodes a).trans b'⟩

theorem updateDimNode_wf {ord : List Nat → List Nat} {g g' : Graph} {i : Nat} {base : Option Nat}
    {xs : List Processed} {p : Processed} {ws : List Warn} {e : ElemNode} (h : WF g)
    (hr : updateDimNode ord g i base xs p = .ok g' ws) (he : g.elem? i = some e) :
    WF g' ∧ g'.elem? i = some { e with isProcessed := true, processed := some p, isDimTemplate := true } ∧
      e.processed = none ∧ (∀ j n, j ≠ i → g.node? j = some n → g'.node? j = some n) := by
  obtain ⟨g1, e1, g2, js, h1, h2, h3, h4⟩ := updateDimNode_ok hr
  obtain ⟨a, b, c, d⟩ := updateNode_wf h h1 he
  obtain ⟨a2, b2, c2⟩ := addInstances_wf a h3 (by
    intro x hx
    obtain ⟨par, hpar, hx⟩ := List.mem_flatMap.1 hx
    obtain ⟨y, -, rfl⟩ := List.mem_map.1 hx
    obtain ⟨e', he', rfl, -⟩ := elementParents_edge hpar
    exact (a.edges_valid e' he').1)
  obtain ⟨a3, b3⟩ := linkInstances_wf a2 h4 c2
  have hx := b2.trans b3
  refine ⟨a3, ?_, c, fun j n hj hn => hx _ _ (d j n hj hn)⟩
  have := hx.elem b
  simpa using this

end Svd
