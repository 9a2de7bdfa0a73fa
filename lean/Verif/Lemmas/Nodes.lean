import Verif.Lemmas.Basic
import Verif.Model.Resolver
/- Invariants over the nodes of the graph: which operations create which nodes. -/
namespace Svd
open Graph

/-- Every node of the graph satisfies `Q`. -/
def AllN (Q : Node → Prop) (g : Graph) : Prop := ∀ n, some n ∈ g.nodes → Q n

theorem node?_mem {g : Graph} {i : Nat} {n : Node} (h : g.node? i = some n) : some n ∈ g.nodes := by
  unfold Graph.node? at h
  cases hi : g.nodes[i]? with
  | none => rw [hi] at h; cases h
  | some o =>
    rw [hi] at h
    simp only [Option.bind_some, id] at h
    subst h
    exact List.mem_of_getElem? hi

theorem elem?_node? {g : Graph} {i : Nat} {e : ElemNode} : g.elem? i = some e ↔ g.node? i = some (.elem e) := by
  unfold Graph.elem?
  split
  · rename_i e' h; rw [h]; simp
  · rename_i h
    constructor
    · intro h'; cases h'
    · intro h'; exact absurd h' (h e)

theorem AllN.elem {Q : Node → Prop} {g : Graph} (h : AllN Q g) {i : Nat} {e : ElemNode} (he : g.elem? i = some e) :
    Q (.elem e) := h _ (node?_mem (elem?_node?.1 he))

theorem AllN.node {Q : Node → Prop} {g : Graph} (h : AllN Q g) {i : Nat} {n : Node} (he : g.node? i = some n) :
    Q n := h _ (node?_mem he)

theorem AllN.of_nodes {Q : Node → Prop} {g g' : Graph} (h : AllN Q g) (he : g'.nodes = g.nodes) : AllN Q g' := by
  unfold AllN; rw [he]; exact h

theorem mem_set_some {l : List (Option Node)} {i : Nat} {o : Option Node} {n : Node} (h : some n ∈ l.set i o) :
    o = some n ∨ some n ∈ l := by
  rcases List.mem_or_eq_of_mem_set h with h | h
  · exact Or.inr h
  · exact Or.inl h.symm

theorem AllN.setNodes {Q : Node → Prop} {g : Graph} (h : AllN Q g) {i : Nat} {o : Option Node}
    (ho : ∀ n, o = some n → Q n) {g' : Graph} (hg : g'.nodes = g.nodes.set i o) : AllN Q g' := by
  intro n hn
  rw [hg] at hn
  rcases mem_set_some hn with h' | h'
  · exact ho n h'
  · exact h n h'

theorem AllN.addNode {Q : Node → Prop} {g : Graph} (h : AllN Q g) {n : Node} (hn : Q n) :
    AllN Q (g.addNode n).1 := by
  unfold Graph.addNode
  split
  · exact h.setNodes (o := some n) (fun m hm => by cases hm; exact hn) rfl
  · intro m hm
    simp only [List.mem_append, List.mem_singleton] at hm
    rcases hm with hm | hm
    · exact h m hm
    · cases hm; exact hn

theorem rawAddEdge_nodes {g g' : Graph} {x : Exn} {a b : Nat} {ty : EdgeT} {ws : List Warn}
    (h : g.rawAddEdge x a b ty = .ok g' ws) :
    g' = { g with edges := ⟨a, b, ty⟩ :: g.edges } ∧ ws = [] ∧ hasPath g.edges b a = false := by
  unfold Graph.rawAddEdge at h
  split at h
  · simp at h
  · rename_i hp
    simp only [M.pure_eq_ok] at h
    exact ⟨h.1.symm, h.2, by simpa using hp⟩

theorem addEdge_nodes {g g' : Graph} {a b : Nat} {ty : EdgeT} {ws : List Warn} (h : g.addEdge a b ty = .ok g' ws) :
    g' = { g with edges := ⟨a, b, ty⟩ :: g.edges } ∧ ws = [] ∧ hasPath g.edges b a = false := rawAddEdge_nodes h

theorem addElementChild_ok {g g' : Graph} {p i : Nat} {e : ElemNode} {ty : EdgeT} {ws : List Warn}
    (h : g.addElementChild p e ty = .ok (g', i) ws) :
    i = (g.addNode (.elem e)).2 ∧
      g' = { (g.addNode (.elem e)).1 with edges := ⟨p, i, ty⟩ :: (g.addNode (.elem e)).1.edges } ∧ ws = [] ∧
      hasPath (g.addNode (.elem e)).1.edges i p = false := by
  unfold Graph.addElementChild at h
  simp only [M.bind_eq_ok, M.pure_eq_ok, Prod.mk.injEq] at h
  obtain ⟨g2, w1, w2, h1, ⟨⟨rfl, rfl⟩, rfl⟩, rfl⟩ := h
  obtain ⟨rfl, rfl, h2⟩ := rawAddEdge_nodes h1
  exact ⟨rfl, rfl, rfl, h2⟩

theorem addPlaceholder_ok {g g' : Graph} {path : Str} {i : Nat} {ws : List Warn}
    (h : g.addPlaceholder path i = .ok g' ws) :
    g' = { (g.addNode (.ph path)).1 with
            edges := ⟨(g.addNode (.ph path)).2, i, .placeholder⟩ :: (g.addNode (.ph path)).1.edges
            placeholders := (g.addNode (.ph path)).1.placeholders ++ [(g.addNode (.ph path)).2] } ∧ ws = [] ∧
      hasPath (g.addNode (.ph path)).1.edges i (g.addNode (.ph path)).2 = false := by
  unfold Graph.addPlaceholder at h
  simp only [M.bind_eq_ok, M.pure_eq_ok] at h
  obtain ⟨g2, w1, w2, h1, ⟨rfl, rfl⟩, rfl⟩ := h
  obtain ⟨rfl, rfl, h2⟩ := rawAddEdge_nodes h1
  exact ⟨rfl, rfl, h2⟩

/-! ### construction -/

theorem AllN.addChildToGraph {Q : Node → Prop} {g g' : Graph} {p i : Nat} {e : ElemNode} {ws : List Warn}
    (h : addChildToGraph g p e = .ok (g', i) ws) (hg : AllN Q g) (he : Q (.elem e))
    (hp : ∀ path, e.parsed.derivedFrom = some path → Q (.ph path)) : AllN Q g' := by
  unfold Svd.addChildToGraph at h
  simp only [M.bind_eq_ok] at h
  obtain ⟨⟨g1, j⟩, w1, w2, h1, h2, rfl⟩ := h
  obtain ⟨rfl, rfl, rfl, -⟩ := addElementChild_ok h1
  have h1' : AllN Q { (g.addNode (.elem e)).1 with
      edges := ⟨p, (g.addNode (.elem e)).2, match g.elem? p with
        | some e => if e.isProcessed then .childR else .childU
        | none => .childU⟩ :: (g.addNode (.elem e)).1.edges } := (hg.addNode he).of_nodes rfl
  cases hd : e.parsed.derivedFrom with
  | none =>
    rw [hd] at h2
    simp only [M.pure_eq_ok, Prod.mk.injEq] at h2
    obtain ⟨⟨rfl, rfl⟩, rfl⟩ := h2
    exact h1'
  | some path =>
    rw [hd] at h2
    simp only [M.bind_eq_ok, M.pure_eq_ok, Prod.mk.injEq] at h2
    obtain ⟨g3, w3, w4, h3, ⟨⟨rfl, rfl⟩, rfl⟩, rfl⟩ := h2
    obtain ⟨rfl, -, -⟩ := addPlaceholder_ok h3
    exact (h1'.addNode (hp path hd)).of_nodes rfl

/-! ### replication -/

theorem addEdges_nodes {g g' : Graph} {es : List Edge} {ws : List Warn} (h : g.addEdges es = .ok g' ws) :
    g'.nodes = g.nodes ∧ g'.free = g.free ∧ g'.placeholders = g.placeholders ∧ g'.edges = es.reverse ++ g.edges ∧
      ws = [] := by
  induction es generalizing g ws with
  | nil =>
    simp only [Graph.addEdges, M.pure_eq_ok] at h
    obtain ⟨rfl, rfl⟩ := h
    exact ⟨rfl, rfl, rfl, rfl, rfl⟩
  | cons e es ih =>
    simp only [Graph.addEdges, M.bind_eq_ok] at h
    obtain ⟨g1, w1, w2, h1, h2, rfl⟩ := h
    obtain ⟨rfl, rfl, -⟩ := rawAddEdge_nodes h1
    obtain ⟨a, b, c, d, rfl⟩ := ih h2
    exact ⟨a, b, c, by simp [d], rfl⟩

theorem AllN.replicateNodes {Q : Node → Prop} {g g' : Graph} {m m' : List (Nat × Nat)} {is : List Nat} {ws : List Warn}
    (h : g.replicateNodes m is = .ok (g', m') ws) (hg : AllN Q g) : AllN Q g' := by
  induction is generalizing g m ws with
  | nil =>
    simp only [Graph.replicateNodes, M.pure_eq_ok, Prod.mk.injEq] at h
    obtain ⟨⟨rfl, -⟩, -⟩ := h
    exact hg
  | cons i is ih =>
    simp only [Graph.replicateNodes] at h
    split at h
    · simp at h
    · rename_i n hn
      refine ih h ?_
      have := hg.addNode (hg.node hn)
      split
      · exact this.of_nodes rfl
      · exact this

theorem replicateEdges_nodes {m : List (Nat × Nat)} {sel is : List Nat} {g g' : Graph} {ws : List Warn}
    (h : replicateEdges m sel g is = .ok g' ws) : g'.nodes = g.nodes ∧ g'.placeholders = g.placeholders ∧
      g'.free = g.free ∧ ws = [] := by
  induction is generalizing g ws with
  | nil =>
    simp only [Graph.replicateEdges, M.pure_eq_ok] at h
    obtain ⟨rfl, rfl⟩ := h; exact ⟨rfl, rfl, rfl, rfl⟩
  | cons i is ih =>
    simp only [Graph.replicateEdges, M.bind_eq_ok] at h
    obtain ⟨g1, w1, w2, h1, ⟨g2, w3, w4, h2, h3, rfl⟩, rfl⟩ := h
    obtain ⟨a1, b1, c1, -, rfl⟩ := addEdges_nodes h1
    obtain ⟨a2, b2, c2, -, rfl⟩ := addEdges_nodes h2
    obtain ⟨a3, b3, c3, rfl⟩ := ih h3
    exact ⟨by rw [a3, a2, a1], by rw [b3, c2, c1], by rw [c3, b2, b1], rfl⟩

theorem AllN.replicateDescendants {Q : Node → Prop} {ord : List Nat → List Nat} {g g' : Graph} {a b : Nat}
    {ws : List Warn} (h : g.replicateDescendants ord a b = .ok g' ws) (hg : AllN Q g) : AllN Q g' := by
  unfold Graph.replicateDescendants at h
  simp only [M.bind_eq_ok] at h
  obtain ⟨⟨g1, m⟩, w1, w2, h1, ⟨g2, w3, w4, h2, h3, rfl⟩, rfl⟩ := h
  obtain ⟨a1, _⟩ := replicateEdges_nodes h2
  obtain ⟨a2, _⟩ := addEdges_nodes h3
  exact (AllN.replicateNodes h1 hg).of_nodes (by rw [a2, a1])

theorem removeEdge_ok {g g' : Graph} {a b : Nat} {ws : List Warn} (h : g.removeEdge a b = .ok g' ws) :
    g' = { g with edges := eraseEdge a b g.edges } ∧ ws = [] ∧
      g.edges.any (fun e => e.src == a && e.dst == b) = true := by
  unfold Graph.removeEdge at h
  split at h
  · rename_i hc
    simp only [M.pure_eq_ok] at h
    exact ⟨h.1.symm, h.2, hc⟩
  · simp at h

theorem AllN.adoptBase {Q : Node → Prop} {ord : List Nat → List Nat} {g g' : Graph} {i : Nat} {base : Option Nat}
    {ws : List Warn} (h : adoptBase ord g i base = .ok g' ws) (hg : AllN Q g) : AllN Q g' := by
  unfold Svd.adoptBase at h
  split at h
  · simp only [M.pure_eq_ok] at h; rw [← h.1]; exact hg
  · simp only [M.bind_eq_ok] at h
    obtain ⟨g1, w1, w2, h1, h2, rfl⟩ := h
    obtain ⟨rfl, -, -⟩ := removeEdge_ok h1
    exact AllN.replicateDescendants h2 (hg.of_nodes rfl)

/-! ### processing -/

theorem resolveChildEdges_nodes {i : Nat} {g : Graph} {cs : List Nat} :
    (resolveChildEdges i g cs).nodes = g.nodes ∧ (resolveChildEdges i g cs).placeholders = g.placeholders ∧
      (resolveChildEdges i g cs).free = g.free := by
  induction cs generalizing g with
  | nil => exact ⟨rfl, rfl, rfl⟩
  | cons c cs ih => simp only [resolveChildEdges]; exact ih

theorem updateNode_ok {ord : List Nat → List Nat} {g g' : Graph} {i : Nat} {base : Option Nat} {p : Processed}
    {t : Bool} {ws : List Warn} (h : updateNode ord g i base p t = .ok g' ws) :
    ∃ g1 e, adoptBase ord g i base = .ok g1 ws ∧ g1.elem? i = some e ∧ e.processed = none ∧
      g' = resolveChildEdges i (g1.setElem i { e with isProcessed := true, processed := some p,
                                                      isDimTemplate := e.isDimTemplate || t })
        ((g1.setElem i { e with isProcessed := true, processed := some p,
                                isDimTemplate := e.isDimTemplate || t }).elementChildren i) := by
  unfold updateNode at h
  simp only [M.bind_eq_ok] at h
  obtain ⟨g1, w1, w2, h1, h2, rfl⟩ := h
  split at h2
  · simp at h2
  · rename_i e he
    split at h2
    · simp at h2
    · rename_i hn
      simp only [M.pure_eq_ok] at h2
      obtain ⟨rfl, rfl⟩ := h2
      exact ⟨g1, e, by simpa using h1, he, by simpa using hn, rfl⟩

theorem AllN.updateNode {Q : Node → Prop} {ord : List Nat → List Nat} {g g' : Graph} {i : Nat} {base : Option Nat}
    {p : Processed} {t : Bool} {ws : List Warn} (h : updateNode ord g i base p t = .ok g' ws) (hg : AllN Q g)
    (hq : ∀ e g1, AllN Q g1 → g1.elem? i = some e → Svd.adoptBase ord g i base = .ok g1 ws →
      Q (.elem { e with isProcessed := true, processed := some p, isDimTemplate := e.isDimTemplate || t })) :
    AllN Q g' := by
  obtain ⟨g1, e, h1, h2, -, rfl⟩ := updateNode_ok h
  have hg1 := AllN.adoptBase h1 hg
  refine AllN.of_nodes ?_ resolveChildEdges_nodes.1
  exact hg1.setNodes (o := some _) (fun n hn => by cases hn; exact hq e g1 hg1 h2 h1) rfl

theorem AllN.addInstances {Q : Node → Prop} {lvl : Level} {parsed : Parsed} {g g' : Graph}
    {xs : List (Nat × Processed)} {js : List Nat} {ws : List Warn}
    (h : addInstances lvl parsed g xs = .ok (g', js) ws) (hg : AllN Q g)
    (hq : ∀ x ∈ xs, Q (.elem ⟨some x.2.name, lvl, true, parsed, some x.2, false⟩)) : AllN Q g' := by
  induction xs generalizing g js ws with
  | nil =>
    simp only [Svd.addInstances, M.pure_eq_ok, Prod.mk.injEq] at h
    obtain ⟨⟨rfl, -⟩, -⟩ := h; exact hg
  | cons x xs ih =>
    obtain ⟨par, x⟩ := x
    simp only [Svd.addInstances, M.bind_eq_ok, M.pure_eq_ok, Prod.mk.injEq] at h
    obtain ⟨⟨g1, j⟩, w1, w2, h1, ⟨⟨g2, js'⟩, w3, w4, h2, ⟨⟨rfl, rfl⟩, rfl⟩, rfl⟩, rfl⟩ := h
    obtain ⟨-, rfl, -, -⟩ := addElementChild_ok h1
    refine ih h2 ((hg.addNode (hq (par, x) (by simp))).of_nodes rfl) (fun y hy => hq y (by simp [hy]))

theorem linkChildren_nodes {j : Nat} {g g' : Graph} {cs : List Nat} {ws : List Warn}
    (h : linkChildren j g cs = .ok g' ws) :
    g'.nodes = g.nodes ∧ g'.placeholders = g.placeholders ∧ g'.free = g.free ∧
      g'.edges = (cs.map fun c => ⟨j, c, .childR⟩).reverse ++ g.edges ∧ ws = [] := by
  induction cs generalizing g ws with
  | nil =>
    simp only [linkChildren, M.pure_eq_ok] at h
    obtain ⟨rfl, rfl⟩ := h; exact ⟨rfl, rfl, rfl, rfl, rfl⟩
  | cons c cs ih =>
    simp only [linkChildren, M.bind_eq_ok] at h
    obtain ⟨g1, w1, w2, h1, h2, rfl⟩ := h
    obtain ⟨rfl, rfl, -⟩ := addEdge_nodes h1
    obtain ⟨a, b, c', d, rfl⟩ := ih h2
    exact ⟨a, b, c', by simp [d], rfl⟩

theorem linkInstances_nodes {i : Nat} {g g' : Graph} {js : List Nat} {ws : List Warn}
    (h : linkInstances i g js = .ok g' ws) :
    g'.nodes = g.nodes ∧ g'.placeholders = g.placeholders ∧ g'.free = g.free ∧ ws = [] := by
  induction js generalizing g ws with
  | nil =>
    simp only [linkInstances, M.pure_eq_ok] at h
    obtain ⟨rfl, rfl⟩ := h; exact ⟨rfl, rfl, rfl, rfl⟩
  | cons j js ih =>
    simp only [linkInstances, M.bind_eq_ok] at h
    obtain ⟨g1, w1, w2, h1, h2, rfl⟩ := h
    obtain ⟨a, b, c, -, rfl⟩ := linkChildren_nodes h1
    obtain ⟨a', b', c', rfl⟩ := ih h2
    exact ⟨by rw [a', a], by rw [b', b], by rw [c', c], rfl⟩

theorem updateDimNode_ok {ord : List Nat → List Nat} {g g' : Graph} {i : Nat} {base : Option Nat}
    {xs : List Processed} {t : Processed} {ws : List Warn} (h : updateDimNode ord g i base xs t = .ok g' ws) :
    ∃ g1 e g2 js, updateNode ord g i base t true = .ok g1 ws ∧ g1.elem? i = some e ∧
      addInstances e.level e.parsed g1 ((g1.elementParents i).flatMap fun par => xs.map fun x => (par, x)) =
        .ok (g2, js) [] ∧ linkInstances i g2 js = .ok g' [] := by
  unfold updateDimNode at h
  simp only [M.bind_eq_ok] at h
  obtain ⟨g1, w1, w2, h1, h2, rfl⟩ := h
  split at h2
  · simp at h2
  · rename_i e he
    simp only [M.bind_eq_ok] at h2
    obtain ⟨⟨g2, js⟩, w3, w4, h3, h4, rfl⟩ := h2
    have hw4 := (linkInstances_nodes h4).2.2.2
    subst hw4
    have hw3 : w3 = [] := by
      clear h4 he h1
      generalize ((g1.elementParents i).flatMap fun par => xs.map fun x => (par, x)) = l at h3
      induction l generalizing g1 js w3 with
      | nil => simp only [addInstances, M.pure_eq_ok] at h3; exact h3.2
      | cons x l ih =>
        obtain ⟨par, x⟩ := x
        simp only [addInstances, M.bind_eq_ok, M.pure_eq_ok, Prod.mk.injEq] at h3
        obtain ⟨⟨g1', j⟩, w5, w6, h5, ⟨⟨g2', js'⟩, w7, w8, h6, ⟨⟨rfl, rfl⟩, rfl⟩, rfl⟩, rfl⟩ := h3
        obtain ⟨-, -, rfl, -⟩ := addElementChild_ok h5
        simpa using ih _ _ _ h6
    subst hw3
    exact ⟨g1, e, g2, js, by simpa using h1, he, h3, h4⟩

end Svd
