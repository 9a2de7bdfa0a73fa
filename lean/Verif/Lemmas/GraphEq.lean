import Verif.Lemmas.FlatOrder
/-
Closed forms of the graph updates, for graphs without free slots in which a rank increases along the edges.
-/
namespace Svd
open Graph Spec

def outs (g : Graph) (i : Nat) : List Nat := ((ends g).filter fun x => x.1 == i).map (·.2)
def ins (g : Graph) (i : Nat) : List Nat := ((ends g).filter fun x => x.2 == i).map (·.1)

theorem outs_eq (g : Graph) (i : Nat) : (g.outEdges i).map (·.dst) = outs g i := by
  unfold outs ends Graph.outEdges
  rw [List.filter_map, List.map_map]
  rfl

theorem ins_eq (g : Graph) (i : Nat) : (g.inEdges i).map (·.src) = ins g i := by
  unfold ins ends Graph.inEdges
  rw [List.filter_map, List.map_map]
  rfl

theorem mem_outs {g : Graph} {i j : Nat} : j ∈ outs g i ↔ (i, j) ∈ ends g := by
  simp only [outs, List.mem_map, List.mem_filter, beq_iff_eq]
  constructor
  · rintro ⟨⟨a, b⟩, ⟨h1, h2⟩, h3⟩
    simp only at h2 h3
    subst h2; subst h3; exact h1
  · intro h; exact ⟨(i, j), ⟨h, rfl⟩, rfl⟩

theorem mem_ins {g : Graph} {i j : Nat} : i ∈ ins g j ↔ (i, j) ∈ ends g := by
  simp only [ins, List.mem_map, List.mem_filter, beq_iff_eq]
  constructor
  · rintro ⟨⟨a, b⟩, ⟨h1, h2⟩, h3⟩
    simp only at h2 h3
    subst h2; subst h3; exact h1
  · intro h; exact ⟨(i, j), ⟨h, rfl⟩, rfl⟩

/-- All slots are element nodes and all edges are child edges between existing nodes. -/
structure Plain (g : Graph) : Prop where
  free : g.free = []
  phs : g.placeholders = []
  elem : ∀ i, i < g.nodes.length → ∃ e, g.elem? i = some e
  types : ∀ e ∈ g.edges, isChildEdge e = true
  valid : ∀ e ∈ g.edges, e.src < g.nodes.length ∧ e.dst < g.nodes.length

theorem Plain.isElem {g : Graph} (h : Plain g) {i : Nat} (hi : i < g.nodes.length) : g.isElem i = true := by
  obtain ⟨e, he⟩ := h.elem i hi
  simp [Graph.isElem, he]

theorem Plain.children {g : Graph} (h : Plain g) (i : Nat) : g.elementChildren i = outs g i := by
  unfold Graph.elementChildren
  rw [List.filter_eq_self.2, outs_eq]
  intro e he
  have := (List.mem_filter.1 he).1
  simp [h.isElem (h.valid e this).2, h.types e this]

theorem Plain.parents {g : Graph} (h : Plain g) (i : Nat) : g.elementParents i = ins g i := by
  unfold Graph.elementParents
  rw [List.filter_eq_self.2, ins_eq]
  intro e he
  have := (List.mem_filter.1 he).1
  simp [h.isElem (h.valid e this).1, h.types e this]

theorem dedup_nodup {l : List Nat} (h : l.Nodup) : dedup l = l := by
  induction l with
  | nil => rfl
  | cons x xs ih =>
    rw [List.nodup_cons] at h
    rw [dedup, ih h.2, List.filter_eq_self.2]
    intro a ha
    simp only [bne_iff_ne, ne_eq]
    rintro rfl
    exact h.1 ha

theorem outs_nodup {g : Graph} (h : (ends g).Nodup) (i : Nat) : (outs g i).Nodup := by
  unfold outs
  have h1 : ((ends g).filter fun x => x.1 == i).Nodup := h.filter _
  rw [List.nodup_iff_pairwise_ne] at h1 ⊢
  rw [List.pairwise_map]
  refine h1.imp_of_mem ?_
  intro a b ha hb hne hc
  simp only [List.mem_filter, beq_iff_eq] at ha hb
  exact hne (Prod.ext (by rw [ha.2, hb.2]) hc)

theorem ins_nodup {g : Graph} (h : (ends g).Nodup) (i : Nat) : (ins g i).Nodup := by
  unfold ins
  have h1 : ((ends g).filter fun x => x.2 == i).Nodup := h.filter _
  rw [List.nodup_iff_pairwise_ne] at h1 ⊢
  rw [List.pairwise_map]
  refine h1.imp_of_mem ?_
  intro a b ha hb hne hc
  simp only [List.mem_filter, beq_iff_eq] at ha hb
  exact hne (Prod.ext hc (by rw [ha.2, hb.2]))

theorem successors_eq {g : Graph} (h : (ends g).Nodup) (i : Nat) : g.successors i = outs g i := by
  unfold Graph.successors
  rw [outs_eq, dedup_nodup (outs_nodup h i)]

/-! ### retyping -/

theorem retype_ends (a b : Nat) (ty : EdgeT) (es : List Edge) :
    (retypeEdge a b ty es).map (fun e => (e.src, e.dst)) = es.map fun e => (e.src, e.dst) := by
  induction es with
  | nil => rfl
  | cons e es ih =>
    unfold retypeEdge
    split
    · rfl
    · simp only [List.map_cons, ih]

theorem resolveChildEdges_ends (i : Nat) (g : Graph) (cs : List Nat) : ends (resolveChildEdges i g cs) = ends g := by
  induction cs generalizing g with
  | nil => rfl
  | cons c cs ih =>
    simp only [resolveChildEdges]
    rw [ih]
    exact retype_ends i c .childR g.edges

theorem mem_ends {g : Graph} {a b : Nat} : (a, b) ∈ ends g ↔ ∃ e ∈ g.edges, e.src = a ∧ e.dst = b := by
  simp only [ends, List.mem_map, Prod.mk.injEq]

theorem resolveChildEdges_plain {i : Nat} {g : Graph} {cs : List Nat} (h : Plain g) : Plain (resolveChildEdges i g cs) := by
  obtain ⟨h1, h2, h3⟩ := resolveChildEdges_nodes (i := i) (g := g) (cs := cs)
  constructor
  · rw [h3]; exact h.free
  · rw [h2]; exact h.phs
  · intro j hj
    rw [h1] at hj
    rw [elem?_congr h1]
    exact h.elem j hj
  · intro e he
    obtain ⟨e', h4, -, -, h5⟩ := resolveChildEdges_mem he
    rcases h5 with rfl | ⟨-, -, h5⟩
    · exact h.types _ h4
    · simp [isChildEdge, h5]
  · intro e he
    obtain ⟨e', h4, h5, h6, -⟩ := resolveChildEdges_mem he
    rw [h1, ← h5, ← h6]
    exact h.valid _ h4

/-! ### ranks -/

theorem reach_rank {es : List Edge} (r : Nat → Nat) (h : ∀ e ∈ es, r e.src < r e.dst) {a b : Nat} (hr : Reach es a b) :
    r a ≤ r b := by
  rcases hr with rfl | hr
  · exact Nat.le_refl _
  · induction hr with
    | edge he => exact Nat.le_of_lt (h _ he)
    | step he _ ih => exact Nat.le_trans (Nat.le_of_lt (h _ he)) ih

theorem noPath {es : List Edge} (r : Nat → Nat) (h : ∀ e ∈ es, r e.src < r e.dst) {a b : Nat} (hr : r b < r a) :
    hasPath es a b = false := by
  rw [Bool.eq_false_iff]
  intro hc
  have := reach_rank r h (hasPath_iff.1 hc)
  omega

def instNode (lvl : Level) (p : Parsed) (x : Processed) : ElemNode := ⟨some x.name, lvl, true, p, some x, false⟩

theorem addInstances_eq (r : Nat → Nat) (lvl : Level) (p : Parsed) (pairs : List (Nat × Processed)) : ∀ (g : Graph),
    g.free = [] → (∀ e ∈ g.edges, r e.src < r e.dst) →
    (∀ x ∈ pairs, ∀ j, g.nodes.length ≤ j → r x.1 < r j) →
    addInstances lvl p g pairs = .ok ({ g with
      nodes := g.nodes ++ pairs.map fun x => some (.elem (instNode lvl p x.2))
      edges := ((pairs.zip (List.range' g.nodes.length pairs.length)).map
        fun y => (⟨y.1.1, y.2, .childR⟩ : Edge)).reverse ++ g.edges },
      List.range' g.nodes.length pairs.length) [] := by
  induction pairs with
  | nil =>
    intro g _ _ _
    simp [addInstances, M.pure]
  | cons x xs ih =>
    intro g hf hr hp
    obtain ⟨par, x⟩ := x
    have hn : hasPath g.edges g.nodes.length par = false :=
      noPath r hr (hp (par, x) (by simp) _ (Nat.le_refl _))
    simp only [addInstances, addElementChild, addNode, hf, rawAddEdge, hn, Bool.false_eq_true, if_false, M.pure_bind]
    rw [ih]
    · simp only [M.bind, M.pure, List.length_append, List.length_singleton, List.append_nil, List.length_cons, List.map_cons,
        List.append_assoc, List.singleton_append, List.range'_succ, List.zip_cons_cons, List.reverse_cons]
      simp only [instNode, List.length_nil, Nat.zero_add]
    · rfl
    · intro e he
      rcases List.mem_cons.1 he with rfl | he
      · exact hp (par, x) (by simp) _ (Nat.le_refl _)
      · exact hr e he
    · intro y hy j hj
      simp only [List.length_append, List.length_singleton] at hj
      exact hp y (by simp [hy]) j (by omega)

theorem linkChildren_eq (r : Nat → Nat) (j : Nat) (cs : List Nat) : ∀ (g : Graph),
    (∀ e ∈ g.edges, r e.src < r e.dst) → (∀ c ∈ cs, r j < r c) →
    linkChildren j g cs = .ok { g with edges := (cs.map fun c => (⟨j, c, .childR⟩ : Edge)).reverse ++ g.edges } [] := by
  induction cs with
  | nil => intro g _ _; simp [linkChildren, M.pure]
  | cons c cs ih =>
    intro g hr hc
    have hn : hasPath g.edges c j = false := noPath r hr (hc c (by simp))
    simp only [linkChildren, addEdge, rawAddEdge, hn, Bool.false_eq_true, if_false, M.pure_bind]
    rw [ih]
    · simp
    · intro e he
      rcases List.mem_cons.1 he with rfl | he
      · exact hc c (by simp)
      · exact hr e he
    · intro d hd; exact hc d (by simp [hd])

theorem linkInstances_eq (r : Nat → Nat) (i : Nat) (cs : List Nat) (js : List Nat) : ∀ (g : Graph),
    (∀ e ∈ g.edges, r e.src < r e.dst) → Plain g → outs g i = cs → (∀ j ∈ js, j ≠ i ∧ j < g.nodes.length ∧ ∀ c ∈ cs, r j < r c) →
    linkInstances i g js = .ok { g with
      edges := (js.flatMap fun j => cs.map fun c => (⟨j, c, .childR⟩ : Edge)).reverse ++ g.edges } [] := by
  induction js with
  | nil => intro g _ _ _ _; simp [linkInstances, M.pure]
  | cons j js ih =>
    intro g hr hpl ho hj
    obtain ⟨h1, h1', h2⟩ := hj j (by simp)
    simp only [linkInstances]
    rw [hpl.children, ho, linkChildren_eq r j cs g hr h2]
    have h3 := ih { g with edges := (cs.map fun c => (⟨j, c, .childR⟩ : Edge)).reverse ++ g.edges } ?_ ?_ ?_ ?_
    · simp only [M.bind, h3]
      simp [List.append_assoc]
    · intro e he
      simp only [List.mem_append, List.mem_reverse, List.mem_map] at he
      rcases he with ⟨c, hc, rfl⟩ | he
      · exact h2 c hc
      · exact hr e he
    · have hv : ∀ c ∈ cs, c < g.nodes.length := by
        intro c hc
        rw [← ho, mem_outs, mem_ends] at hc
        obtain ⟨e, he, -, rfl⟩ := hc
        exact (hpl.valid e he).2
      constructor
      · exact hpl.free
      · exact hpl.phs
      · exact hpl.elem
      · intro e he
        simp only [List.mem_append, List.mem_reverse, List.mem_map] at he
        rcases he with ⟨c, hc, rfl⟩ | he
        · rfl
        · exact hpl.types e he
      · intro e he
        simp only [List.mem_append, List.mem_reverse, List.mem_map] at he
        rcases he with ⟨c, hc, rfl⟩ | he
        · exact ⟨h1', hv c hc⟩
        · exact hpl.valid e he
    · have : (ends { g with edges := (cs.map fun c => (⟨j, c, .childR⟩ : Edge)).reverse ++ g.edges }) =
          ((cs.map fun c => (j, c)).reverse) ++ ends g := by
        simp [ends, List.map_reverse, Function.comp_def]
      unfold outs
      rw [this, List.filter_append, List.filter_eq_nil_iff.2]
      · exact ho
      · intro a ha
        simp only [List.mem_reverse, List.mem_map] at ha
        obtain ⟨c, -, rfl⟩ := ha
        simpa using h1
    · intro j' hj'
      exact hj j' (by simp [hj'])

end Svd
