import Verif.Lemmas.Acyclic
import Verif.Lemmas.Overlap
/-
What the replication of descendants does to the nodes and edges of the graph.
-/
namespace Svd
open Graph Spec

/-- The nodes: `js` are fresh copies of `is`. -/
theorem replicateNodes_effect {g g' : Graph} {m m' : List (Nat × Nat)} {is : List Nat} {ws : List Warn} (h : WF g)
    (hr : g.replicateNodes m is = .ok (g', m') ws) :
    ∃ m2 : List (Nat × Nat), m' = m ++ m2 ∧ m2.map (·.1) = is ∧ (m2.map (·.2)).Nodup ∧ (∀ p ∈ m2, g.node? p.2 = none) ∧
      (∀ k, (g'.node? k).isSome → (g.node? k).isSome ∨ k ∈ m2.map (·.2)) := by
  induction is generalizing g m ws with
  | nil =>
    simp only [Graph.replicateNodes, M.pure_eq_ok, Prod.mk.injEq] at hr
    obtain ⟨⟨rfl, rfl⟩, rfl⟩ := hr
    exact ⟨[], by simp, rfl, by simp, by simp, fun k hk => Or.inl hk⟩
  | cons i is ih =>
    simp only [Graph.replicateNodes] at hr
    split at hr
    · simp at hr
    · rename_i n hn
      have hs := addNode_spec h n
      have hx := addNode_ext h n
      have hw := addNode_wf h n
      have key : ∀ g2 : Graph, g2.nodes = (g.addNode n).1.nodes → g2.free = (g.addNode n).1.free →
          g2.edges = (g.addNode n).1.edges →
          replicateNodes g2 (m ++ [(i, (g.addNode n).2)]) is = .ok (g', m') ws →
          ∃ m2 : List (Nat × Nat), m' = m ++ m2 ∧ m2.map (·.1) = i :: is ∧ (m2.map (·.2)).Nodup ∧
            (∀ p ∈ m2, g.node? p.2 = none) ∧ (∀ k, (g'.node? k).isSome → (g.node? k).isSome ∨ k ∈ m2.map (·.2)) := by
        intro g2 e1 e2 e3 hr
        have hw2 : WF g2 := hw.of_eq e1 e2 (fun e he => Or.inl (by rw [← e3]; exact he))
        have hx2 : Ext g g2 := hx.trans (Ext.of_nodes e1)
        obtain ⟨m2, h1, h2, h3, h4, h5⟩ := ih hw2 hr
        have hj : (g2.node? (g.addNode n).2).isSome := by rw [node?_congr e1, hs.2.1]; simp
        refine ⟨(i, (g.addNode n).2) :: m2, by rw [h1]; simp, by simp [h2], ?_, ?_, ?_⟩
        · rw [List.map_cons, List.nodup_cons]
          refine ⟨?_, h3⟩
          intro hmem
          obtain ⟨p, hp, hpe⟩ := List.mem_map.1 hmem
          have := h4 p hp
          rw [hpe] at this
          simp only at this
          rw [this] at hj
          cases hj
        · intro p hp
          rcases List.mem_cons.1 hp with rfl | hp
          · exact hs.1
          · cases hg : g.node? p.2 with
            | none => rfl
            | some x =>
              have h6 := h4 p hp
              rw [hx2 _ _ hg] at h6
              cases h6
        · intro k hk
          rcases h5 k hk with h6 | h6
          · rw [node?_congr e1, hs.2.1] at h6
            by_cases hk2 : k = (g.addNode n).2
            · exact Or.inr (by rw [hk2]; simp)
            · rw [if_neg hk2] at h6
              exact Or.inl h6
          · exact Or.inr (by simp only [List.map_cons, List.mem_cons]; exact Or.inr h6)
      cases n with
      | ph path =>
        exact key { (g.addNode (.ph path)).1 with
          placeholders := (g.addNode (.ph path)).1.placeholders ++ [(g.addNode (.ph path)).2] } rfl rfl rfl hr
      | elem e => exact key _ rfl rfl rfl hr

theorem addEdges_mem {g g' : Graph} {es : List Edge} {ws : List Warn} (h : g.addEdges es = .ok g' ws) {e : Edge} :
    e ∈ g'.edges ↔ e ∈ g.edges ∨ e ∈ es := by
  rw [(addEdges_nodes h).2.2.2.1, List.mem_append, List.mem_reverse]
  exact Or.comm

/-- The edges among the copied nodes. -/
theorem replicateEdges_mem {m : List (Nat × Nat)} {sel is : List Nat} {g g' : Graph} {ws : List Warn}
    (hr : replicateEdges m sel g is = .ok g' ws) (hsel : ∀ i ∈ is, i ∈ sel) (hm : ∀ i ∈ sel, mapIdx m i ∉ sel) {e : Edge} :
    e ∈ g'.edges ↔ e ∈ g.edges ∨ ∃ i ∈ is, (∃ e0 ∈ g.edges, e0.src = i ∧ e0.dst ∈ sel ∧ e = ⟨mapIdx m i, mapIdx m e0.dst, e0.ty⟩) ∨
      (∃ e0 ∈ g.edges, e0.dst = i ∧ e0.ty = .derive ∧ e = ⟨e0.src, mapIdx m i, .derive⟩) := by
  induction is generalizing g ws with
  | nil =>
    simp only [Graph.replicateEdges, M.pure_eq_ok] at hr
    obtain ⟨rfl, -⟩ := hr
    simp
  | cons i is ih =>
    simp only [Graph.replicateEdges, M.bind_eq_ok] at hr
    obtain ⟨g1, w1, w2, h1, ⟨g2, w3, w4, h2, h3, rfl⟩, rfl⟩ := hr
    have his := hsel i (by simp)
    have e1 : ∀ x, x ∈ g1.edges ↔ x ∈ g.edges ∨ ∃ e0 ∈ g.edges, e0.src = i ∧ e0.dst ∈ sel ∧ x = ⟨mapIdx m i, mapIdx m e0.dst, e0.ty⟩ := by
      intro x
      rw [addEdges_mem h1]
      apply or_congr Iff.rfl
      simp only [List.mem_map, List.mem_filter, Graph.outEdges, List.contains_iff_mem, beq_iff_eq]
      constructor
      · rintro ⟨a, ⟨⟨h4, h5⟩, h6⟩, h7⟩
        exact ⟨a, h4, h5, h6, h7.symm⟩
      · rintro ⟨a, h4, h5, h6, h7⟩
        exact ⟨a, ⟨⟨h4, h5⟩, h6⟩, h7.symm⟩
    have k1 : ∀ x, x.dst ∈ sel → (x ∈ g1.edges ↔ x ∈ g.edges) := by
      intro x hx
      rw [e1]
      constructor
      · rintro (h4 | ⟨e0, h4, h5, h6, h7⟩)
        · exact h4
        · subst h7; exact absurd hx (hm _ h6)
      · exact Or.inl
    have e2 : ∀ x, x ∈ g2.edges ↔ x ∈ g1.edges ∨ ∃ e0 ∈ g.edges, e0.dst = i ∧ e0.ty = .derive ∧ x = ⟨e0.src, mapIdx m i, .derive⟩ := by
      intro x
      rw [addEdges_mem h2]
      apply or_congr Iff.rfl
      simp only [List.mem_map, List.mem_filter, Graph.inEdges, beq_iff_eq]
      constructor
      · rintro ⟨a, ⟨⟨h4, h5⟩, h6⟩, h7⟩
        exact ⟨a, (k1 a (by rw [h5]; exact his)).1 h4, h5, h6, by rw [← h7, h6]⟩
      · rintro ⟨a, h4, h5, h6, h7⟩
        exact ⟨a, ⟨⟨(k1 a (by rw [h5]; exact his)).2 h4, h5⟩, h6⟩, by rw [h7, h6]⟩
    have k2 : ∀ x, x.dst ∈ sel → (x ∈ g2.edges ↔ x ∈ g.edges) := by
      intro x hx
      rw [e2, k1 x hx]
      constructor
      · rintro (h4 | ⟨e0, h4, h5, h6, h7⟩)
        · exact h4
        · subst h7; exact absurd hx (hm _ his)
      · exact Or.inl
    rw [ih h3 (fun j hj => hsel j (List.mem_cons_of_mem _ hj)), e2, e1]
    constructor
    · rintro (((h4 | h4) | h4) | ⟨j, hj, ⟨e0, h4, h5, h6, h7⟩ | ⟨e0, h4, h5, h6, h7⟩⟩)
      · exact Or.inl h4
      · exact Or.inr ⟨i, by simp, Or.inl h4⟩
      · exact Or.inr ⟨i, by simp, Or.inr h4⟩
      · exact Or.inr ⟨j, List.mem_cons_of_mem _ hj, Or.inl ⟨e0, (k2 e0 h6).1 h4, h5, h6, h7⟩⟩
      · refine Or.inr ⟨j, List.mem_cons_of_mem _ hj, Or.inr ⟨e0, (k2 e0 ?_).1 h4, h5, h6, h7⟩⟩
        rw [h5]; exact hsel j (List.mem_cons_of_mem _ hj)
    · rintro (h4 | ⟨j, hj, h4⟩)
      · exact Or.inl (Or.inl (Or.inl h4))
      · rcases List.mem_cons.1 hj with rfl | hj
        · rcases h4 with h4 | h4
          · exact Or.inl (Or.inl (Or.inr h4))
          · exact Or.inl (Or.inr h4)
        · rcases h4 with ⟨e0, h4, h5, h6, h7⟩ | ⟨e0, h4, h5, h6, h7⟩
          · exact Or.inr ⟨j, hj, Or.inl ⟨e0, (k2 e0 h6).2 h4, h5, h6, h7⟩⟩
          · refine Or.inr ⟨j, hj, Or.inr ⟨e0, (k2 e0 ?_).2 h4, h5, h6, h7⟩⟩
            rw [h5]; exact hsel j (List.mem_cons_of_mem _ hj)

/-- The type of the edge to the copy of `b`. -/
def copyEdgeT (g : Graph) (src b : Nat) : EdgeT :=
  match g.node? b with
  | some (.ph _) => .placeholder
  | _ => if (match g.elem? src with | some e => e.isProcessed | none => false) then .childR else .childU

/-- The effect of `replicateDescendants`. -/
structure Replica (g g' : Graph) (src tgt : Nat) (sel : Nat → Prop) (φ : Nat → Nat) : Prop where
  wf : WF g'
  ext : Ext g g'
  copy : ∀ i, sel i → (g.node? i).isSome ∧ g'.node? (φ i) = g.node? i
  fresh : ∀ i, sel i → g.node? (φ i) = none
  inj : ∀ i j, sel i → sel j → φ i = φ j → i = j
  only : ∀ k, (g'.node? k).isSome → (g.node? k).isSome ∨ ∃ i, sel i ∧ k = φ i
  edges : ∀ a b ty, (⟨a, b, ty⟩ : Edge) ∈ g'.edges ↔ ⟨a, b, ty⟩ ∈ g.edges ∨
    (∃ i j, sel i ∧ sel j ∧ a = φ i ∧ b = φ j ∧ (⟨i, j, ty⟩ : Edge) ∈ g.edges) ∨
    (∃ j, sel j ∧ b = φ j ∧ ty = .derive ∧ (⟨a, j, .derive⟩ : Edge) ∈ g.edges) ∨
    (a = tgt ∧ ∃ j ty', sel j ∧ b = φ j ∧ (⟨src, j, ty'⟩ : Edge) ∈ g.edges ∧ ty = copyEdgeT g src j)

theorem nodup_rangeFrom (n : Nat) : ∀ k, (rangeFrom k n).Nodup ∧ ∀ x ∈ rangeFrom k n, k ≤ x := by
  induction n with
  | zero => intro k; simp [rangeFrom]
  | succ n ih =>
    intro k
    simp only [rangeFrom, List.nodup_cons, List.mem_cons, forall_eq_or_imp]
    obtain ⟨h1, h2⟩ := ih (k + 1)
    refine ⟨⟨fun h => absurd (h2 k h) (by omega), h1⟩, Nat.le_refl _, fun x hx => ?_⟩
    have := h2 x hx
    omega

theorem lookup_of_nodup {m : List (Nat × Nat)} (h : (m.map (·.1)).Nodup) {i j : Nat} (hm : (i, j) ∈ m) : m.lookup i = some j := by
  induction m with
  | nil => cases hm
  | cons p m ih =>
    obtain ⟨a, b⟩ := p
    simp only [List.map_cons, List.nodup_cons] at h
    rcases List.mem_cons.1 hm with h1 | h1
    · injection h1 with h1 h2
      subst h1 h2
      simp [List.lookup]
    · have : i ≠ a := by
        rintro rfl
        exact h.1 (List.mem_map.2 ⟨_, h1, rfl⟩)
      simp only [List.lookup]
      have hb : (i == a) = false := by simpa using this
      rw [hb]
      exact ih h.2 h1

theorem replicateDescendants_rep {ord : List Nat → List Nat} (hord : ∀ l, (ord l).Perm l) {g g' : Graph} {src tgt : Nat}
    {ws : List Warn} (h : WF g) (ht : (g.node? tgt).isSome) (hr : g.replicateDescendants ord src tgt = .ok g' ws) :
    ∃ φ, Replica g g' src tgt (· ∈ g.descendants src) φ := by
  have hwf := replicateDescendants_wf h hr ht
  unfold Graph.replicateDescendants at hr
  simp only [M.bind_eq_ok] at hr
  obtain ⟨⟨g1, m⟩, w1, w2, h1, ⟨g2, w3, w4, h2, h3, rfl⟩, rfl⟩ := hr
  obtain ⟨a1, b1, c1, d1, -⟩ := replicateNodes_wf h h1 (by simp)
  have cm : CopyMap g1 m := replicateNodes_copy h h1 (by intro p hp; cases hp)
  obtain ⟨m2, q1, q2, q3, q4, q5⟩ := replicateNodes_effect h h1
  simp only [List.nil_append] at q1
  subst q1
  have hmem : ∀ i, i ∈ ord (g.descendants src) ↔ i ∈ g.descendants src := fun i => (hord _).mem_iff
  have hnd : (ord (g.descendants src)).Nodup := by
    rw [(hord _).nodup_iff]
    unfold Graph.descendants
    exact (nodup_rangeFrom _ _).1.filter _
  have hφ : ∀ i, i ∈ ord (g.descendants src) → (i, mapIdx m i) ∈ m := by
    intro i hi
    rw [← q2] at hi
    obtain ⟨⟨a, b⟩, hp, rfl⟩ := List.mem_map.1 hi
    have := lookup_of_nodup (by rw [q2]; exact hnd) hp
    unfold Graph.mapIdx
    simp only [this, Option.getD_some]
    exact hp
  have hmap : ∀ p ∈ m, p.1 ∈ ord (g.descendants src) ∧ mapIdx m p.1 = p.2 := by
    intro p hp
    refine ⟨by rw [← q2]; exact List.mem_map.2 ⟨p, hp, rfl⟩, ?_⟩
    unfold Graph.mapIdx
    rw [lookup_of_nodup (by rw [q2]; exact hnd) (show (p.1, p.2) ∈ m from hp)]
    rfl
  have hlive : ∀ i, i ∈ g.descendants src → (g.node? i).isSome := by
    intro i hi
    obtain ⟨h4, h5⟩ := cm _ (hφ i ((hmem i).2 hi))
    have h4 : (g1.node? i).isSome := h4
    rcases q5 i h4 with h6 | h6
    · exact h6
    · exfalso
      unfold Graph.descendants at hi
      simp only [List.mem_filter, List.contains_iff_mem] at hi
      obtain ⟨s, hs, hre⟩ := mem_closure.1 hi.2
      obtain ⟨e, he, rfl⟩ := List.mem_map.1 hs
      obtain ⟨he, -⟩ := List.mem_filter.1 he
      obtain ⟨he, -⟩ := List.mem_filter.1 he
      obtain ⟨p, hp, rfl⟩ := List.mem_map.1 h6
      have hno := q4 p hp
      have hT : ∀ x y, Reach (g.edges.filter fun e => e.ty != .derive) x y → (g.node? x).isSome → (g.node? y).isSome := by
        intro x y hxy hx
        rcases hxy with rfl | hxy
        · exact hx
        · induction hxy with
          | edge h7 => exact (h.edges_valid _ (List.mem_filter.1 h7).1).2
          | step h7 _ ih => exact ih (h.edges_valid _ (List.mem_filter.1 h7).1).2
      have := hT _ _ hre (h.edges_valid _ he).2
      rw [hno] at this
      cases this
  have hfresh : ∀ i, i ∈ g.descendants src → g.node? (mapIdx m i) = none := fun i hi => q4 _ (hφ i ((hmem i).2 hi))
  have hnsel : ∀ i ∈ ord (g.descendants src), mapIdx m i ∉ ord (g.descendants src) := by
    intro i hi hc
    have h4 := hfresh i ((hmem i).1 hi)
    have h5 := hlive _ ((hmem _).1 hc)
    rw [h4] at h5
    cases h5
  have n2 := (replicateEdges_nodes h2).1
  have n3 := (addEdges_nodes h3).1
  have e2 := @replicateEdges_mem m _ _ g1 g2 w3 h2 (fun i hi => hi) hnsel
  have hnode : ∀ k, g'.node? k = g1.node? k := fun k => by rw [node?_congr n3, node?_congr n2]
  refine ⟨mapIdx m, hwf.1, hwf.2, ?_, hfresh, ?_, ?_, ?_⟩
  · intro i hi
    refine ⟨hlive i hi, ?_⟩
    rw [hnode, cm.node]
    obtain ⟨n, hn⟩ := Option.isSome_iff_exists.1 (hlive i hi)
    rw [hn, b1 _ _ hn]
  · intro i j hi hj hij
    have h4 := hφ i ((hmem i).2 hi)
    have h5 := hφ j ((hmem j).2 hj)
    rw [hij] at h4
    have := inj_of_nodup_map q3 h4 h5 rfl
    injection this
  · intro k hk
    rw [hnode] at hk
    rcases q5 k hk with h4 | h4
    · exact Or.inl h4
    · obtain ⟨p, hp, rfl⟩ := List.mem_map.1 h4
      obtain ⟨h5, h6⟩ := hmap p hp
      exact Or.inr ⟨p.1, (hmem _).1 h5, h6.symm⟩
  · intro a b ty
    have k2 : ∀ x : Edge, x.dst ∈ ord (g.descendants src) → (x ∈ g2.edges ↔ x ∈ g.edges) := by
      intro x hx
      rw [e2, d1]
      constructor
      · rintro (h4 | ⟨i, hi, ⟨e0, h4, h5, h6, h7⟩ | ⟨e0, h4, h5, h6, h7⟩⟩)
        · exact h4
        · subst h7; exact absurd hx (hnsel _ h6)
        · subst h7; exact absurd hx (hnsel _ hi)
      · exact Or.inl
    have hty : ∀ j, j ∈ g.descendants src → (match g2.node? (mapIdx m j) with
        | some (.ph _) => EdgeT.placeholder
        | _ => if (match g.elem? src with | some e => e.isProcessed | none => false) = true then .childR else .childU) = copyEdgeT g src j := by
      intro j hj
      have : g2.node? (mapIdx m j) = g.node? j := by
        rw [node?_congr n2, cm.node]
        obtain ⟨n, hn⟩ := Option.isSome_iff_exists.1 (hlive j hj)
        rw [hn, b1 _ _ hn]
      rw [this]
      rfl
    rw [addEdges_mem h3, e2, d1]
    constructor
    · rintro ((h4 | ⟨i, hi, ⟨e0, h4, h5, h6, h7⟩ | ⟨e0, h4, h5, h6, h7⟩⟩) | h4)
      · exact Or.inl h4
      · injection h7 with h7 h8 h9
        refine Or.inr (Or.inl ⟨i, e0.dst, (hmem i).1 hi, (hmem _).1 h6, h7, h8, ?_⟩)
        rw [← h5, h9]; exact h4
      · injection h7 with h7 h8 h9
        refine Or.inr (Or.inr (Or.inl ⟨i, (hmem i).1 hi, h8, h9, ?_⟩))
        rw [h7, ← h5, ← h6]; exact h4
      · obtain ⟨e0, h5, h6⟩ := List.mem_map.1 h4
        simp only [List.mem_filter, List.contains_iff_mem] at h5
        obtain ⟨h7, h8⟩ := outEdges_mem h5.1
        injection h6 with h9 h10 h11
        refine Or.inr (Or.inr (Or.inr ⟨h9.symm, e0.dst, e0.ty, (hmem _).1 h5.2, h10.symm, ?_, ?_⟩))
        · rw [← h8]; exact (k2 e0 h5.2).1 h7
        · rw [← h11]; exact hty _ ((hmem _).1 h5.2)
    · rintro (h4 | ⟨i, j, h4, h5, rfl, rfl, h6⟩ | ⟨j, h4, rfl, rfl, h5⟩ | ⟨rfl, j, ty', h4, rfl, h5, rfl⟩)
      · exact Or.inl (Or.inl h4)
      · exact Or.inl (Or.inr ⟨i, (hmem i).2 h4, Or.inl ⟨_, h6, rfl, (hmem j).2 h5, rfl⟩⟩)
      · exact Or.inl (Or.inr ⟨j, (hmem j).2 h4, Or.inr ⟨_, h5, rfl, rfl, rfl⟩⟩)
      · refine Or.inr (List.mem_map.2 ⟨⟨src, j, ty'⟩, ?_, ?_⟩)
        · simp only [List.mem_filter, List.contains_iff_mem, Graph.outEdges]
          exact ⟨⟨(k2 _ ((hmem j).2 h4)).2 h5, by simp⟩, (hmem j).2 h4⟩
        · rw [← hty j h4]
          rfl

end Svd
