import Verif.Lemmas.Rep
/-
The replication of descendants in an acyclic graph does not fail: it never closes a cycle.
-/
namespace Svd
open Graph Spec

/-- There is an edge between these nodes. -/
def Linked (es : List Edge) (a b : Nat) : Prop := ∃ e ∈ es, e.src = a ∧ e.dst = b

theorem conn_of_linked {es es' : List Edge} (h : ∀ e ∈ es, Linked es' e.src e.dst) {a b : Nat} (hc : Conn es a b) : Conn es' a b :=
  hc.mono h

theorem rawAddEdge_total {F : List Edge} (hF : Acyclic F) {g : Graph} {x : Exn} {a b : Nat} {ty : EdgeT}
    (hg : ∀ e ∈ g.edges, Linked F e.src e.dst) (hl : Linked F a b) :
    g.rawAddEdge x a b ty = .ok { g with edges := ⟨a, b, ty⟩ :: g.edges } [] := by
  unfold Graph.rawAddEdge
  rw [if_neg]
  · rfl
  · intro hp
    obtain ⟨e, he, rfl, rfl⟩ := hl
    rcases hasPath_iff.1 hp with h | h
    · exact hF _ (h ▸ Conn.edge he)
    · exact hF _ (Conn.step he (conn_of_linked hg h))

theorem addEdges_total {F : List Edge} (hF : Acyclic F) {es : List Edge} : ∀ {g : Graph}, (∀ e ∈ g.edges, Linked F e.src e.dst) →
    (∀ e ∈ es, Linked F e.src e.dst) → ∃ g', g.addEdges es = .ok g' [] := by
  induction es with
  | nil => intro g _ _; exact ⟨g, rfl⟩
  | cons e es ih =>
    intro g hg he
    have h1 := rawAddEdge_total hF (x := .dagWouldCycle) (ty := e.ty) hg (he e (by simp))
    obtain ⟨g', h2⟩ := ih (g := { g with edges := ⟨e.src, e.dst, e.ty⟩ :: g.edges })
      (fun e' h => by
        rcases List.mem_cons.1 h with rfl | h
        · exact he e (by simp)
        · exact hg e' h) (fun e' h => he e' (by simp [h]))
    exact ⟨g', M.bind_eq_ok.2 ⟨_, _, _, h1, h2, rfl⟩⟩

theorem replicateNodes_total {is : List Nat} : ∀ {g : Graph} {m : List (Nat × Nat)}, WF g → (∀ i ∈ is, (g.node? i).isSome) →
    ∃ r, g.replicateNodes m is = .ok r [] := by
  induction is with
  | nil => intro g m _ _; exact ⟨_, rfl⟩
  | cons i is ih =>
    intro g m hw h
    obtain ⟨n, hn⟩ := Option.isSome_iff_exists.1 (h i (by simp))
    have hx := addNode_ext hw n
    have key : ∀ g2 : Graph, g2.nodes = (g.addNode n).1.nodes → g2.free = (g.addNode n).1.free → g2.edges = (g.addNode n).1.edges →
        ∃ r, replicateNodes g2 (m ++ [(i, (g.addNode n).2)]) is = .ok r [] := by
      intro g2 e1 e2 e3
      have hw2 : WF g2 := (addNode_wf hw n).of_eq e1 e2 (fun e he => Or.inl (by rw [← e3]; exact he))
      exact ih hw2 (fun j hj => (hx.trans (Ext.of_nodes e1)).isSome (h j (by simp [hj])))
    unfold Graph.replicateNodes
    simp only [hn]
    cases n with
    | ph path => exact key { (g.addNode (.ph path)).1 with
          placeholders := (g.addNode (.ph path)).1.placeholders ++ [(g.addNode (.ph path)).2] } rfl rfl rfl
    | elem e => exact key _ rfl rfl rfl

theorem replicateEdges_total {F : List Edge} (hF : Acyclic F) {m : List (Nat × Nat)} {sel : List Nat} {g0 : Graph}
    (h1 : ∀ e ∈ g0.edges, e.src ∈ sel → e.dst ∈ sel → Linked F (mapIdx m e.src) (mapIdx m e.dst))
    (h2 : ∀ e ∈ g0.edges, e.ty = .derive → e.dst ∈ sel → Linked F e.src (mapIdx m e.dst)) (hm : ∀ i ∈ sel, mapIdx m i ∉ sel)
    {is : List Nat} : ∀ {g : Graph}, (∀ i ∈ is, i ∈ sel) → (∀ e ∈ g.edges, Linked F e.src e.dst) →
      (∀ e ∈ g.edges, e.dst ∈ sel → e ∈ g0.edges) → ∃ g', replicateEdges m sel g is = .ok g' [] ∧
        (∀ e ∈ g'.edges, Linked F e.src e.dst) := by
  induction is with
  | nil => intro g _ hg _; exact ⟨g, rfl, hg⟩
  | cons i is ih =>
    intro g hsel hg hold
    have hi := hsel i (by simp)
    have q1 : ∀ e ∈ ((g.outEdges i).filter fun e => sel.contains e.dst).map (fun e => (⟨mapIdx m i, mapIdx m e.dst, e.ty⟩ : Edge)),
        Linked F e.src e.dst ∧ e.dst ∉ sel := by
      intro e he
      obtain ⟨e0, h3, rfl⟩ := List.mem_map.1 he
      simp only [List.mem_filter, List.contains_iff_mem, Graph.outEdges, beq_iff_eq] at h3
      obtain ⟨⟨h3, h4⟩, h5⟩ := h3
      have := h1 e0 (hold e0 h3 h5) (by rw [h4]; exact hi) h5
      rw [h4] at this
      exact ⟨this, hm _ h5⟩
    obtain ⟨g1, r1⟩ := addEdges_total hF hg (fun e he => (q1 e he).1)
    have m1 : ∀ e ∈ g1.edges, Linked F e.src e.dst ∧ (e.dst ∈ sel → e ∈ g0.edges) := by
      intro e he
      rcases (addEdges_mem r1).1 he with h | h
      · exact ⟨hg e h, hold e h⟩
      · exact ⟨(q1 e h).1, fun h' => absurd h' (q1 e h).2⟩
    have q2 : ∀ e ∈ ((g1.inEdges i).filter fun e => e.ty == .derive).map (fun e => (⟨e.src, mapIdx m i, e.ty⟩ : Edge)),
        Linked F e.src e.dst ∧ e.dst ∉ sel := by
      intro e he
      obtain ⟨e0, h3, rfl⟩ := List.mem_map.1 he
      simp only [List.mem_filter, Graph.inEdges, beq_iff_eq] at h3
      obtain ⟨⟨h3, h4⟩, h5⟩ := h3
      have := h2 e0 ((m1 e0 h3).2 (by rw [h4]; exact hi)) h5 (by rw [h4]; exact hi)
      rw [h4] at this
      exact ⟨this, hm _ hi⟩
    obtain ⟨g2, r2⟩ := addEdges_total hF (fun e he => (m1 e he).1) (fun e he => (q2 e he).1)
    have m2 : ∀ e ∈ g2.edges, Linked F e.src e.dst ∧ (e.dst ∈ sel → e ∈ g0.edges) := by
      intro e he
      rcases (addEdges_mem r2).1 he with h | h
      · exact m1 e h
      · exact ⟨(q2 e h).1, fun h' => absurd h' (q2 e h).2⟩
    obtain ⟨g', r3, h3⟩ := ih (g := g2) (fun j hj => hsel j (by simp [hj])) (fun e he => (m2 e he).1) (fun e he => (m2 e he).2)
    exact ⟨g', M.bind_eq_ok.2 ⟨_, _, _, r1, M.bind_eq_ok.2 ⟨_, _, _, r2, r3, rfl⟩, rfl⟩, h3⟩

/-- The edges among old nodes, from old nodes to new ones, and among the new ones (which mirror old edges): no cycles. -/
theorem acyclic_copied {es F : List Edge} (h : Acyclic es) {new : Nat → Prop} {back : Nat → Nat}
    (hF : ∀ e ∈ F, (¬ new e.src ∧ ¬ new e.dst ∧ Linked es e.src e.dst) ∨ (¬ new e.src ∧ new e.dst) ∨
      (new e.src ∧ new e.dst ∧ Linked es (back e.src) (back e.dst))) : Acyclic F := by
  have stay : ∀ {a b : Nat}, Conn F a b → new a → new b ∧ Conn es (back a) (back b) := by
    intro a b hc
    induction hc with
    | @edge e he =>
      intro ha
      rcases hF e he with ⟨h1, -⟩ | ⟨h1, -⟩ | ⟨-, h2, e0, h3, h4, h5⟩
      · exact absurd ha h1
      · exact absurd ha h1
      · exact ⟨h2, by rw [← h4, ← h5]; exact Conn.edge h3⟩
    | @step e b he _ ih =>
      intro ha
      rcases hF e he with ⟨h1, -⟩ | ⟨h1, -⟩ | ⟨-, h2, e0, h3, h4, h5⟩
      · exact absurd ha h1
      · exact absurd ha h1
      · obtain ⟨h6, h7⟩ := ih h2
        refine ⟨h6, ?_⟩
        rw [← h5] at h7
        rw [← h4]; exact Conn.step h3 h7
  have old : ∀ {a b : Nat}, Conn F a b → ¬ new a → ¬ new b → Conn es a b := by
    intro a b hc
    induction hc with
    | @edge e he =>
      intro ha hb
      rcases hF e he with ⟨-, -, e0, h3, h4, h5⟩ | ⟨-, h1⟩ | ⟨h1, -⟩
      · rw [← h4, ← h5]; exact Conn.edge h3
      · exact absurd h1 hb
      · exact absurd h1 ha
    | @step e b he hc ih =>
      intro ha hb
      rcases hF e he with ⟨-, h2, e0, h3, h4, h5⟩ | ⟨-, h1⟩ | ⟨h1, -⟩
      · have := ih h2 hb
        rw [← h5] at this
        rw [← h4]; exact Conn.step h3 this
      · exact absurd (stay hc h1).1 hb
      · exact absurd h1 ha
  intro i hc
  by_cases hi : new i
  · exact h _ (stay hc hi).2
  · exact h _ (old hc hi hi)

theorem descendants_live {g : Graph} (h : WF g) {src i : Nat} (hi : i ∈ g.descendants src) : (g.node? i).isSome := by
  unfold Graph.descendants at hi
  simp only [List.mem_filter, List.contains_iff_mem] at hi
  obtain ⟨s, hs, hre⟩ := mem_closure.1 hi.2
  obtain ⟨e, he, rfl⟩ := List.mem_map.1 hs
  obtain ⟨he, -⟩ := List.mem_filter.1 he
  obtain ⟨he, -⟩ := List.mem_filter.1 he
  have hT : ∀ x y, Reach (g.edges.filter fun e => e.ty != .derive) x y → (g.node? x).isSome → (g.node? y).isSome := by
    intro x y hxy hx
    rcases hxy with rfl | hxy
    · exact hx
    · induction hxy with
      | edge h7 => exact (h.edges_valid _ (List.mem_filter.1 h7).1).2
      | step h7 _ ih => exact ih (h.edges_valid _ (List.mem_filter.1 h7).1).2
  exact hT _ _ hre (h.edges_valid _ he).2

theorem replicateDescendants_total {ord : List Nat → List Nat} (hord : ∀ l, (ord l).Perm l) {g : Graph} {src tgt : Nat} (h : WF g)
    (hac : Acyclic g.edges) (ht : (g.node? tgt).isSome) : ∃ g', g.replicateDescendants ord src tgt = .ok g' [] := by
  have hmem : ∀ i, i ∈ ord (g.descendants src) ↔ i ∈ g.descendants src := fun i => (hord _).mem_iff
  have hlive : ∀ i, i ∈ ord (g.descendants src) → (g.node? i).isSome := fun i hi => descendants_live h ((hmem i).1 hi)
  obtain ⟨⟨g1, m⟩, h1⟩ := replicateNodes_total (m := []) h hlive
  obtain ⟨a1, b1, c1, d1, -⟩ := replicateNodes_wf h h1 (by simp)
  obtain ⟨m2, q1, q2, q3, q4, q5⟩ := replicateNodes_effect h h1
  simp only [List.nil_append] at q1
  subst q1
  have hnd : (ord (g.descendants src)).Nodup := by
    rw [(hord _).nodup_iff]
    unfold Graph.descendants
    exact (nodup_rangeFrom _ _).1.filter _
  have hφ : ∀ i, i ∈ ord (g.descendants src) → (i, mapIdx m i) ∈ m := by
    intro i hi
    rw [← q2] at hi
    obtain ⟨⟨a, b⟩, hp, rfl⟩ := List.mem_map.1 hi
    have := lookup_of_nodup (by rw [q2]; exact hnd) hp
    unfold Graph.mapIdx
    simp only [this, Option.getD_some]
    exact hp
  have hfresh : ∀ i, i ∈ ord (g.descendants src) → g.node? (mapIdx m i) = none := fun i hi => q4 _ (hφ i hi)
  have hinj : ∀ i j, i ∈ ord (g.descendants src) → j ∈ ord (g.descendants src) → mapIdx m i = mapIdx m j → i = j := by
    intro i j hi hj hij
    have h4 := hφ i hi
    have h5 := hφ j hj
    rw [hij] at h4
    have := inj_of_nodup_map q3 h4 h5 rfl
    injection this
  have hnsel : ∀ i ∈ ord (g.descendants src), mapIdx m i ∉ ord (g.descendants src) := by
    intro i hi hc
    have h4 := hfresh i hi
    have h5 := hlive _ hc
    rw [h4] at h5
    cases h5
  classical
  let sel := ord (g.descendants src)
  let F : List Edge := g.edges ++
    ((g.edges.filter fun e => sel.contains e.src && sel.contains e.dst).map fun e => ⟨mapIdx m e.src, mapIdx m e.dst, e.ty⟩) ++
    ((g.edges.filter fun e => e.ty == .derive && sel.contains e.dst).map fun e => ⟨e.src, mapIdx m e.dst, e.ty⟩) ++
    ((g.edges.filter fun e => e.src == src && sel.contains e.dst).map fun e => ⟨tgt, mapIdx m e.dst, e.ty⟩)
  let back : Nat → Nat := fun k => if hk : ∃ i, i ∈ sel ∧ mapIdx m i = k then hk.choose else 0
  have hback : ∀ i ∈ sel, back (mapIdx m i) = i := by
    intro i hi
    have hk : ∃ j, j ∈ sel ∧ mapIdx m j = mapIdx m i := ⟨i, hi, rfl⟩
    simp only [back, dif_pos hk]
    exact hinj _ _ hk.choose_spec.1 hi hk.choose_spec.2
  have hnew : ∀ k, (g.node? k).isSome → ¬ ∃ i, i ∈ sel ∧ mapIdx m i = k := by
    rintro k hk ⟨i, hi, rfl⟩
    rw [hfresh i hi] at hk
    cases hk
  have hF : Acyclic F := by
    apply acyclic_copied hac (new := fun k => ∃ i, i ∈ sel ∧ mapIdx m i = k) (back := back)
    intro e he
    simp only [F, List.mem_append, List.mem_map, List.mem_filter, Bool.and_eq_true, List.contains_iff_mem, beq_iff_eq] at he
    rcases he with ((he | ⟨e0, ⟨h2, h3, h4⟩, rfl⟩) | ⟨e0, ⟨h2, h3, h4⟩, rfl⟩) | ⟨e0, ⟨h2, h3, h4⟩, rfl⟩
    · exact Or.inl ⟨hnew _ (h.edges_valid e he).1, hnew _ (h.edges_valid e he).2, e, he, rfl, rfl⟩
    · exact Or.inr (Or.inr ⟨⟨_, h3, rfl⟩, ⟨_, h4, rfl⟩, e0, h2, (hback _ h3).symm, (hback _ h4).symm⟩)
    · exact Or.inr (Or.inl ⟨hnew _ (h.edges_valid e0 h2).1, _, h4, rfl⟩)
    · exact Or.inr (Or.inl ⟨hnew _ ht, _, h4, rfl⟩)
  have f0 : ∀ e ∈ g1.edges, Linked F e.src e.dst := by
    intro e he
    rw [d1] at he
    exact ⟨e, by simp [F, he], rfl, rfl⟩
  obtain ⟨g2, r2, l2⟩ := replicateEdges_total hF (m := m) (sel := sel) (g0 := g)
    (fun e he h2 h3 => ⟨⟨mapIdx m e.src, mapIdx m e.dst, e.ty⟩, by
      simp only [F, List.mem_append, List.mem_map, List.mem_filter, Bool.and_eq_true, List.contains_iff_mem, beq_iff_eq]
      exact Or.inl (Or.inl (Or.inr ⟨e, ⟨he, h2, h3⟩, rfl⟩)), rfl, rfl⟩)
    (fun e he h2 h3 => ⟨⟨e.src, mapIdx m e.dst, e.ty⟩, by
      simp only [F, List.mem_append, List.mem_map, List.mem_filter, Bool.and_eq_true, List.contains_iff_mem, beq_iff_eq]
      exact Or.inl (Or.inr ⟨e, ⟨he, h2, h3⟩, rfl⟩), rfl, rfl⟩)
    hnsel (is := sel) (g := g1) (fun i hi => hi) f0 (fun e he _ => by rw [d1] at he; exact he)
  have e2 := @replicateEdges_mem m _ _ g1 g2 [] r2 (fun i hi => hi) hnsel
  have k2 : ∀ x : Edge, x.dst ∈ sel → x ∈ g2.edges → x ∈ g.edges := by
    intro x hx
    rw [e2, d1]
    rintro (h4 | ⟨i, hi, ⟨e0, h4, h5, h6, h7⟩ | ⟨e0, h4, h5, h6, h7⟩⟩)
    · exact h4
    · subst h7; exact absurd hx (hnsel _ h6)
    · subst h7; exact absurd hx (hnsel _ hi)
  obtain ⟨g3, r3⟩ := addEdges_total hF (g := g2) (es := ((g2.outEdges src).filter fun e => sel.contains e.dst).map fun e =>
    let c := mapIdx m e.dst
    ⟨tgt, c, match g2.node? c with
      | some (.ph _) => .placeholder
      | _ => if (match g.elem? src with | some e => e.isProcessed | none => false) then .childR else .childU⟩) l2 (by
    intro e he
    obtain ⟨e0, h5, rfl⟩ := List.mem_map.1 he
    simp only [List.mem_filter, List.contains_iff_mem, Graph.outEdges, beq_iff_eq] at h5
    obtain ⟨⟨h5, h6⟩, h7⟩ := h5
    refine ⟨⟨tgt, mapIdx m e0.dst, e0.ty⟩, ?_, rfl, rfl⟩
    simp only [F, List.mem_append, List.mem_map, List.mem_filter, Bool.and_eq_true, List.contains_iff_mem, beq_iff_eq]
    exact Or.inr ⟨e0, ⟨k2 e0 h7 h5, h6, h7⟩, rfl⟩)
  exact ⟨g3, M.bind_eq_ok.2 ⟨_, _, _, h1, M.bind_eq_ok.2 ⟨_, _, _, r2, r3, rfl⟩, rfl⟩⟩

end Svd
