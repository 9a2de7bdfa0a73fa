import Verif.Lemmas.Escape
/-
How many derive edges and placeholder edges end in an element.
-/
namespace Svd
open Graph Spec M

/-- The derive and placeholder edges that end in `k`. -/
def waitE (es : List Edge) (k : Nat) : List Edge := es.filter fun e => e.dst == k && (e.ty == .derive || e.ty == .placeholder)

theorem waitE_pos {e : Edge} {es : List Edge} {k : Nat} (h : (e.dst == k && (e.ty == .derive || e.ty == .placeholder)) = true) :
    waitE (e :: es) k = e :: waitE es k := by
  simp only [waitE, List.filter_cons, h, if_true]

theorem waitE_neg {e : Edge} {es : List Edge} {k : Nat} (h : ¬ (e.dst == k && (e.ty == .derive || e.ty == .placeholder)) = true) :
    waitE (e :: es) k = waitE es k := by
  simp only [waitE, List.filter_cons, h, if_false, Bool.false_eq_true]

theorem mem_waitE {es : List Edge} {k : Nat} {e : Edge} : e ∈ waitE es k ↔ e ∈ es ∧ e.dst = k ∧ (e.ty = .derive ∨ e.ty = .placeholder) := by
  simp [waitE, List.mem_filter]

theorem waitE_append (a b : List Edge) (k : Nat) : waitE (a ++ b) k = waitE a k ++ waitE b k := List.filter_append ..

theorem waitE_cons_child (a b : Nat) (es : List Edge) (k : Nat) : waitE (⟨a, b, .childR⟩ :: es) k = waitE es k := by
  simp [waitE]

theorem waitE_retype (a b : Nat) (es : List Edge) (k : Nat) : (waitE (retypeEdge a b .childR es) k).length ≤ (waitE es k).length := by
  induction es with
  | nil => simp [retypeEdge, waitE]
  | cons e es ih =>
    simp only [retypeEdge]
    split
    · rw [waitE_neg (by simp)]
      by_cases h : (e.dst == k && (e.ty == .derive || e.ty == .placeholder)) = true
      · rw [waitE_pos h]; exact Nat.le_succ _
      · rw [waitE_neg h]
    · by_cases h : (e.dst == k && (e.ty == .derive || e.ty == .placeholder)) = true
      · rw [waitE_pos h, waitE_pos h]; simp only [List.length_cons]; omega
      · rw [waitE_neg h, waitE_neg h]; exact ih

theorem waitE_resolveChildEdges {i : Nat} {cs : List Nat} (k : Nat) : ∀ {g : Graph},
    (waitE (resolveChildEdges i g cs).edges k).length ≤ (waitE g.edges k).length := by
  induction cs with
  | nil => intro g; exact Nat.le_refl _
  | cons c cs ih => intro g; exact Nat.le_trans ih (waitE_retype _ _ _ _)

theorem waitE_erase (a b : Nat) (es : List Edge) (k : Nat) : (waitE (eraseEdge a b es) k).length ≤ (waitE es k).length := by
  induction es with
  | nil => simp [eraseEdge, waitE]
  | cons e es ih =>
    simp only [eraseEdge]
    by_cases h : (e.dst == k && (e.ty == .derive || e.ty == .placeholder)) = true
    · rw [waitE_pos h]
      split
      · simp
      · rw [waitE_pos h]; simp only [List.length_cons]; omega
    · rw [waitE_neg h]
      split
      · exact Nat.le_refl _
      · rw [waitE_neg h]; exact ih

theorem waitE_erase_lt {b i : Nat} {es : List Edge} (h : (⟨b, i, .derive⟩ : Edge) ∈ es)
    (hc : ∀ e ∈ es, e.src = b → e.dst = i → e.ty = .derive ∨ e.ty = .placeholder) : (waitE (eraseEdge b i es) i).length < (waitE es i).length := by
  induction es with
  | nil => cases h
  | cons e es ih =>
    simp only [eraseEdge]
    by_cases hm : e.src = b ∧ e.dst = i
    · rw [if_pos (by simpa using hm)]
      rw [waitE_pos (by simpa [hm.2] using hc e (by simp) hm.1 hm.2)]
      simp
    · rw [if_neg (by simpa using hm)]
      have h' : (⟨b, i, .derive⟩ : Edge) ∈ es := by
        rcases List.mem_cons.1 h with rfl | h
        · exact absurd ⟨rfl, rfl⟩ hm
        · exact h
      have ih := ih h' fun e he => hc e (by simp [he])
      by_cases h : (e.dst == i && (e.ty == .derive || e.ty == .placeholder)) = true
      · rw [waitE_pos h, waitE_pos h]; simp only [List.length_cons]; omega
      · rw [waitE_neg h, waitE_neg h]; exact ih

theorem waitE_addInstances {lvl : Level} {p : Parsed} {xs : List (Nat × Processed)} (k : Nat) : ∀ {g g' : Graph} {js : List Nat} {ws : List Warn},
    addInstances lvl p g xs = .ok (g', js) ws → waitE g'.edges k = waitE g.edges k := by
  induction xs with
  | nil =>
    intro g g' js ws hr
    simp only [addInstances, M.pure_eq_ok, Prod.mk.injEq] at hr
    obtain ⟨⟨rfl, -⟩, -⟩ := hr
    rfl
  | cons x xs ih =>
    obtain ⟨par, x⟩ := x
    intro g g' js ws hr
    simp only [addInstances, M.bind_eq_ok, M.pure_eq_ok, Prod.mk.injEq] at hr
    obtain ⟨⟨g1, j⟩, w1, w2, h1, ⟨⟨g2, js'⟩, w3, w4, h2, ⟨⟨h3, -⟩, -⟩, -⟩, -⟩ := hr
    subst h3
    rw [ih h2]
    obtain ⟨-, rfl, -, -⟩ := addElementChild_ok h1
    simp only [waitE_cons_child, addNode_edges]

theorem waitE_linkChildren {j : Nat} {cs : List Nat} (k : Nat) : ∀ {g g' : Graph} {ws : List Warn}, linkChildren j g cs = .ok g' ws →
    waitE g'.edges k = waitE g.edges k := by
  induction cs with
  | nil =>
    intro g g' ws hr
    simp only [linkChildren, M.pure_eq_ok] at hr
    obtain ⟨rfl, -⟩ := hr
    rfl
  | cons c cs ih =>
    intro g g' ws hr
    simp only [linkChildren, M.bind_eq_ok] at hr
    obtain ⟨g1, w1, w2, h1, h2, -⟩ := hr
    rw [ih h2]
    obtain ⟨rfl, -, -⟩ := addEdge_nodes h1
    exact waitE_cons_child _ _ _ _

theorem waitE_linkInstances {i : Nat} {js : List Nat} (k : Nat) : ∀ {g g' : Graph} {ws : List Warn}, linkInstances i g js = .ok g' ws →
    waitE g'.edges k = waitE g.edges k := by
  induction js with
  | nil =>
    intro g g' ws hr
    simp only [linkInstances, M.pure_eq_ok] at hr
    obtain ⟨rfl, -⟩ := hr
    rfl
  | cons c cs ih =>
    intro g g' ws hr
    simp only [linkInstances, M.bind_eq_ok] at hr
    obtain ⟨g1, w1, w2, h1, h2, -⟩ := hr
    rw [ih h2, waitE_linkChildren k h1]

/-! ### copies -/

theorem waitE_none {L : List Edge} {k : Nat} (h : ∀ e ∈ L, e.dst ≠ k) : waitE L k = [] := by
  rw [List.eq_nil_iff_forall_not_mem]
  intro e he
  obtain ⟨h1, h2, -⟩ := mem_waitE.1 he
  exact h e h1 h2

theorem waitE_addEdges {g g' : Graph} {es : List Edge} {ws : List Warn} {k : Nat} (h : g.addEdges es = .ok g' ws) (hk : ∀ e ∈ es, e.dst ≠ k) :
    waitE g'.edges k = waitE g.edges k := by
  rw [(addEdges_nodes h).2.2.2.1, waitE_append, waitE_none (by simpa using hk), List.nil_append]

theorem waitE_replicateEdges {m : List (Nat × Nat)} {sel : List Nat} {k : Nat} (hk : ∀ i ∈ sel, mapIdx m i ≠ k) {is : List Nat} :
    ∀ {g g' : Graph} {ws : List Warn}, replicateEdges m sel g is = .ok g' ws → (∀ i ∈ is, i ∈ sel) → waitE g'.edges k = waitE g.edges k := by
  induction is with
  | nil =>
    intro g g' ws hr _
    simp only [Graph.replicateEdges, M.pure_eq_ok] at hr
    obtain ⟨rfl, -⟩ := hr
    rfl
  | cons i is ih =>
    intro g g' ws hr hs
    simp only [Graph.replicateEdges, M.bind_eq_ok] at hr
    obtain ⟨g1, w1, w2, h1, ⟨g2, w3, w4, h2, h3, -⟩, -⟩ := hr
    rw [ih h3 fun j hj => hs j (by simp [hj]), waitE_addEdges h2, waitE_addEdges h1]
    · intro e he
      obtain ⟨x, hx, rfl⟩ := List.mem_map.1 he
      exact hk _ (by simpa using (List.mem_filter.1 hx).2)
    · intro e he
      obtain ⟨x, hx, rfl⟩ := List.mem_map.1 he
      exact hk _ (hs i (by simp))

theorem waitE_replicate {ord : List Nat → List Nat} (hord : ∀ l, (ord l).Perm l) {g g' : Graph} {src tgt k : Nat} {ws : List Warn} (h : WF g)
    (hk : (g.node? k).isSome) (hr : g.replicateDescendants ord src tgt = .ok g' ws) : waitE g'.edges k = waitE g.edges k := by
  have hmem : ∀ i, i ∈ ord (g.descendants src) ↔ i ∈ g.descendants src := fun i => (hord _).mem_iff
  unfold Graph.replicateDescendants at hr
  simp only [M.bind_eq_ok] at hr
  obtain ⟨⟨g1, m⟩, w1, w2, h1, ⟨g2, w3, w4, h2, h3, rfl⟩, rfl⟩ := hr
  obtain ⟨a1, b1, c1, d1, -⟩ := replicateNodes_wf h h1 (by simp)
  obtain ⟨m2, q1, q2, q3, q4, q5⟩ := replicateNodes_effect h h1
  simp only [List.nil_append] at q1
  subst q1
  have hnd : (ord (g.descendants src)).Nodup := by
    rw [(hord _).nodup_iff]
    unfold Graph.descendants
    exact (nodup_rangeFrom _ _).1.filter _
  have hφ : ∀ i, i ∈ ord (g.descendants src) → (i, mapIdx m i) ∈ m := by
    intro i hi
    rw [← q2] at hi
    obtain ⟨⟨a, b⟩, hp, rfl⟩ := List.mem_map.1 hi
    have := lookup_of_nodup (by rw [q2]; exact hnd) hp
    unfold Graph.mapIdx
    simp only [this, Option.getD_some]
    exact hp
  have hne : ∀ i ∈ ord (g.descendants src), mapIdx m i ≠ k := by
    intro i hi he
    have := q4 _ (hφ i hi)
    rw [he] at this
    rw [this] at hk
    cases hk
  rw [waitE_addEdges h3, waitE_replicateEdges hne h2 (fun i hi => hi)]
  · rw [d1]
  · intro e he
    obtain ⟨x, hx, rfl⟩ := List.mem_map.1 he
    exact hne _ (by simpa using (List.mem_filter.1 hx).2)

/-! ### one node -/

/-- The derive and placeholder edges of a copy `k` come from those of the original `j`. -/
def Copied (es es' : List Edge) (j k : Nat) : Prop := ∃ φ : Nat → Nat, ∀ e ∈ waitE es' k,
  (e.ty = .derive ∧ ∃ c, (⟨c, j, .derive⟩ : Edge) ∈ es) ∨ ∃ h, e.ty = .placeholder ∧ e.src = φ h ∧ (⟨h, j, .placeholder⟩ : Edge) ∈ es

theorem Copied.nil {es es' : List Edge} {j k : Nat} (h : Copied es es' j k) (hz : waitE es j = []) : waitE es' k = [] := by
  obtain ⟨φ, h⟩ := h
  rw [List.eq_nil_iff_forall_not_mem] at hz ⊢
  intro e he
  rcases h e he with ⟨-, c, h1⟩ | ⟨h, -, -, h1⟩
  · exact hz _ (mem_waitE.2 ⟨h1, rfl, Or.inl rfl⟩)
  · exact hz _ (mem_waitE.2 ⟨h1, rfl, Or.inr rfl⟩)

theorem Copied.sub {es es' es'' : List Edge} {j k : Nat} (h : Copied es es' j k) (hs : ∀ e ∈ waitE es'' k, e ∈ waitE es' k) : Copied es es'' j k := by
  obtain ⟨φ, h⟩ := h
  exact ⟨φ, fun e he => h e (hs e he)⟩

theorem mem_waitE_retype {a b : Nat} {es : List Edge} {k : Nat} {e : Edge} (h : e ∈ waitE (retypeEdge a b .childR es) k) : e ∈ waitE es k := by
  obtain ⟨h1, h2, h3⟩ := mem_waitE.1 h
  refine mem_waitE.2 ⟨?_, h2, h3⟩
  clear h
  revert h1
  induction es with
  | nil => simp [retypeEdge]
  | cons x xs ih =>
    rw [retypeEdge]
    split
    · intro h
      rcases List.mem_cons.1 h with rfl | h
      · simp at h3
      · exact List.mem_cons_of_mem _ h
    · intro h
      rcases List.mem_cons.1 h with rfl | h
      · simp
      · exact List.mem_cons_of_mem _ (ih h)

theorem mem_waitE_resolveChildEdges {i : Nat} {cs : List Nat} {k : Nat} {e : Edge} : ∀ {g : Graph},
    e ∈ waitE (resolveChildEdges i g cs).edges k → e ∈ waitE g.edges k := by
  induction cs with
  | nil => intro g h; exact h
  | cons c cs ih =>
    intro g h
    exact mem_waitE_retype (ih h)

theorem waitE_adoptBase {ord : List Nat → List Nat} (hord : ∀ l, (ord l).Perm l) {g g' : Graph} {i : Nat} {bn : Option Nat} {ws : List Warn} (hw : WF g)
    (hi : (g.node? i).isSome) (hb : ∀ b, bn = some b → De g b i) (hr : adoptBase ord g i bn = .ok g' ws) :
    (∀ k, (g.node? k).isSome → (waitE g'.edges k).length ≤ (waitE g.edges k).length) ∧
    (∀ b, bn = some b → ¬ Ch g b i → (waitE g'.edges i).length < (waitE g.edges i).length) ∧
    (∀ k e, g'.elem? k = some e → g.node? k = none → ∃ b j, bn = some b ∧ Conn (g.edges.filter fun e => e.ty != .derive) b j ∧
      g.elem? j = some e ∧ Copied g.edges g'.edges j k) := by
  cases bn with
  | none =>
    simp only [adoptBase, M.pure_eq_ok] at hr
    obtain ⟨rfl, -⟩ := hr
    refine ⟨fun _ _ => Nat.le_refl _, (fun b hb => by cases hb), fun k e he hn => ?_⟩
    rw [elem?_node?, hn] at he
    cases he
  | some b =>
    simp only [adoptBase, M.bind_eq_ok] at hr
    obtain ⟨g1, w1, w2, h1, h2, -⟩ := hr
    obtain ⟨rfl, -, -⟩ := removeEdge_ok h1
    have hd := hb b rfl
    have hs : ∀ e ∈ eraseEdge b i g.edges, e ∈ g.edges := fun e he => eraseEdge_sub he
    have hw1 : WF { g with edges := eraseEdge b i g.edges } := hw.of_eq rfl rfl fun e he => Or.inl (hs e he)
    have hold : ∀ k, (g.node? k).isSome → waitE g'.edges k = waitE (eraseEdge b i g.edges) k :=
      fun k hk => waitE_replicate hord hw1 (k := k) hk h2
    refine ⟨fun k hk => ?_, ?_, ?_⟩
    · rw [hold k hk]; exact waitE_erase _ _ _ _
    · intro b' hb' hn
      injection hb' with hb'
      subst hb'
      rw [hold i hi]
      refine waitE_erase_lt hd fun e he y1 y2 => ?_
      obtain ⟨a, c, ty⟩ := e
      dsimp only at y1 y2
      subst y1 y2
      cases ty with
      | childU => exact absurd (Or.inl he) hn
      | childR => exact absurd (Or.inr he) hn
      | derive => exact Or.inl rfl
      | placeholder => exact Or.inr rfl
    · intro k e he hn
      obtain ⟨φ, R⟩ := replicateDescendants_rep hord hw1 hi h2
      rcases R.only k (by rw [elem?_node?.1 he]; rfl) with h | ⟨j, hj, rfl⟩
      · exfalso
        have h : (g.node? k).isSome := h
        rw [hn] at h
        cases h
      · obtain ⟨c1, c2⟩ := R.copy j hj
        have hje : g.elem? j = some e := by
          rw [elem?_node?] at he ⊢
          rw [← he, c2]
          rfl
        refine ⟨b, j, rfl, ?_, hje, ?_⟩
        · exact ((mem_descendants hw1).1 hj).mono fun e he => by
            obtain ⟨h1, h2⟩ := List.mem_filter.1 he
            exact ⟨e, (List.mem_filter (p := fun e : Edge => e.ty != .derive)).2 ⟨hs e h1, h2⟩, rfl, rfl⟩
        · refine ⟨φ, ?_⟩
          rintro ⟨a, c, ty⟩ hx
          obtain ⟨x1, x2, x3⟩ := mem_waitE.1 hx
          simp only at x2 x3
          subst x2
          rcases (R.edges _ _ _).1 x1 with x | ⟨a', j', s1, s2, rfl, x, y⟩ | ⟨j', s1, x, rfl, y⟩ | ⟨-, j', ty', s1, x, y, rfl⟩
          · have := (hw1.edges_valid _ x).2
            rw [R.fresh j hj] at this
            cases this
          · have := R.inj _ _ hj s2 x
            subst this
            rcases x3 with rfl | rfl
            · exact Or.inl ⟨rfl, _, hs _ y⟩
            · exact Or.inr ⟨_, rfl, rfl, hs _ y⟩
          · have := R.inj _ _ hj s1 x
            subst this
            exact Or.inl ⟨rfl, _, hs _ y⟩
          · have := R.inj _ _ hj s1 x
            subst this
            have h4 : (Graph.node? { g with edges := eraseEdge b i g.edges } j) = some (.elem e) := elem?_node?.1 hje
            unfold copyEdgeT at x3
            rw [h4] at x3
            rcases x3 with x3 | x3
            · dsimp only at x3
              cases h5 : (Graph.elem? { g with edges := eraseEdge b i g.edges } b) with
              | none => rw [h5] at x3; simp at x3
              | some eb => rw [h5] at x3; cases h6 : eb.isProcessed <;> simp [h6] at x3
            · dsimp only at x3
              cases h5 : (Graph.elem? { g with edges := eraseEdge b i g.edges } b) with
              | none => rw [h5] at x3; simp at x3
              | some eb => rw [h5] at x3; cases h6 : eb.isProcessed <;> simp [h6] at x3

/-- What processing the node `i` does to derive and placeholder edges. -/
theorem waitE_processNode {d : SDevice} {ord : List Nat → List Nat} (hord : ∀ l, (ord l).Perm l) {g g' : Graph} {lab : Nat → Pos} {i : Nat} {ws : List Warn}
    (A : LabAt d g lab) (hr : processNode ord g i = .ok g' ws) :
    (∀ k, (g.node? k).isSome → (waitE g'.edges k).length ≤ (waitE g.edges k).length) ∧
    (∀ e, g.elem? i = some e → e.parsed.derivedFrom ≠ none → (∀ b, De g b i → ¬ Ch g b i) → (waitE g'.edges i).length < (waitE g.edges i).length) ∧
    (∀ k e, g'.elem? k = some e → g.node? k = none → waitE g'.edges k = [] ∨ ∃ b j, De g b i ∧ Conn (g.edges.filter fun e => e.ty != .derive) b j ∧
      (∃ ej, g.elem? j = some ej ∧ ej.level = e.level ∧ (j ≠ i → ej = e)) ∧ Copied g.edges g'.edges j k) := by
  obtain ⟨e, bn, bp, w, he, hdev, hbase, hcase⟩ := processNode_cases hr
  have T := A.lab.typed
  have hw := A.inv.wf
  have hi : IsE g i := ⟨e, he⟩
  have hb : ∀ b, bn = some b → De g b i := by
    intro b hb
    rcases hbase with ⟨-, h2, -⟩ | ⟨path, b', eb, -, h2, -, -, h5, -⟩
    · rw [h2] at hb; cases hb
    · rw [h5] at hb
      injection hb with hb
      subst hb
      exact baseElementNode_edge h2
  have hbn : ∀ e', g.elem? i = some e' → e'.parsed.derivedFrom ≠ none → ∃ b, bn = some b := by
    intro e' he' hd
    rw [he] at he'
    injection he' with he'
    subst he'
    rcases hbase with ⟨h2, -⟩ | ⟨path, b', eb, -, h2, -, -, h5, -⟩
    · exact absurd h2 hd
    · exact ⟨_, h5⟩
  have upd : ∀ {p t w} {g' : Graph}, updateNode ord g i bn p t = .ok g' w →
      (∀ k, (g.node? k).isSome → (waitE g'.edges k).length ≤ (waitE g.edges k).length) ∧
      (∀ b, bn = some b → ¬ Ch g b i → (waitE g'.edges i).length < (waitE g.edges i).length) ∧
      (∀ k e, g'.elem? k = some e → g.node? k = none → ∃ b j, bn = some b ∧ Conn (g.edges.filter fun e => e.ty != .derive) b j ∧
        g.elem? j = some e ∧ Copied g.edges g'.edges j k) := by
    intro p t w g' hr
    obtain ⟨g1, e1, h1, h2, h3, rfl⟩ := updateNode_ok hr
    obtain ⟨x1, x2, x3⟩ := waitE_adoptBase hord hw hi.some hb h1
    have hle : ∀ k, (waitE (resolveChildEdges i (g1.setElem i { e1 with isProcessed := true, processed := some p, isDimTemplate := e1.isDimTemplate || t })
        ((g1.setElem i { e1 with isProcessed := true, processed := some p, isDimTemplate := e1.isDimTemplate || t }).elementChildren i)).edges k).length ≤
        (waitE g1.edges k).length := fun k => waitE_resolveChildEdges k
    refine ⟨fun k hk => Nat.le_trans (hle k) (x1 k hk), fun b hb hn => Nat.lt_of_le_of_lt (hle i) (x2 b hb hn), fun k e he hn => ?_⟩
    have hki : k ≠ i := by
      rintro rfl
      have := hi.some
      rw [hn] at this
      cases this
    have hw1 := (adoptBase_wf hw h1 hi.some)
    have he' : g1.elem? k = some e := by
      rw [elem?_node?] at he ⊢
      rw [← he, node?_congr resolveChildEdges_nodes.1, (setElem_wf hw1.1 (by rw [elem?_node?.1 h2]; rfl)).2, if_neg hki]
    obtain ⟨b, j, y1, y2, y3, y4⟩ := x3 k e he' hn
    exact ⟨b, j, y1, y2, y3, y4.sub fun e he => by have := mem_waitE_resolveChildEdges he; exact this⟩
  rcases hcase with ⟨hen, hp⟩ | ⟨hen, hp⟩
  · unfold processEnumNode at hp
    rw [he] at hp
    simp only [M.bind_eq_ok] at hp
    obtain ⟨g1, w1, w2, h1, h2, -⟩ := hp
    have hs := setElem_wf (e := { e with parsed := adoptedParsed g e bn }) hw hi.some
    have he0 : (g.setElem i { e with parsed := adoptedParsed g e bn }).elem? i = some { e with parsed := adoptedParsed g e bn } := by
      rw [elem?_node?, hs.2, if_pos rfl]
    have hw1 := (adoptBase_wf hs.1 h1 (by rw [elem?_node?.1 he0]; rfl))
    obtain ⟨x1, x2, x3⟩ := waitE_adoptBase hord hs.1 (by rw [elem?_node?.1 he0]; rfl) hb h1
    rw [hw1.2.elem he0] at h2
    simp only [M.pure_eq_ok] at h2
    obtain ⟨rfl, -⟩ := h2
    have hsome : ∀ k, (g.node? k).isSome → ((g.setElem i { e with parsed := adoptedParsed g e bn }).node? k).isSome := by
      intro k hk
      rw [hs.2]
      split
      · rfl
      · exact hk
    refine ⟨fun k hk => x1 k (hsome k hk), fun e' he' hd hn => ?_, fun k e' he' hn => ?_⟩
    · obtain ⟨b, hbb⟩ := hbn e' he' hd
      exact x2 b hbb (hn b (hb b hbb))
    · have hki : k ≠ i := by
        rintro rfl
        have := hi.some
        rw [hn] at this
        cases this
      have hn' : (g.setElem i { e with parsed := adoptedParsed g e bn }).node? k = none := by
        rw [hs.2, if_neg hki]; exact hn
      have he1 : g1.elem? k = some e' := by
        rw [elem?_node?] at he' ⊢
        rw [← he', (setElem_wf hw1.1 (by rw [elem?_node?.1 (hw1.2.elem he0)]; rfl)).2, if_neg hki]
      obtain ⟨b, j, y1, y2, y3, y4⟩ := x3 k e' he1 hn'
      right
      refine ⟨b, j, hb b y1, y2, ?_, y4⟩
      by_cases hji : j = i
      · subst hji
        rw [he0] at y3
        injection y3 with y3
        exact ⟨e, he, by rw [← y3], fun hne => absurd rfl hne⟩
      · rw [elem?_node?, hs.2, if_neg hji] at y3
        exact ⟨e', elem?_node?.2 y3, rfl, fun _ => rfl⟩
  · rcases processDimable_ok hp with ⟨x, w, -, -, h2⟩ | ⟨xs, t, w, -, -, -, h2⟩
    · obtain ⟨x1, x2, x3⟩ := upd h2
      refine ⟨x1, fun e' he' hd hn => ?_, fun k e' he' hn => ?_⟩
      · obtain ⟨b, hbb⟩ := hbn e' he' hd
        exact x2 b hbb (hn b (hb b hbb))
      · obtain ⟨b, j, y1, y2, y3, y4⟩ := x3 k e' he' hn
        exact Or.inr ⟨b, j, hb b y1, y2, ⟨_, y3, rfl, fun _ => rfl⟩, y4⟩
    · obtain ⟨g1, e1, g2, js, h3, h4, h5, h6⟩ := updateDimNode_ok h2
      obtain ⟨x1, x2, x3⟩ := upd h3
      have hw1 := updateNode_wf hw h3 he
      have hlive : ∀ x ∈ (g1.elementParents i).flatMap (fun par => xs.map fun x => (par, x)), (g1.node? x.1).isSome := by
        intro x hx
        obtain ⟨par, hpar, hx⟩ := List.mem_flatMap.1 hx
        obtain ⟨y, -, rfl⟩ := List.mem_map.1 hx
        obtain ⟨ed, h2, rfl, -, -, -⟩ := elementParents_edge hpar
        exact (hw1.1.edges_valid _ h2).1
      obtain ⟨-, hx2, hf, hin, hlen, hold, -⟩ := addInstances_effect (e := e1) hw1.1 h5 hlive
      have hE : ∀ k, waitE g'.edges k = waitE g1.edges k := fun k => by
        rw [waitE_linkInstances k h6, waitE_addInstances k h5]
      have hN : g'.nodes = g2.nodes := (pls_linkInstances h6).2
      refine ⟨fun k hk => by rw [hE]; exact x1 k hk, fun e' he' hd hn => ?_, fun k e' he' hn => ?_⟩
      · obtain ⟨b, hbb⟩ := hbn e' he' hd
        rw [hE]
        exact x2 b hbb (hn b (hb b hbb))
      · by_cases hk : k ∈ js
        · left
          rw [hE, List.eq_nil_iff_forall_not_mem]
          intro ed hed
          obtain ⟨z1, rfl, -⟩ := mem_waitE.1 hed
          have := (hw1.1.edges_valid _ z1).2
          rw [hf _ hk] at this
          cases this
        · have he1 : g1.elem? k = some e' := by
            rw [elem?_node?] at he' ⊢
            rw [← he', node?_congr hN, hold k hk]
          obtain ⟨b, j, y1, y2, y3, y4⟩ := x3 k e' he1 hn
          exact Or.inr ⟨b, j, hb b y1, y2, ⟨_, y3, rfl, fun _ => rfl⟩, y4.sub fun e he => by rw [← hE]; exact he⟩

end Svd
