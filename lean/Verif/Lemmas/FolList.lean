import Verif.Lemmas.FolStep
/-
References that can be followed: the list of placeholders, and the edges below processed nodes.
-/
namespace Svd
open Graph Spec

/-- The list of placeholders is right. -/
def Listed (g : Graph) : Prop := g.placeholders.Nodup ∧ ∀ k, k ∈ g.placeholders ↔ IsP g k

theorem Listed.congr {g g' : Graph} (h : Listed g) (h1 : g'.placeholders = g.placeholders) (h2 : ∀ k, IsP g' k ↔ IsP g k) : Listed g' := by
  unfold Listed
  rw [h1]
  exact ⟨h.1, fun k => (h.2 k).trans (h2 k).symm⟩

theorem Listed.nodes {g g' : Graph} (h : Listed g) (h1 : g'.placeholders = g.placeholders) (h2 : g'.nodes = g.nodes) : Listed g' :=
  h.congr h1 fun k => by unfold IsP; rw [node?_congr h2]

theorem Listed.addElem {g : Graph} (hw : WF g) (h : Listed g) (e : ElemNode) : Listed (g.addNode (.elem e)).1 := by
  obtain ⟨h1, h2, -, h4⟩ := addNode_spec hw (.elem e)
  refine h.congr h4 fun k => ?_
  unfold IsP
  rw [h2]
  split
  · rename_i hk
    subst hk
    rw [h1]
    simp
  · rfl

theorem Listed.addPh {g g' : Graph} (hw : WF g) (h : Listed g) (path : Str) (h1 : g'.nodes = (g.addNode (.ph path)).1.nodes)
    (h2 : g'.placeholders = g.placeholders ++ [(g.addNode (.ph path)).2]) : Listed g' := by
  obtain ⟨h3, h4, -, -⟩ := addNode_spec hw (.ph path)
  have hn : (g.addNode (.ph path)).2 ∉ g.placeholders := by
    intro hm
    obtain ⟨q, hq⟩ := (h.2 _).1 hm
    rw [h3] at hq
    cases hq
  have hi : ∀ k, IsP g' k ↔ k = (g.addNode (.ph path)).2 ∨ IsP g k := by
    intro k
    unfold IsP
    rw [node?_congr h1, h4]
    split
    · rename_i hk; simp [hk]
    · rename_i hk; simp [hk]
  unfold Listed
  rw [h2]
  refine ⟨List.nodup_append.2 ⟨h.1, by simp, ?_⟩, fun k => ?_⟩
  · intro a ha b hb
    simp only [List.mem_singleton] at hb
    rintro rfl
    subst hb
    exact hn ha
  · rw [List.mem_append, h.2, hi, List.mem_singleton]
    exact or_comm

theorem Listed.addEdges {g g' : Graph} {es : List Edge} {ws : List Warn} (h : Listed g) (hr : g.addEdges es = .ok g' ws) : Listed g' := by
  obtain ⟨h1, -, h3, -⟩ := addEdges_nodes hr
  exact h.nodes h3 h1

theorem Listed.replicateNodes {is : List Nat} : ∀ {g g' : Graph} {m m' : List (Nat × Nat)} {ws : List Warn}, WF g → Listed g →
    g.replicateNodes m is = .ok (g', m') ws → Listed g' := by
  induction is with
  | nil =>
    intro g g' m m' ws hw h hr
    simp only [Graph.replicateNodes, M.pure_eq_ok, Prod.mk.injEq] at hr
    obtain ⟨⟨rfl, -⟩, -⟩ := hr
    exact h
  | cons i is ih =>
    intro g g' m m' ws hw h hr
    unfold Graph.replicateNodes at hr
    split at hr
    · simp at hr
    · rename_i n hn
      cases n with
      | elem e => exact ih (addNode_wf hw _) (h.addElem hw e) hr
      | ph path =>
        refine ih (g := { (g.addNode (.ph path)).1 with
          placeholders := (g.addNode (.ph path)).1.placeholders ++ [(g.addNode (.ph path)).2] }) ?_ (h.addPh hw path rfl ?_) hr
        · exact (addNode_wf hw (.ph path)).of_eq rfl rfl fun e he => Or.inl he
        · show (g.addNode _).1.placeholders ++ _ = _
          rw [(addNode_spec hw (.ph path)).2.2.2]

theorem Listed.replicateDescendants {ord : List Nat → List Nat} {g g' : Graph} {a b : Nat} {ws : List Warn} (hw : WF g) (h : Listed g)
    (hr : g.replicateDescendants ord a b = .ok g' ws) : Listed g' := by
  unfold Graph.replicateDescendants at hr
  simp only [M.bind_eq_ok] at hr
  obtain ⟨⟨g1, m⟩, w1, w2, h1, ⟨g2, w3, w4, h2, h3, -⟩, -⟩ := hr
  have L1 := Listed.replicateNodes hw h h1
  obtain ⟨h4, h5, -, -⟩ := replicateEdges_nodes h2
  exact (L1.nodes h5 h4).addEdges h3

theorem Listed.adoptBase {ord : List Nat → List Nat} {g g' : Graph} {i : Nat} {base : Option Nat} {ws : List Warn} (hw : WF g) (h : Listed g)
    (hr : adoptBase ord g i base = .ok g' ws) : Listed g' := by
  cases base with
  | none =>
    simp only [Svd.adoptBase, M.pure_eq_ok] at hr
    rw [← hr.1]
    exact h
  | some b =>
    simp only [Svd.adoptBase, M.bind_eq_ok] at hr
    obtain ⟨g1, w1, w2, h1, h2, -⟩ := hr
    obtain ⟨rfl, -, -⟩ := removeEdge_ok h1
    have hw1 : WF { g with edges := eraseEdge b i g.edges } := hw.of_eq rfl rfl fun e he => Or.inl (eraseEdge_sub he)
    exact Listed.replicateDescendants hw1 (h.nodes rfl rfl) h2

theorem Listed.setElem {g : Graph} {i : Nat} {e e' : ElemNode} (hw : WF g) (h : Listed g) (he : g.elem? i = some e) : Listed (g.setElem i e') := by
  have h1 := elem?_node?.1 he
  obtain ⟨-, h2⟩ := setElem_wf (e := e') hw (i := i) (by rw [h1]; rfl)
  refine h.congr rfl fun k => ?_
  unfold IsP
  rw [h2]
  split
  · rename_i hk
    subst hk
    rw [h1]
    simp
  · rfl

theorem Listed.updateNode {ord : List Nat → List Nat} {g g' : Graph} {i : Nat} {base : Option Nat} {p : Processed} {t : Bool} {ws : List Warn}
    (hw : WF g) (h : Listed g) (hi : (g.node? i).isSome) (hr : updateNode ord g i base p t = .ok g' ws) : Listed g' := by
  obtain ⟨g1, e, h1, h2, -, rfl⟩ := updateNode_ok hr
  obtain ⟨h3, -⟩ := adoptBase_wf hw h1 hi
  have L := (Listed.adoptBase hw h h1).setElem (e' := { e with isProcessed := true, processed := some p, isDimTemplate := e.isDimTemplate || t }) h3 h2
  obtain ⟨h5, h6, -⟩ := resolveChildEdges_nodes (i := i)
    (g := g1.setElem i { e with isProcessed := true, processed := some p, isDimTemplate := e.isDimTemplate || t })
    (cs := (g1.setElem i { e with isProcessed := true, processed := some p, isDimTemplate := e.isDimTemplate || t }).elementChildren i)
  exact L.nodes h6 h5

theorem Listed.addInstances {lvl : Level} {parsed : Parsed} {xs : List (Nat × Processed)} : ∀ {g g' : Graph} {js : List Nat} {ws : List Warn},
    WF g → Listed g → (∀ x ∈ xs, (g.node? x.1).isSome) → addInstances lvl parsed g xs = .ok (g', js) ws → Listed g' := by
  induction xs with
  | nil =>
    intro g g' js ws hw h hx hr
    simp only [Svd.addInstances, M.pure_eq_ok, Prod.mk.injEq] at hr
    obtain ⟨⟨rfl, -⟩, -⟩ := hr
    exact h
  | cons x xs ih =>
    intro g g' js ws hw h hx hr
    obtain ⟨par, x⟩ := x
    simp only [Svd.addInstances, M.bind_eq_ok, M.pure_eq_ok, Prod.mk.injEq] at hr
    obtain ⟨⟨g1, j⟩, w1, w2, h1, ⟨⟨g2, js'⟩, w3, w4, h2, ⟨⟨rfl, -⟩, -⟩, -⟩, -⟩ := hr
    obtain ⟨k1, k2, -, -⟩ := addElementChild_wf hw h1 (hx _ (List.mem_cons_self ..))
    refine ih k1 ?_ (fun y hy => k2.isSome (hx _ (List.mem_cons_of_mem _ hy))) h2
    obtain ⟨-, h4, -⟩ := addElementChild_ok h1
    rw [h4]
    exact (h.addElem hw _).nodes rfl rfl

theorem Listed.processNode {ord : List Nat → List Nat} {g g' : Graph} {i : Nat} {ws : List Warn} (hw : WF g) (h : Listed g)
    (hr : processNode ord g i = .ok g' ws) : Listed g' := by
  obtain ⟨e, bn, bp, w, he, -, -, h1⟩ := processNode_cases hr
  have hi : (g.node? i).isSome := by rw [elem?_node?.1 he]; rfl
  rcases h1 with ⟨-, h1⟩ | ⟨-, h1⟩
  · unfold processEnumNode at h1
    rw [he] at h1
    simp only [M.bind_eq_ok] at h1
    obtain ⟨g1, w1, w2, h2, h3, -⟩ := h1
    have hw1 := (setElem_wf (e := { e with parsed := adoptedParsed g e bn }) hw hi).1
    have L1 := h.setElem (e' := { e with parsed := adoptedParsed g e bn }) hw he
    have L2 := Listed.adoptBase hw1 L1 h2
    obtain ⟨hw2, -⟩ := adoptBase_wf hw1 h2 (by
      rw [(setElem_wf (e := { e with parsed := adoptedParsed g e bn }) hw hi).2, if_pos rfl]; rfl)
    split at h3
    · simp at h3
    · rename_i e1 he1
      simp only [M.pure_eq_ok] at h3
      rw [← h3.1]
      exact L2.setElem hw2 he1
  · rcases processDimable_ok h1 with ⟨x, w1, -, -, h2⟩ | ⟨xs, t, w1, -, -, -, h2⟩
    · exact Listed.updateNode hw h hi h2
    · obtain ⟨g1, e1, g2, js, h3, h4, h5, h6⟩ := updateDimNode_ok h2
      have L1 := Listed.updateNode hw h hi h3
      have hw1 := (updateNode_wf hw h3 he).1
      have L2 := L1.addInstances hw1 (fun y hy => ?_) h5
      · obtain ⟨k1, k2, -, -⟩ := linkInstances_nodes h6
        exact L2.nodes k2 k1
      · simp only [List.mem_flatMap, List.mem_map] at hy
        obtain ⟨a, ha, b, -, rfl⟩ := hy
        obtain ⟨ed, k1, k2, -⟩ := elementParents_edge ha
        have := (hw1.edges_valid _ k1).1
        rw [k2] at this
        exact this

/-! ### edges below processed nodes -/

/-- The edges from processed nodes to their children are marked. -/
def Res (g : Graph) : Prop := ∀ a b, Ch g a b → Done g a → (⟨a, b, .childR⟩ : Edge) ∈ g.edges

theorem res_finish {d : SDevice} {g g' : Graph} {lab : Nat → Pos} {i : Nat} {e : ElemNode} {x0 : Processed} {t : Bool}
    {I : Nat → Nat → Processed → Prop} (h : LabX d g lab (· = i)) (N : Finish g g' i e x0 t I)
    (R : ∀ a b, a ≠ i → Ch g a b → Done g a → (⟨a, b, .childR⟩ : Edge) ∈ g.edges) : Res g' := by
  intro a b hc hd
  rcases (N.ch a b).1 hc with h1 | ⟨x, h1⟩ | ⟨⟨p, x, h1⟩, h2⟩
  · obtain ⟨hEa, hEb⟩ := h.tch _ _ h1
    by_cases hai : a = i
    · subst hai
      exact N.resI b hEb h1
    · have hI : ∀ p x, ¬ I a p x := by
        intro p x hI
        obtain ⟨ea, hea⟩ := hEa
        have := elem?_node?.1 hea
        rw [N.fresh _ _ _ hI] at this
        cases this
      refine N.resK a b (R a b hai h1 ?_)
      obtain ⟨ea, h3, h4⟩ := hd
      refine ⟨ea, ?_, h4⟩
      rw [elem?_node?] at h3 ⊢
      rwa [N.old a hai hI] at h3
  · exact N.resN _ _ _ h1
  · exact N.resJ _ _ _ h1 _ h2

theorem res_advance {d : SDevice} {g g' : Graph} {lab lab' : Nat → Pos} {i : Nat} (hw : WF g) (h : Lab d g lab)
    (hb : ∀ x, ¬ Precedes d x x) (A : Advance d g lab i g' lab') (R : Res g) : Res g' := by
  have erase : ∀ b, De g b i → Res { g with edges := eraseEdge b i g.edges } := by
    intro b hd x y h1 h2
    obtain ⟨n1, n2⟩ := de_not h hb hd
    obtain ⟨v1, -⟩ := erase_views (g' := { g with edges := eraseEdge b i g.edges }) n1 n2 rfl
    rw [v1] at h1
    refine eraseEdge_keep (R x y h1 h2) ?_
    rintro ⟨h3, h4⟩
    simp only at h3 h4
    subst h3 h4
    exact n1 h1
  cases A with
  | @enum e e' es he hl hl' hp hes =>
    have hR : Res { g with edges := es } := by
      rcases hes with rfl | ⟨b, hd, rfl⟩
      · exact R
      · exact erase b hd
    have hsub : ∀ x y, Ch ({ g with edges := es } : Graph) x y → Ch g x y := by
      rcases hes with rfl | ⟨b, hd, rfl⟩
      · exact fun x y hxy => hxy
      · exact fun x y hxy => hxy.imp eraseEdge_sub eraseEdge_sub
    intro a b h1 ⟨ea, h2, h3⟩
    have h1' : Ch ({ g with edges := es } : Graph) a b := h1
    rw [setElem_elem? (g := { g with edges := es }) (show ((g.node? i).isSome) by rw [elem?_node?.1 he]; rfl)] at h2
    split at h2
    · rename_i hk
      subst hk
      exact ((h.leaf _ e b he hl).1 (hsub _ _ h1')).elim
    · exact hR a b h1' ⟨ea, h2, h3⟩
  | @dim g1 lab1 e x0 t I _ _ he hl hp hw1 hx ha hf lo ln _ _ =>
    refine res_finish hx hf ?_
    intro a b hai hc hd
    cases ha with
    | none => exact R a b hc hd
    | @some _ _ s φ hdr hr l1 l2 hbase =>
      have hE := (h.tde _ _ hdr).1
      have hw0 : WF { g with edges := eraseEdge s i g.edges } := hw.of_eq rfl rfl fun e he => Or.inl (eraseEdge_sub he)
      obtain ⟨n1, n2⟩ := de_not h hb hdr
      have hN : ∀ j, j ∈ ({ g with edges := eraseEdge s i g.edges } : Graph).descendants s →
          ¬ De ({ g with edges := eraseEdge s i g.edges } : Graph) s j := by
        intro j hj hs
        have hs' : De g s j := eraseEdge_sub hs
        have h1 := h.der _ _ hs'
        have h2 := (inside_of (lab_erase h hdr) ((mem_descendants hw0).1 hj) (h.tde _ _ hs').2).1 hE
        exact not_endless hb h1 h2
      have hch := ((replica_views (lab_erase h hdr) hr hE hN).1 a b).1 hc
      obtain ⟨ea, hea, hpa⟩ := hd
      have R1 := erase s hdr
      rcases hch with h1 | ⟨k, j, h1, h2, rfl, rfl, h3⟩ | ⟨h1, -⟩
      · obtain ⟨ea', hea'⟩ := ((lab_erase h hdr).tch _ _ h1).1
        have := hr.ext.elem hea'
        rw [hea] at this
        injection this with this
        subst this
        exact (hr.edges _ _ _).2 (Or.inl (R1 a b h1 ⟨_, hea', hpa⟩))
      · have hk := (hr.copy k h1).2
        have : Done ({ g with edges := eraseEdge s i g.edges } : Graph) k := by
          refine ⟨ea, ?_, hpa⟩
          rw [elem?_node?] at hea ⊢
          rw [← hk]
          exact hea
        exact (hr.edges _ _ _).2 (Or.inr (Or.inl ⟨k, j, h1, h2, rfl, rfl, R1 k j h3 this⟩))
      · exact (hai h1).elim

end Svd
