import Verif.Lemmas.Made
import Verif.Lemmas.Lookup
/- The invariant of the element graph is preserved by every step of the resolver. -/
namespace Svd
open Graph Spec

/-! ### replication -/

theorem lookup_mem {m : List (Nat × Nat)} {i j : Nat} (h : m.lookup i = some j) : (i, j) ∈ m := by
  induction m with
  | nil => cases h
  | cons p m ih =>
    obtain ⟨a, b⟩ := p
    simp only [List.lookup] at h
    split at h
    · rename_i hab
      simp only [Option.some.injEq] at h
      have : i = a := by simpa using hab
      subst this; subst h; simp
    · exact List.mem_cons_of_mem _ (ih h)

/-- The mapping points to copies. -/
def CopyMap (g : Graph) (m : List (Nat × Nat)) : Prop := ∀ p ∈ m, (g.node? p.1).isSome ∧ g.node? p.2 = g.node? p.1

theorem CopyMap.node {g : Graph} {m : List (Nat × Nat)} (h : CopyMap g m) (i : Nat) :
    g.node? (mapIdx m i) = g.node? i := by
  unfold Graph.mapIdx
  cases hl : m.lookup i with
  | none => rfl
  | some j => exact (h _ (lookup_mem hl)).2

theorem CopyMap.ext {g g' : Graph} {m : List (Nat × Nat)} (h : CopyMap g m) (hx : Ext g g') : CopyMap g' m := by
  intro p hp
  obtain ⟨h1, h2⟩ := h p hp
  obtain ⟨n, hn⟩ := Option.isSome_iff_exists.1 h1
  refine ⟨hx.isSome h1, ?_⟩
  rw [hx _ _ hn, hx _ _ (h2.trans hn)]

theorem replicateNodes_copy {g g' : Graph} {m m' : List (Nat × Nat)} {is : List Nat} {ws : List Warn} (h : WF g)
    (hr : g.replicateNodes m is = .ok (g', m') ws) (hm : CopyMap g m) : CopyMap g' m' := by
  induction is generalizing g m ws with
  | nil =>
    simp only [Graph.replicateNodes, M.pure_eq_ok, Prod.mk.injEq] at hr
    obtain ⟨⟨rfl, rfl⟩, rfl⟩ := hr
    exact hm
  | cons i is ih =>
    simp only [Graph.replicateNodes] at hr
    split at hr
    · simp at hr
    · rename_i n hn
      have hs := addNode_spec h n
      have hx := addNode_ext h n
      have hw := addNode_wf h n
      have key : ∀ g2 : Graph, g2.nodes = (g.addNode n).1.nodes → g2.free = (g.addNode n).1.free →
          g2.edges = (g.addNode n).1.edges →
          replicateNodes g2 (m ++ [(i, (g.addNode n).2)]) is = .ok (g', m') ws → CopyMap g' m' := by
        intro g2 e1 e2 e3 hr
        have hw2 : WF g2 := hw.of_eq e1 e2 (fun e he => Or.inl (by rw [← e3]; exact he))
        have hx2 : Ext g g2 := hx.trans (Ext.of_nodes e1)
        refine ih hw2 hr ?_
        intro p hp
        rcases List.mem_append.1 hp with hp | hp
        · exact (hm.ext hx2) p hp
        · simp only [List.mem_singleton] at hp
          subst hp
          have : g2.node? i = some n := hx2 _ _ hn
          refine ⟨by simp [this], ?_⟩
          simp only
          rw [this, node?_congr e1, hs.2.1]; simp
      cases n with
      | ph path =>
        exact key { (g.addNode (.ph path)).1 with
          placeholders := (g.addNode (.ph path)).1.placeholders ++ [(g.addNode (.ph path)).2] } rfl rfl rfl hr
      | elem e => exact key _ rfl rfl rfl hr

theorem EOKi.congr {g : Graph} {a b a' b' : Nat} {ty : EdgeT} (h : EOKi g a b ty) (ha : g.node? a' = g.node? a)
    (hb : g.node? b' = g.node? b) : EOKi g a' b' ty := by
  obtain ⟨s, t, h1, h2, h3⟩ := h
  exact ⟨s, t, ha.trans h1, hb.trans h2, h3⟩

theorem addEdges_eok {g g' : Graph} {es : List Edge} {ws : List Warn} (h : EdgesOK g) (hr : g.addEdges es = .ok g' ws)
    (hv : ∀ e ∈ es, EOKi g e.src e.dst e.ty) : EdgesOK g' := by
  obtain ⟨h1, -, -, h3, -⟩ := addEdges_nodes hr
  refine h.ext (Ext.of_nodes h1) ?_
  intro e he
  rw [h3, List.mem_append, List.mem_reverse] at he
  rcases he with he | he
  · exact Or.inr ((hv e he).ext (Ext.of_nodes h1))
  · exact Or.inl he

theorem replicateEdges_eok {m : List (Nat × Nat)} {sel is : List Nat} {g g' : Graph} {ws : List Warn} (h : EdgesOK g)
    (hr : replicateEdges m sel g is = .ok g' ws) (hm : CopyMap g m) : EdgesOK g' := by
  induction is generalizing g ws with
  | nil =>
    simp only [Graph.replicateEdges, M.pure_eq_ok] at hr
    obtain ⟨rfl, -⟩ := hr
    exact h
  | cons i is ih =>
    simp only [Graph.replicateEdges, M.bind_eq_ok] at hr
    obtain ⟨g1, w1, w2, h1, ⟨g2, w3, w4, h2, h3, rfl⟩, rfl⟩ := hr
    have a1 := addEdges_eok h h1 (by
      intro e he
      obtain ⟨e', he', rfl⟩ := List.mem_map.1 he
      obtain ⟨he', -⟩ := List.mem_filter.1 he'
      obtain ⟨he1, hsrc⟩ := outEdges_mem he'
      exact (h _ he1).congr (by rw [hm.node, hsrc]) (by rw [hm.node]))
    have x1 : Ext g g1 := Ext.of_nodes (addEdges_nodes h1).1
    have a2 := addEdges_eok a1 h2 (by
      intro e he
      obtain ⟨e', he', rfl⟩ := List.mem_map.1 he
      obtain ⟨he', -⟩ := List.mem_filter.1 he'
      obtain ⟨he1, hdst⟩ := inEdges_mem he'
      exact (a1 _ he1).congr rfl (by rw [(hm.ext x1).node, hdst]))
    have x2 : Ext g1 g2 := Ext.of_nodes (addEdges_nodes h2).1
    exact ih a2 h3 ((hm.ext x1).ext x2)

theorem replicateDescendants_eok {ord : List Nat → List Nat} {g g' : Graph} {a b : Nat} {eb : ElemNode}
    {ws : List Warn} (h : WF g) (ho : EdgesOK g)
    (hr : g.replicateDescendants ord a b = .ok g' ws) (hb : g.elem? b = some eb) : EdgesOK g' := by
  unfold Graph.replicateDescendants at hr
  simp only [M.bind_eq_ok] at hr
  obtain ⟨⟨g1, m⟩, w1, w2, h1, ⟨g2, w3, w4, h2, h3, rfl⟩, rfl⟩ := hr
  obtain ⟨a1, b1, c1, d1, -⟩ := replicateNodes_wf h h1 (by simp)
  have cm : CopyMap g1 m := replicateNodes_copy h h1 (by intro p hp; cases hp)
  have o1 : EdgesOK g1 := ho.ext b1 (fun e he => Or.inl (by rw [← d1]; exact he))
  have o2 := replicateEdges_eok o1 h2 cm
  have x2 : Ext g1 g2 := Ext.of_nodes (replicateEdges_nodes h2).1
  refine addEdges_eok o2 h3 ?_
  intro e he
  obtain ⟨e', he', rfl⟩ := List.mem_map.1 he
  obtain ⟨he', -⟩ := List.mem_filter.1 he'
  obtain ⟨he1, -⟩ := outEdges_mem he'
  obtain ⟨s, t, -, ht, -⟩ := o2 _ he1
  refine ⟨.elem eb, t, elem?_node?.1 ((b1.trans x2).elem hb), ?_, ?_⟩
  · show g2.node? (mapIdx m e'.dst) = some t
    rw [(cm.ext x2).node]; exact ht
  · simp only
    split
    · exact trivial
    · apply eok_child
      exact (Decidable.em _).elim (fun h => Or.inr (if_pos h)) (fun h => Or.inl (if_neg h))

theorem inv_adoptBase {d : SDevice} {ord : List Nat → List Nat} {g g' : Graph} {i : Nat} {e : ElemNode}
    {base : Option Nat} {ws : List Warn} (h : Inv d g) (hr : adoptBase ord g i base = .ok g' ws)
    (hi : g.elem? i = some e) : Inv d g' ∧ Ext g g' := by
  have hi' : (g.node? i).isSome := by rw [elem?_node?.1 hi]; rfl
  obtain ⟨a, b⟩ := adoptBase_wf h.wf hr hi'
  refine ⟨⟨a, AllN.adoptBase hr h.nodes, ?_⟩, b⟩
  cases base with
  | none =>
    simp only [Svd.adoptBase, M.pure_eq_ok] at hr
    obtain ⟨rfl, -⟩ := hr
    exact h.edges
  | some b0 =>
    simp only [Svd.adoptBase, M.bind_eq_ok] at hr
    obtain ⟨g1, w1, w2, h1, h2, rfl⟩ := hr
    obtain ⟨rfl, -, -⟩ := removeEdge_ok h1
    have hw := h.wf.of_eq (g' := { g with edges := eraseEdge b0 i g.edges }) rfl rfl
      (fun e he => Or.inl (eraseEdge_sub he))
    have hx : Ext g { g with edges := eraseEdge b0 i g.edges } := Ext.of_nodes rfl
    exact replicateDescendants_eok hw (h.edges.ext hx fun e he => Or.inl (eraseEdge_sub he)) h2 (hx.elem hi)

/-! ### changing a node -/

/-- A node changed in ways that do not matter for edges. -/
theorem EOK.set_src {e e' : ElemNode} {t : Node} {ty : EdgeT} (h : EOK (.elem e) t ty) (hn : e'.name = e.name)
    (hl : e'.level = e.level) : EOK (.elem e') t ty := by
  cases ty with
  | derive =>
    obtain ⟨es, ed, h1, h2, h3, h4⟩ := h
    simp only [Node.elem.injEq] at h1
    subst h1
    refine ⟨e', ed, rfl, h2, by rw [hl]; exact h3, fun hh => ?_⟩
    rw [hn]; exact h4 hh
  | _ => trivial

theorem EOK.set_dst {e e' : ElemNode} {s : Node} {ty : EdgeT} (h : EOK s (.elem e) ty)
    (hl : e'.level = e.level) (hp : e.level ≠ .enumcont → e'.parsed = e.parsed) : EOK s (.elem e') ty := by
  cases ty with
  | derive =>
    obtain ⟨es, ed, h1, h2, h3, h4⟩ := h
    simp only [Node.elem.injEq] at h2
    subst h2
    refine ⟨es, e', h1, rfl, by rw [hl]; exact h3, fun hh => ?_⟩
    rw [hl] at hh
    rw [hp hh]; exact h4 hh
  | placeholder =>
    cases s with
    | elem _ => trivial
    | ph path =>
      obtain ⟨ed, h1, h2⟩ := h
      simp only [Node.elem.injEq] at h1
      subst h1
      refine ⟨e', rfl, fun hh => ?_⟩
      rw [hl] at hh
      rw [hp hh]; exact h2 hh
  | childU => exact eok_childU _ _
  | childR => exact eok_childR _ _

theorem setElem_eok {g : Graph} {i : Nat} {e e' : ElemNode} (ho : EdgesOK g)
    (he : g.elem? i = some e) (hn : e'.name = e.name) (hl : e'.level = e.level)
    (hp : e.level ≠ .enumcont → e'.parsed = e.parsed) : EdgesOK (g.setElem i e') := by
  have hnode := elem?_node?.1 he
  have hset : ∀ j, (g.setElem i e').node? j = if j = i then some (.elem e') else g.node? j :=
    fun j => node?_set (node?_lt hnode) _ rfl
  intro x hx
  obtain ⟨s, t, h1, h2, h3⟩ := ho x hx
  refine ⟨if x.src = i then .elem e' else s, if x.dst = i then .elem e' else t, ?_, ?_, ?_⟩
  · rw [hset]; split
    · rfl
    · exact h1
  · rw [hset]; split
    · rfl
    · exact h2
  · have h4 : EOK (if x.src = i then .elem e' else s) t x.ty := by
      split
      · rename_i hs
        rw [hs, hnode] at h1
        simp only [Option.some.injEq] at h1
        subst h1
        exact h3.set_src hn hl
      · exact h3
    by_cases hd : x.dst = i
    · rw [if_pos hd]
      rw [hd, hnode] at h2
      simp only [Option.some.injEq] at h2
      subst h2
      exact h4.set_dst hl hp
    · rw [if_neg hd]
      exact h4

theorem inv_setElem {d : SDevice} {g : Graph} {i : Nat} {e e' : ElemNode} (h : Inv d g)
    (he : g.elem? i = some e) (hn : e'.name = e.name) (hl : e'.level = e.level)
    (hp : e.level ≠ .enumcont → e'.parsed = e.parsed) (hok : NodeOK d (.elem e')) : Inv d (g.setElem i e') := by
  have hi : (g.node? i).isSome := by rw [elem?_node?.1 he]; rfl
  refine ⟨(setElem_wf h.wf hi).1, h.nodes.setNodes (i := i) (o := some (.elem e')) ?_ rfl,
    setElem_eok h.edges he hn hl hp⟩
  intro n hn
  simp only [Option.some.injEq] at hn
  subst hn; exact hok

theorem resolveChildEdges_eok {i : Nat} {g : Graph} {cs : List Nat} (h : EdgesOK g) :
    EdgesOK (resolveChildEdges i g cs) := by
  intro e he
  obtain ⟨e', he', h1, h2, h3⟩ := resolveChildEdges_mem he
  have hx : Ext g (resolveChildEdges i g cs) := Ext.of_nodes resolveChildEdges_nodes.1
  obtain ⟨s, t, a, b, c⟩ := (h e' he').ext hx
  refine ⟨s, t, h1 ▸ a, h2 ▸ b, ?_⟩
  rcases h3 with rfl | ⟨-, -, h3⟩
  · exact c
  · rw [h3]; exact eok_childR _ _

theorem inv_updateNode {d : SDevice} {ord : List Nat → List Nat} {g g' : Graph} {i : Nat} {e : ElemNode}
    {base : Option Nat} {x : Processed} {t : Bool} {ws : List Warn} (h : Inv d g)
    (hr : updateNode ord g i base x t = .ok g' ws) (hi : g.elem? i = some e)
    (hok : NodeOK d (.elem { e with isProcessed := true, processed := some x,
                                    isDimTemplate := e.isDimTemplate || t })) :
    Inv d g' ∧ (∀ j, j ≠ i → ∀ n, g.node? j = some n → g'.node? j = some n) ∧
      g'.elem? i = some { e with isProcessed := true, processed := some x, isDimTemplate := e.isDimTemplate || t } ∧
      e.processed = none := by
  obtain ⟨g1, e1, h1, h2, h3, rfl⟩ := updateNode_ok hr
  obtain ⟨a, b⟩ := inv_adoptBase h h1 hi
  have : e1 = e := by
    have := b.elem hi
    rw [h2] at this
    simpa using this
  subst this
  have hi1 : (g1.node? i).isSome := by rw [elem?_node?.1 h2]; rfl
  have hs := inv_setElem (e' := { e1 with isProcessed := true, processed := some x,
                                          isDimTemplate := e1.isDimTemplate || t }) a h2 rfl rfl (fun _ => rfl) hok
  have hn := (resolveChildEdges_nodes (i := i) (g := g1.setElem i { e1 with isProcessed := true, processed := some x, isDimTemplate := e1.isDimTemplate || t }) (cs := (g1.setElem i { e1 with isProcessed := true, processed := some x, isDimTemplate := e1.isDimTemplate || t }).elementChildren i)).1
  refine ⟨⟨resolveChildEdges_wf hs.wf, hs.nodes.of_nodes hn, resolveChildEdges_eok hs.edges⟩, ?_, ?_, h3⟩
  · intro j hj n hn'
    rw [node?_congr hn, (setElem_wf a.wf hi1).2, if_neg hj]
    exact b _ _ hn'
  · rw [elem?_congr hn, setElem_elem? hi1, if_pos rfl]

theorem addInstances_eok {d : SDevice} {lvl : Level} {parsed : Parsed} {g g' : Graph} {xs : List (Nat × Processed)} {js : List Nat}
    {ws : List Warn} (h : Inv d g) (hr : addInstances lvl parsed g xs = .ok (g', js) ws)
    (hx : ∀ x ∈ xs, (g.node? x.1).isSome)
    (hq : ∀ x ∈ xs, NodeOK d (.elem ⟨some x.2.name, lvl, true, parsed, some x.2, false⟩)) :
    Inv d g' ∧ Ext g g' ∧ (∀ j ∈ js, (g'.node? j).isSome) := by
  obtain ⟨a, b, c⟩ := addInstances_wf h.wf hr hx
  refine ⟨⟨a, AllN.addInstances hr h.nodes hq, ?_⟩, b, c⟩
  induction xs generalizing g js ws with
  | nil =>
    simp only [Svd.addInstances, M.pure_eq_ok, Prod.mk.injEq] at hr
    obtain ⟨⟨rfl, rfl⟩, -⟩ := hr
    exact h.edges
  | cons x xs ih =>
    obtain ⟨par, y⟩ := x
    simp only [Svd.addInstances, M.bind_eq_ok] at hr
    obtain ⟨⟨g1, j⟩, w1, w2, h1, ⟨⟨g2, js'⟩, w3, w4, h2, h3, -⟩, -⟩ := hr
    simp only [M.pure_eq_ok, Prod.mk.injEq] at h3
    obtain ⟨⟨rfl, rfl⟩, -⟩ := h3
    have hp := hx (par, y) (by simp)
    obtain ⟨s, hs⟩ := Option.isSome_iff_exists.1 hp
    have hok := hq (par, y) (by simp)
    obtain ⟨a1, a2, a3, a4⟩ := addElementChild_wf h.wf h1 hp
    obtain ⟨hi, hg, -, -⟩ := addElementChild_ok h1
    have e1 : EdgesOK g1 := by
      refine h.edges.ext a2 ?_
      intro z hz
      rw [hg] at hz
      rcases List.mem_cons.1 hz with rfl | hz
      · exact Or.inr ⟨s, _, a2 _ _ hs, a3, eok_childR _ _⟩
      · left
        have hx' : z ∈ (g.addNode (.elem ⟨some y.name, lvl, true, parsed, some y, false⟩)).1.edges := hz
        rwa [(addNode_spec h.wf _).2.2.1] at hx'
    have n1 : AllN (NodeOK d) g1 := by
      have := h.nodes.addNode hok
      rw [hg]
      exact this.of_nodes rfl
    have hx' : ∀ x ∈ xs, (g1.node? x.1).isSome := fun x hx' => a2.isSome (hx x (by simp [hx']))
    obtain ⟨a', b', c'⟩ := addInstances_wf a1 h2 hx'
    exact ih ⟨a1, n1, e1⟩ h2 hx' (fun x hx' => hq x (by simp [hx'])) b' c'

theorem linkChildren_eok {j : Nat} {g g' : Graph} {cs : List Nat} {ws : List Warn} (h : EdgesOK g)
    (hr : linkChildren j g cs = .ok g' ws) (hj : (g.node? j).isSome) (hc : ∀ c ∈ cs, (g.node? c).isSome) :
    EdgesOK g' := by
  obtain ⟨h1, -, -, h2, -⟩ := linkChildren_nodes hr
  have hx : Ext g g' := Ext.of_nodes h1
  refine h.ext hx ?_
  intro e he
  rw [h2, List.mem_append, List.mem_reverse] at he
  rcases he with he | he
  · obtain ⟨c, hc', rfl⟩ := List.mem_map.1 he
    obtain ⟨s, hs⟩ := Option.isSome_iff_exists.1 hj
    obtain ⟨t, ht⟩ := Option.isSome_iff_exists.1 (hc c hc')
    exact Or.inr ⟨s, t, hx _ _ hs, hx _ _ ht, eok_childR _ _⟩
  · exact Or.inl he

theorem isElem_isSome {g : Graph} {i : Nat} (h : g.isElem i = true) : (g.node? i).isSome := by
  unfold Graph.isElem at h
  obtain ⟨e, he⟩ := Option.isSome_iff_exists.1 h
  rw [elem?_node?.1 he]; rfl

theorem linkInstances_eok {i : Nat} {g g' : Graph} {js : List Nat} {ws : List Warn} (h : EdgesOK g)
    (hr : linkInstances i g js = .ok g' ws) (hj : ∀ j ∈ js, (g.node? j).isSome) : EdgesOK g' := by
  induction js generalizing g ws with
  | nil =>
    simp only [linkInstances, M.pure_eq_ok] at hr
    obtain ⟨rfl, -⟩ := hr
    exact h
  | cons j js ih =>
    simp only [linkInstances, M.bind_eq_ok] at hr
    obtain ⟨g1, w1, w2, h1, h2, -⟩ := hr
    have hx : Ext g g1 := Ext.of_nodes (linkChildren_nodes h1).1
    refine ih (linkChildren_eok h h1 (hj j (by simp)) ?_) h2 (fun k hk => hx.isSome (hj k (by simp [hk])))
    intro c hc
    obtain ⟨e, -, -, -, -, h'⟩ := elementChildren_edge hc
    exact isElem_isSome h'

theorem inv_updateDimNode {d : SDevice} {ord : List Nat → List Nat} {g g' : Graph} {i : Nat} {e : ElemNode}
    {base : Option Nat} {x : Processed} {xs : List Processed} {ws : List Warn} (h : Inv d g)
    (hr : updateDimNode ord g i base xs x = .ok g' ws) (hi : g.elem? i = some e)
    (hok : NodeOK d (.elem { e with isProcessed := true, processed := some x, isDimTemplate := true }))
    (hxs : ∀ y ∈ xs, NodeOK d (.elem ⟨some y.name, e.level, true, e.parsed, some y, false⟩)) :
    Inv d g' ∧ (∀ j, j ≠ i → ∀ n, g.node? j = some n → g'.node? j = some n) ∧
      g'.elem? i = some { e with isProcessed := true, processed := some x, isDimTemplate := true } ∧
      e.processed = none := by
  obtain ⟨g1, e1, g2, js, h1, h2, h3, h4⟩ := updateDimNode_ok hr
  obtain ⟨a1, a2, a3, a4⟩ := inv_updateNode h h1 hi (by simpa using hok)
  rw [h2] at a3
  simp only [Option.some.injEq] at a3
  subst a3
  obtain ⟨b1, b2, b3⟩ := addInstances_eok a1 h3 (by
    intro x hx
    simp only [List.mem_flatMap, List.mem_map] at hx
    obtain ⟨par, hpar, y, hy, rfl⟩ := hx
    obtain ⟨_, -, -, -, -, h'⟩ := elementParents_edge hpar
    exact isElem_isSome h') (by
    intro x hx
    simp only [List.mem_flatMap, List.mem_map] at hx
    obtain ⟨par, hpar, y, hy, rfl⟩ := hx
    exact hxs y hy)
  obtain ⟨c1, c2⟩ := linkInstances_wf b1.wf h4 b3
  refine ⟨⟨c1, b1.nodes.of_nodes (linkInstances_nodes h4).1, linkInstances_eok b1.edges h4 b3⟩, ?_, ?_, a4⟩
  · intro j hj n hn
    exact c2 _ _ (b2 _ _ (a2 j hj n hn))
  · rw [(b2.trans c2).elem h2]; simp

end Svd
