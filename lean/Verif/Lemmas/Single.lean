import Verif.Lemmas.Neat
/-
No node is twice a child of the same node.
-/
namespace Svd
open Graph Spec

/-- The child edges, as pairs of nodes. -/
def chs (es : List Edge) : List (Nat × Nat) := (es.filter isChildEdge).map fun e => (e.src, e.dst)

theorem mem_chs {es : List Edge} {a b : Nat} : (a, b) ∈ chs es ↔ ∃ e ∈ es, e.src = a ∧ e.dst = b ∧ isChildEdge e = true := by
  unfold chs
  simp only [List.mem_map, List.mem_filter, Prod.mk.injEq]
  constructor
  · rintro ⟨e, ⟨h1, h2⟩, h3, h4⟩
    exact ⟨e, h1, h3, h4, h2⟩
  · rintro ⟨e, h1, h3, h4, h2⟩
    exact ⟨e, ⟨h1, h2⟩, h3, h4⟩

theorem ch_chs {g : Graph} {a b : Nat} : Ch g a b ↔ (a, b) ∈ chs g.edges := by rw [mem_chs, ch_iff]

theorem chs_append (a b : List Edge) : chs (a ++ b) = chs a ++ chs b := by
  unfold chs
  rw [List.filter_append, List.map_append]

theorem chs_reverse (a : List Edge) : chs a.reverse = (chs a).reverse := by
  unfold chs
  rw [List.filter_reverse, List.map_reverse]

theorem chs_cons_pos {e : Edge} {es : List Edge} (h : isChildEdge e = true) : chs (e :: es) = (e.src, e.dst) :: chs es := by
  unfold chs
  rw [List.filter_cons_of_pos h, List.map_cons]

theorem chs_cons_neg {e : Edge} {es : List Edge} (h : isChildEdge e = false) : chs (e :: es) = chs es := by
  unfold chs
  rw [List.filter_cons_of_neg (by simp [h])]

theorem chs_sublist {es es' : List Edge} (h : es.Sublist es') : (chs es).Sublist (chs es') := (h.filter _).map _

/-- No node is twice a child of the same node. -/
def Single (g : Graph) : Prop := (chs g.edges).Nodup

theorem Single.children {g : Graph} (h : Single g) (a : Nat) : (g.elementChildren a).Nodup := by
  unfold Graph.elementChildren
  have h1 : (((g.outEdges a).filter fun e => g.isElem e.dst && isChildEdge e).map fun e => (e.src, e.dst)).Nodup := by
    have : (((g.outEdges a).filter fun e => g.isElem e.dst && isChildEdge e).map fun e => (e.src, e.dst)).Sublist (chs g.edges) := by
      unfold chs
      refine List.Sublist.map _ ?_
      have h2 : ((g.outEdges a).filter fun e => g.isElem e.dst && isChildEdge e) =
          ((g.outEdges a).filter fun e => g.isElem e.dst).filter isChildEdge := by
        rw [List.filter_filter]
        refine List.filter_congr fun x _ => ?_
        rw [Bool.and_comm]
      rw [h2]
      exact List.Sublist.filter _ (List.filter_sublist.trans List.filter_sublist)
    exact this.nodup h
  have h2 : ((g.outEdges a).filter fun e => g.isElem e.dst && isChildEdge e).map (·.dst) =
      (((g.outEdges a).filter fun e => g.isElem e.dst && isChildEdge e).map fun e => (e.src, e.dst)).map (·.2) := by
    rw [List.map_map]
    rfl
  rw [h2]
  refine map_nodup h1 ?_
  intro x hx y hy hxy
  have key : ∀ z ∈ ((g.outEdges a).filter fun e => g.isElem e.dst && isChildEdge e).map fun e => (e.src, e.dst), z.1 = a := by
    intro z hz
    obtain ⟨e, he, rfl⟩ := List.mem_map.1 hz
    have := (List.mem_filter.1 (List.mem_filter.1 he).1).2
    simpa using this
  exact Prod.ext ((key x hx).trans (key y hy).symm) hxy

theorem erase_sublist (a b : Nat) : ∀ es : List Edge, (eraseEdge a b es).Sublist es
  | [] => List.Sublist.slnil
  | e :: es => by
    rw [eraseEdge]
    split
    · exact List.sublist_cons_self _ _
    · exact (erase_sublist a b es).cons_cons _

theorem chs_retype {a b : Nat} {es : List Edge} (h : ∀ e ∈ es, e.src = a → e.dst = b → isChildEdge e = true) :
    chs (retypeEdge a b .childR es) = chs es := by
  induction es with
  | nil => rfl
  | cons e es ih =>
    simp only [retypeEdge]
    split
    · rename_i hc
      simp only [Bool.and_eq_true, beq_iff_eq] at hc
      rw [chs_cons_pos (h e (by simp) hc.1 hc.2), chs_cons_pos rfl]
    · have ih := ih fun e he => h e (by simp [he])
      cases hb : isChildEdge e with
      | true => rw [chs_cons_pos hb, chs_cons_pos hb, ih]
      | false => rw [chs_cons_neg hb, chs_cons_neg hb, ih]

theorem retype_mem {a b : Nat} {ty : EdgeT} {e : Edge} : ∀ {es : List Edge}, e ∈ retypeEdge a b ty es → e ∈ es ∨ (e.src = a ∧ e.dst = b ∧ e.ty = ty)
  | [], h => by cases h
  | x :: es, h => by
    rw [retypeEdge] at h
    split at h
    · rename_i hc
      simp only [Bool.and_eq_true, beq_iff_eq] at hc
      rcases List.mem_cons.1 h with rfl | h
      · exact Or.inr ⟨hc.1, hc.2, rfl⟩
      · exact Or.inl (by simp [h])
    · rcases List.mem_cons.1 h with rfl | h
      · exact Or.inl (by simp)
      · exact (retype_mem h).imp (fun h => by simp [h]) id

theorem chs_resolveChildEdges {i : Nat} {cs : List Nat} : ∀ {g : Graph}, (∀ c ∈ cs, ∀ e ∈ g.edges, e.src = i → e.dst = c → isChildEdge e = true) →
    chs (resolveChildEdges i g cs).edges = chs g.edges := by
  induction cs with
  | nil => intro g _; rfl
  | cons c cs ih =>
    intro g h
    simp only [resolveChildEdges]
    have h1 : chs (g.updateEdge i c .childR).edges = chs g.edges := chs_retype (h c (by simp))
    rw [ih, h1]
    intro x hx e he h2 h3
    rcases retype_mem he with he | ⟨-, -, he⟩
    · exact h x (by simp [hx]) e he h2 h3
    · unfold isChildEdge; rw [he]; rfl

theorem chs_addEdges {g g' : Graph} {es : List Edge} {ws : List Warn} (h : g.addEdges es = .ok g' ws) (h1 : (chs g.edges).Nodup)
    (h2 : (chs es).Nodup) (h3 : ∀ p ∈ chs es, p ∉ chs g.edges) : (chs g'.edges).Nodup := by
  rw [(addEdges_nodes h).2.2.2.1, chs_append, chs_reverse, List.nodup_append]
  refine ⟨nodup_rev h2, h1, ?_⟩
  rintro a ha b hb rfl
  exact h3 a (List.mem_reverse.1 ha) hb

/-- Pairs of the images of edges from one node. -/
theorem chs_image {L : List Edge} {a : Nat} {φ : Nat → Nat} {ty : Edge → EdgeT} {i : Nat} (hn : (chs L).Nodup) (hs : ∀ e ∈ L, e.src = i)
    (hφ : ∀ x ∈ L, ∀ y ∈ L, φ x.dst = φ y.dst → x.dst = y.dst)
    (hty : ∀ e ∈ L, isChildEdge ⟨a, φ e.dst, ty e⟩ = true → isChildEdge e = true) :
    (chs (L.map fun e => (⟨a, φ e.dst, ty e⟩ : Edge))).Nodup := by
  induction L with
  | nil => simp [chs]
  | cons x L ih =>
    have hn' : (chs L).Nodup := (chs_sublist (List.sublist_cons_self x L)).nodup hn
    have ih := ih hn' (fun e he => hs e (by simp [he])) (fun x hx y hy => hφ x (by simp [hx]) y (by simp [hy])) fun e he => hty e (by simp [he])
    rw [List.map_cons]
    cases hb : isChildEdge (⟨a, φ x.dst, ty x⟩ : Edge) with
    | false => rw [chs_cons_neg hb]; exact ih
    | true =>
      rw [chs_cons_pos hb, List.nodup_cons]
      refine ⟨?_, ih⟩
      intro hm
      rw [mem_chs] at hm
      obtain ⟨e, he, -, h2, h3⟩ := hm
      obtain ⟨y, hy, rfl⟩ := List.mem_map.1 he
      have hd := hφ y (by simp [hy]) x (by simp) h2
      have hxc := hty x (by simp) hb
      have hyc := hty y (by simp [hy]) h3
      rw [chs_cons_pos hxc, List.nodup_cons] at hn
      exact hn.1 (mem_chs.2 ⟨y, hy, (hs y (by simp [hy])).trans (hs x (by simp)).symm, hd, hyc⟩)

theorem chs_replicateEdges {m : List (Nat × Nat)} {sel : List Nat} (hinj : ∀ i j, i ∈ sel → j ∈ sel → mapIdx m i = mapIdx m j → i = j)
    {is : List Nat} : ∀ {g g' : Graph} {ws : List Warn}, replicateEdges m sel g is = .ok g' ws → is.Nodup → (∀ i ∈ is, i ∈ sel) →
      (chs g.edges).Nodup → (∀ i ∈ is, ∀ p ∈ chs g.edges, p.1 ≠ mapIdx m i) → (chs g'.edges).Nodup := by
  induction is with
  | nil =>
    intro g g' ws hr _ _ h _
    simp only [Graph.replicateEdges, M.pure_eq_ok] at hr
    obtain ⟨rfl, -⟩ := hr
    exact h
  | cons i is ih =>
    intro g g' ws hr hnd hsel h hno
    simp only [Graph.replicateEdges, M.bind_eq_ok] at hr
    obtain ⟨g1, w1, w2, h1, ⟨g2, w3, w4, h2, h3, rfl⟩, rfl⟩ := hr
    rw [List.nodup_cons] at hnd
    have src1 : ∀ p ∈ chs (((g.outEdges i).filter fun e => sel.contains e.dst).map fun e => (⟨mapIdx m i, mapIdx m e.dst, e.ty⟩ : Edge)), p.1 = mapIdx m i := by
      rintro ⟨a, b⟩ hp
      obtain ⟨e, he, h4, -⟩ := mem_chs.1 hp
      obtain ⟨e0, -, rfl⟩ := List.mem_map.1 he
      exact h4.symm
    have n1 : (chs g1.edges).Nodup := by
      refine chs_addEdges h1 h ?_ ?_
      · refine chs_image (i := i) (ty := fun e => e.ty) ?_ ?_ ?_ ?_
        · exact (chs_sublist (List.filter_sublist.trans List.filter_sublist)).nodup h
        · intro e he
          have := (List.mem_filter.1 (List.mem_filter.1 he).1).2
          simpa using this
        · intro x hx y hy hxy
          refine hinj _ _ ?_ ?_ hxy
          · simpa using (List.mem_filter.1 hx).2
          · simpa using (List.mem_filter.1 hy).2
        · exact fun e _ h => h
      · intro p hp hc
        exact hno i (by simp) p hc (src1 p hp)
    have none2 : chs (((g1.inEdges i).filter fun e => e.ty == .derive).map (fun e => (⟨e.src, mapIdx m i, e.ty⟩ : Edge))) = [] := by
      rw [List.eq_nil_iff_forall_not_mem]
      rintro ⟨a, b⟩ h4
      obtain ⟨e, he, -, -, h5⟩ := mem_chs.1 h4
      obtain ⟨e0, h6, rfl⟩ := List.mem_map.1 he
      have : e0.ty = .derive := by simpa using (List.mem_filter.1 h6).2
      unfold isChildEdge at h5
      simp only [this] at h5
      cases h5
    have n2 : (chs g2.edges).Nodup := chs_addEdges h2 n1 (by rw [none2]; exact List.nodup_nil) (by rw [none2]; simp)
    refine ih h3 hnd.2 (fun j hj => hsel j (by simp [hj])) n2 ?_
    intro j hj p hp hs
    rw [(addEdges_nodes h2).2.2.2.1, chs_append, chs_reverse, none2, List.reverse_nil, List.nil_append, (addEdges_nodes h1).2.2.2.1, chs_append, chs_reverse,
      List.mem_append, List.mem_reverse] at hp
    rcases hp with hp | hp
    · have := hinj _ _ (hsel i (by simp)) (hsel j (by simp [hj])) ((src1 p hp).symm.trans hs)
      subst this
      exact hnd.1 hj
    · exact hno j (by simp [hj]) p hp hs


theorem chs_replicate {ord : List Nat → List Nat} (hord : ∀ l, (ord l).Perm l) {g g' : Graph} {src tgt : Nat} {ws : List Warn} (h : WF g)
    (T : Typed g) (hsrc : IsE g src) (ht : (g.node? tgt).isSome) (hN : ∀ j, j ∈ g.descendants src → ¬ De g src j)
    (hr : g.replicateDescendants ord src tgt = .ok g' ws) (hn : Single g) : Single g' := by
  have hmem : ∀ i, i ∈ ord (g.descendants src) ↔ i ∈ g.descendants src := fun i => (hord _).mem_iff
  have hlive : ∀ i, i ∈ ord (g.descendants src) → (g.node? i).isSome := fun i hi => descendants_live h ((hmem i).1 hi)
  unfold Graph.replicateDescendants at hr
  simp only [M.bind_eq_ok] at hr
  obtain ⟨⟨g1, m⟩, w1, w2, h1, ⟨g2, w3, w4, h2, h3, rfl⟩, rfl⟩ := hr
  obtain ⟨a1, b1, c1, d1, -⟩ := replicateNodes_wf h h1 (by simp)
  have cm : CopyMap g1 m := replicateNodes_copy h h1 (by intro p hp; cases hp)
  obtain ⟨m2, q1, q2, q3, q4, q5⟩ := replicateNodes_effect h h1
  simp only [List.nil_append] at q1
  subst q1
  have hnd : (ord (g.descendants src)).Nodup := by
    rw [(hord _).nodup_iff]
    unfold Graph.descendants
    exact (nodup_rangeFrom _ _).1.filter _
  have hφ : ∀ i, i ∈ ord (g.descendants src) → (i, mapIdx m i) ∈ m := by
    intro i hi
    rw [← q2] at hi
    obtain ⟨⟨a, b⟩, hp, rfl⟩ := List.mem_map.1 hi
    have := lookup_of_nodup (by rw [q2]; exact hnd) hp
    unfold Graph.mapIdx
    simp only [this, Option.getD_some]
    exact hp
  have hfresh : ∀ i, i ∈ ord (g.descendants src) → g.node? (mapIdx m i) = none := fun i hi => q4 _ (hφ i hi)
  have hinj : ∀ i j, i ∈ ord (g.descendants src) → j ∈ ord (g.descendants src) → mapIdx m i = mapIdx m j → i = j := by
    intro i j hi hj hij
    have h4 := hφ i hi
    have h5 := hφ j hj
    rw [hij] at h4
    have := inj_of_nodup_map q3 h4 h5 rfl
    injection this
  have hnsel : ∀ i ∈ ord (g.descendants src), mapIdx m i ∉ ord (g.descendants src) := by
    intro i hi hc
    have h4 := hfresh i hi
    have h5 := hlive _ hc
    rw [h4] at h5
    cases h5
  have n2 : (chs g2.edges).Nodup := by
    refine chs_replicateEdges hinj h2 hnd (fun i hi => hi) (by rw [d1]; exact hn) ?_
    rintro i hi ⟨a, b⟩ hp hs
    obtain ⟨e, he, h4, -⟩ := mem_chs.1 hp
    rw [d1] at he
    have := (h.edges_valid e he).1
    simp only at hs
    rw [h4, hs, hfresh i hi] at this
    cases this
  have e2 := @replicateEdges_mem m _ _ g1 g2 w3 h2 (fun i hi => hi) hnsel
  have k2 : ∀ x : Edge, x.dst ∈ ord (g.descendants src) → x ∈ g2.edges → x ∈ g.edges := by
    intro x hx
    rw [e2, d1]
    rintro (h4 | ⟨i, hi, ⟨e0, h4, h5, h6, h7⟩ | ⟨e0, h4, h5, h6, h7⟩⟩)
    · exact h4
    · subst h7; exact absurd hx (hnsel _ h6)
    · subst h7; exact absurd hx (hnsel _ hi)
  have hnode : ∀ j, j ∈ ord (g.descendants src) → g2.node? (mapIdx m j) = g.node? j := by
    intro j hj
    rw [node?_congr (replicateEdges_nodes h2).1, cm.node]
    obtain ⟨n, hn⟩ := Option.isSome_iff_exists.1 (hlive j hj)
    rw [hn, b1 _ _ hn]
  let tyOf : Nat → EdgeT := fun c => match g2.node? c with
      | some (.ph _) => .placeholder
      | _ => if (match g.elem? src with | some e => e.isProcessed | none => false) then .childR else .childU
  have hmemL : ∀ e ∈ (g2.outEdges src).filter (fun e => (ord (g.descendants src)).contains e.dst),
      e ∈ g2.edges ∧ e.src = src ∧ e.dst ∈ ord (g.descendants src) := by
    intro e he
    simp only [List.mem_filter, List.contains_iff_mem, Graph.outEdges, beq_iff_eq] at he
    exact ⟨he.1.1, he.1.2, he.2⟩
  have h3 : g2.addEdges (((g2.outEdges src).filter fun e => (ord (g.descendants src)).contains e.dst).map fun e =>
      (⟨tgt, mapIdx m e.dst, tyOf (mapIdx m e.dst)⟩ : Edge)) = .ok g' w4 := h3
  refine chs_addEdges h3 n2 ?_ ?_
  · refine chs_image (i := src) (φ := mapIdx m) (ty := fun e => tyOf (mapIdx m e.dst)) ?_ ?_ ?_ ?_
    · exact (chs_sublist (List.filter_sublist.trans List.filter_sublist)).nodup n2
    · exact fun e he => (hmemL e he).2.1
    · exact fun x hx y hy hxy => hinj _ _ (hmemL x hx).2.2 (hmemL y hy).2.2 hxy
    · intro e he hc
      obtain ⟨m1, m2, m3⟩ := hmemL e he
      have h5 := k2 e m3 m1
      obtain ⟨a, b, t⟩ := e
      simp only at m2 m3 h5 hc
      subst m2
      cases t with
      | childU => rfl
      | childR => rfl
      | derive => exact absurd h5 (hN _ ((hmem _).1 m3))
      | placeholder =>
        exfalso
        obtain ⟨p, hp⟩ : IsP g b := by
          rcases T.tpl _ _ h5 with h6 | h6
          · exact h6.2
          · exact absurd h6.1 (fun hP => isE_notP hsrc hP)
        have h7 : g2.node? (mapIdx m b) = some (.ph p) := by rw [hnode b m3]; exact hp
        have : tyOf (mapIdx m b) = .placeholder := by simp only [tyOf, h7]
        rw [this] at hc
        cases hc
  · rintro ⟨a, b⟩ hp hc
    obtain ⟨e, he, h4, h5, -⟩ := mem_chs.1 hp
    obtain ⟨e0, h6, rfl⟩ := List.mem_map.1 he
    obtain ⟨m1, m2, m3⟩ := hmemL e0 h6
    simp only at h4 h5
    subst h4 h5
    obtain ⟨e1, k3, k4, k5, k6⟩ := mem_chs.1 hc
    rcases e2.1 k3 with h5 | ⟨i, hi, ⟨e1, h7, h8, h9, h10⟩ | ⟨e1, h7, h8, h9, h10⟩⟩
    · rw [d1] at h5
      have := (h.edges_valid _ h5).2
      rw [k5, hfresh _ m3] at this
      cases this
    · rw [h10] at k4
      simp only at k4
      rw [← k4, hfresh i hi] at ht
      cases ht
    · rw [h10] at k6
      cases k6


theorem single_adoptBase {ord : List Nat → List Nat} (hord : ∀ l, (ord l).Perm l) {g g' : Graph} {i : Nat} {bn : Option Nat} {ws : List Warn} (hw : WF g)
    (T : Typed g) (hi : IsE g i) (hb : ∀ b, bn = some b → De g b i)
    (hN : ∀ b, bn = some b → ∀ j, Conn (g.edges.filter fun e => e.ty != .derive) b j → ¬ De g b j)
    (h : Single g) (hr : adoptBase ord g i bn = .ok g' ws) : Single g' := by
  cases bn with
  | none =>
    simp only [adoptBase, M.pure_eq_ok] at hr
    obtain ⟨rfl, -⟩ := hr
    exact h
  | some b =>
    simp only [adoptBase, M.bind_eq_ok] at hr
    obtain ⟨g1, w1, w2, h1, h2, -⟩ := hr
    obtain ⟨rfl, -, -⟩ := removeEdge_ok h1
    have hd := hb b rfl
    have hs : ∀ e ∈ eraseEdge b i g.edges, e ∈ g.edges := fun e he => eraseEdge_sub he
    have hw1 : WF { g with edges := eraseEdge b i g.edges } := hw.of_eq rfl rfl (fun e he => Or.inl (hs e he))
    have T1 : Typed { g with edges := eraseEdge b i g.edges } := by
      refine ⟨?_, ?_, ?_⟩
      · rintro x y (hxy | hxy)
        · exact T.tch x y (Or.inl (hs _ hxy))
        · exact T.tch x y (Or.inr (hs _ hxy))
      · intro x y hxy; exact T.tde x y (hs _ hxy)
      · intro x y hxy; exact T.tpl x y (hs _ hxy)
    have S1 : Single { g with edges := eraseEdge b i g.edges } := (chs_sublist (erase_sublist b i g.edges)).nodup h
    refine chs_replicate hord hw1 T1 (T.tde _ _ hd).1 hi.some ?_ h2 S1
    intro j hj hde
    refine hN b rfl j ?_ (hs _ hde)
    refine ((mem_descendants hw1).1 hj).mono ?_
    intro e he
    rw [List.mem_filter] at he
    exact ⟨e, List.mem_filter.2 ⟨hs _ he.1, he.2⟩, rfl, rfl⟩

theorem single_addElementChild {g g' : Graph} {par j : Nat} {e : ElemNode} {ty : EdgeT} {ws : List Warn} (hw : WF g) (h : Single g)
    (hr : g.addElementChild par e ty = .ok (g', j) ws) : Single g' := by
  obtain ⟨hj, hg, -, -⟩ := addElementChild_ok hr
  have hs := addNode_spec hw (.elem e)
  unfold Single
  rw [hg]
  have : (g.addNode (.elem e)).1.edges = g.edges := addNode_edges ..
  show (chs (_ :: (g.addNode (.elem e)).1.edges)).Nodup
  rw [this]
  cases hc : isChildEdge (⟨par, j, ty⟩ : Edge) with
  | false => rw [chs_cons_neg hc]; exact h
  | true =>
    rw [chs_cons_pos hc, List.nodup_cons]
    refine ⟨?_, h⟩
    intro hm
    obtain ⟨e0, he0, -, h2, -⟩ := mem_chs.1 hm
    have := (hw.edges_valid e0 he0).2
    rw [h2] at this
    simp only at this
    rw [hj, hs.1] at this
    cases this


theorem single_addInstances {e : ElemNode} {xs : List (Nat × Processed)} : ∀ {g g' : Graph} {js : List Nat} {ws : List Warn}, WF g → Single g →
    addInstances e.level e.parsed g xs = .ok (g', js) ws → (∀ x ∈ xs, (g.node? x.1).isSome) → Single g' ∧ js.Nodup := by
  induction xs with
  | nil =>
    intro g g' js ws hw h hr _
    simp only [addInstances, M.pure_eq_ok, Prod.mk.injEq] at hr
    obtain ⟨⟨rfl, rfl⟩, -⟩ := hr
    exact ⟨h, List.nodup_nil⟩
  | cons x xs ih =>
    intro g g' js ws hw h hr hx
    obtain ⟨par, y⟩ := x
    simp only [addInstances, M.bind_eq_ok, M.pure_eq_ok, Prod.mk.injEq] at hr
    obtain ⟨⟨g1, j⟩, w1, w2, h1, ⟨⟨g2, js'⟩, w3, w4, h2, ⟨⟨rfl, rfl⟩, -⟩, -⟩, -⟩ := hr
    obtain ⟨a1, b1, c1, d1⟩ := addElementChild_wf hw h1 (hx (par, y) (by simp))
    have hx1 : ∀ x ∈ xs, (g1.node? x.1).isSome := by
      intro x hxx
      obtain ⟨n, hn⟩ := Option.isSome_iff_exists.1 (hx x (by simp [hxx]))
      rw [b1 _ _ hn]; rfl
    obtain ⟨S2, n2⟩ := ih a1 (single_addElementChild hw h h1) h2 hx1
    refine ⟨S2, List.nodup_cons.2 ⟨?_, n2⟩⟩
    intro hm
    obtain ⟨-, -, hf, -⟩ := addInstances_effect a1 h2 hx1
    have := hf j hm
    obtain ⟨hj, hg, -, -⟩ := addElementChild_ok h1
    have hs := addNode_spec hw (.elem ⟨some y.name, e.level, true, e.parsed, some y, false⟩)
    have h3 : g1.node? j = (g.addNode (.elem ⟨some y.name, e.level, true, e.parsed, some y, false⟩)).1.node? j := by rw [hg]; rfl
    rw [h3, hs.2.1, if_pos hj] at this
    cases this

theorem single_linkInstances {i : Nat} {js : List Nat} : ∀ {g g' : Graph} {ws : List Warn}, Single g → linkInstances i g js = .ok g' ws → js.Nodup →
    (∀ j ∈ js, ∀ c, ¬ Ch g j c) → Single g' := by
  induction js with
  | nil =>
    intro g g' ws h hr _ _
    simp only [linkInstances, M.pure_eq_ok] at hr
    obtain ⟨rfl, -⟩ := hr
    exact h
  | cons j js ih =>
    intro g g' ws h hr hnd hno
    simp only [linkInstances, M.bind_eq_ok] at hr
    obtain ⟨g1, w1, w2, h1, h2, -⟩ := hr
    obtain ⟨n1, -, f1, e1, -⟩ := linkChildren_nodes h1
    rw [List.nodup_cons] at hnd
    have hall : ∀ cs : List Nat, chs (cs.map fun c => (⟨j, c, .childR⟩ : Edge)) = cs.map fun c => (j, c) := by
      intro cs
      induction cs with
      | nil => rfl
      | cons c cs ih => rw [List.map_cons, chs_cons_pos rfl, ih]; rfl
    have hch : ∀ a b, Ch g1 a b → Ch g a b ∨ a = j := by
      intro a b hab
      rw [ch_chs, e1, chs_append, chs_reverse, hall, List.mem_append, List.mem_reverse] at hab
      rcases hab with hab | hab
      · obtain ⟨c, -, hc⟩ := List.mem_map.1 hab
        injection hc with hc _
        exact Or.inr hc.symm
      · exact Or.inl (ch_chs.2 hab)
    refine ih ?_ h2 hnd.2 ?_
    · unfold Single
      rw [e1, chs_append, chs_reverse, hall, List.nodup_append]
      refine ⟨nodup_rev (map_nodup (h.children i) fun x _ y _ hxy => by injection hxy), h, ?_⟩
      rintro a ha b hb rfl
      obtain ⟨c, -, rfl⟩ := List.mem_map.1 (List.mem_reverse.1 ha)
      exact hno j (by simp) c (ch_chs.2 hb)
    · intro k hk c hc
      rcases hch _ _ hc with hc | rfl
      · exact hno k (by simp [hk]) c hc
      · exact hnd.1 hk


theorem adopt_no_de {d : SDevice} {g g1 : Graph} {lab lab1 : Nat → Pos} {i : Nat} (hw : WF g) (h : Lab d g lab) (hb : ∀ x, ¬ Precedes d x x)
    (hi : IsE g i) (A : Adopt g lab i g1 lab1) (hx : LabX d g1 lab1 (· = i)) {c : Nat} (hc : Ch g1 i c) : ¬ De g1 i c := by
  intro hd
  cases A with
  | none => exact (de_not h hb hd).1 hc
  | @some _ _ b φ hd0 hr l1 l2 hbase =>
    have href := hx.der _ _ hd
    rw [l1 i hi.some] at href
    obtain ⟨n1, n2⟩ := de_not h hb hd0
    have hw0 : WF { g with edges := eraseEdge b i g.edges } := hw.of_eq rfl rfl fun e he => Or.inl (eraseEdge_sub he)
    have h0 := lab_erase h hd0
    have hEb : IsE g b := (h.tde _ _ hd0).1
    have hN : ∀ j, j ∈ ({ g with edges := eraseEdge b i g.edges } : Graph).descendants b → ¬ De { g with edges := eraseEdge b i g.edges } b j := fun j hj hs =>
      not_endless hb (h0.der _ _ hs) ((inside_of h0 ((mem_descendants hw0).1 hj) (h0.tde _ _ hs).2).1 hEb)
    have hch := (erase_views (g' := { g with edges := eraseEdge b i g.edges }) n1 n2 rfl).1
    rcases ((replica_views h0 hr hEb hN).1 i c).1 hc with h1 | ⟨x, y, h1, -, h2, -⟩ | ⟨-, j, h1, h2, h3⟩
    · rw [hch] at h1
      rw [l1 c (h.tch _ _ h1).2.some] at href
      exact not_endless hb href (.one (h.hasChild h1 id))
    · have := hr.fresh x h1
      rw [← h2] at this
      obtain ⟨n, hn⟩ := Option.isSome_iff_exists.1 hi.some
      have hn' : ({ g with edges := eraseEdge b i g.edges } : Graph).node? i = some n := hn
      rw [hn'] at this
      cases this
    · rw [h2, l2 j h1] at href
      rw [hch] at h3
      exact not_endless hb href (.one (.inherited (h.der _ _ hd0) (h.hasChild h3 id)))

theorem single_updateNode {ord : List Nat → List Nat} (hord : ∀ l, (ord l).Perm l) {g g' : Graph} {i : Nat} {bn : Option Nat} {p : Processed} {t : Bool}
    {ws : List Warn} (hw : WF g) (T : Typed g) (hi : IsE g i) (hb : ∀ b, bn = some b → De g b i)
    (hN : ∀ b, bn = some b → ∀ j, Conn (g.edges.filter fun e => e.ty != .derive) b j → ¬ De g b j)
    (hC : ∀ g1, adoptBase ord g i bn = .ok g1 ws → Typed g1 ∧ ∀ c, Ch g1 i c → ¬ De g1 i c) (h : Single g)
    (hr : updateNode ord g i bn p t = .ok g' ws) : Single g' := by
  obtain ⟨g1, e1, h1, h2, h3, rfl⟩ := updateNode_ok hr
  obtain ⟨T1, hC1⟩ := hC g1 h1
  have S1 := single_adoptBase hord hw T hi hb hN h h1
  unfold Single
  rw [chs_resolveChildEdges]
  · exact S1
  · intro c hc e he hs hd
    have he : e ∈ g1.edges := he
    obtain ⟨ed, k1, k2, k3, k4, -⟩ := elementChildren_edge hc
    have hch : Ch g1 i c := ch_iff.2 ⟨ed, k1, k2, k3, k4⟩
    obtain ⟨a, b, ty⟩ := e
    simp only at hs hd
    subst hs hd
    cases ty with
    | childU => rfl
    | childR => rfl
    | derive => exact absurd he (hC1 _ hch)
    | placeholder =>
      obtain ⟨q1, q2⟩ := T1.tch _ _ hch
      rcases T1.tpl _ _ he with q3 | q3
      · exact absurd q3.2 (isE_notP q2)
      · exact absurd q3.1 (isE_notP q1)

theorem single_processNode {d : SDevice} {ord : List Nat → List Nat} (hord : ∀ l, (ord l).Perm l) {g g' : Graph} {lab : Nat → Pos} {i : Nat} {ws : List Warn}
    (hacy : ∀ x, ¬ Precedes d x x) (A : LabAt d g lab) (hun : i ∈ g.unprocessed) (h : Single g) (hr : processNode ord g i = .ok g' ws) : Single g' := by
  obtain ⟨e, bn, bp, w, he, hdev, hbase, hcase⟩ := processNode_cases hr
  obtain ⟨e', he', hpr⟩ := unprocessed_iff.1 hun
  rw [he] at he'
  injection he' with he'
  subst he'
  have T := A.lab.typed
  have hw := A.inv.wf
  have hi : IsE g i := ⟨e, he⟩
  have hb : ∀ b, bn = some b → De g b i := by
    intro b hb
    rcases hbase with ⟨-, h2, -⟩ | ⟨path, b', eb, -, h2, -, -, h5, -⟩
    · rw [h2] at hb; cases hb
    · rw [h5] at hb
      injection hb with hb
      subst hb
      exact baseElementNode_edge h2
  have hN : ∀ b, bn = some b → ∀ j, Conn (g.edges.filter fun e => e.ty != .derive) b j → ¬ De g b j := by
    intro b hbb j hcn hde
    exact not_endless hacy (A.lab.der _ _ hde) ((inside_of A.lab hcn (A.lab.tde _ _ hde).2).1 (A.lab.tde _ _ hde).1)
  rcases hcase with ⟨hen, hp⟩ | ⟨hen, hp⟩
  · unfold processEnumNode at hp
    rw [he] at hp
    simp only [M.bind_eq_ok] at hp
    obtain ⟨g1, w1, w2, h1, h2, -⟩ := hp
    have hs := setElem_wf (e := { e with parsed := adoptedParsed g e bn }) hw hi.some
    have he0 : (g.setElem i { e with parsed := adoptedParsed g e bn }).elem? i = some { e with parsed := adoptedParsed g e bn } := by
      rw [elem?_node?, hs.2, if_pos rfl]
    have S1 := single_adoptBase hord hs.1 (g := g.setElem i { e with parsed := adoptedParsed g e bn }) (typed_setElem hw T he) ⟨_, he0⟩ hb hN h h1
    have hw1 := (adoptBase_wf hs.1 h1 (by rw [elem?_node?.1 he0]; rfl))
    rw [hw1.2.elem he0] at h2
    simp only [M.pure_eq_ok] at h2
    obtain ⟨rfl, -⟩ := h2
    exact S1
  · have hC : ∀ w g1, adoptBase ord g i bn = .ok g1 w → Typed g1 ∧ ∀ c, Ch g1 i c → ¬ De g1 i c := by
      intro w g1 h1
      rcases hbase with ⟨-, h2, -⟩ | ⟨path, b, eb, hpath, h2, h3, h4, h5, h6, h7⟩
      · subst h2
        simp only [adoptBase, M.pure_eq_ok] at h1
        obtain ⟨rfl, -⟩ := h1
        exact ⟨T, fun c hc hd => (de_not A.lab hacy hd).1 hc⟩
      · subst h5
        have hps : eb.processed.isSome := h7.resolve_left (by rw [hen]; simp)
        obtain ⟨lab1, k1, ⟨k2, k3, k4⟩, -⟩ := lab_adoptBase hord hw A.lab he hpr h3 h4.symm (hb b rfl) h1
        exact ⟨k1.typed, fun c hc => adopt_no_de hw A.lab hacy hi (k4 (Option.isSome_iff_exists.1 hps)) k1 hc⟩
    rcases processDimable_ok hp with ⟨x, w, -, -, h2⟩ | ⟨xs, t, w, -, -, -, h2⟩
    · exact single_updateNode hord hw T hi hb hN (hC _) h h2
    · obtain ⟨g1, e1, g2, js, h3, h4, h5, h6⟩ := updateDimNode_ok h2
      have S1 := single_updateNode hord hw T hi hb hN (hC _) h h3
      have hw1 := updateNode_wf hw h3 he
      have hlive : ∀ x ∈ (g1.elementParents i).flatMap (fun par => xs.map fun x => (par, x)), (g1.node? x.1).isSome := by
        intro x hx
        obtain ⟨par, hpar, hx⟩ := List.mem_flatMap.1 hx
        obtain ⟨y, -, rfl⟩ := List.mem_map.1 hx
        obtain ⟨ed, h2, rfl, -, -, -⟩ := elementParents_edge hpar
        exact (hw1.1.edges_valid _ h2).1
      obtain ⟨S2, hnd⟩ := single_addInstances (e := e1) hw1.1 S1 h5 hlive
      obtain ⟨-, hx2, hf, -, -, -, hed⟩ := addInstances_effect (e := e1) hw1.1 h5 hlive
      refine single_linkInstances S2 h6 hnd ?_
      intro j hj c hc
      obtain ⟨ed, k1, k2, -, -⟩ := ch_iff.1 hc
      rcases (hed ed).1 k1 with k3 | ⟨j', a, x, k3, rfl⟩
      · have := (hw1.1.edges_valid _ k3).1
        rw [k2, hf j hj] at this
        cases this
      · simp only at k2
        subst k2
        have := hlive _ (List.of_mem_zip k3).2
        rw [hf _ hj] at this
        cases this

theorem single_resolvePlaceholder {g g' : Graph} {k : Nat} {ws : List Warn} (h : Single g) (hr : resolvePlaceholder g k = .ok g' ws) : Single g' := by
  obtain ⟨path, par, -, -, ⟨rfl, -⟩ | ⟨c, e, b, w, -, -, -, -, h5⟩⟩ := resolvePlaceholder_ok hr
  · exact h
  · unfold Graph.rawAddEdge at h5
    split at h5
    · simp at h5
    · simp only [M.pure_eq_ok] at h5
      obtain ⟨rfl, -⟩ := h5
      unfold Single
      show (chs (_ :: (g.removePlaceholder k).edges)).Nodup
      rw [chs_cons_neg rfl]
      exact (chs_sublist List.filter_sublist).nodup h

theorem single_resolvePlaceholders {phs : List Nat} : ∀ {g g' : Graph} {ws : List Warn}, Single g → resolvePlaceholders g phs = .ok g' ws → Single g' := by
  induction phs with
  | nil =>
    intro g g' ws h hr
    simp only [resolvePlaceholders, M.pure_eq_ok] at hr
    obtain ⟨rfl, -⟩ := hr
    exact h
  | cons k phs ih =>
    intro g g' ws h hr
    simp only [resolvePlaceholders, M.bind_eq_ok] at hr
    obtain ⟨g1, w1, w2, h1, h2, -⟩ := hr
    exact ih (single_resolvePlaceholder h h1) h2

/-! ### the initial graph -/

theorem single_addChild {g g' : Graph} {par i : Nat} {e : ElemNode} {ws : List Warn} (hw : WF g) (h : Single g)
    (hr : addChildToGraph g par e = .ok (g', i) ws) : Single g' := by
  unfold addChildToGraph at hr
  simp only [M.bind_eq_ok] at hr
  obtain ⟨⟨g1, j⟩, w1, w2, h1, h2, -⟩ := hr
  have S1 := single_addElementChild hw h h1
  split at h2
  · simp only [M.pure_eq_ok, Prod.mk.injEq] at h2
    obtain ⟨⟨rfl, -⟩, -⟩ := h2
    exact S1
  · simp only [M.bind_eq_ok, M.pure_eq_ok, Prod.mk.injEq] at h2
    obtain ⟨g2, w3, w4, h3, ⟨⟨rfl, -⟩, -⟩, -⟩ := h2
    obtain ⟨hg, -⟩ := addPlaceholder_ok h3
    unfold Single
    rw [hg]
    show (chs (_ :: (g1.addNode _).1.edges)).Nodup
    rw [chs_cons_neg rfl, addNode_edges]
    exact S1


mutual
theorem single_tree {par : Nat} : (t : DTree) → ∀ {g g' : Graph} {ws : List Warn}, WF g → Single g → (g.node? par).isSome →
    addTree par g t = .ok g' ws → Single g' ∧ WF g' ∧ Ext g g'
  | .node p ts, g, g', ws, W, S, hpar, hr => by
    simp only [addTree, M.bind_eq_ok] at hr
    obtain ⟨⟨g1, i⟩, w1, w2, h1, h2, -⟩ := hr
    obtain ⟨hw, hx, hn⟩ := addChildToGraph_wf W h1 hpar
    obtain ⟨G2, W2, hk2⟩ := single_trees ts hw (single_addChild W S h1) (by rw [hn]; rfl) h2
    exact ⟨G2, W2, hx.trans hk2⟩
theorem single_trees {par : Nat} : (ts : List DTree) → ∀ {g g' : Graph} {ws : List Warn}, WF g → Single g → (g.node? par).isSome →
    addTrees par g ts = .ok g' ws → Single g' ∧ WF g' ∧ Ext g g'
  | [], g, g', ws, W, G, hpar, hr => by
    simp only [addTrees, M.pure_eq_ok] at hr
    obtain ⟨rfl, -⟩ := hr
    exact ⟨G, W, fun _ _ h => h⟩
  | t :: ts, g, g', ws, W, G, hpar, hr => by
    simp only [addTrees, M.bind_eq_ok] at hr
    obtain ⟨g1, w1, w2, h1, h2, -⟩ := hr
    obtain ⟨G1, W1, hk⟩ := single_tree t W G hpar h1
    obtain ⟨n, hn⟩ := Option.isSome_iff_exists.1 hpar
    obtain ⟨G2, W2, hk2⟩ := single_trees ts W1 G1 (by rw [hk _ _ hn]; rfl) h2
    exact ⟨G2, W2, hk.trans hk2⟩
end

theorem single_ensure {phs : List Nat} : ∀ {g g' : Graph} {ws : List Warn}, Single g → ensurePlaceholderParents g phs = .ok g' ws → Single g' := by
  induction phs with
  | nil =>
    intro g g' ws h hr
    simp only [ensurePlaceholderParents, M.pure_eq_ok] at hr
    obtain ⟨rfl, -⟩ := hr
    exact h
  | cons k phs ih =>
    intro g g' ws h hr
    simp only [ensurePlaceholderParents, M.bind_eq_ok] at hr
    obtain ⟨o, w1, w2, -, ⟨g1, w3, w4, h1, h2, -⟩, -⟩ := hr
    refine ih ?_ h2
    cases o with
    | none =>
      simp only [M.pure_eq_ok] at h1
      obtain ⟨rfl, -⟩ := h1
      exact h
    | some p =>
      simp only [Graph.addEdge, Graph.rawAddEdge] at h1
      split at h1
      · simp at h1
      · simp only [M.pure_eq_ok] at h1
        obtain ⟨rfl, -⟩ := h1
        unfold Single
        rw [chs_cons_neg rfl]
        exact h

theorem single_initialization {d : SDevice} {g : Graph} {ws : List Warn} (hr : initialization d = .ok g ws) : Single g := by
  unfold initialization at hr
  simp only [M.bind_eq_ok] at hr
  obtain ⟨g1, w1, w2, h1, h2, -⟩ := hr
  refine single_ensure ?_ h2
  unfold constructGraph at h1
  rw [constrPeripherals_eq] at h1
  generalize hg0 : ({ nodes := [some (.elem ⟨some (s%"Device"), .device, true, .device, none, false⟩)] } : Graph) = g0 at h1
  have hed : g0.edges = [] := by subst hg0; rfl
  have W0 : WF g0 := by
    subst hg0
    exact ⟨fun i hi => (by cases hi), List.nodup_nil, fun e he => (by cases he)⟩
  have hz : (g0.node? 0).isSome := by subst hg0; rfl
  exact (single_trees _ W0 (by unfold Single; rw [hed]; exact List.nodup_nil) hz h1).1

end Svd
