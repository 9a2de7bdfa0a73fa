import Verif.Lemmas.HeldRun
import Verif.Lemmas.FolInit
/-
The graph of a description can always be built, and every placeholder of it has exactly one parent and one child.
-/
namespace Svd
open Graph Spec

theorem addPlaceholder_total {g : Graph} {path : Str} {i : Nat} (h : WF g) (hp : (g.node? i).isSome) :
    ∃ g', g.addPlaceholder path i = .ok g' [] := by
  have hs := addNode_spec h (.ph path)
  have h1 : (g.addNode (.ph path)).1.rawAddEdge .dagWouldCycle (g.addNode (.ph path)).2 i .placeholder = .ok
      { (g.addNode (.ph path)).1 with edges := ⟨(g.addNode (.ph path)).2, i, .placeholder⟩ :: (g.addNode (.ph path)).1.edges } [] := by
    unfold Graph.rawAddEdge
    rw [if_neg]
    · rfl
    · intro hc
      rcases hasPath_iff.1 hc with hc | hc
      · rw [hc, hs.1] at hp
        cases hp
      · rw [addNode_edges] at hc
        obtain ⟨e, he, h2, -⟩ := conn_last hc
        have := (h.edges_valid _ he).2
        rw [h2, hs.1] at this
        cases this
  unfold Graph.addPlaceholder
  simp only
  rw [h1]
  exact ⟨_, rfl⟩

theorem addChildToGraph_total {g : Graph} {par : Nat} {e : ElemNode} (h : WF g) (hp : (g.node? par).isSome) :
    ∃ r, addChildToGraph g par e = .ok r [] := by
  unfold addChildToGraph
  simp only
  obtain ⟨⟨g1, j⟩, h1⟩ := addElementChild_total (e := e) (ty := match g.elem? par with
    | some e => if e.isProcessed then EdgeT.childR else .childU
    | none => .childU) h hp
  obtain ⟨hw1, -, hn1, -⟩ := addElementChild_wf h h1 hp
  cases hd : e.parsed.derivedFrom with
  | none => exact ⟨(g1, j), M.bind_eq_ok.2 ⟨_, [], [], h1, rfl, rfl⟩⟩
  | some path =>
    obtain ⟨g2, h2⟩ := addPlaceholder_total (path := path) hw1 (i := j) (by rw [hn1]; rfl)
    exact ⟨(g2, j), M.bind_eq_ok.2 ⟨_, [], [], h1, M.bind_eq_ok.2 ⟨_, [], [], h2, rfl, rfl⟩, rfl⟩⟩

mutual
theorem addTree_total {par : Nat} : (t : DTree) → ∀ {g : Graph}, Grown g → IsE g par → NoDev t →
    ∃ g', addTree par g t = .ok g' []
  | .node p ts, g, G, hpar, hnd => by
    simp only [NoDev] at hnd
    obtain ⟨⟨g1, i⟩, h1⟩ := addChildToGraph_total (e := initNode p) G.wf hpar.some
    obtain ⟨G1, hi, -⟩ := grown_addChild G hpar hnd.1 h1
    obtain ⟨g2, h2⟩ := addTrees_total ts G1 hi hnd.2
    exact ⟨g2, by simp only [addTree]; exact M.bind_eq_ok.2 ⟨_, [], [], h1, h2, rfl⟩⟩
theorem addTrees_total {par : Nat} : (ts : List DTree) → ∀ {g : Graph}, Grown g → IsE g par → NoDevs ts →
    ∃ g', addTrees par g ts = .ok g' []
  | [], g, _, _, _ => ⟨g, rfl⟩
  | t :: ts, g, G, hpar, hnd => by
    simp only [NoDevs] at hnd
    obtain ⟨g1, h1⟩ := addTree_total t G hpar hnd.1
    obtain ⟨G1, hk⟩ := grown_tree t G hpar hnd.1 h1
    obtain ⟨g2, h2⟩ := addTrees_total ts G1 (hk _ hpar) hnd.2
    exact ⟨g2, by simp only [addTrees]; exact M.bind_eq_ok.2 ⟨_, [], [], h1, h2, rfl⟩⟩
end

/-- The placeholders while the graph is built. -/
structure HeldB (g : Graph) : Prop where
  wf : WF g
  outE : ∀ k, IsP g k → ∃ c, Pl g k c
  nodup : (pls g.edges).Nodup
  root : ∀ k, ¬ Pl g k 0
  zero : (g.node? 0).isSome

theorem heldB_addChild {g g' : Graph} {par i : Nat} {e : ElemNode} {ws : List Warn} (G : HeldB g) (hpar : (g.node? par).isSome)
    (hr : addChildToGraph g par e = .ok (g', i) ws) : HeldB g' := by
  have hw := G.wf
  have hwf := addChildToGraph_wf hw hr hpar
  unfold addChildToGraph at hr
  simp only [M.bind_eq_ok] at hr
  obtain ⟨⟨g1, j⟩, w1, w2, h1, h2, -⟩ := hr
  obtain ⟨ty, hty', h1⟩ : ∃ ty, (ty = EdgeT.childU ∨ ty = EdgeT.childR) ∧
      g.addElementChild par e ty = .ok (g1, j) w1 := by
    refine ⟨_, ?_, h1⟩
    split
    · split
      · exact Or.inr rfl
      · exact Or.inl rfl
    · exact Or.inl rfl
  obtain ⟨hj, hg1⟩ := addElementChild_ok h1
  obtain ⟨hs1, hs2, hs3, hs4⟩ := addNode_spec hw (.elem e)
  rw [← hj] at hs1 hs2
  obtain ⟨hw1, hx1, hn1, -⟩ := addElementChild_wf hw h1 hpar
  have hnode1 : ∀ k, g1.node? k = if k = j then some (.elem e) else g.node? k := by
    intro k
    rw [hg1.1]
    exact hs2 k
  have hedge1 : g1.edges = ⟨par, j, ty⟩ :: g.edges := by
    rw [hg1.1]
    simp only [hs3, hj]
  have hpls : pls g1.edges = pls g.edges := by
    rw [hedge1]
    rcases hty' with rfl | rfl <;> rfl
  have hP : ∀ k, IsP g1 k → IsP g k := by
    intro k
    unfold IsP
    rw [hnode1]
    split
    · simp
    · exact id
  have hz1 : (g1.node? 0).isSome := by
    rw [hnode1]
    split
    · rfl
    · exact G.zero
  have hpl1 : ∀ a b, Pl g1 a b ↔ Pl g a b := fun a b => by rw [pl_pls, pl_pls, hpls]
  have O1 : HeldB g1 := ⟨hw1, fun k hk => (G.outE k (hP k hk)).imp fun c h => (hpl1 _ _).2 h, by rw [hpls]; exact G.nodup,
    fun k hk => G.root k ((hpl1 _ _).1 hk), hz1⟩
  have hj0 : j ≠ 0 := by
    rintro rfl
    have := G.zero
    rw [hs1] at this
    cases this
  split at h2
  · simp only [M.pure_eq_ok, Prod.mk.injEq] at h2
    obtain ⟨⟨rfl, rfl⟩, -⟩ := h2
    exact O1
  · rename_i path hpath
    simp only [M.bind_eq_ok, M.pure_eq_ok, Prod.mk.injEq] at h2
    obtain ⟨g2, w3, w4, h3, ⟨⟨rfl, rfl⟩, -⟩, -⟩ := h2
    have hg2 := (addPlaceholder_ok h3).1
    obtain ⟨ht1, ht2, ht3, ht4⟩ := addNode_spec hw1 (.ph path)
    obtain ⟨hw2, hx2⟩ := addPlaceholder_wf hw1 h3 (by rw [hn1]; rfl)
    have hedge2 : g2.edges = ⟨(g1.addNode (.ph path)).2, j, .placeholder⟩ :: g1.edges := by
      rw [hg2]
      simp only [ht3]
    have hnode2 : ∀ k, g2.node? k = if k = (g1.addNode (.ph path)).2 then some (.ph path) else g1.node? k := by
      intro k
      rw [hg2]
      exact ht2 k
    generalize (g1.addNode (.ph path)).2 = q at ht1 hedge2 hnode2
    have hpls2 : pls g2.edges = ⟨q, j, .placeholder⟩ :: pls g1.edges := by rw [hedge2]; rfl
    have hpl2 : ∀ a b, Pl g2 a b ↔ (a = q ∧ b = j) ∨ Pl g1 a b := by
      intro a b
      rw [pl_pls, pl_pls, hpls2]
      simp
    refine ⟨hw2, ?_, ?_, ?_, ?_⟩
    · rintro k ⟨x, hk⟩
      rw [hnode2] at hk
      split at hk
      · rename_i hkq
        exact ⟨j, (hpl2 _ _).2 (Or.inl ⟨hkq, rfl⟩)⟩
      · obtain ⟨c, hc⟩ := O1.outE k ⟨x, hk⟩
        exact ⟨c, (hpl2 _ _).2 (Or.inr hc)⟩
    · rw [hpls2, List.nodup_cons]
      refine ⟨fun hm => ?_, O1.nodup⟩
      have := (hw1.edges_valid _ (mem_pls.1 hm).1).1
      rw [ht1] at this
      cases this
    · intro k hk
      rcases (hpl2 _ _).1 hk with ⟨-, h4⟩ | h4
      · exact hj0 h4.symm
      · exact O1.root k h4
    · rw [hnode2]
      split
      · rfl
      · exact hz1

mutual
theorem heldB_tree {par : Nat} : (t : DTree) → ∀ {g g' : Graph} {ws : List Warn}, HeldB g → (g.node? par).isSome →
    addTree par g t = .ok g' ws → HeldB g' ∧ Ext g g'
  | .node p ts, g, g', ws, G, hpar, hr => by
    simp only [addTree, M.bind_eq_ok] at hr
    obtain ⟨⟨g1, i⟩, w1, w2, h1, h2, -⟩ := hr
    obtain ⟨-, hx, hn⟩ := addChildToGraph_wf G.wf h1 hpar
    obtain ⟨G2, hk2⟩ := heldB_trees ts (heldB_addChild G hpar h1) (by rw [hn]; rfl) h2
    exact ⟨G2, hx.trans hk2⟩
theorem heldB_trees {par : Nat} : (ts : List DTree) → ∀ {g g' : Graph} {ws : List Warn}, HeldB g → (g.node? par).isSome →
    addTrees par g ts = .ok g' ws → HeldB g' ∧ Ext g g'
  | [], g, g', ws, G, hpar, hr => by
    simp only [addTrees, M.pure_eq_ok] at hr
    obtain ⟨rfl, -⟩ := hr
    exact ⟨G, fun _ _ h => h⟩
  | t :: ts, g, g', ws, G, hpar, hr => by
    simp only [addTrees, M.bind_eq_ok] at hr
    obtain ⟨g1, w1, w2, h1, h2, -⟩ := hr
    obtain ⟨G1, hk⟩ := heldB_tree t G hpar h1
    obtain ⟨n, hn⟩ := Option.isSome_iff_exists.1 hpar
    obtain ⟨G2, hk2⟩ := heldB_trees ts G1 (by rw [hk _ _ hn]; rfl) h2
    exact ⟨G2, hk.trans hk2⟩
end

theorem heldB_construct {d : SDevice} {g : Graph} {ws : List Warn} (h1 : constructGraph d = .ok g ws) : HeldB g := by
  unfold constructGraph at h1
  rw [constrPeripherals_eq] at h1
  generalize hg0 : ({ nodes := [some (.elem ⟨some (s%"Device"), .device, true, .device, none, false⟩)] } : Graph) = g0 at h1
  have hed : g0.edges = [] := by subst hg0; rfl
  have W0 : WF g0 := by
    subst hg0
    exact ⟨fun i hi => (by cases hi), List.nodup_nil, fun e he => (by cases he)⟩
  have hz : (g0.node? 0).isSome := by subst hg0; rfl
  refine (heldB_trees _ ⟨W0, ?_, by rw [hed]; exact List.nodup_nil, ?_, hz⟩ hz h1).1
  · rintro k ⟨q, hq⟩
    subst hg0
    cases k with
    | zero => simp [Graph.node?] at hq
    | succ k => simp [Graph.node?] at hq
  · intro k hk
    unfold Pl at hk
    rw [hed] at hk
    cases hk

theorem construct_total (d : SDevice) : ∃ g, constructGraph d = .ok g [] := by
  unfold constructGraph
  rw [constrPeripherals_eq]
  have h0 : constructGraph { d with peripherals := [] } = .ok ({ nodes := [some (.elem ⟨some (s%"Device"), .device, true, .device, none, false⟩)] } : Graph) [] := rfl
  exact addTrees_total _ (grown_construct h0) ⟨_, rfl⟩ (noDev_periphs _)

theorem nodup_dedup (l : List Nat) : (dedup l).Nodup := by
  induction l with
  | nil => exact List.nodup_nil
  | cons x xs ih =>
    rw [dedup, List.nodup_cons]
    refine ⟨by simp, ih.filter _⟩

theorem ensure_total {G : Graph} (hG : Grown G) (hO : HeldB G) {phs : List Nat} : ∀ {S : Nat → Prop} {g : Graph}, (∀ k ∈ phs, IsP G k) →
    (∀ k, S k → IsP G k) → phs.Nodup → (∀ k ∈ phs, ¬ S k) → g.nodes = G.nodes →
    (∀ a b, Ch g a b ↔ Ch G a b) → (∀ a b, ¬ De g a b) → (∀ a b, Pl g a b ↔ Pl G a b ∨ (S b ∧ ∃ c, Pl G b c ∧ Ch G a c)) →
    Acyclic g.edges → (pls g.edges).Nodup →
    ∃ g', ensurePlaceholderParents g phs = .ok g' [] ∧ (pls g'.edges).Nodup := by
  induction phs with
  | nil =>
    intro S g _ _ _ _ _ _ _ _ _ hn
    exact ⟨g, rfl, hn⟩
  | cons k phs ih =>
    intro S g hp hS hnd hdis h1 h4 h5 h6 hac hn
    have hk : IsP G k := hp k (by simp)
    have hE : ∀ m, g.isElem m = true ↔ IsE G m := by
      intro m
      rw [isE_iff]
      unfold IsE Graph.elem?
      rw [node?_congr h1]
    have noE : ∀ m, IsP G m → ¬ IsE G m := fun m h4 h5 => isE_notP h5 h4
    obtain ⟨c, hkc⟩ := hO.outE k hk
    have hcE := (hG.ph _ _ hkc).2
    have hout : ∀ ed ∈ g.edges, ed.src = k → ed.dst = c := by
      intro ed m1 m2
      subst m2
      rcases edge_view m1 with m4 | m4 | m4
      · exact absurd (hG.tch _ _ ((h4 _ _).1 m4)).1 (noE _ hk)
      · exact absurd m4 (h5 _ _)
      · rcases (h6 _ _).1 m4 with m5 | ⟨-, c', -, m6⟩
        · exact hG.single _ _ _ m5 hkc
        · exact absurd (hG.tch _ _ m6).1 (noE _ hk)
    have hsucc : g.successors k = [c] := by
      refine list_single (nodup_dedup _) (mem_successors.2 ⟨_, (h6 k c).2 (Or.inl hkc), rfl, rfl⟩) ?_
      intro y hy
      obtain ⟨ed, m1, m2, m3⟩ := mem_successors.1 hy
      rw [← m3]
      exact hout ed m1 m2
    obtain ⟨p, hpc⟩ : ∃ p, Ch G p c := by
      rcases hG.up c hcE with rfl | h
      · exact absurd hkc (hO.root k)
      · exact h
    have hback : ∀ a, a ∈ (g.predecessors c).filter g.isElem → Ch G a c := by
      intro a ha
      rw [List.mem_filter, hE] at ha
      obtain ⟨ed, m1, m2, m3⟩ := mem_predecessors.1 ha.1
      subst m2 m3
      rcases edge_view m1 with m4 | m4 | m4
      · exact (h4 _ _).1 m4
      · exact absurd m4 (h5 _ _)
      · rcases (h6 _ _).1 m4 with m5 | ⟨m5, -⟩
        · exact absurd ha.2 (noE _ (hG.ph _ _ m5).1)
        · exact absurd hcE (noE _ (hS _ m5))
    have hpred : (g.predecessors c).filter g.isElem = [p] := by
      refine list_single ((nodup_dedup _).filter _) ?_ fun y hy => hG.one _ _ _ (hback y hy) hpc
      rw [List.mem_filter, hE]
      obtain ⟨ed, m1, m2, m3, -⟩ := ch_iff.1 ((h4 _ _).2 hpc)
      exact ⟨mem_predecessors.2 ⟨ed, m1, m3, m2⟩, (hG.tch _ _ hpc).1⟩
    have e1 : g.placeholderCoParent k = .ok (some p) [] := by
      unfold Graph.placeholderCoParent
      rw [hsucc]
      simp only [hpred]
      rfl
    have hpE := (hG.tch _ _ hpc).1
    have e2 : g.addEdge p k .placeholder = .ok { g with edges := ⟨p, k, .placeholder⟩ :: g.edges } [] := by
      unfold Graph.addEdge Graph.rawAddEdge
      rw [if_neg]
      · rfl
      · intro hc
        obtain ⟨ed, m1, m2, m3, -⟩ := ch_iff.1 ((h4 _ _).2 hpc)
        have hcyc : ∀ x, Conn g.edges c x → x = p → False := by
          intro x hx hxp
          subst hxp
          refine hac x ?_
          have : Conn g.edges ed.src ed.dst := .edge m1
          rw [m2, m3] at this
          exact this.trans hx
        rcases hasPath_iff.1 hc with hc | hc
        · exact noE _ hk (hc ▸ hpE)
        · generalize hx : p = x at hc
          cases hc with
          | edge h7 =>
            have := hout _ h7 rfl
            subst hx
            refine hac c ?_
            have h8 : Conn g.edges ed.src ed.dst := .edge m1
            rw [m2, m3] at h8
            exact this ▸ h8
          | step h7 h8 =>
            have := hout _ h7 rfl
            exact hcyc _ (this ▸ h8) hx.symm
    have hv : ∀ x z, (Ch { g with edges := ⟨p, k, .placeholder⟩ :: g.edges } x z ↔ Ch g x z) ∧
        (De { g with edges := ⟨p, k, .placeholder⟩ :: g.edges } x z ↔ De g x z) ∧
        (Pl { g with edges := ⟨p, k, .placeholder⟩ :: g.edges } x z ↔ (x = p ∧ z = k) ∨ Pl g x z) := by
      intro x z
      obtain ⟨h1, h2, h3⟩ := @mem_cons_edges g p k .placeholder g.edges x z
      refine ⟨?_, ?_, ?_⟩
      · rw [h1]; simp [isChildEdge]
      · rw [h2]; simp
      · rw [h3]; simp
    have hnd' := List.nodup_cons.1 hnd
    obtain ⟨g', r1, r2⟩ := ih (S := fun b => S b ∨ b = k) (g := { g with edges := ⟨p, k, .placeholder⟩ :: g.edges })
      (fun m hm => hp m (by simp [hm])) (fun m hm => hm.elim (hS m) fun h => h ▸ hk) hnd'.2
      (fun m hm hs => hs.elim (hdis m (by simp [hm])) fun h => hnd'.1 (h ▸ hm)) h1 (fun a b => (hv a b).1.trans (h4 a b))
      (fun a b h => h5 a b ((hv a b).2.1.1 h))
      (by
        intro a b
        rw [(hv a b).2.2, h6]
        constructor
        · rintro (⟨rfl, rfl⟩ | m | ⟨m1, m2⟩)
          · exact Or.inr ⟨Or.inr rfl, c, hkc, hpc⟩
          · exact Or.inl m
          · exact Or.inr ⟨Or.inl m1, m2⟩
        · rintro (m | ⟨m1 | rfl, c', m2, m3⟩)
          · exact Or.inr (Or.inl m)
          · exact Or.inr (Or.inr ⟨m1, c', m2, m3⟩)
          · have := hG.single _ _ _ m2 hkc
            subst this
            exact Or.inl ⟨hG.one _ _ _ m3 hpc, rfl⟩)
      (ac_rawAddEdge hac e2)
      (by
        show (⟨p, k, .placeholder⟩ :: pls g.edges).Nodup
        rw [List.nodup_cons]
        refine ⟨fun hm => ?_, hn⟩
        rcases (h6 p k).1 (pl_pls.2 hm) with m | ⟨m, -⟩
        · exact noE _ (hG.ph _ _ m).1 hpE
        · exact hdis k (by simp) m)
    refine ⟨g', ?_, r2⟩
    rw [ensurePlaceholderParents]
    exact M.bind_eq_ok.2 ⟨_, [], [], e1, M.bind_eq_ok.2 ⟨_, [], [], e2, r1, rfl⟩, rfl⟩

/-- The graph of a description can always be built. -/
theorem initialization_total (d : SDevice) : ∃ g, initialization d = .ok g [] ∧ Held g ∧ Listed g := by
  obtain ⟨G, h1⟩ := construct_total d
  have hG := grown_construct h1
  have hO := heldB_construct h1
  have hac : Acyclic G.edges := by
    unfold constructGraph at h1
    exact ac_constrPeripherals (by intro i h; obtain ⟨e, he, -⟩ := conn_first h; cases he) h1
  have hpE : ∀ k ∈ G.placeholders, IsP G k := fun k hk => (hG.listed.2 k).1 hk
  obtain ⟨g', h2, hn⟩ := ensure_total hG hO (phs := G.placeholders) (S := fun _ => False) hpE (fun _ h => h.elim) hG.listed.1 (fun _ _ h => h)
    rfl (fun _ _ => Iff.rfl) hG.noDe (fun a b => by simp) hac hO.nodup
  obtain ⟨n1, n2, n3, n4, n5, n6⟩ := grown_ensure hG (phs := G.placeholders) (S := fun _ => False) hpE (fun _ h => h.elim) rfl rfl
    (fun _ h => h) (fun _ _ => Iff.rfl) hG.noDe (fun a b => by simp) h2
  have hP := isP_congr n1
  have noE : ∀ m, IsP G m → ¬ IsE G m := fun m h4 h5 => isE_notP h5 h4
  have hin : ∀ k a, IsP G k → (Pl g' a k ↔ ∃ c, Pl G k c ∧ Ch G a c) := by
    intro k a hk
    rw [n6]
    constructor
    · rintro (h | ⟨-, h⟩)
      · exact absurd (hG.ph _ _ h).2 (noE _ hk)
      · exact h
    · exact fun h => Or.inr ⟨Or.inr ((hG.listed.2 k).2 hk), h⟩
  have hout : ∀ k c, IsP G k → (Pl g' k c ↔ Pl G k c) := by
    intro k c hk
    rw [n6]
    constructor
    · rintro (h | ⟨-, c', -, h⟩)
      · exact h
      · exact absurd (hG.tch _ _ h).1 (noE _ hk)
    · exact Or.inl
  refine ⟨g', ?_, ⟨hn, ?_, ?_, ?_, ?_⟩, hG.listed.nodes n2 n1⟩
  · unfold initialization
    exact M.bind_eq_ok.2 ⟨_, [], [], h1, h2, rfl⟩
  · intro k hk
    rw [hP] at hk
    obtain ⟨c, hc⟩ := hO.outE k hk
    rcases hG.up c (hG.ph _ _ hc).2 with rfl | ⟨a, ha⟩
    · exact absurd hc (hO.root k)
    · exact ⟨a, (hin k a hk).2 ⟨c, hc, ha⟩⟩
  · intro k hk
    rw [hP] at hk
    obtain ⟨c, hc⟩ := hO.outE k hk
    exact ⟨c, (hout k c hk).2 hc⟩
  · intro k a a' hk ha ha'
    rw [hP] at hk
    obtain ⟨c, h3, h4⟩ := (hin k a hk).1 ha
    obtain ⟨c', h5, h6⟩ := (hin k a' hk).1 ha'
    have := hG.single _ _ _ h3 h5
    subst this
    exact hG.one _ _ _ h4 h6
  · intro k b b' hk hb hb'
    rw [hP] at hk
    exact hG.single _ _ _ ((hout k b hk).1 hb) ((hout k b' hk).1 hb')

end Svd
