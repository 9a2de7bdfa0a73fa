import Verif.Lemmas.FolRound
/-
Following references: the graph of the description, before anything is resolved.
-/
namespace Svd
open Graph Spec

/-- The graph while it is built. -/
structure Grown (g : Graph) : Prop where
  wf : WF g
  listed : Listed g
  root : Done g 0
  res : Res g
  done : ∀ k, Done g k → k = 0
  tch : ∀ a c, Ch g a c → IsE g a ∧ IsE g c
  one : ∀ a a' c, Ch g a c → Ch g a' c → a = a'
  up : ∀ c, IsE g c → c = 0 ∨ ∃ a, Ch g a c
  pend : ∀ c e, g.elem? c = some e → e.parsed.derivedFrom ≠ none → ∃ h, Pl g h c
  ph : ∀ h c, Pl g h c → IsP g h ∧ IsE g c
  uni : ∀ h h' c, Pl g h c → Pl g h' c → h = h'
  single : ∀ h c c', Pl g h c → Pl g h c' → c = c'
  noDe : ∀ a b, ¬ De g a b

theorem grown_addChild {g g' : Graph} {par i : Nat} {p : Parsed} {ws : List Warn} (G : Grown g) (hpar : IsE g par) (hp : p ≠ .device)
    (hr : addChildToGraph g par (initNode p) = .ok (g', i) ws) : Grown g' ∧ IsE g' i ∧ ∀ k, IsE g k → IsE g' k := by
  have hw := G.wf
  have hwf := addChildToGraph_wf hw hr hpar.some
  unfold addChildToGraph at hr
  simp only [M.bind_eq_ok] at hr
  obtain ⟨⟨g1, j⟩, w1, w2, h1, h2, -⟩ := hr
  obtain ⟨ty, hty', hty2, h1⟩ : ∃ ty, (ty = EdgeT.childU ∨ ty = EdgeT.childR) ∧ (Done g par → ty = .childR) ∧
      g.addElementChild par (initNode p) ty = .ok (g1, j) w1 := by
    refine ⟨_, ?_, ?_, h1⟩
    · split
      · split
        · exact Or.inr rfl
        · exact Or.inl rfl
      · exact Or.inl rfl
    · rintro ⟨e, he, hpe⟩
      rw [he]
      simp [hpe]
  obtain ⟨hj, hg1⟩ := addElementChild_ok h1
  obtain ⟨hs1, hs2, hs3, hs4⟩ := addNode_spec hw (.elem (initNode p))
  rw [← hj] at hs1 hs2
  obtain ⟨hw1, hx1, hn1, -⟩ := addElementChild_wf hw h1 hpar.some
  have hproc : (initNode p).isProcessed = false := by
    cases p <;> first | rfl | exact absurd rfl hp
  have hnode1 : ∀ k, g1.node? k = if k = j then some (.elem (initNode p)) else g.node? k := by
    intro k
    rw [hg1.1]
    exact hs2 k
  have hedge1 : g1.edges = ⟨par, j, ty⟩ :: g.edges := by
    rw [hg1.1]
    simp only [hs3, hj]
  have hpl1 : g1.placeholders = g.placeholders := by
    rw [hg1.1]; exact hs4
  have hv1 : ∀ x z, (Ch g1 x z ↔ (x = par ∧ z = j) ∨ Ch g x z) ∧ (De g1 x z ↔ De g x z) ∧ (Pl g1 x z ↔ Pl g x z) := by
    intro x z
    obtain ⟨h1, h2, h3⟩ := @mem_cons_edges g par j ty g.edges x z
    have e1 := edges_eq_view (g := { g with edges := ⟨par, j, ty⟩ :: g.edges }) (g' := g1) hedge1
    refine ⟨?_, ?_, ?_⟩
    · rw [e1.1, h1]; rcases hty' with rfl | rfl <;> simp [isChildEdge]
    · rw [e1.2.1, h2]; rcases hty' with rfl | rfl <;> simp
    · rw [e1.2.2, h3]; rcases hty' with rfl | rfl <;> simp
  have ne : ∀ k, (g.node? k).isSome → k ≠ j := by
    rintro k hk rfl
    rw [hs1] at hk
    cases hk
  have hel : ∀ k, k ≠ j → g1.elem? k = g.elem? k := by
    intro k hk
    unfold Graph.elem?
    rw [hnode1, if_neg hk]
  have hjE : g1.elem? j = some (initNode p) := by rw [elem?_node?, hnode1, if_pos rfl]
  have hE : ∀ k, IsE g1 k ↔ k = j ∨ IsE g k := by
    intro k
    by_cases hk : k = j
    · simp only [hk, true_or, iff_true]; exact ⟨_, hjE⟩
    · unfold IsE; rw [hel k hk]; simp [hk]
  have hP : ∀ k, IsP g1 k ↔ IsP g k := by
    intro k
    unfold IsP
    rw [hnode1]
    split
    · rename_i hk; subst hk; rw [hs1]; simp
    · rfl
  have hD : ∀ k, Done g1 k ↔ Done g k := by
    intro k
    unfold Done
    by_cases hk : k = j
    · subst hk
      rw [hjE]
      constructor
      · rintro ⟨e, he, h3⟩
        injection he with he
        subst he
        rw [hproc] at h3
        cases h3
      · rintro ⟨e, he, -⟩
        exact absurd rfl (ne _ (IsE.some ⟨e, he⟩))
    · rw [hel k hk]
  have nj : ∀ a, ¬ Ch g a j := fun a hc => ne _ (ch_some hw hc).2 rfl
  have L1 : Listed g1 := G.listed.congr hpl1 hP
  have one1 : ∀ a a' c, Ch g1 a c → Ch g1 a' c → a = a' := by
    intro a a' c h3 h4
    rcases (hv1 a c).1.1 h3 with ⟨rfl, rfl⟩ | h3
    · rcases (hv1 a' _).1.1 h4 with ⟨rfl, -⟩ | h4
      · rfl
      · exact (nj _ h4).elim
    · rcases (hv1 a' c).1.1 h4 with ⟨rfl, rfl⟩ | h4
      · exact (nj _ h3).elim
      · exact G.one _ _ _ h3 h4
  have res1 : Res g1 := by
    intro a b hc hd
    rw [hedge1]
    rcases (hv1 a b).1.1 hc with ⟨rfl, rfl⟩ | hc
    · rw [hty2 ((hD _).1 hd)]; simp
    · exact List.mem_cons_of_mem _ (G.res a b hc ((hD a).1 hd))
  have up1 : ∀ c, IsE g1 c → c = 0 ∨ ∃ a, Ch g1 a c := by
    intro c hc
    rcases (hE c).1 hc with rfl | hc
    · exact Or.inr ⟨par, (hv1 _ _).1.2 (Or.inl ⟨rfl, rfl⟩)⟩
    · exact (G.up c hc).imp id fun ⟨a, h3⟩ => ⟨a, (hv1 _ _).1.2 (Or.inr h3)⟩
  have tch1 : ∀ a c, Ch g1 a c → IsE g1 a ∧ IsE g1 c := by
    intro a c hc
    rcases (hv1 a c).1.1 hc with ⟨rfl, rfl⟩ | hc
    · exact ⟨(hE _).2 (Or.inr hpar), ⟨_, hjE⟩⟩
    · exact (G.tch a c hc).imp (fun h => (hE _).2 (Or.inr h)) fun h => (hE _).2 (Or.inr h)
  have ph1 : ∀ h c, Pl g1 h c → IsP g1 h ∧ IsE g1 c := by
    intro h c hc
    exact (G.ph h c ((hv1 _ _).2.2.1 hc)).imp (hP h).2 fun h => (hE _).2 (Or.inr h)
  have uni1 : ∀ h h' c, Pl g1 h c → Pl g1 h' c → h = h' := fun h h' c h3 h4 => G.uni h h' c ((hv1 _ _).2.2.1 h3) ((hv1 _ _).2.2.1 h4)
  have single1 : ∀ h c c', Pl g1 h c → Pl g1 h c' → c = c' := fun h h' c h3 h4 =>
    G.single h h' c ((hv1 _ _).2.2.1 h3) ((hv1 _ _).2.2.1 h4)
  have noDe1 : ∀ a b, ¬ De g1 a b := fun a b h => G.noDe a b ((hv1 _ _).2.1.1 h)
  have pend1 : ∀ c e, c ≠ j → g1.elem? c = some e → e.parsed.derivedFrom ≠ none → ∃ h, Pl g1 h c := by
    intro c e hc he hd
    rw [hel c hc] at he
    obtain ⟨h, h3⟩ := G.pend c e he hd
    exact ⟨h, (hv1 _ _).2.2.2 h3⟩
  have hpe : (initNode p).parsed = p := by cases p <;> rfl
  split at h2
  · rename_i hnone
    simp only [M.pure_eq_ok, Prod.mk.injEq] at h2
    obtain ⟨⟨rfl, rfl⟩, -⟩ := h2
    refine ⟨⟨hw1, L1, (hD 0).2 G.root, res1, fun k hk => G.done k ((hD k).1 hk), tch1, one1, up1, ?_, ph1, uni1, single1, noDe1⟩,
      ⟨_, hjE⟩, fun k hk => (hE k).2 (Or.inr hk)⟩
    intro c e he hd
    by_cases hc : c = j
    · subst hc
      rw [hjE] at he
      injection he with he
      subst he
      exact absurd hnone hd
    · exact pend1 c e hc he hd
  · rename_i path hpath
    simp only [M.bind_eq_ok, M.pure_eq_ok, Prod.mk.injEq] at h2
    obtain ⟨g2, w3, w4, h3, ⟨⟨rfl, rfl⟩, -⟩, -⟩ := h2
    have hg2 := (addPlaceholder_ok h3).1
    obtain ⟨ht1, ht2, ht3, ht4⟩ := addNode_spec hw1 (.ph path)
    obtain ⟨hw2, hx2⟩ := addPlaceholder_wf hw1 h3 (IsE.some ⟨_, hjE⟩)
    have hedge2 : g2.edges = ⟨(g1.addNode (.ph path)).2, j, .placeholder⟩ :: g1.edges := by
      rw [hg2]
      simp only [ht3]
    have L2 : Listed g2 := L1.addPh hw1 path (by rw [hg2]) (by rw [hg2]; simp only [ht4])
    have hnode2 : ∀ k, g2.node? k = if k = (g1.addNode (.ph path)).2 then some (.ph path) else g1.node? k := by
      intro k
      rw [hg2]
      exact ht2 k
    generalize (g1.addNode (.ph path)).2 = q at ht1 hedge2 hnode2
    have neq : ∀ k, (g1.node? k).isSome → k ≠ q := by
      rintro k hk rfl
      rw [ht1] at hk
      cases hk
    have hel2 : ∀ k, g2.elem? k = g1.elem? k := by
      intro k
      unfold Graph.elem?
      rw [hnode2]
      by_cases hk : k = q
      · subst hk; rw [if_pos rfl, ht1]
      · rw [if_neg hk]
    have hE2 : ∀ k, IsE g2 k ↔ IsE g1 k := fun k => by unfold IsE; rw [hel2]
    have hD2 : ∀ k, Done g2 k ↔ Done g1 k := fun k => by unfold Done; rw [hel2]
    have hP2 : ∀ k, IsP g2 k ↔ k = q ∨ IsP g1 k := by
      intro k
      unfold IsP
      rw [hnode2]
      split
      · rename_i hk; simp [hk]
      · rename_i hk; simp [hk]
    have hv2 : ∀ x z, (Ch g2 x z ↔ Ch g1 x z) ∧ (De g2 x z ↔ De g1 x z) ∧ (Pl g2 x z ↔ (x = q ∧ z = j) ∨ Pl g1 x z) := by
      intro x z
      obtain ⟨h1, h2, h3⟩ := @mem_cons_edges g1 q j .placeholder g1.edges x z
      have e1 := edges_eq_view (g := { g1 with edges := ⟨q, j, .placeholder⟩ :: g1.edges }) (g' := g2) hedge2
      refine ⟨?_, ?_, ?_⟩
      · rw [e1.1, h1]; simp [isChildEdge]
      · rw [e1.2.1, h2]; simp
      · rw [e1.2.2, h3]; simp
    have nopj : ∀ h, ¬ Pl g1 h j := fun h hc => ne _ (pl_some hw ((hv1 _ _).2.2.1 hc)).2 rfl
    have nopq : ∀ c, ¬ Pl g1 q c := fun c hc => neq _ (pl_some hw1 hc).1 rfl
    refine ⟨⟨hw2, L2, (hD2 0).2 ((hD 0).2 G.root), ?_, fun k hk => G.done k ((hD k).1 ((hD2 k).1 hk)), ?_, ?_, ?_, ?_, ?_, ?_, ?_, ?_⟩,
      (hE2 _).2 ⟨_, hjE⟩, fun k hk => (hE2 k).2 ((hE k).2 (Or.inr hk))⟩
    · intro a b hc hd
      rw [hedge2]
      exact List.mem_cons_of_mem _ (res1 a b ((hv2 _ _).1.1 hc) ((hD2 a).1 hd))
    · intro a c hc
      exact (tch1 a c ((hv2 _ _).1.1 hc)).imp (hE2 _).2 (hE2 _).2
    · exact fun a a' c h4 h5 => one1 a a' c ((hv2 _ _).1.1 h4) ((hv2 _ _).1.1 h5)
    · exact fun c hc => (up1 c ((hE2 c).1 hc)).imp id fun ⟨a, h4⟩ => ⟨a, (hv2 _ _).1.2 h4⟩
    · intro c e he hd
      by_cases hc : c = j
      · exact ⟨q, (hv2 _ _).2.2.2 (Or.inl ⟨rfl, hc⟩)⟩
      · rw [hel2] at he
        obtain ⟨h, h4⟩ := pend1 c e hc he hd
        exact ⟨h, (hv2 _ _).2.2.2 (Or.inr h4)⟩
    · intro h c hc
      rcases (hv2 h c).2.2.1 hc with ⟨rfl, rfl⟩ | hc
      · exact ⟨(hP2 _).2 (Or.inl rfl), (hE2 _).2 ⟨_, hjE⟩⟩
      · exact (ph1 h c hc).imp (fun h => (hP2 _).2 (Or.inr h)) (hE2 _).2
    · intro h h' c h4 h5
      rcases (hv2 h c).2.2.1 h4 with ⟨rfl, rfl⟩ | h4
      · rcases (hv2 h' _).2.2.1 h5 with ⟨rfl, -⟩ | h5
        · rfl
        · exact (nopj _ h5).elim
      · rcases (hv2 h' c).2.2.1 h5 with ⟨rfl, rfl⟩ | h5
        · exact (nopj _ h4).elim
        · exact uni1 _ _ _ h4 h5
    · intro h c c' h4 h5
      rcases (hv2 h c).2.2.1 h4 with ⟨rfl, rfl⟩ | h4
      · rcases (hv2 _ c').2.2.1 h5 with ⟨-, rfl⟩ | h5
        · rfl
        · exact (nopq _ h5).elim
      · rcases (hv2 h c').2.2.1 h5 with ⟨rfl, rfl⟩ | h5
        · exact (nopq _ h4).elim
        · exact single1 _ _ _ h4 h5
    · exact fun a b h4 => noDe1 a b ((hv2 _ _).2.1.1 h4)

mutual
theorem grown_tree {par : Nat} : (t : DTree) → ∀ {g g' : Graph} {ws : List Warn}, Grown g → IsE g par → NoDev t →
    addTree par g t = .ok g' ws → Grown g' ∧ ∀ k, IsE g k → IsE g' k
  | .node p ts, g, g', ws, G, hpar, hnd, hr => by
    simp only [addTree, M.bind_eq_ok] at hr
    obtain ⟨⟨g1, i⟩, w1, w2, h1, h2, -⟩ := hr
    simp only [NoDev] at hnd
    obtain ⟨G1, hi, hk⟩ := grown_addChild G hpar hnd.1 h1
    obtain ⟨G2, hk2⟩ := grown_trees ts G1 hi hnd.2 h2
    exact ⟨G2, fun k h => hk2 k (hk k h)⟩
theorem grown_trees {par : Nat} : (ts : List DTree) → ∀ {g g' : Graph} {ws : List Warn}, Grown g → IsE g par → NoDevs ts →
    addTrees par g ts = .ok g' ws → Grown g' ∧ ∀ k, IsE g k → IsE g' k
  | [], g, g', ws, G, hpar, hnd, hr => by
    simp only [addTrees, M.pure_eq_ok] at hr
    obtain ⟨rfl, -⟩ := hr
    exact ⟨G, fun _ h => h⟩
  | t :: ts, g, g', ws, G, hpar, hnd, hr => by
    simp only [addTrees, M.bind_eq_ok] at hr
    obtain ⟨g1, w1, w2, h1, h2, -⟩ := hr
    simp only [NoDevs] at hnd
    obtain ⟨G1, hk⟩ := grown_tree t G hpar hnd.1 h1
    obtain ⟨G2, hk2⟩ := grown_trees ts G1 (hk _ hpar) hnd.2 h2
    exact ⟨G2, fun k h => hk2 k (hk k h)⟩
end

theorem grown_construct {d : SDevice} {g : Graph} {ws : List Warn} (h1 : constructGraph d = .ok g ws) : Grown g := by
  unfold constructGraph at h1
  rw [constrPeripherals_eq] at h1
  generalize hg0 : ({ nodes := [some (.elem ⟨some (s%"Device"), .device, true, .device, none, false⟩)] } : Graph) = g0 at h1
  have hn0 : ∀ k n, g0.node? k = some n → k = 0 ∧ n = .elem ⟨some (s%"Device"), .device, true, .device, none, false⟩ := by
    intro k n hk
    subst hg0
    cases k with
    | zero =>
      refine ⟨rfl, ?_⟩
      simp [Graph.node?] at hk
      exact hk.symm
    | succ k => simp [Graph.node?] at hk
  have hz : g0.elem? 0 = some ⟨some (s%"Device"), .device, true, .device, none, false⟩ := by subst hg0; rfl
  have hed : g0.edges = [] := by subst hg0; rfl
  have hpl : g0.placeholders = [] := by subst hg0; rfl
  have hnoCh : ∀ a b, ¬ Ch g0 a b := by intro a b h; unfold Ch at h; rw [hed] at h; simp at h
  have hnoDe : ∀ a b, ¬ De g0 a b := by intro a b h; unfold De at h; rw [hed] at h; simp at h
  have hnoPl : ∀ a b, ¬ Pl g0 a b := by intro a b h; unfold Pl at h; rw [hed] at h; simp at h
  have W0 : WF g0 := by
    subst hg0
    exact ⟨fun i hi => (by cases hi), List.nodup_nil, fun e he => (by cases he)⟩
  have hnoP : ∀ k, ¬ IsP g0 k := by
    rintro k ⟨q, hq⟩
    cases (hn0 k _ hq).2
  have G0 : Grown g0 := by
    refine ⟨W0, ⟨by rw [hpl]; simp, fun k => by rw [hpl]; simp [hnoP]⟩, ⟨_, hz, rfl⟩, fun a b h => absurd h (hnoCh a b), ?_,
      fun a b h => absurd h (hnoCh a b), fun a _ b h => absurd h (hnoCh a b), ?_, ?_, fun a b h => absurd h (hnoPl a b),
      fun a _ b h => absurd h (hnoPl a b), fun a b _ h => absurd h (hnoPl a b), hnoDe⟩
    · rintro k ⟨e, he, -⟩
      exact (hn0 k _ (elem?_node?.1 he)).1
    · rintro k ⟨e, he⟩
      exact Or.inl (hn0 k _ (elem?_node?.1 he)).1
    · intro k e he hd
      have := (hn0 k _ (elem?_node?.1 he)).2
      injection this with this
      subst this
      exact absurd rfl hd
  exact (grown_trees _ G0 ⟨_, hz⟩ (noDev_periphs _) h1).1

/-- The placeholders get their parents. -/
theorem grown_ensure {G : Graph} (hG : Grown G) {phs : List Nat} : ∀ {S : Nat → Prop} {g g' : Graph} {ws : List Warn}, (∀ k ∈ phs, IsP G k) →
    (∀ k, S k → IsP G k) → g.nodes = G.nodes → g.placeholders = G.placeholders → (∀ e ∈ G.edges, e ∈ g.edges) →
    (∀ a b, Ch g a b ↔ Ch G a b) → (∀ a b, ¬ De g a b) → (∀ a b, Pl g a b ↔ Pl G a b ∨ (S b ∧ ∃ c, Pl G b c ∧ Ch G a c)) →
    ensurePlaceholderParents g phs = .ok g' ws →
    g'.nodes = G.nodes ∧ g'.placeholders = G.placeholders ∧ (∀ e ∈ G.edges, e ∈ g'.edges) ∧ (∀ a b, Ch g' a b ↔ Ch G a b) ∧
      (∀ a b, ¬ De g' a b) ∧ ∀ a b, Pl g' a b ↔ Pl G a b ∨ ((S b ∨ b ∈ phs) ∧ ∃ c, Pl G b c ∧ Ch G a c) := by
  induction phs with
  | nil =>
    intro S g g' ws hp hS h1 h2 h3 h4 h5 h6 hr
    simp only [ensurePlaceholderParents, M.pure_eq_ok] at hr
    obtain ⟨rfl, -⟩ := hr
    refine ⟨h1, h2, h3, h4, h5, ?_⟩
    intro a b
    rw [h6]
    simp
  | cons k phs ih =>
    intro S g g' ws hp hS h1 h2 h3 h4 h5 h6 hr
    simp only [ensurePlaceholderParents, M.bind_eq_ok] at hr
    obtain ⟨o, w1, w2, k1, ⟨g1, w3, w4, k2, k3, -⟩, -⟩ := hr
    have hk : IsP G k := hp k (by simp)
    have hE : ∀ m, g.isElem m = true ↔ IsE G m := by
      intro m
      rw [isE_iff]
      unfold IsE Graph.elem?
      rw [node?_congr h1]
    have noE : ∀ m, IsP G m → ¬ IsE G m := fun m h4 h5 => isE_notP h5 h4
    obtain ⟨c, hc, ho⟩ : ∃ c, g.successors k = [c] ∧ ((∀ a, o ≠ some a) → (g.predecessors c).filter g.isElem = []) ∧
        ∀ p, o = some p → (g.predecessors c).filter g.isElem = [p] := by
      unfold Graph.placeholderCoParent at k1
      split at k1
      · simp at k1
      · rename_i c hc
        refine ⟨c, hc, ?_⟩
        split at k1
        · rename_i hf
          simp only [M.pure_eq_ok] at k1
          obtain ⟨rfl, -⟩ := k1
          exact ⟨fun _ => hf, fun p hp => by cases hp⟩
        · rename_i q hf
          simp only [M.pure_eq_ok] at k1
          obtain ⟨rfl, -⟩ := k1
          exact ⟨fun h => absurd rfl (h q), fun p hp => by cases hp; exact hf⟩
        · simp at k1
      · simp at k1
    have hkc : Pl G k c := by
      have hm : c ∈ g.successors k := by rw [hc]; simp
      obtain ⟨ed, m1, m2, m3⟩ := mem_successors.1 hm
      subst m2 m3
      rcases edge_view m1 with m4 | m4 | m4
      · exact absurd (hG.tch _ _ ((h4 _ _).1 m4)).1 (noE _ hk)
      · exact absurd m4 (h5 _ _)
      · rcases (h6 _ _).1 m4 with m5 | ⟨-, c', -, m6⟩
        · exact m5
        · exact absurd (hG.tch _ _ m6).1 (noE _ hk)
    have hcE := (hG.ph _ _ hkc).2
    have hfil : ∀ a, Ch G a c → a ∈ (g.predecessors c).filter g.isElem := by
      intro a ha
      rw [List.mem_filter, hE]
      obtain ⟨ed, m1, m2, m3, -⟩ := ch_iff.1 ((h4 _ _).2 ha)
      exact ⟨mem_predecessors.2 ⟨ed, m1, m3, m2⟩, (hG.tch _ _ ha).1⟩
    have hback : ∀ a, a ∈ (g.predecessors c).filter g.isElem → Ch G a c := by
      intro a ha
      rw [List.mem_filter, hE] at ha
      obtain ⟨ed, m1, m2, m3⟩ := mem_predecessors.1 ha.1
      subst m2 m3
      rcases edge_view m1 with m4 | m4 | m4
      · exact (h4 _ _).1 m4
      · exact absurd m4 (h5 _ _)
      · rcases (h6 _ _).1 m4 with m5 | ⟨m5, -⟩
        · exact absurd ha.2 (noE _ (hG.ph _ _ m5).1)
        · exact absurd hcE (noE _ (hS _ m5))
    have fin : ∀ {g1 : Graph} {w : List Warn}, g1.nodes = G.nodes → g1.placeholders = G.placeholders → (∀ e ∈ G.edges, e ∈ g1.edges) →
        (∀ a b, Ch g1 a b ↔ Ch G a b) → (∀ a b, ¬ De g1 a b) →
        (∀ a b, Pl g1 a b ↔ Pl G a b ∨ ((S b ∨ b = k) ∧ ∃ c, Pl G b c ∧ Ch G a c)) →
        ensurePlaceholderParents g1 phs = .ok g' w →
        g'.nodes = G.nodes ∧ g'.placeholders = G.placeholders ∧ (∀ e ∈ G.edges, e ∈ g'.edges) ∧ (∀ a b, Ch g' a b ↔ Ch G a b) ∧
        (∀ a b, ¬ De g' a b) ∧ ∀ a b, Pl g' a b ↔ Pl G a b ∨ ((S b ∨ b ∈ k :: phs) ∧ ∃ c, Pl G b c ∧ Ch G a c) := by
      intro g1 w m1 m2 m3 m4 m5 m6 m7
      obtain ⟨n1, n2, n3, n4, n5, n6⟩ := ih (S := fun b => S b ∨ b = k) (fun m hm => hp m (by simp [hm]))
        (fun m hm => hm.elim (hS m) fun h => h ▸ hk) m1 m2 m3 m4 m5 m6 m7
      refine ⟨n1, n2, n3, n4, n5, fun a b => ?_⟩
      rw [n6]
      simp only [List.mem_cons, or_assoc]
    cases o with
    | none =>
      simp only [M.pure_eq_ok] at k2
      obtain ⟨rfl, -⟩ := k2
      refine fin h1 h2 h3 h4 h5 (fun a b => ?_) k3
      rw [h6]
      refine or_congr_right ⟨fun ⟨m1, m2⟩ => ⟨Or.inl m1, m2⟩, ?_⟩
      rintro ⟨m1 | rfl, c', m2, m3⟩
      · exact ⟨m1, c', m2, m3⟩
      · have := hG.single _ _ _ m2 hkc
        subst this
        have := hfil a m3
        rw [ho.1 (by simp)] at this
        cases this
    | some p =>
      obtain ⟨n1, n2⟩ := addEdge_nodes k2
      have hpc : Ch G p c := hback p (by rw [ho.2 p rfl]; simp)
      have hv : ∀ x z, (Ch g1 x z ↔ Ch g x z) ∧ (De g1 x z ↔ De g x z) ∧ (Pl g1 x z ↔ (x = p ∧ z = k) ∨ Pl g x z) := by
        intro x z
        subst n1
        obtain ⟨h1, h2, h3⟩ := @mem_cons_edges g p k .placeholder g.edges x z
        refine ⟨?_, ?_, ?_⟩
        · rw [h1]; simp [isChildEdge]
        · rw [h2]; simp
        · rw [h3]; simp
      refine fin (by subst n1; exact h1) (by subst n1; exact h2) ?_ (fun a b => (hv a b).1.trans (h4 a b))
        (fun a b h => h5 a b ((hv a b).2.1.1 h)) (fun a b => ?_) k3
      · subst n1
        exact fun e he => List.mem_cons_of_mem _ (h3 e he)
      · rw [(hv a b).2.2, h6]
        constructor
        · rintro (⟨rfl, rfl⟩ | m | ⟨m1, m2⟩)
          · exact Or.inr ⟨Or.inr rfl, c, hkc, hpc⟩
          · exact Or.inl m
          · exact Or.inr ⟨Or.inl m1, m2⟩
        · rintro (m | ⟨m1 | rfl, c', m2, m3⟩)
          · exact Or.inr (Or.inl m)
          · exact Or.inr (Or.inr ⟨m1, c', m2, m3⟩)
          · have := hG.single _ _ _ m2 hkc
            subst this
            exact Or.inl ⟨hG.one _ _ _ m3 hpc, rfl⟩

theorem phase_initial {d : SDevice} {g : Graph} {lab : Nat → Pos} {ws : List Warn} (hr : initialization d = .ok g ws) (h : LabAt d g lab) :
    Phase d g lab := by
  unfold initialization at hr
  simp only [M.bind_eq_ok] at hr
  obtain ⟨G, w1, w2, h1, h2, -⟩ := hr
  have hG := grown_construct h1
  obtain ⟨k1, k2, k3, k4, k5, k6⟩ := grown_ensure hG (S := fun _ => False) (fun k hk => (hG.listed.2 k).1 hk) (fun _ h => h.elim) rfl rfl
    (fun _ h => h) (fun _ _ => Iff.rfl) hG.noDe (fun a b => by simp) h2
  have hel : ∀ k, g.elem? k = G.elem? k := fun k => by unfold Graph.elem?; rw [node?_congr k1]
  have hE : ∀ k, IsE g k ↔ IsE G k := fun k => by unfold IsE; rw [hel]
  have hP : ∀ k, IsP g k ↔ IsP G k := fun k => by unfold IsP; rw [node?_congr k1]
  have hD : ∀ k, Done g k ↔ Done G k := fun k => by unfold Done; rw [hel]
  have noE : ∀ m, IsP G m → ¬ IsE G m := fun m h4 h5 => isE_notP h5 h4
  have k6 : ∀ a b, Pl g a b ↔ Pl G a b ∨ (IsP G b ∧ ∃ c, Pl G b c ∧ Ch G a c) := by
    intro a b
    rw [k6, hG.listed.2]
    simp
  have intoE : ∀ a b, IsE G b → Pl g a b → Pl G a b := by
    intro a b hb hp
    rcases (k6 a b).1 hp with h3 | ⟨h3, -⟩
    · exact h3
    · exact absurd hb (noE _ h3)
  refine ⟨h, hG.listed.nodes k2 k1, ?_, (hD 0).2 hG.root, Or.inl fun k hk => hG.done k ((hD k).1 hk), ?_⟩
  · exact fun a b hc hd => k3 _ (hG.res a b ((k4 a b).1 hc) ((hD a).1 hd))
  · refine ⟨?_, ?_, ?_, ?_, ?_, ?_, fun _ _ h3 => h3.elim, fun b c _ h3 => absurd h3 (k5 b c)⟩
    · exact fun a a' c h3 h4 h5 => absurd (hG.one a a' c ((k4 _ _).1 h3) ((k4 _ _).1 h4)) h5
    · exact fun c hc => (hG.up c ((hE c).1 hc)).imp id fun ⟨a, ha⟩ => ⟨a, (k4 _ _).2 ha⟩
    · intro c e he _ hd
      rw [hel] at he
      obtain ⟨h', h3⟩ := hG.pend c e he hd
      exact Or.inl ⟨h', (k6 _ _).2 (Or.inl h3)⟩
    · intro a h' c hp h3 h4
      rcases (k6 a h').1 h3 with h5 | ⟨-, c', h5, h6⟩
      · exact absurd (hG.ph _ _ h5).2 (noE _ ((hP _).1 hp))
      · rcases (k6 h' c).1 h4 with h7 | ⟨-, c'', -, h7⟩
        · rw [hG.single _ _ _ h7 h5]
          exact (k4 _ _).2 h6
        · exact absurd (hG.tch _ _ h7).1 (noE _ ((hP _).1 hp))
    · intro h' h'' c hc h3 h4
      exact hG.uni _ _ c (intoE _ _ ((hE c).1 hc) h3) (intoE _ _ ((hE c).1 hc) h4)
    · intro a h' c h3 h4
      have hc := (k4 _ _).1 h4
      have h5 := intoE _ _ (hG.tch _ _ hc).2 h3
      exact Or.inl ⟨h', (k6 _ _).2 (Or.inr ⟨(hG.ph _ _ h5).1, c, h5, hc⟩), h3⟩

end Svd
