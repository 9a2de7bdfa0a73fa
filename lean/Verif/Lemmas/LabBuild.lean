import Verif.Lemmas.LabPh
import Verif.Lemmas.Flat
import Verif.Lemmas.Cover
/-
Labels: the graph of a device description.
-/
namespace Svd
open Graph Spec

theorem Ext.isE {g g' : Graph} (h : Ext g g') {i : Nat} (he : IsE g i) : IsE g' i := by
  obtain ⟨e, he⟩ := he
  exact ⟨e, h.elem he⟩

theorem Ext.isP {g g' : Graph} (h : Ext g g') {i : Nat} (he : IsP g i) : IsP g' i := by
  obtain ⟨e, he⟩ := he
  exact ⟨e, h _ _ he⟩

/-- One step of the construction below the element `par`. -/
structure BuildStep (par : Nat) (g : Graph) (lab : Nat → Pos) (g' : Graph) (lab' : Nat → Pos) (S : Pos → Prop) : Prop where
  wf : WF g'
  ext : Ext g g'
  agree : ∀ k, (g.node? k).isSome → lab' k = lab k
  keep : ∀ a b, Ch g a b → Ch g' a b
  new : ∀ a b, (g.node? a).isSome → Ch g' a b → Ch g a b ∨ (a = par ∧ S (lab' b))
  there : ∀ y, S y → ∃ c e, Ch g' par c ∧ g'.elem? c = some e ∧ lab' c = y ∧ e.isProcessed = false
  de : ∀ a b, De g' a b → De g a b
  phs : (∀ k ∈ g.placeholders, IsP g k) → ∀ k ∈ g'.placeholders, IsP g' k

theorem BuildStep.trans {par : Nat} {g1 g2 g3 : Graph} {l1 l2 l3 : Nat → Pos} {S T : Pos → Prop}
    (h1 : BuildStep par g1 l1 g2 l2 S) (h2 : BuildStep par g2 l2 g3 l3 T) :
    BuildStep par g1 l1 g3 l3 (fun y => S y ∨ T y) := by
  constructor
  · exact h2.wf
  · exact h1.ext.trans h2.ext
  · intro k hk
    rw [h2.agree k (h1.ext.isSome hk), h1.agree k hk]
  · exact fun a b h => h2.keep a b (h1.keep a b h)
  · intro a b ha hc
    rcases h2.new a b (h1.ext.isSome ha) hc with h3 | ⟨h3, h4⟩
    · rcases h1.new a b ha h3 with h5 | ⟨h5, h6⟩
      · exact Or.inl h5
      · refine Or.inr ⟨h5, Or.inl ?_⟩
        obtain ⟨e, he, he2⟩ := ch_iff.1 h3
        have := (h1.wf.edges_valid e he).2
        rw [he2.2.1] at this
        rw [h2.agree b this]
        exact h6
    · exact Or.inr ⟨h3, Or.inr h4⟩
  · rintro y (hy | hy)
    · obtain ⟨c, e, h3, h4, h5, h6⟩ := h1.there y hy
      refine ⟨c, e, h2.keep _ _ h3, h2.ext.elem h4, ?_, h6⟩
      rw [h2.agree c (IsE.some ⟨e, h4⟩), h5]
    · exact h2.there y hy
  · exact fun a b h => h1.de a b (h2.de a b h)
  · exact fun h => h2.phs (h1.phs h)

theorem edges_eq_view {g g' : Graph} (h : g'.edges = g.edges) :
    (∀ a b, Ch g' a b ↔ Ch g a b) ∧ (∀ a b, De g' a b ↔ De g a b) ∧ ∀ a b, Pl g' a b ↔ Pl g a b := by
  unfold Ch De Pl
  rw [h]
  exact ⟨fun _ _ => Iff.rfl, fun _ _ => Iff.rfl, fun _ _ => Iff.rfl⟩

theorem ch_some {g : Graph} (h : WF g) {a b : Nat} (hc : Ch g a b) : (g.node? a).isSome ∧ (g.node? b).isSome := by
  obtain ⟨e, he, h1, h2, -⟩ := ch_iff.1 hc
  have := h.edges_valid e he
  rw [h1, h2] at this
  exact this
theorem de_some {g : Graph} (h : WF g) {a b : Nat} (hc : De g a b) : (g.node? a).isSome ∧ (g.node? b).isSome :=
  h.edges_valid _ hc
theorem pl_some {g : Graph} (h : WF g) {a b : Nat} (hc : Pl g a b) : (g.node? a).isSome ∧ (g.node? b).isSome :=
  h.edges_valid _ hc

/-- A fresh element as child of an element. -/
theorem LabX.addElem {d : SDevice} {g g' : Graph} {lab : Nat → Pos} {X : Nat → Prop} (hw : WF g) (h : LabX d g lab X)
    {par i : Nat} {e : ElemNode} {p : Parsed} {y : Pos} {ty : EdgeT} (hty : ty = .childU ∨ ty = .childR) (hpar : IsE g par)
    (hpl : ∀ e, g.elem? par = some e → e.level ≠ .enumcont) (hx : X par) (hfresh : g.node? i = none)
    (hnode : ∀ k, g'.node? k = if k = i then some (.elem e) else g.node? k) (hedge : g'.edges = ⟨par, i, ty⟩ :: g.edges)
    (hlab : NodeLab d y e p) : LabX d g' (fun k => if k = i then y else lab k) (fun k => X k ∨ k = i) := by
  have hce : isChildEdge ⟨par, i, ty⟩ = true := by rcases hty with rfl | rfl <;> rfl
  have hv : ∀ x z, (Ch g' x z ↔ (x = par ∧ z = i) ∨ Ch g x z) ∧ (De g' x z ↔ De g x z) ∧ (Pl g' x z ↔ Pl g x z) := by
    intro x z
    obtain ⟨h1, h2, h3⟩ := @mem_cons_edges g par i ty g.edges x z
    have e1 := edges_eq_view (g := { g with edges := ⟨par, i, ty⟩ :: g.edges }) (g' := g') hedge
    refine ⟨?_, ?_, ?_⟩
    · rw [e1.1, h1, hce]; simp
    · rw [e1.2.1, h2]; rcases hty with rfl | rfl <;> simp
    · rw [e1.2.2, h3]; rcases hty with rfl | rfl <;> simp
  have live_ne : ∀ k, (g.node? k).isSome → k ≠ i := by
    intro k hk h1; subst h1; rw [hfresh] at hk; cases hk
  have hold : ∀ k, (g.node? k).isSome → g'.node? k = g.node? k := by
    intro k hk; rw [hnode, if_neg (live_ne k hk)]
  have helem : ∀ k, k ≠ i → g'.elem? k = g.elem? k := by
    intro k hk
    unfold Graph.elem?
    rw [hnode, if_neg hk]
  have hi : g'.elem? i = some e := by rw [elem?_node?, hnode, if_pos rfl]
  have hE : ∀ k, IsE g k → IsE g' k := by
    rintro k ⟨x, hk⟩
    exact ⟨x, by rw [helem k (live_ne k (IsE.some ⟨x, hk⟩)), hk]⟩
  have hP : ∀ k, IsP g' k ↔ IsP g k := by
    intro k
    constructor
    · rintro ⟨q, hk⟩
      rw [hnode] at hk
      split at hk
      · cases hk
      · exact ⟨q, hk⟩
    · rintro ⟨q, hk⟩
      exact ⟨q, by rw [hold k (by rw [hk]; rfl), hk]⟩
  have hl : ∀ k, (g.node? k).isSome → (if k = i then y else lab k) = lab k := fun k hk => if_neg (live_ne k hk)
  have h0 : (g.node? 0).isSome := by
    obtain ⟨-, e0, he0, -⟩ := h.root
    exact IsE.some ⟨e0, he0⟩
  constructor
  · refine ⟨by rw [hl 0 h0]; exact h.root.1, ?_⟩
    rw [helem 0 (live_ne 0 h0)]
    exact h.root.2
  · intro k x hk
    by_cases hki : k = i
    · subst hki
      rw [hi] at hk
      injection hk with hk
      subst hk
      simp only [if_true]
      exact ⟨p, hlab⟩
    · rw [helem k hki] at hk
      simp only [if_neg hki]
      exact h.node k x hk
  · intro a b hc
    rcases (hv a b).1.1 hc with ⟨rfl, rfl⟩ | hc
    · exact ⟨hE _ hpar, ⟨e, hi⟩⟩
    · exact (h.tch a b hc).imp (hE _) (hE _)
  · intro a b hc
    exact (h.tde a b ((hv a b).2.1.1 hc)).imp (hE _) (hE _)
  · intro a b hc
    rw [hP, hP]
    exact (h.tpl a b ((hv a b).2.2.1 hc)).imp (fun ⟨h1, h2⟩ => ⟨hE _ h1, h2⟩) fun ⟨h1, h2⟩ => ⟨h1, hE _ h2⟩
  · intro k x b hk hlv
    by_cases hki : k = i
    · subst hki
      refine ⟨fun hc => ?_, fun hc => ?_⟩
      · rcases (hv _ b).1.1 hc with ⟨h1, -⟩ | hc
        · exact live_ne _ hpar.some h1.symm
        · exact live_ne _ (ch_some hw hc).1 rfl
      · exact live_ne _ (pl_some hw ((hv _ b).2.2.1 hc)).1 rfl
    · rw [helem k hki] at hk
      refine ⟨fun hc => ?_, fun hc => (h.leaf k x b hk hlv).2 ((hv k b).2.2.1 hc)⟩
      rcases (hv k b).1.1 hc with ⟨rfl, -⟩ | hc
      · exact hpl x hk hlv
      · exact (h.leaf k x b hk hlv).1 hc
  · intro a b hc
    have hc := (hv a b).2.1.1 hc
    obtain ⟨h1, h2⟩ := de_some hw hc
    rw [hl a h1, hl b h2]
    exact h.der a b hc
  · intro a b q hq hc
    have hc := (hv a b).2.2.1 hc
    obtain ⟨h1, h2⟩ := pl_some hw hc
    rw [hl b h2]
    rw [hold a h1] at hq
    exact h.ph a b q hq hc
  · intro a k b hk hc1 hc2
    have hc1 := (hv _ _).2.2.1 hc1
    have hc2 := (hv _ _).2.2.1 hc2
    rw [hl a (pl_some hw hc1).1, hl b (pl_some hw hc2).2]
    exact h.phIn a k b ((hP k).1 hk) hc1 hc2
  · intro k x hX hk hlv
    have hki : k ≠ i := fun h1 => hX (Or.inr h1)
    rw [helem k hki] at hk
    simp only [if_neg hki]
    obtain ⟨l, h1, h2⟩ := h.cont k x (fun h1 => hX (Or.inl h1)) hk hlv
    refine ⟨l, h1, h2.mono ?_ ?_ (if_neg hki)⟩
    · intro c
      rw [(hv k c).1]
      constructor
      · rintro (⟨rfl, -⟩ | h3)
        · exact absurd (Or.inl hx) hX
        · exact h3
      · exact Or.inr
    · intro c hc
      have := live_ne c (ch_some hw hc).2
      exact ⟨helem c this, if_neg this⟩

/-- A fresh placeholder of an element. -/
theorem LabX.addPh {d : SDevice} {g g' : Graph} {lab : Nat → Pos} {X : Nat → Prop} (hw : WF g) (h : LabX d g lab X)
    {k i : Nat} {path : Str} {p : Parsed} (hi : IsE g i) (hfresh : g.node? k = none)
    (hnode : ∀ m, g'.node? m = if m = k then some (.ph path) else g.node? m) (hedge : g'.edges = ⟨k, i, .placeholder⟩ :: g.edges)
    (hd : DeclAt d (lab i) p) (hp : p.derivedFrom = some path) :
    LabX d g' lab X ∧ (∀ x z, Ch g' x z ↔ Ch g x z) ∧ ∀ x z, De g' x z ↔ De g x z := by
  have hv : ∀ x z, (Ch g' x z ↔ Ch g x z) ∧ (De g' x z ↔ De g x z) ∧ (Pl g' x z ↔ (x = k ∧ z = i) ∨ Pl g x z) := by
    intro x z
    obtain ⟨h1, h2, h3⟩ := @mem_cons_edges g k i .placeholder g.edges x z
    have e1 := edges_eq_view (g := { g with edges := ⟨k, i, .placeholder⟩ :: g.edges }) (g' := g') hedge
    refine ⟨?_, ?_, ?_⟩
    · rw [e1.1, h1]; simp [isChildEdge]
    · rw [e1.2.1, h2]; simp
    · rw [e1.2.2, h3]; simp
  refine ⟨?_, fun x z => (hv x z).1, fun x z => (hv x z).2.1⟩
  have live_ne : ∀ m, (g.node? m).isSome → m ≠ k := by
    intro m hm h1; subst h1; rw [hfresh] at hm; cases hm
  have hold : ∀ m, (g.node? m).isSome → g'.node? m = g.node? m := by
    intro m hm; rw [hnode, if_neg (live_ne m hm)]
  have hP : ∀ m, IsP g m → IsP g' m := by
    rintro m ⟨q, hq⟩
    exact ⟨q, by rw [hold m (by rw [hq]; rfl), hq]⟩
  have hk : IsP g' k := ⟨path, by rw [hnode, if_pos rfl]⟩
  refine h.same ?_ (fun x z => (hv x z).1) (fun x z hc => Or.inl ((hv x z).2.1.1 hc)) ?_ ?_ ?_
  · intro m
    unfold Graph.elem?
    rw [hnode]
    by_cases hm : m = k
    · subst hm; rw [if_pos rfl, hfresh]
    · rw [if_neg hm]
  · intro a b hc
    rcases (hv a b).2.2.1 hc with ⟨rfl, rfl⟩ | hc
    · exact Or.inr ⟨hk, hi⟩
    · rcases h.tpl a b hc with ⟨h1, h2⟩ | ⟨h1, h2⟩
      · exact Or.inl ⟨h1, hP _ h2, fun e h3 h4 => (h.leaf a e b h3 h4).2 hc⟩
      · exact Or.inr ⟨hP _ h1, h2⟩
  · intro a b q hq hc
    rcases (hv a b).2.2.1 hc with ⟨rfl, rfl⟩ | hc
    · rw [hnode, if_pos rfl] at hq
      injection hq with hq
      injection hq with hq
      subst hq
      exact ⟨p, hd, hp⟩
    · rw [hold a (pl_some hw hc).1] at hq
      exact h.ph a b q hq hc
  · intro a m b hm h1 h2
    rcases (hv a m).2.2.1 h1 with ⟨rfl, rfl⟩ | h1
    · exact (isE_notP hi (by
        obtain ⟨q, hq⟩ := hm
        exact ⟨q, by rw [← hold m hi.some, hq]⟩)).elim
    · rcases (hv m b).2.2.1 h2 with ⟨rfl, rfl⟩ | h2
      · exact absurd rfl (live_ne m (pl_some hw h1).2)
      · refine h.phIn a m b ?_ h1 h2
        obtain ⟨q, hq⟩ := hm
        exact ⟨q, by rw [← hold m (pl_some hw h1).2, hq]⟩

theorem initNode_lab {d : SDevice} {y : Pos} {p : Parsed} (hd : DeclAt d y p) (hp : p ≠ .device) : NodeLab d y (initNode p) p := by
  refine ⟨hd, by cases p <;> rfl, fun _ => rfl, ?_, fun _ => rfl⟩
  rintro c rfl
  exact ⟨rfl, c, rfl, fun h => by simp [initNode, Parsed.isDevice] at h, fun _ => rfl⟩

/-- One element is added. -/
theorem addChild_lab {d : SDevice} {g g' : Graph} {lab : Nat → Pos} {X : Nat → Prop} (hw : WF g) (h : LabX d g lab X)
    {par i : Nat} {p : Parsed} {y : Pos} {ws : List Warn} (hpar : IsE g par)
    (hpl : ∀ e, g.elem? par = some e → e.level ≠ .enumcont) (hx : X par) (hd : DeclAt d y p) (hp : p ≠ .device)
    (hr : addChildToGraph g par (initNode p) = .ok (g', i) ws) :
    ∃ lab', LabX d g' lab' (fun k => X k ∨ k = i) ∧ BuildStep par g lab g' lab' (fun z => z = y) ∧ lab' i = y ∧
      g'.elem? i = some (initNode p) ∧ (g.node? i = none) ∧ (∀ b, ¬ Ch g' i b) ∧ (∀ k, IsE g' k → k = i ∨ IsE g k) ∧
      ∀ a b, Ch g' a b → Ch g a b ∨ (a = par ∧ b = i) := by
  have hwf := addChildToGraph_wf hw hr hpar.some
  unfold addChildToGraph at hr
  simp only [M.bind_eq_ok] at hr
  obtain ⟨⟨g1, j⟩, w1, w2, h1, h2, -⟩ := hr
  obtain ⟨ty, hty', h1⟩ : ∃ ty, (ty = EdgeT.childU ∨ ty = EdgeT.childR) ∧ g.addElementChild par (initNode p) ty = .ok (g1, j) w1 := by
    refine ⟨_, ?_, h1⟩
    split
    · split
      · exact Or.inr rfl
      · exact Or.inl rfl
    · exact Or.inl rfl
  obtain ⟨hj, hg1⟩ := addElementChild_ok h1
  obtain ⟨hs1, hs2, hs3, hs4⟩ := addNode_spec hw (.elem (initNode p))
  rw [← hj] at hs1 hs2
  obtain ⟨hw1, hx1, hn1, -⟩ := addElementChild_wf hw h1 hpar.some
  have hproc : (initNode p).isProcessed = false := by
    cases p <;> first | rfl | exact absurd rfl hp
  have hnode1 : ∀ k, g1.node? k = if k = j then some (.elem (initNode p)) else g.node? k := by
    intro k
    rw [hg1.1]
    exact hs2 k
  have hedge1 : g1.edges = ⟨par, j, ty⟩ :: g.edges := by
    rw [hg1.1]
    simp only [hs3, hj]
  have hpl1 : g1.placeholders = g.placeholders := by
    rw [hg1.1]; exact hs4
  have L1 := h.addElem hw hty' hpar hpl hx hs1 hnode1 hedge1 (initNode_lab hd hp)
  have hv1 : ∀ x z, (Ch g1 x z ↔ (x = par ∧ z = j) ∨ Ch g x z) ∧ (De g1 x z ↔ De g x z) := by
    intro x z
    obtain ⟨h1, h2, h3⟩ := @mem_cons_edges g par j ty g.edges x z
    have e1 := edges_eq_view (g := { g with edges := ⟨par, j, ty⟩ :: g.edges }) (g' := g1) hedge1
    refine ⟨?_, ?_⟩
    · rw [e1.1, h1]; rcases hty' with rfl | rfl <;> simp [isChildEdge]
    · rw [e1.2.1, h2]; rcases hty' with rfl | rfl <;> simp
  have hjp : j ≠ par := by
    intro hh; subst hh; have := hpar.some; rw [hs1] at this; cases this
  have hnoch : ∀ b, ¬ Ch g1 j b := by
    intro b hc
    rcases (hv1 j b).1.1 hc with ⟨h3, -⟩ | hc
    · exact hjp h3
    · have := (ch_some hw hc).1
      rw [hs1] at this; cases this
  have hjE : g1.elem? j = some (initNode p) := by rw [elem?_node?, hnode1, if_pos rfl]
  have B1 : BuildStep par g lab g1 (fun k => if k = j then y else lab k) (fun z => z = y) := by
    refine ⟨hw1, hx1, ?_, fun a b hc => (hv1 a b).1.2 (Or.inr hc), ?_, ?_, fun a b hc => (hv1 a b).2.1 hc, ?_⟩
    · intro k hk
      refine if_neg ?_
      rintro rfl
      rw [hs1] at hk; cases hk
    · intro a b ha hc
      rcases (hv1 a b).1.1 hc with ⟨rfl, rfl⟩ | hc
      · exact Or.inr ⟨rfl, if_pos rfl⟩
      · exact Or.inl hc
    · rintro z rfl
      exact ⟨j, _, (hv1 par j).1.2 (Or.inl ⟨rfl, rfl⟩), hjE, if_pos rfl, hproc⟩
    · intro hph k hk
      rw [hpl1] at hk
      exact hx1.isP (hph k hk)
  have hold1 : ∀ k, IsE g1 k → k = j ∨ IsE g k := by
    rintro k ⟨x, hx⟩
    rw [elem?_node?, hnode1] at hx
    split at hx
    · exact Or.inl (by assumption)
    · exact Or.inr ⟨x, elem?_node?.2 hx⟩
  split at h2
  · simp only [M.pure_eq_ok, Prod.mk.injEq] at h2
    obtain ⟨⟨rfl, rfl⟩, -⟩ := h2
    exact ⟨_, L1, B1, if_pos rfl, hjE, hs1, hnoch, hold1, fun a b hc => ((hv1 a b).1.1 hc).symm⟩
  · rename_i path hpath
    simp only [M.bind_eq_ok, M.pure_eq_ok, Prod.mk.injEq] at h2
    obtain ⟨g2, w3, w4, h3, ⟨⟨rfl, rfl⟩, -⟩, -⟩ := h2
    have hg2 := (addPlaceholder_ok h3).1
    obtain ⟨ht1, ht2, ht3, ht4⟩ := addNode_spec hw1 (.ph path)
    obtain ⟨hw2, hx2⟩ := addPlaceholder_wf hw1 h3 (IsE.some ⟨_, hjE⟩)
    have hnode2 : ∀ k, g2.node? k = if k = (g1.addNode (.ph path)).2 then some (.ph path) else g1.node? k := by
      intro k
      rw [hg2]
      exact ht2 k
    have hedge2 : g2.edges = ⟨(g1.addNode (.ph path)).2, j, .placeholder⟩ :: g1.edges := by
      rw [hg2]
      simp only [ht3]
    obtain ⟨L2, hv2, hd2⟩ := L1.addPh hw1 ⟨_, hjE⟩ ht1 hnode2 hedge2 (p := p) (by simpa using hd) hpath
    refine ⟨_, L2, ⟨hw2, hx1.trans hx2, B1.agree, ?_, ?_, ?_, ?_, ?_⟩, if_pos rfl, hx2.elem hjE, hs1, ?_, ?_, fun a b hc => ((hv1 a b).1.1 ((hv2 a b).1 hc)).symm⟩
    · exact fun a b hc => (hv2 a b).2 (B1.keep a b hc)
    · exact fun a b ha hc => B1.new a b ha ((hv2 a b).1 hc)
    · intro z hz
      obtain ⟨c, e, h4, h5, h6⟩ := B1.there z hz
      exact ⟨c, e, (hv2 _ _).2 h4, hx2.elem h5, h6⟩
    · exact fun a b hc => B1.de a b ((hd2 a b).1 hc)
    · intro hph k hk
      rw [hg2] at hk
      simp only [List.mem_append, List.mem_singleton] at hk
      rcases hk with hk | rfl
      · rw [ht4] at hk
        exact hx2.isP (B1.phs hph k hk)
      · exact ⟨path, by rw [hnode2, if_pos rfl]⟩
    · exact fun b hc => hnoch b ((hv2 _ _).1 hc)
    · rintro k ⟨x, hx⟩
      rw [elem?_node?, hnode2] at hx
      split at hx
      · cases hx
      · exact hold1 k ⟨x, elem?_node?.2 hx⟩

/-! ### trees -/

theorem treeAt_snoc : ∀ (t : DTree) (x : Pos) (k : Nat), treeAt t (x ++ [k]) = (treeAt t x).bind fun s => treeAt s [k]
  | t, [], k => by simp [treeAt]
  | .node p ts, j :: x, k => by
    simp only [List.cons_append, treeAt]
    cases ts[j]? with
    | none => rfl
    | some s => simp only [Option.bind_some]; exact treeAt_snoc s x k

theorem treeAt_kid (p : Parsed) (ts : List DTree) (k : Nat) : treeAt (.node p ts) [k] = ts[k]? := by
  simp only [treeAt]
  cases ts[k]? <;> rfl

theorem ownChild_iff {d : SDevice} {y : Pos} {p : Parsed} {ts : List DTree} (ht : treeAt (declTree d) y = some (.node p ts))
    {z : Pos} : OwnChild d y z ↔ ∃ k, k < ts.length ∧ z = y ++ [k] := by
  constructor
  · rintro ⟨k, q, rfl, us, hq⟩
    refine ⟨k, ?_, rfl⟩
    rw [treeAt_snoc, ht, Option.bind_some, treeAt_kid] at hq
    exact (List.getElem?_eq_some_iff.1 hq).1
  · rintro ⟨k, hk, rfl⟩
    cases hs : ts[k] with
    | node q us =>
      refine ⟨k, q, rfl, us, ?_⟩
      rw [treeAt_snoc, ht, Option.bind_some, treeAt_kid, List.getElem?_eq_getElem hk, hs]

mutual
/-- No tree has the device inside. -/
def NoDev : DTree → Prop
  | .node p ts => p ≠ .device ∧ NoDevs ts
def NoDevs : List DTree → Prop
  | [] => True
  | t :: ts => NoDev t ∧ NoDevs ts
end

theorem noDev_enums (cs : List SEnumContainer) : NoDevs (cs.map ofEnum) := by
  induction cs with
  | nil => trivial
  | cons c cs ih => exact ⟨⟨by simp, trivial⟩, ih⟩

theorem noDev_fields (fs : List SField) : NoDevs (fs.map ofField) := by
  induction fs with
  | nil => trivial
  | cons c cs ih => exact ⟨⟨by simp, noDev_enums _⟩, ih⟩

mutual
theorem noDev_rc : (x : SRC) → NoDev (ofRC x)
  | .clu c ch => ⟨by simp, noDev_rcs ch⟩
  | .reg r => ⟨by simp, noDev_fields _⟩
theorem noDev_rcs : (xs : List SRC) → NoDevs (ofRCs xs)
  | [] => trivial
  | x :: xs => ⟨noDev_rc x, noDev_rcs xs⟩
end

theorem noDev_periphs (ps : List SPeriphT) : NoDevs (ps.map ofPeriph) := by
  induction ps with
  | nil => trivial
  | cons c cs ih => exact ⟨⟨by simp, noDev_rcs _⟩, ih⟩

/-- All children of an element are there: it is no longer exempt. -/
theorem LabX.close {d : SDevice} {g : Graph} {lab : Nat → Pos} {X Y : Nat → Prop} (h : LabX d g lab Y) {i : Nat}
    (hY : ∀ k, Y k → X k ∨ k = i) {e : ElemNode} {l : List Pos} (he : g.elem? i = some e) (hc : ChainOf d (lab i) e l)
    (hcont : Cont d g lab i l) : LabX d g lab X := by
  refine ⟨h.root, h.node, h.tch, h.tde, h.tpl, h.leaf, h.der, h.ph, h.phIn, ?_⟩
  intro k x hX hk hl
  by_cases hki : k = i
  · subst hki
    rw [he] at hk
    injection hk with hk
    subst hk
    exact ⟨l, hc, hcont⟩
  · refine h.cont k x ?_ hk hl
    intro hy
    rcases hY k hy with h1 | h1
    · exact hX h1
    · exact hki h1

theorem noEnumKids {p : Parsed} {ts : List DTree} (hk : p.level = .enumcont → ts = []) {t : DTree} {us : List DTree}
    (h : ts = t :: us) : p.level ≠ .enumcont := by
  intro h1
  rw [hk h1] at h
  cases h

mutual
/-- Enumerated value containers have no children. -/
def Leafy : DTree → Prop
  | .node p ts => (p.level = .enumcont → ts = []) ∧ Leafys ts
def Leafys : List DTree → Prop
  | [] => True
  | t :: ts => Leafy t ∧ Leafys ts
end

theorem leafy_enums (cs : List SEnumContainer) : Leafys (cs.map ofEnum) := by
  induction cs with
  | nil => trivial
  | cons c cs ih => exact ⟨⟨fun _ => rfl, trivial⟩, ih⟩

theorem leafy_fields (fs : List SField) : Leafys (fs.map ofField) := by
  induction fs with
  | nil => trivial
  | cons c cs ih => exact ⟨⟨fun h => (by cases h), leafy_enums _⟩, ih⟩

mutual
theorem leafy_rc : (x : SRC) → Leafy (ofRC x)
  | .clu c ch => ⟨fun h => (by cases h), leafy_rcs ch⟩
  | .reg r => ⟨fun h => (by cases h), leafy_fields _⟩
theorem leafy_rcs : (xs : List SRC) → Leafys (ofRCs xs)
  | [] => trivial
  | x :: xs => ⟨leafy_rc x, leafy_rcs xs⟩
end

theorem leafy_periphs (ps : List SPeriphT) : Leafys (ps.map ofPeriph) := by
  induction ps with
  | nil => trivial
  | cons c cs ih => exact ⟨⟨fun h => (by cases h), leafy_rcs _⟩, ih⟩

/-- No declared element is twice below the same node. -/
def Sib (g : Graph) (lab : Nat → Pos) : Prop := ∀ a c c', Ch g a c → Ch g a c' → lab c = lab c' → c = c'

/-- The new elements are there with all that is declared in them, and only once. -/
def Whole (d : SDevice) (par : Nat) (S : Pos → Prop) (g : Graph) (lab : Nat → Pos) (g' : Graph) (lab' : Nat → Pos) : Prop :=
  (∀ k, IsE g' k → IsE g k ∨ ∀ y, OwnChild d (lab' k) y → ∃ c, IsE g' c ∧ lab' c = y) ∧
    (Sib g lab → (∀ c, Ch g par c → ¬ S (lab c)) → Sib g' lab')

theorem sib_addChild {g g' : Graph} {lab lab' : Nat → Pos} {par i : Nat} {y : Pos} (hw : WF g) (hag : ∀ k, (g.node? k).isSome → lab' k = lab k)
    (hi : lab' i = y) (hv : ∀ a b, Ch g' a b → Ch g a b ∨ (a = par ∧ b = i)) (S : Sib g lab) (hc : ∀ c, Ch g par c → ¬ lab c = y) : Sib g' lab' := by
  intro a c c' h1 h2 h3
  rcases hv a c h1 with k1 | ⟨rfl, rfl⟩ <;> rcases hv a c' h2 with k2 | ⟨k2, rfl⟩
  · rw [hag c (ch_some hw k1).2, hag c' (ch_some hw k2).2] at h3
    exact S a c c' k1 k2 h3
  · subst k2
    rw [hag c (ch_some hw k1).2, hi] at h3
    exact absurd h3 (hc c k1)
  · rw [hag c' (ch_some hw k2).2, hi] at h3
    exact absurd h3.symm (hc c' k2)
  · rfl

mutual
theorem addTree_lab {d : SDevice} {par : Nat} : (t : DTree) → ∀ {g g' : Graph} {lab : Nat → Pos} {X : Nat → Prop} {y : Pos}
    {ws : List Warn}, WF g → LabX d g lab X → IsE g par → (∀ e, g.elem? par = some e → e.level ≠ .enumcont) → X par →
    NoDev t → Leafy t → treeAt (declTree d) y = some t → addTree par g t = .ok g' ws →
    ∃ lab', LabX d g' lab' X ∧ BuildStep par g lab g' lab' (fun z => z = y) ∧ Whole d par (fun z => z = y) g lab g' lab'
  | .node p ts, g, g', lab, X, y, ws, hw, h, hpar, hpl, hx, hnd, hlf, ht, hr => by
    simp only [addTree, M.bind_eq_ok] at hr
    obtain ⟨⟨g1, i⟩, w1, w2, h1, h2, -⟩ := hr
    simp only [NoDev] at hnd
    simp only [Leafy] at hlf
    obtain ⟨lab1, L1, B1, hli, hie, hfr, hno, hold, hvv⟩ := addChild_lab hw h hpar hpl hx ⟨ts, ht⟩ hnd.1 h1
    have hip : i ≠ par := by
      intro hh; subst hh; have := hpar.some; rw [hfr] at this; cases this
    by_cases hen : p.level = .enumcont
    · have hts := hlf.1 hen
      subst hts
      simp only [addTrees, M.pure_eq_ok] at h2
      obtain ⟨rfl, -⟩ := h2
      have hW : Whole d par (fun z => z = y) g lab g1 lab1 := by
        refine ⟨?_, fun S hc => sib_addChild hw B1.agree hli hvv S hc⟩
        intro k hk
        rcases hold k hk with rfl | hk
        · right
          intro z hz
          rw [hli, ownChild_iff ht] at hz
          simp at hz
        · exact Or.inl hk
      refine ⟨lab1, ?_, B1, hW⟩
      refine ⟨L1.root, L1.node, L1.tch, L1.tde, L1.tpl, L1.leaf, L1.der, L1.ph, L1.phIn, ?_⟩
      intro k x hX hk hl
      refine L1.cont k x ?_ hk hl
      rintro (h3 | rfl)
      · exact hX h3
      · rw [hie] at hk
        injection hk with hk
        subst hk
        have : (initNode p).level = p.level := by cases p <;> rfl
        exact hl (this.trans hen)
    · obtain ⟨lab2, L2, B2, W2⟩ := addTrees_lab (par := i) (pre := []) ts B1.wf L1 ⟨_, hie⟩
        (by
          intro e he
          rw [hie] at he
          injection he with he
          subst he
          have : (initNode p).level = p.level := by cases p <;> rfl
          rw [this]; exact hen) (Or.inr rfl) hnd.2 hlf.2 (by simpa using ⟨p, hli ▸ ht⟩) h2
      have hie2 := B2.ext.elem hie
      have hli2 : lab2 i = y := by rw [B2.agree i (IsE.some ⟨_, hie⟩), hli]
      have hproc : (initNode p).isProcessed = false := by
        cases p <;> first | rfl | exact absurd rfl hnd.1
      have hS : ∀ z, (∃ j, j < ts.length ∧ z = lab1 i ++ [([] : List DTree).length + j]) ↔ OwnChild d y z := by
        intro z
        rw [ownChild_iff ht, hli]
        simp
      refine ⟨lab2, ?_, ?_, ?_⟩
      · refine L2.close (i := i) (fun k hk => hk) (l := [y]) hie2 ?_ ?_
        · rw [hli2]
          exact ⟨fun _ => rfl, fun h3 => (by rw [hproc] at h3; cases h3), fun h' h3 => (by cases h3), fun h' h3 => (by cases h3)⟩
        · constructor
          · intro c hc
            rcases B2.new i c (IsE.some ⟨_, hie⟩) hc with h3 | ⟨-, h3⟩
            · exact absurd h3 (hno c)
            · exact Or.inl ⟨y, by simp, (hS _).1 h3⟩
          · rintro z ⟨x, hx', ho⟩
            simp only [List.mem_singleton] at hx'
            subst hx'
            obtain ⟨c, e, h3, h4, h5, h6⟩ := B2.there z ((hS z).2 ho)
            exact Or.inr ⟨c, e, h3, h4, h5, Or.inl h6⟩
      · refine ⟨B2.wf, B1.ext.trans B2.ext, ?_, fun a b hc => B2.keep a b (B1.keep a b hc), ?_, ?_,
          fun a b hc => B1.de a b (B2.de a b hc), fun hp => B2.phs (B1.phs hp)⟩
        · intro k hk
          rw [B2.agree k (B1.ext.isSome hk), B1.agree k hk]
        · intro a b ha hc
          rcases B2.new a b (B1.ext.isSome ha) hc with h3 | ⟨rfl, -⟩
          · rcases B1.new a b ha h3 with h5 | ⟨h5, h6⟩
            · exact Or.inl h5
            · refine Or.inr ⟨h5, ?_⟩
              rw [B2.agree b (ch_some B1.wf h3).2]
              exact h6
          · rw [hfr] at ha; cases ha
        · rintro z rfl
          obtain ⟨c, e, h3, h4, h5, h6⟩ := B1.there z rfl
          refine ⟨c, e, B2.keep _ _ h3, B2.ext.elem h4, ?_, h6⟩
          rw [B2.agree c (IsE.some ⟨e, h4⟩), h5]
      · refine ⟨?_, fun S hc => W2.2 (sib_addChild hw B1.agree hli hvv S hc) fun c hc => absurd hc (hno c)⟩
        intro k hk
        rcases W2.1 k hk with h3 | h3
        · rcases hold k h3 with rfl | h3
          · right
            intro z hz
            rw [hli2] at hz
            obtain ⟨c, e, -, h4, h5, -⟩ := B2.there z ((hS z).2 hz)
            exact ⟨c, ⟨e, h4⟩, h5⟩
          · exact Or.inl h3
        · exact Or.inr h3
theorem addTrees_lab {d : SDevice} {par : Nat} {pre : List DTree} : (ts : List DTree) → ∀ {g g' : Graph} {lab : Nat → Pos} {X : Nat → Prop}
    {ws : List Warn}, WF g → LabX d g lab X → IsE g par → (∀ e, g.elem? par = some e → e.level ≠ .enumcont) → X par →
    NoDevs ts → Leafys ts → (∃ p, treeAt (declTree d) (lab par) = some (.node p (pre ++ ts))) → addTrees par g ts = .ok g' ws →
    ∃ lab', LabX d g' lab' X ∧ BuildStep par g lab g' lab' (fun z => ∃ j, j < ts.length ∧ z = lab par ++ [pre.length + j]) ∧
      Whole d par (fun z => ∃ j, j < ts.length ∧ z = lab par ++ [pre.length + j]) g lab g' lab'
  | [], g, g', lab, X, ws, hw, h, hpar, hpl, hx, hnd, hlf, ht, hr => by
    simp only [addTrees, M.pure_eq_ok] at hr
    obtain ⟨rfl, -⟩ := hr
    refine ⟨lab, h, ⟨hw, Ext.refl _, fun _ _ => rfl, fun _ _ h => h, fun _ _ _ h => Or.inl h, ?_, fun _ _ h => h, fun h => h⟩, fun _ hk => Or.inl hk, fun S _ => S⟩
    rintro y ⟨j, hj, -⟩
    simp at hj
  | t :: ts, g, g', lab, X, ws, hw, h, hpar, hpl, hx, hnd, hlf, ht, hr => by
    simp only [addTrees, M.bind_eq_ok] at hr
    obtain ⟨g1, w1, w2, h1, h2, -⟩ := hr
    simp only [NoDevs] at hnd
    simp only [Leafys] at hlf
    obtain ⟨p, ht⟩ := ht
    have ht1 : treeAt (declTree d) (lab par ++ [pre.length]) = some t := by
      rw [treeAt_snoc, ht, Option.bind_some, treeAt_kid]
      simp
    obtain ⟨lab1, L1, B1, W1⟩ := addTree_lab t hw h hpar hpl hx hnd.1 hlf.1 ht1 h1
    have hl1 : lab1 par = lab par := B1.agree par hpar.some
    obtain ⟨lab2, L2, B2, W2⟩ := addTrees_lab (par := par) (pre := pre ++ [t]) ts B1.wf L1 (B1.ext.isE hpar)
      (by
        intro e he
        obtain ⟨e0, he0⟩ := hpar
        have := B1.ext.elem he0
        rw [he] at this
        injection this with this
        subst this
        exact hpl _ he0) hx hnd.2 hlf.2 ⟨p, by rw [hl1, ht]; simp⟩ h2
    have hW : Whole d par (fun z => ∃ j, j < (t :: ts).length ∧ z = lab par ++ [pre.length + j]) g lab g' lab2 := by
      constructor
      rotate_left
      · intro S hc
        have S1 := W1.2 S fun c h3 h4 => hc c h3 ⟨0, by simp, by rw [h4]; simp⟩
        refine W2.2 S1 ?_
        rintro c h3 ⟨j, hj, h4⟩
        rw [hl1] at h4
        rcases B1.new par c hpar.some h3 with h5 | ⟨-, h5⟩
        · rw [B1.agree c (ch_some hw h5).2] at h4
          exact hc c h5 ⟨j + 1, by simpa using hj, by rw [h4]; simp; omega⟩
        · rw [h5] at h4
          have := (List.append_inj' h4 rfl).2
          simp only [List.length_append, List.length_cons, List.length_nil, List.cons.injEq, and_true] at this
          omega
      intro k hk
      rcases W2.1 k hk with h3 | h3
      · rcases W1.1 k h3 with h4 | h4
        · exact Or.inl h4
        · right
          intro z hz
          rw [B2.agree k h3.some] at hz
          obtain ⟨c, h5, h6⟩ := h4 z hz
          exact ⟨c, B2.ext.isE h5, by rw [B2.agree c h5.some, h6]⟩
      · exact Or.inr h3
    refine ⟨lab2, L2, ?_, hW⟩
    have := B1.trans B2
    have hS : (fun z => z = lab par ++ [pre.length] ∨ ∃ j, j < ts.length ∧ z = lab1 par ++ [(pre ++ [t]).length + j]) =
        fun z => ∃ j, j < (t :: ts).length ∧ z = lab par ++ [pre.length + j] := by
      funext z
      apply propext
      rw [hl1]
      constructor
      · rintro (rfl | ⟨j, hj, rfl⟩)
        · exact ⟨0, by simp, by simp⟩
        · exact ⟨j + 1, by simpa using hj, by simp; omega⟩
      · rintro ⟨j, hj, rfl⟩
        cases j with
        | zero => exact Or.inl (by simp)
        | succ j => exact Or.inr ⟨j, by simpa using hj, by simp; omega⟩
    rw [hS] at this
    exact this
end

/-- The labels of the initial graph. -/
theorem lab_initialization {d : SDevice} {g : Graph} {ws : List Warn} (hr : initialization d = .ok g ws) :
    ∃ lab, Lab d g lab ∧ (∀ x p, DeclAt d x p → ∃ k, IsE g k ∧ lab k = x) ∧
      ∀ G w, constructGraph d = .ok G w → Sib G lab := by
  unfold initialization at hr
  simp only [M.bind_eq_ok] at hr
  obtain ⟨g1, w1, w2, h1, h2, -⟩ := hr
  have hc1 := h1
  unfold constructGraph at h1
  rw [constrPeripherals_eq] at h1
  generalize hg0 : ({ nodes := [some (.elem ⟨some (s%"Device"), .device, true, .device, none, false⟩)] } : Graph) = g0 at h1
  have hn0 : ∀ k n, g0.node? k = some n → k = 0 ∧ n = .elem ⟨some (s%"Device"), .device, true, .device, none, false⟩ := by
    intro k n hk
    subst hg0
    cases k with
    | zero =>
      refine ⟨rfl, ?_⟩
      simp [Graph.node?] at hk
      exact hk.symm
    | succ k => simp [Graph.node?] at hk
  have hz : g0.elem? 0 = some ⟨some (s%"Device"), .device, true, .device, none, false⟩ := by subst hg0; rfl
  have hed : g0.edges = [] := by subst hg0; rfl
  have hnoCh : ∀ a b, ¬ Ch g0 a b := by intro a b h; unfold Ch at h; rw [hed] at h; simp at h
  have hnoDe : ∀ a b, ¬ De g0 a b := by intro a b h; unfold De at h; rw [hed] at h; simp at h
  have hnoPl : ∀ a b, ¬ Pl g0 a b := by intro a b h; unfold Pl at h; rw [hed] at h; simp at h
  have hroot : DeclAt d [] .device := ⟨_, rfl⟩
  have W0 : WF g0 := by
    subst hg0
    exact ⟨fun i hi => (by cases hi), List.nodup_nil, fun e he => (by cases he)⟩
  have L0 : LabX d g0 (fun _ => []) (fun k => k = 0) := by
    refine ⟨⟨rfl, _, hz, rfl⟩, ?_, fun a b h => absurd h (hnoCh a b), fun a b h => absurd h (hnoDe a b),
      fun a b h => absurd h (hnoPl a b), fun i e b _ _ => ⟨hnoCh i b, hnoPl i b⟩, fun a b h => absurd h (hnoDe a b),
      fun a b _ _ h => absurd h (hnoPl a b), fun a _ b _ h _ => absurd h (hnoPl _ _), ?_⟩
    · intro i e he
      obtain ⟨rfl, h3⟩ := hn0 i _ (elem?_node?.1 he)
      injection h3 with h3
      subst h3
      exact ⟨.device, hroot, rfl, fun _ => rfl, fun c hc => (by cases hc), fun _ => rfl⟩
    · intro i e hX he
      obtain ⟨rfl, -⟩ := hn0 i _ (elem?_node?.1 he)
      exact absurd rfl hX
  obtain ⟨lab1, L1, B1, W1⟩ := addTrees_lab (d := d) (par := 0) (pre := []) (lab := fun _ => []) (d.peripherals.map ofPeriph) W0 L0 ⟨_, hz⟩
    (by
      intro e he
      rw [hz] at he
      injection he with he
      subst he
      decide) rfl (noDev_periphs _) (leafy_periphs _) ⟨_, rfl⟩ h1
  have hS : ∀ z, (∃ j, j < (d.peripherals.map ofPeriph).length ∧ z = ([] : Pos) ++ [([] : List DTree).length + j]) ↔ OwnChild d [] z := by
    intro z
    rw [ownChild_iff (d := d) (y := []) rfl]
    simp
  have L2 : Lab d g1 lab1 := by
    have hl : lab1 0 = [] := B1.agree 0 (IsE.some ⟨_, hz⟩)
    refine L1.close (i := 0) (fun k hk => Or.inr hk) (l := [[]]) (B1.ext.elem hz) ?_ ?_
    · rw [hl]
      exact ⟨fun _ => rfl, fun _ => .root hroot rfl, fun h' h3 => (by cases h3), fun h' h3 => (by cases h3)⟩
    · constructor
      · intro c hc
        rcases B1.new 0 c (IsE.some ⟨_, hz⟩) hc with h3 | ⟨-, h3⟩
        · exact absurd h3 (hnoCh _ c)
        · exact Or.inl ⟨[], by simp, (hS _).1 h3⟩
      · rintro z ⟨x, hx', ho⟩
        simp only [List.mem_singleton] at hx'
        subst hx'
        obtain ⟨c, e, h3, h4, h5, h6⟩ := B1.there z ((hS z).2 ho)
        exact Or.inr ⟨c, e, h3, h4, h5, Or.inl h6⟩
  have hz1 : lab1 0 = [] := B1.agree 0 (IsE.some ⟨_, hz⟩)
  refine ⟨lab1, lab_ensure L2 (fun a b h3 => hnoDe a b (B1.de a b h3)) (B1.phs ?_) h2, ?_, ?_⟩
  · subst hg0
    intro k hk
    cases hk
  · have kids : ∀ k, IsE g1 k → ∀ y, OwnChild d (lab1 k) y → ∃ c, IsE g1 c ∧ lab1 c = y := by
      intro k hk
      rcases W1.1 k hk with ⟨e, he⟩ | h3
      · obtain ⟨rfl, -⟩ := hn0 k _ (elem?_node?.1 he)
        intro y hy
        rw [hz1] at hy
        obtain ⟨c, e, -, h4, h5, -⟩ := B1.there y ((hS y).2 hy)
        exact ⟨c, ⟨e, h4⟩, h5⟩
      · exact h3
    have all : ∀ n x p, x.length = n → DeclAt d x p → ∃ k, IsE g1 k ∧ lab1 k = x := by
      intro n
      induction n with
      | zero =>
        intro x p hx _
        obtain rfl := List.length_eq_zero_iff.1 hx
        exact ⟨0, ⟨_, B1.ext.elem hz⟩, hz1⟩
      | succ n ih =>
        intro x p hx hp
        obtain ⟨y, k, rfl⟩ : ∃ y k, x = y ++ [k] := by
          rcases List.eq_nil_or_concat x with rfl | ⟨y, k, rfl⟩
          · cases hx
          · exact ⟨y, k, by simp⟩
        have hp' := hp
        obtain ⟨ts, ht⟩ := hp
        rw [treeAt_snoc] at ht
        cases hy : treeAt (declTree d) y with
        | none => rw [hy] at ht; simp at ht
        | some t =>
          cases t with
          | node q us =>
            obtain ⟨c, h3, h4⟩ := ih y q (by simpa using hx) ⟨us, hy⟩
            exact kids c h3 _ (by rw [h4]; exact ⟨k, p, rfl, hp'⟩)
    intro x p hp
    obtain ⟨k, ⟨e, he⟩, h4⟩ := all _ x p rfl hp
    obtain ⟨e', h5, -⟩ := keeps_ensure h2 k e he
    exact ⟨k, ⟨e', h5⟩, h4⟩
  · intro G w hG
    rw [hc1] at hG
    injection hG with hG _
    subst hG
    exact W1.2 (fun a c c' hc => absurd hc (hnoCh _ _)) fun c hc => absurd hc (hnoCh _ _)

end Svd
