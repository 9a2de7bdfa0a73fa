import Verif.Lemmas.InvRun
/- Every declared element keeps its node through the resolution, and ends up processed. -/
namespace Svd
open Spec Graph

/-- Element nodes keep their level, and (containers excepted) their declaration. -/
def Keeps (g g' : Graph) : Prop :=
  ∀ j e, g.elem? j = some e → ∃ e', g'.elem? j = some e' ∧ e'.level = e.level ∧
    (e.level ≠ .enumcont → e'.parsed = e.parsed)

theorem Keeps.refl (g : Graph) : Keeps g g := fun _ e h => ⟨e, h, rfl, fun _ => rfl⟩

theorem Keeps.trans {a b c : Graph} (h1 : Keeps a b) (h2 : Keeps b c) : Keeps a c := by
  intro j e he
  obtain ⟨e1, he1, hl1, hp1⟩ := h1 j e he
  obtain ⟨e2, he2, hl2, hp2⟩ := h2 j e1 he1
  exact ⟨e2, he2, by rw [hl2, hl1], fun h => by rw [hp2 (by rw [hl1]; exact h), hp1 h]⟩

theorem Ext.keeps {g g' : Graph} (h : Ext g g') : Keeps g g' := fun _ e he => ⟨e, h.elem he, rfl, fun _ => rfl⟩

/-- Some node carries the declaration `p`. -/
def HasNode (g : Graph) (p : Parsed) : Prop := ∃ j e, g.elem? j = some e ∧ e.parsed = p ∧ e.level ≠ .enumcont

theorem HasNode.keeps {g g' : Graph} {p : Parsed} (h : HasNode g p) (hk : Keeps g g') : HasNode g' p := by
  obtain ⟨j, e, he, hp, hl⟩ := h
  obtain ⟨e', he', hl', hp'⟩ := hk j e he
  exact ⟨j, e', he', by rw [hp' hl, hp], by rw [hl']; exact hl⟩

theorem HasNode.ext {g g' : Graph} {p : Parsed} (h : HasNode g p) (hk : Ext g g') : HasNode g' p := h.keeps hk.keeps

theorem HasNode.of_node {g : Graph} {i : Nat} {e : ElemNode} (h : g.node? i = some (.elem e)) (hl : e.level ≠ .enumcont) :
    HasNode g e.parsed := ⟨i, e, elem?_node?.2 h, rfl, hl⟩

/-! ### construction -/

theorem wf_constrEnums {p : Nat} {cs : List SEnumContainer} {g g' : Graph} {ws : List Warn} (h : WF g)
    (hr : constrEnums p g cs = .ok g' ws) (hp : (g.node? p).isSome) : WF g' ∧ Ext g g' := by
  induction cs generalizing g ws with
  | nil =>
    simp only [constrEnums, M.pure_eq_ok] at hr
    obtain ⟨rfl, -⟩ := hr
    exact ⟨h, Ext.refl _⟩
  | cons c cs ih =>
    simp only [constrEnums, M.bind_eq_ok] at hr
    obtain ⟨⟨g1, i⟩, w1, w2, h1, h2, -⟩ := hr
    obtain ⟨a, b, -⟩ := addChildToGraph_wf h h1 hp
    obtain ⟨c1, c2⟩ := ih a h2 (b.isSome hp)
    exact ⟨c1, b.trans c2⟩

theorem cover_constrFields {p : Nat} {fs : List SField} {g g' : Graph} {ws : List Warn} (h : WF g)
    (hr : constrFields p g fs = .ok g' ws) (hp : (g.node? p).isSome) :
    WF g' ∧ Ext g g' ∧ ∀ f ∈ fs, HasNode g' (.field f) := by
  induction fs generalizing g ws with
  | nil =>
    simp only [constrFields, M.pure_eq_ok] at hr
    obtain ⟨rfl, -⟩ := hr
    exact ⟨h, Ext.refl _, by simp⟩
  | cons c cs ih =>
    simp only [constrFields, M.bind_eq_ok] at hr
    obtain ⟨⟨g1, i⟩, w1, w2, h1, ⟨g2, w3, w4, h2, h3, -⟩, -⟩ := hr
    obtain ⟨a, b, hn⟩ := addChildToGraph_wf h h1 hp
    obtain ⟨a2, b2⟩ := wf_constrEnums a h2 (by rw [hn]; rfl)
    obtain ⟨a3, b3, c3⟩ := ih a2 h3 (b2.isSome (b.isSome hp))
    refine ⟨a3, b.trans (b2.trans b3), ?_⟩
    intro f hf
    rcases List.mem_cons.1 hf with rfl | hf
    · exact (HasNode.of_node hn (by simp)).ext (b2.trans b3)
    · exact c3 f hf

/-- The declarations of registers, clusters and fields below `xs` have nodes. -/
def CoverRCs (g : Graph) (xs : List SRC) : Prop :=
  ∀ x, SBelow xs x → match x with
    | .clu c _ => HasNode g (.clu c)
    | .reg r => HasNode g (.reg r) ∧ ∀ f ∈ r.fields, HasNode g (.field f)

theorem CoverRCs.ext {g g' : Graph} {xs : List SRC} (h : CoverRCs g xs) (he : Ext g g') : CoverRCs g' xs := by
  intro x hx
  have := h x hx
  cases x with
  | clu c ch => exact HasNode.ext this he
  | reg r => exact ⟨this.1.ext he, fun f hf => (this.2 f hf).ext he⟩

theorem sbelow_cons {x y : SRC} {xs : List SRC} (h : SBelow (x :: xs) y) : SBelow [x] y ∨ SBelow xs y := by
  cases h with
  | here hm =>
    rcases List.mem_cons.1 hm with rfl | hm
    · exact Or.inl (.here (List.mem_singleton.2 rfl))
    · exact Or.inr (.here hm)
  | inside hm hb =>
    rcases List.mem_cons.1 hm with rfl | hm
    · exact Or.inl (.inside (List.mem_singleton.2 rfl) hb)
    · exact Or.inr (.inside hm hb)

mutual
theorem cover_constrRC {p : Nat} {g g' : Graph} {ws : List Warn} : (x : SRC) → (h : WF g) →
    (hr : constrRC p g x = .ok g' ws) → (hp : (g.node? p).isSome) → WF g' ∧ Ext g g' ∧ CoverRCs g' [x]
  | .clu c ch, h, hr, hp => by
    simp only [constrRC, M.bind_eq_ok] at hr
    obtain ⟨⟨g1, i⟩, w1, w2, h1, h2, -⟩ := hr
    obtain ⟨a, b, hn⟩ := addChildToGraph_wf h h1 hp
    obtain ⟨a2, b2, c2⟩ := cover_constrRCs ch a h2 (by rw [hn]; rfl)
    refine ⟨a2, b.trans b2, ?_⟩
    intro x hx
    cases hx with
    | here hm =>
      rw [List.mem_singleton] at hm
      subst hm
      exact (HasNode.of_node hn (by simp)).ext b2
    | inside hm hb =>
      rw [List.mem_singleton] at hm
      injection hm with h3 h4
      subst h3; subst h4
      exact c2 x hb
  | .reg r, h, hr, hp => by
    simp only [constrRC, M.bind_eq_ok] at hr
    obtain ⟨⟨g1, i⟩, w1, w2, h1, h2, -⟩ := hr
    obtain ⟨a, b, hn⟩ := addChildToGraph_wf h h1 hp
    obtain ⟨a2, b2, c2⟩ := cover_constrFields a h2 (by rw [hn]; rfl)
    refine ⟨a2, b.trans b2, ?_⟩
    intro x hx
    cases hx with
    | here hm =>
      rw [List.mem_singleton] at hm
      subst hm
      exact ⟨(HasNode.of_node hn (by simp)).ext b2, c2⟩
    | inside hm hb =>
      rw [List.mem_singleton] at hm
      cases hm
theorem cover_constrRCs {p : Nat} {g g' : Graph} {ws : List Warn} : (xs : List SRC) → (h : WF g) →
    (hr : constrRCs p g xs = .ok g' ws) → (hp : (g.node? p).isSome) → WF g' ∧ Ext g g' ∧ CoverRCs g' xs
  | [], h, hr, hp => by
    simp only [constrRCs, M.pure_eq_ok] at hr
    obtain ⟨rfl, -⟩ := hr
    refine ⟨h, Ext.refl _, ?_⟩
    intro x hx
    cases hx with
    | here hm => cases hm
    | inside hm _ => cases hm
  | x :: xs, h, hr, hp => by
    simp only [constrRCs, M.bind_eq_ok] at hr
    obtain ⟨g1, w1, w2, h1, h2, -⟩ := hr
    obtain ⟨a, b, c⟩ := cover_constrRC x h h1 hp
    obtain ⟨a2, b2, c2⟩ := cover_constrRCs xs a h2 (b.isSome hp)
    refine ⟨a2, b.trans b2, ?_⟩
    intro y hy
    rcases sbelow_cons hy with hy | hy
    · exact (c.ext b2) y hy
    · exact c2 y hy
end

theorem cover_constrPeripherals {p : Nat} {ps : List SPeriphT} {g g' : Graph} {ws : List Warn} (h : WF g)
    (hr : constrPeripherals p g ps = .ok g' ws) (hp : (g.node? p).isSome) :
    WF g' ∧ Ext g g' ∧ ∀ q ∈ ps, HasNode g' (.periph q.hd) ∧ CoverRCs g' q.rcs := by
  induction ps generalizing g ws with
  | nil =>
    simp only [constrPeripherals, M.pure_eq_ok] at hr
    obtain ⟨rfl, -⟩ := hr
    exact ⟨h, Ext.refl _, by simp⟩
  | cons c cs ih =>
    simp only [constrPeripherals, M.bind_eq_ok] at hr
    obtain ⟨⟨g1, i⟩, w1, w2, h1, ⟨g2, w3, w4, h2, h3, -⟩, -⟩ := hr
    obtain ⟨a, b, hn⟩ := addChildToGraph_wf h h1 hp
    obtain ⟨a2, b2, c2⟩ := cover_constrRCs _ a h2 (by rw [hn]; rfl)
    obtain ⟨a3, b3, c3⟩ := ih a2 h3 (b2.isSome (b.isSome hp))
    refine ⟨a3, b.trans (b2.trans b3), ?_⟩
    intro q hq
    rcases List.mem_cons.1 hq with rfl | hq
    · exact ⟨(HasNode.of_node hn (by simp)).ext (b2.trans b3), c2.ext b3⟩
    · exact c3 q hq

/-- Every declaration except containers (and the device) has a node. -/
def Cover (d : SDevice) (g : Graph) : Prop :=
  ∀ p, Declared d p → p.level ≠ .enumcont → p.level ≠ .device → HasNode g p

theorem Cover.keeps {d : SDevice} {g g' : Graph} (h : Cover d g) (hk : Keeps g g') : Cover d g' :=
  fun p hd hl hl' => (h p hd hl hl').keeps hk

theorem rootGraph_wf : WF { nodes := [some (.elem ⟨some (s%"Device"), .device, true, .device, none, false⟩)] } :=
  ⟨by simp, by simp, by simp⟩

theorem cover_constructGraph {d : SDevice} {g : Graph} {ws : List Warn} (hr : constructGraph d = .ok g ws) :
    Cover d g := by
  unfold constructGraph at hr
  obtain ⟨-, -, hc⟩ := cover_constrPeripherals rootGraph_wf hr (by rfl)
  intro p hp hl hl'
  cases hp with
  | device => simp [Parsed.level] at hl'
  | periph h => exact (hc _ h).1
  | clu h hb => exact (hc _ h).2 _ hb
  | reg h hb => exact ((hc _ h).2 _ hb).1
  | field h hb hf => exact ((hc _ h).2 _ hb).2 _ hf
  | enum h hb hf he => simp [Parsed.level] at hl

/-! ### resolution -/

theorem keeps_ensure {phs : List Nat} {g g' : Graph} {ws : List Warn}
    (hr : ensurePlaceholderParents g phs = .ok g' ws) : Keeps g g' := by
  induction phs generalizing g ws with
  | nil =>
    simp only [ensurePlaceholderParents, M.pure_eq_ok] at hr
    obtain ⟨rfl, -⟩ := hr
    exact Keeps.refl _
  | cons ph phs ih =>
    simp only [ensurePlaceholderParents, M.bind_eq_ok] at hr
    obtain ⟨o, w1, w2, -, ⟨g1, w3, w4, h2, h3, -⟩, -⟩ := hr
    refine Keeps.trans ?_ (ih h3)
    cases o with
    | none =>
      simp only [M.pure_eq_ok] at h2
      obtain ⟨rfl, -⟩ := h2
      exact Keeps.refl _
    | some p =>
      have := addEdge_nodes h2
      exact (Ext.of_nodes (by rw [this.1])).keeps

theorem keeps_resolvePlaceholder {g g' : Graph} {ph : Nat} {ws : List Warn} (h : WF g)
    (hr : resolvePlaceholder g ph = .ok g' ws) : Keeps g g' := by
  obtain ⟨path, hph, hc⟩ := resolvePlaceholder_cases hr
  rcases hc with rfl | ⟨derived, e, base, w, -, -, -, h4⟩
  · exact Keeps.refl _
  · have h5 := (rawAddEdge_nodes h4).1
    have h6 := (removePlaceholder_wf h (i := ph) (by rw [hph]; rfl)).2.1
    intro j e he
    refine ⟨e, ?_, rfl, fun _ => rfl⟩
    rw [elem?_node?] at he ⊢
    rw [node?_congr (g := g.removePlaceholder ph) (by rw [h5]), h6]
    split
    · rename_i hj
      subst hj
      rw [hph] at he
      cases he
    · exact he

theorem keeps_resolvePlaceholders {d : SDevice} {phs : List Nat} {g g' : Graph} {ws : List Warn} (h : Inv d g)
    (hr : resolvePlaceholders g phs = .ok g' ws) : Keeps g g' := by
  induction phs generalizing g ws with
  | nil =>
    simp only [resolvePlaceholders, M.pure_eq_ok] at hr
    obtain ⟨rfl, -⟩ := hr
    exact Keeps.refl _
  | cons ph phs ih =>
    simp only [resolvePlaceholders, M.bind_eq_ok] at hr
    obtain ⟨g1, w1, w2, h1, h2, -⟩ := hr
    exact (keeps_resolvePlaceholder h.wf h1).trans (ih (inv_resolvePlaceholder h h1) h2)

theorem processEnumNode_level {ord : List Nat → List Nat} {g g' : Graph} {i : Nat} {e : ElemNode} {bn : Option Nat}
    {ws : List Warn} (h : WF g) (he : g.elem? i = some e) (hr : processEnumNode ord g i bn = .ok g' ws) :
    ∃ e', g'.elem? i = some e' ∧ e'.level = e.level := by
  unfold processEnumNode at hr
  simp only [he, M.bind_eq_ok] at hr
  obtain ⟨g1, w1, w2, h1, h2, -⟩ := hr
  have hi : (g.node? i).isSome := by rw [elem?_node?.1 he]; rfl
  have hw := setElem_wf (e := { e with parsed := adoptedParsed g e bn }) h hi
  have e1 := setElem_elem? (e := { e with parsed := adoptedParsed g e bn }) (j := i) hi
  rw [if_pos rfl] at e1
  obtain ⟨a, b⟩ := adoptBase_wf hw.1 h1 (by rw [elem?_node?.1 e1]; rfl)
  have e2 := b.elem e1
  simp only [e2, M.pure_eq_ok] at h2
  obtain ⟨rfl, -⟩ := h2
  refine ⟨_, setElem_elem? (by rw [elem?_node?.1 e2]; rfl) |>.trans (if_pos rfl), rfl⟩

theorem keeps_processNode {d : SDevice} {ord : List Nat → List Nat} {g g' : Graph} {i : Nat} {ws : List Warn}
    (h : Inv d g) (hr : processNode ord g i = .ok g' ws) : Keeps g g' := by
  have hs := (inv_processNode h hr).2
  obtain ⟨e, bn, bp, w, he, hdev, hbase, hcase⟩ := processNode_cases hr
  have hnode := h.nodes.elem he
  have key : ∃ e', g'.elem? i = some e' ∧ e'.level = e.level ∧ (e.level ≠ .enumcont → e'.parsed = e.parsed) := by
    rcases hcase with ⟨hen, hp⟩ | ⟨hen, hp⟩
    · obtain ⟨e', h1, h2⟩ := processEnumNode_level h.wf he hp
      refine ⟨e', h1, h2, fun hl => absurd ?_ hl⟩
      rw [hnode.2.1]; exact (isEnum_level _).1 hen
    · rcases processDimable_ok hp with ⟨x, w', hy, hn, hu⟩ | ⟨xs, t, w', hys, hy, hn, hu⟩
      · exact ⟨_, (updateNode_wf h.wf hu he).2.1, rfl, fun _ => rfl⟩
      · exact ⟨_, (updateDimNode_wf h.wf hu he).2.1, rfl, fun _ => rfl⟩
  intro j ej hej
  by_cases hj : j = i
  · subst hj
    rw [he] at hej
    cases hej
    exact key
  · exact ⟨ej, elem?_node?.2 (hs j hj _ (elem?_node?.1 hej)), rfl, fun _ => rfl⟩

theorem keeps_processNodes {d : SDevice} {ord : List Nat → List Nat} {is : List Nat} {g g' : Graph} {ws : List Warn}
    (h : Inv d g) (hr : processNodes ord g is = .ok g' ws) : Keeps g g' := by
  induction is generalizing g ws with
  | nil =>
    simp only [processNodes, M.pure_eq_ok] at hr
    obtain ⟨rfl, -⟩ := hr
    exact Keeps.refl _
  | cons i is ih =>
    simp only [processNodes, M.bind_eq_ok] at hr
    obtain ⟨g1, w1, w2, h1, h2, -⟩ := hr
    exact (keeps_processNode h h1).trans (ih (inv_processNode h h1).1 h2)

theorem keeps_rounds {d : SDevice} {ord : List Nat → List Nat} {fuel : Nat} {g g' : Graph} {prev : List Nat}
    {ws : List Warn} (h : Inv d g) (hr : rounds ord fuel g prev = .ok g' ws) : Keeps g g' := by
  induction fuel generalizing g prev ws with
  | zero => simp [rounds] at hr
  | succ f ih =>
    simp only [rounds, M.bind_eq_ok] at hr
    obtain ⟨g1, w1, w2, h1, h2, -⟩ := hr
    have k1 := keeps_resolvePlaceholders h h1
    have i1 := inv_resolvePlaceholders h h1
    split at h2
    · simp only [M.pure_eq_ok] at h2
      obtain ⟨rfl, -⟩ := h2
      exact k1
    · split at h2
      · simp at h2
      · simp only [M.bind_eq_ok] at h2
        obtain ⟨g2, w3, w4, h3, h4, -⟩ := h2
        exact k1.trans ((keeps_processNodes i1 h3).trans (ih (inv_processNodes i1 h3) h4))

theorem cover_initialization {d : SDevice} {g : Graph} {ws : List Warn} (hr : initialization d = .ok g ws) :
    Cover d g := by
  simp only [initialization, M.bind_eq_ok] at hr
  obtain ⟨g1, w1, w2, h1, h2, -⟩ := hr
  exact (cover_constructGraph h1).keeps (keeps_ensure h2)

/-- The final graph of a successful resolution. -/
theorem resolve_graph {ord : List Nat → List Nat} {fuel : Nat} {d : SDevice} {ps : List IPeripheral}
    {ws : List Warn} (h : resolvePeripherals ord fuel d = .ok ps ws) :
    ∃ g0 g s w1 w2 w3, initialization d = .ok g0 w1 ∧ rounds ord fuel g0 [] = .ok g w2 ∧ g.unprocessed = [] ∧
      finalizeProcessing g = .ok s w3 ∧ s.resolved = some ps ∧ ws = w1 ++ (w2 ++ w3) := by
  unfold resolvePeripherals at h
  simp only [M.bind_eq_ok] at h
  obtain ⟨g0, w1, w2, h1, ⟨g, w3, w4, h2, h3, rfl⟩, rfl⟩ := h
  split at h3
  · simp only [M.bind_eq_ok] at h3
    obtain ⟨_, _, _, _, h4, _⟩ := h3
    simp at h4
  · rename_i hu
    simp only [M.bind_eq_ok] at h3
    obtain ⟨s, w5, w6, h4, h5, rfl⟩ := h3
    split at h5
    · simp at h5
    · rename_i q hq
      simp only [M.pure_eq_ok] at h5
      obtain ⟨rfl, rfl⟩ := h5
      exact ⟨g0, g, s, w1, w3, w5, h1, h2, by simpa using hu, h4, hq, by simp⟩

theorem mem_unprocessed {g : Graph} {i : Nat} {e : ElemNode} (he : g.elem? i = some e) (hp : e.isProcessed = false) :
    i ∈ g.unprocessed := by
  unfold unprocessed
  rw [List.mem_filter, rangeFrom_zero, List.mem_range]
  refine ⟨node?_lt (elem?_node?.1 he), ?_⟩
  simp [isUnprocessed, he, hp]

/-- After a successful resolution every declared element has been made from its declaration. -/
theorem made_all {ord : List Nat → List Nat} {fuel : Nat} {d : SDevice} {ps : List IPeripheral} {ws : List Warn}
    (h : resolvePeripherals ord fuel d = .ok ps ws) {p : Parsed} (hp : Declared d p) (hl : p.level ≠ .enumcont)
    (hl' : p.level ≠ .device) : ∃ ch y, Made d (p :: ch) y := by
  obtain ⟨g0, g, s, w1, w2, w3, h1, h2, hu, -, -, -⟩ := resolve_graph h
  have i0 := inv_initialization h1
  have ig := inv_rounds i0 h2
  obtain ⟨j, e, he, rfl, hle⟩ := ((cover_initialization h1).keeps (keeps_rounds i0 h2)) p hp hl hl'
  have hn := ig.nodes.elem he
  have hproc : e.isProcessed = true := by
    cases hx : e.isProcessed with
    | true => rfl
    | false => have := mem_unprocessed he hx; rw [hu] at this; cases this
  have := hn.2.2.2.2 hproc (by rw [hn.2.1]; exact hl') hle
  obtain ⟨x, hx⟩ := Option.isSome_iff_exists.1 this
  obtain ⟨-, -, ch, hm⟩ := hn.2.2.2.1 x hx
  exact ⟨ch, x, hm⟩

end Svd
