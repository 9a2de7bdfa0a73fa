import Verif.Lemmas.LabFinish
/-
Labels: the run of the resolver.
-/
namespace Svd
open Graph Spec

theorem LabX.weaken {d : SDevice} {g : Graph} {lab : Nat → Pos} {X Y : Nat → Prop} (h : LabX d g lab X) (hXY : ∀ k, X k → Y k) :
    LabX d g lab Y :=
  ⟨h.root, h.node, h.tch, h.tde, h.tpl, h.leaf, h.der, h.ph, h.phIn, fun i e h1 h2 h3 => h.cont i e (fun h4 => h1 (hXY i h4)) h2 h3⟩

/-- What becomes of the graph and the labels when the element `i` takes over the content of its base, if it has one. -/
inductive Adopt (g : Graph) (lab : Nat → Pos) (i : Nat) : Graph → (Nat → Pos) → Prop
  | none : Adopt g lab i g lab
  | some {g1 lab1 b φ} : De g b i → Replica { g with edges := eraseEdge b i g.edges } g1 b i
      (· ∈ ({ g with edges := eraseEdge b i g.edges } : Graph).descendants b) φ →
      (∀ k, (g.node? k).isSome → lab1 k = lab k) →
      (∀ k, k ∈ ({ g with edges := eraseEdge b i g.edges } : Graph).descendants b → lab1 (φ k) = lab k) →
      (∃ eb x, g.elem? b = some eb ∧ eb.processed = some x) → Adopt g lab i g1 lab1

/-- What processing the node `i` does to the graph and the labels. -/
inductive Advance (d : SDevice) (g : Graph) (lab : Nat → Pos) (i : Nat) : Graph → (Nat → Pos) → Prop
  | enum {e e' es} : g.elem? i = .some e → e.level = .enumcont → e'.level = .enumcont → e'.isProcessed = true →
      (es = g.edges ∨ ∃ b, De g b i ∧ es = eraseEdge b i g.edges) → Advance d g lab i (({ g with edges := es } : Graph).setElem i e') lab
  | dim {g1 lab1 e x0 t I g' lab'} : g.elem? i = .some e → e.level ≠ .enumcont → e.processed = none → WF g1 → LabX d g1 lab1 (· = i) → Adopt g lab i g1 lab1 → Finish g1 g' i e x0 t I →
      (∀ k, (g1.node? k).isSome → lab' k = lab1 k) → (∀ j a x, I j a x → lab' j = lab1 i) →
      (t = false → ∀ j a x, ¬ I j a x) → (t = true → hasSub lstMark e.parsed.name = true) → Advance d g lab i g' lab'

theorem lab_adoptBase {d : SDevice} {ord : List Nat → List Nat} (hord : ∀ l, (ord l).Perm l) {g g' : Graph} {lab : Nat → Pos}
    {i b : Nat} {e eb : ElemNode} {ws : List Warn} (hw : WF g) (h : Lab d g lab) (he : g.elem? i = some e) (hp : e.isProcessed = false)
    (heb : g.elem? b = some eb) (hl : eb.level = e.level) (hd : De g b i) (hr : adoptBase ord g i (some b) = .ok g' ws) :
    ∃ lab', LabX d g' lab' (· = i) ∧ ((∀ k, (g.node? k).isSome → lab' k = lab k) ∧
        (∀ k, g.node? k = none → IsE g' k → Inside d (lab i) (lab' k)) ∧ ((∃ x, eb.processed = some x) → Adopt g lab i g' lab')) ∧
      (e.level ≠ .enumcont → eb.isProcessed = true → ∃ lb, ChainOf d (lab b) eb lb ∧ Cont d g' lab' i (lab i :: lb)) := by
  simp only [adoptBase, M.bind_eq_ok] at hr
  obtain ⟨g1, w1, w2, h1, h2, -⟩ := hr
  obtain ⟨rfl, -, -⟩ := removeEdge_ok h1
  have hw1 : WF { g with edges := eraseEdge b i g.edges } := hw.of_eq rfl rfl fun e he => Or.inl (eraseEdge_sub he)
  obtain ⟨φ, hφ⟩ := replicateDescendants_rep hord hw1 (IsE.some ⟨e, he⟩) h2
  have := lab_replicate (g := { g with edges := eraseEdge b i g.edges }) hw1 (lab_erase h hd) hφ he hp heb hl (h.der _ _ hd)
  obtain ⟨lab', l1, ⟨l2, l3, l4⟩, l5⟩ := this
  exact ⟨lab', l1, ⟨l2, l3, fun ⟨x, hx⟩ => .some hd hφ l2 l4 ⟨eb, x, heb, hx⟩⟩, l5⟩

theorem processDimable_ok2 {ord : List Nat → List Nat} {g g' : Graph} {i : Nat} {p : Parsed} {bn : Option Nat}
    {b : Option Processed} {ws : List Warn} (h : processDimable ord g i p bn b = .ok g' ws) :
    (∃ x w, Yields p b x ∧ HeadsFrom p b [x] ∧ updateNode ord g i bn x false = .ok g' w) ∨
    (∃ xs t w, (∀ y ∈ xs, Yields p b y) ∧ Yields p b t ∧ HeadsFrom p b xs ∧ updateDimNode ord g i bn xs t = .ok g' w ∧ hasSub lstMark p.name = true) := by
  unfold processDimable at h
  simp only [M.bind_eq_ok] at h
  obtain ⟨⟨isDim, names, ds⟩, w1, w2, h1, ⟨xs, w3, w4, h2, h3, -⟩, -⟩ := h
  obtain ⟨hlen, hall⟩ := createAll_ok h2
  simp only [Nat.zero_add] at hall
  split at h3
  · simp at h3
  · rename_i x rest
    obtain ⟨n0, d0, w0, hn0, hd0, hc0⟩ := hall 0 x rfl
    cases isDim with
    | false =>
      left
      simp only [Bool.false_eq_true, if_false] at h3
      refine ⟨x, w4, ⟨false, names, ds, w1, 0, n0, d0, x, w0, h1, hn0, hd0, hc0, Or.inl ⟨rfl, rfl, rfl⟩⟩, ?_, h3⟩
      refine ⟨false, names, ds, w1, x :: rest, w3, h1, h2, by simp, ?_⟩
      rw [extractDimOf_nodim h1] at hlen
      simp only [List.length_cons, List.length_nil] at hlen
      have : rest = [] := List.eq_nil_of_length_eq_zero (by omega)
      simp [this]
    | true =>
      right
      simp only [if_true] at h3
      refine ⟨_, _, w4, ?_, ⟨true, names, ds, w1, 0, n0, d0, x, w0, h1, hn0, hd0, hc0,
        Or.inr (Or.inr ⟨rfl, rfl, rfl⟩)⟩, ⟨true, names, ds, w1, x :: rest, w3, h1, h2, by simp, by simp⟩, h3, extractDimOf_marked h1⟩
      intro y hy
      obtain ⟨z, hz, rfl⟩ := List.mem_map.1 hy
      obtain ⟨j, hj⟩ := List.getElem?_of_mem hz
      obtain ⟨n, d, w, a, b', c⟩ := hall j z hj
      exact ⟨true, names, ds, w1, j, n, d, z, w, h1, a, b', c, Or.inr (Or.inl ⟨rfl, rfl⟩)⟩

theorem acyclic_loop {g : Graph} (h : Acyclic g.edges) {i : Nat} : ¬ Ch g i i := by
  intro hc
  obtain ⟨e, h1, h2, h3, -⟩ := ch_iff.1 hc
  have := Conn.edge h1
  rw [h2, h3] at this
  exact h i this

/-- What processing the node `i` does to the other nodes: the existing ones stay as they are, and the new ones that have to be
processed lie inside `i`. -/
structure LabStep (d : SDevice) (i : Nat) (g g' : Graph) (lab' : Nat → Pos) : Prop where
  old : ∀ k, (g.node? k).isSome → k ≠ i → g'.node? k = g.node? k
  self : ∃ e', g'.elem? i = some e' ∧ e'.isProcessed = true
  new : ∀ k e, g.node? k = none → g'.elem? k = some e → e.isProcessed = false → Inside d (lab' i) (lab' k)

theorem step_of {d : SDevice} {g g1 g' : Graph} {lab lab1 lab' : Nat → Pos} {i : Nat} {e : ElemNode} {x0 : Processed} {t : Bool}
    {I : Nat → Nat → Processed → Prop} (hx : Ext g g1) (hn : ∀ k, g.node? k = none → IsE g1 k → Inside d (lab i) (lab1 k))
    (hi : (g.node? i).isSome) (h1 : lab1 i = lab i) (h2 : ∀ k, (g1.node? k).isSome → lab' k = lab1 k) (F : Finish g1 g' i e x0 t I) :
    LabStep d i g g' lab' := by
  have notI : ∀ k, (g1.node? k).isSome → ∀ a x, ¬ I k a x := by
    intro k hk a x hI
    rw [F.fresh _ _ _ hI] at hk
    cases hk
  refine ⟨?_, ⟨_, F.self, rfl⟩, ?_⟩
  · intro k hk hki
    obtain ⟨n, hn'⟩ := Option.isSome_iff_exists.1 hk
    rw [F.old k hki (notI k (Ext.isSome hx hk)), hn', hx k n hn']
  · intro k ek hk hek hp
    have hki : k ≠ i := by rintro rfl; rw [hk] at hi; cases hi
    by_cases hI : ∃ a x, I k a x
    · obtain ⟨a, x, hI⟩ := hI
      rw [F.inst _ _ _ hI] at hek
      injection hek with hek
      rw [← hek] at hp
      cases hp
    · have h3 := F.old k hki (fun a x h => hI ⟨a, x, h⟩)
      have hE : IsE g1 k := ⟨ek, by unfold Graph.elem? at hek ⊢; rw [← h3]; exact hek⟩
      rw [h2 k hE.some, h2 i (Ext.isSome hx hi), h1]
      exact hn k hk hE

theorem step_setElem {d : SDevice} {g : Graph} {lab : Nat → Pos} {i : Nat} {e e' : ElemNode} (he : g.elem? i = some e)
    (hp : e'.isProcessed = true) : LabStep d i g (g.setElem i e') lab := by
  have hil : (g.node? i).isSome := IsE.some ⟨e, he⟩
  have hn : ∀ k, k ≠ i → (g.setElem i e').node? k = g.node? k := by
    intro k hk
    unfold Graph.setElem Graph.node?
    simp only [List.getElem?_set]
    rw [if_neg (fun h => hk h.symm)]
  refine ⟨fun k _ hk => hn k hk, ⟨e', by rw [setElem_elem? hil, if_pos rfl], hp⟩, ?_⟩
  intro k ek hk hek _
  have hki : k ≠ i := by rintro rfl; rw [hk] at hil; cases hil
  unfold Graph.elem? at hek
  rw [hn k hki, hk] at hek
  cases hek

theorem lab_processDim {d : SDevice} {ord : List Nat → List Nat} (hord : ∀ l, (ord l).Perm l) {g g' : Graph} {lab : Nat → Pos}
    {i : Nat} {e : ElemNode} {bn : Option Nat} {bp : Option Processed} {w : List Warn} (hi : Inv d g) (hac : Acyclic g.edges)
    (h : Lab d g lab) (he : g.elem? i = some e) (hdev : e.parsed ≠ .device) (hl : e.level ≠ .enumcont)
    (hbase : (e.parsed.derivedFrom = none ∧ bn = none ∧ bp = none) ∨
       (∃ path b eb, e.parsed.derivedFrom = some path ∧ g.baseElementNode i = some b ∧ g.elem? b = some eb ∧
          e.level = eb.level ∧ bn = some b ∧ bp = eb.processed ∧ eb.processed.isSome))
    (hr : processDimable ord g i e.parsed bn bp = .ok g' w) :
    ∃ lab', Lab d g' lab' ∧ (∀ k, (g.node? k).isSome → lab' k = lab k) ∧ LabStep d i g g' lab' ∧ Advance d g lab i g' lab' := by
  have hnode := hi.nodes.elem he
  obtain ⟨p, hp⟩ := h.node i e he
  have hpp := hp.parsed hl
  have hldev : e.level ≠ .device := by
    rw [hnode.2.1]
    intro h1
    apply hdev
    revert h1
    cases e.parsed <;> intro h1 <;> first | rfl | cases h1
  have unproc : e.processed = none → e.isProcessed = false := by
    intro h1
    cases hx : e.isProcessed with
    | false => rfl
    | true =>
      have := hnode.2.2.2.2 hx hldev hl
      rw [h1] at this
      cases this
  -- what is known after the base has been adopted
  have key : ∀ g1 w1, adoptBase ord g i bn = .ok g1 w1 → e.processed = none →
      ∃ lab1 l, ((∀ k, (g.node? k).isSome → lab1 k = lab k) ∧ (∀ k n, g.node? k = some n → g1.node? k = some n) ∧
        (∀ k, g.node? k = none → IsE g1 k → Inside d (lab i) (lab1 k)) ∧ Adopt g lab i g1 lab1) ∧ WF g1 ∧ LabX d g1 lab1 (· = i) ∧ g1.elem? i = some e ∧ ¬ Ch g1 i i ∧ Chain d (lab1 i) l ∧ Cont d g1 lab1 i l ∧
        (∀ y, Yields e.parsed bp y → MadeAlong d l y) ∧ ∀ hs, HeadsFrom e.parsed bp hs → Stands d (lab1 i) l hs := by
    intro g1 w1 h1 hnone
    have hun := unproc hnone
    obtain ⟨hi1, hx1⟩ := inv_adoptBase hi h1 he
    have hac1 := ac_adoptBase hac h1
    rcases hbase with ⟨h2, rfl, rfl⟩ | ⟨path, b, eb, h2, h3, h4, h5, rfl, rfl, h6⟩
    · simp only [adoptBase, M.pure_eq_ok] at h1
      obtain ⟨rfl, -⟩ := h1
      obtain ⟨l, h7, h8⟩ := h.cont i e id he hl
      have := h7.raw hun
      subst this
      refine ⟨lab, _, ⟨fun _ _ => rfl, fun _ _ h => h, fun k hk hE => absurd hE.some (by rw [hk]; simp), .none⟩, hi.wf, h.weaken (fun _ hf => hf.elim), he, acyclic_loop hac, .root hp.decl (by rw [← hpp]; exact h2), h8, ?_, ?_⟩
      · intro y hy
        refine ⟨[p], .cons hp.decl .nil, ?_⟩
        rw [← hpp]
        exact .base hnode.1 h2 hy
      · intro hs hh
        exact ⟨p, none, hp.decl, Or.inl ⟨by rw [← hpp]; exact h2, rfl, rfl⟩, by rw [← hpp]; exact hh⟩
    · obtain ⟨x, hx⟩ := Option.isSome_iff_exists.1 h6
      have hb := hi.nodes.elem h4
      obtain ⟨hname, hbpro, -⟩ := hb.2.2.2.1 x hx
      have hde := baseElementNode_edge h3
      obtain ⟨lab1, h7, ⟨h8, h8', h8a⟩, h9⟩ := lab_adoptBase hord hi.wf h he hun h4 h5.symm hde h1
      obtain ⟨lb, h10, h11⟩ := h9 hl hbpro
      have hlab : lab1 i = lab i := h8 i (IsE.some ⟨e, he⟩)
      have href := h.der _ _ hde
      have hchb := h10.done hbpro
      obtain ⟨ps, hds, hmb⟩ := h10.made x hx
      obtain ⟨s, t, hs, ht, hE⟩ := hi.edges _ hde
      obtain ⟨es, ed, rfl, rfl, -, hlast⟩ := hE
      simp only at hs ht
      rw [elem?_node?.1 h4] at hs
      rw [elem?_node?.1 he] at ht
      simp only [Option.some.injEq, Node.elem.injEq] at hs ht
      subst hs; subst ht
      obtain ⟨path', hp1, hp2⟩ := hlast hl
      rw [h2] at hp1
      simp only [Option.some.injEq] at hp1
      subst hp1
      rw [hname] at hp2
      refine ⟨lab1, lab i :: lb, ⟨h8, hx1, h8', h8a ⟨x, hx⟩⟩, hi1.wf, h7, hx1.elem he, acyclic_loop hac1, by rw [hlab]; exact .step href hchb, h11, ?_, ?_⟩
      · intro y hy
        refine ⟨p :: ps, .cons hp.decl hds, ?_⟩
        rw [hx] at hy
        rw [← hpp]
        cases ps with
        | nil => cases hmb
        | cons q ch => exact .derive hnode.1 h2 hmb (by simpa using hp2) hy
      · intro hs hh
        refine ⟨p, eb.processed, by rw [hlab]; exact hp.decl, Or.inr ⟨path, x, lab b, lb, by rw [← hpp, h2], hx, by simpa using hp2, by rw [hlab]; exact href, hchb,
          ⟨ps, hds, hmb⟩, by rw [hlab]⟩, by rw [← hpp]; exact hh⟩
  rcases processDimable_ok2 hr with ⟨x, w', hy, hh, hu⟩ | ⟨xs, t, w', hys, hy, hh, hu, hmk⟩
  · obtain ⟨g1, e1, h1, h2, h3, h4⟩ := updateNode_ok hu
    have hee : e1 = e := by
      have := (inv_adoptBase hi h1 he).2.elem he
      rw [h2] at this
      injection this
    subst hee
    obtain ⟨lab1, l, ⟨k0, k0', k0'', k0a⟩, k1, k2, k3, k4, k5, k6, k7, k8⟩ := key g1 _ h1 h3
    have hpl := hp.plain (unproc h3)
    rw [hpl] at h4
    have F := finish_alone k1 k3 (t := false) (x0 := x) rfl h4
    obtain ⟨lab2, m1, m2, m3⟩ := lab_finish k1 k2 k3 (unproc h3) hl k4 F k5 k6 (k7 _ hy) (fun _ _ _ hf => hf.elim) (k8 _ hh) (fun _ => by simp) (fun _ _ _ hf => hf.elim)
      (fun k _ y hy' => Or.inl ⟨rfl, by simpa using hy'⟩)
    exact ⟨lab2, m1, fun k hk => (m2 k (Ext.isSome k0' hk)).trans (k0 k hk), step_of k0' k0'' (IsE.some ⟨_, he⟩) (k0 i (IsE.some ⟨_, he⟩)) m2 F, .dim he hl h3 k1 k2 k0a F m2 m3 (fun _ _ _ _ h => h) (fun h => by cases h)⟩
  · obtain ⟨g2, e2, g3, js, h0, h5, h6, h7⟩ := updateDimNode_ok hu
    obtain ⟨g1, e1, h1, h2, h3, h4⟩ := updateNode_ok h0
    have hee : e1 = e := by
      have := (inv_adoptBase hi h1 he).2.elem he
      rw [h2] at this
      injection this
    subst hee
    obtain ⟨lab1, l, ⟨k0, k0', k0'', k0a⟩, k1, k2, k3, k4, k5, k6, k7, k8⟩ := key g1 _ h1 h3
    rw [Bool.or_true] at h4
    have F0 := finish_alone k1 k3 (t := true) (x0 := t) rfl h4
    obtain ⟨I, F, hI1, hI2⟩ := finish_dim k2.tch k4 k3 F0 h5 h6 h7
    obtain ⟨lab2, m1, m2, m3⟩ := lab_finish k1 k2 k3 (unproc h3) hl k4 F k5 k6 (k7 _ hy) (fun j a x hj => k7 _ (hys x (hI1 _ _ _ hj))) (k8 _ hh) (fun h => by cases h) (fun j a x hj => hI1 _ _ _ hj)
      (fun k hk y hy' => Or.inr (hI2 k hk y hy'))
    exact ⟨lab2, m1, fun k hk => (m2 k (Ext.isSome k0' hk)).trans (k0 k hk), step_of k0' k0'' (IsE.some ⟨_, he⟩) (k0 i (IsE.some ⟨_, he⟩)) m2 F, .dim he hl h3 k1 k2 k0a F m2 m3 (fun h => by cases h) (fun _ => hmk)⟩

/-! ### enumerated value containers -/

/-- The status and the declaration of a container change. -/
theorem lab_setEnum {d : SDevice} {g : Graph} {lab : Nat → Pos} {i : Nat} {e e' : ElemNode} {p : Parsed} (hw : WF g) (h : Lab d g lab)
    (he : g.elem? i = some e) (hl : e.level = .enumcont) (hl' : e'.level = .enumcont) (hp : NodeLab d (lab i) e' p) :
    Lab d (g.setElem i e') lab := by
  have hil : (g.node? i).isSome := IsE.some ⟨e, he⟩
  have hn := (setElem_wf (e := e') hw hil).2
  have hel : ∀ k, (g.setElem i e').elem? k = if k = i then some e' else g.elem? k := fun k => setElem_elem? hil
  generalize hg' : g.setElem i e' = g' at hn hel
  have hed : g'.edges = g.edges := by rw [← hg']; rfl
  obtain ⟨vc, vd, vp⟩ := edges_eq_view hed
  have hE : ∀ k, IsE g' k ↔ IsE g k := by
    intro k
    unfold IsE
    rw [hel]
    by_cases hk : k = i
    · subst hk; rw [if_pos rfl, he]; simp
    · rw [if_neg hk]
  have hP : ∀ k path, g'.node? k = some (.ph path) ↔ g.node? k = some (.ph path) := by
    intro k path
    rw [hn]
    by_cases hk : k = i
    · subst hk; rw [if_pos rfl, elem?_node?.1 he]; simp
    · rw [if_neg hk]
  have hIP : ∀ k, IsP g' k ↔ IsP g k := by intro k; unfold IsP; simp only [hP]
  constructor
  · obtain ⟨h0, e0, h1, h2⟩ := h.root
    refine ⟨h0, e0, ?_, h2⟩
    rw [hel, if_neg]
    · exact h1
    · intro h3
      rw [h3, he] at h1
      injection h1 with h1
      rw [← h1, hl] at h2
      cases h2
  · intro k x hk
    rw [hel] at hk
    by_cases hki : k = i
    · subst hki
      rw [if_pos rfl] at hk
      injection hk with hk
      subst hk
      exact ⟨p, hp⟩
    · rw [if_neg hki] at hk
      exact h.node k x hk
  · intro a b hc; rw [hE, hE]; exact h.tch _ _ ((vc _ _).1 hc)
  · intro a b hc; rw [hE, hE]; exact h.tde _ _ ((vd _ _).1 hc)
  · intro a b hc; rw [hE, hE, hIP, hIP]; exact h.tpl _ _ ((vp _ _).1 hc)
  · intro k x b hk hx
    rw [vc, vp]
    rw [hel] at hk
    by_cases hki : k = i
    · subst hki; exact h.leaf _ _ _ he hl
    · rw [if_neg hki] at hk
      exact h.leaf _ _ _ hk hx
  · intro a b hc; exact h.der _ _ ((vd _ _).1 hc)
  · intro a b path ha hc; exact h.ph _ _ _ ((hP _ _).1 ha) ((vp _ _).1 hc)
  · intro a k b hk h1 h2; exact h.phIn _ _ _ ((hIP _).1 hk) ((vp _ _).1 h1) ((vp _ _).1 h2)
  · intro k x _ hk hx
    rw [hel] at hk
    by_cases hki : k = i
    · subst hki
      rw [if_pos rfl] at hk
      injection hk with hk
      subst hk
      exact absurd hl' hx
    · rw [if_neg hki] at hk
      obtain ⟨l, h1, h2⟩ := h.cont k x id hk hx
      refine ⟨l, h1, fun c hc => h2.sub c ((vc _ _).1 hc), fun y hy => (h2.all y hy).imp id ?_⟩
      rintro ⟨c, ec, h3, h4, h5, h6⟩
      by_cases hci : c = i
      · subst hci
        exact ⟨c, e', (vc _ _).2 h3, by rw [hel, if_pos rfl], h5, Or.inr (Or.inl hl')⟩
      · refine ⟨c, ec, (vc _ _).2 h3, by rw [hel, if_neg hci]; exact h4, h5, ?_⟩
        by_cases hlv : ec.level = .enumcont
        · exact Or.inr (Or.inl hlv)
        · rcases h6 with h6 | h6 | ⟨l0, hs, h7, h8⟩
          · exact Or.inl h6
          · exact Or.inr (Or.inl h6)
          · refine Or.inr (Or.inr ⟨l0, hs, h7, fun x hx => ?_⟩)
            obtain ⟨j, h9, ej, h10, h11, h12⟩ := h8 x hx
            have hji : j ≠ i := by
              rintro rfl
              obtain ⟨p1, hp1⟩ := h.node _ _ h10
              obtain ⟨p2, hp2⟩ := h.node _ _ h4
              rw [h11] at hp1
              rw [h5] at hp2
              have := declAt_unique hp1.decl hp2.decl
              rw [he] at h10
              injection h10 with h10
              apply hlv
              rw [hp2.level, ← this, ← hp1.level, ← h10, hl]
            exact ⟨j, (vc _ _).2 h9, ej, by rw [hel, if_neg hji]; exact h10, h11, h12⟩

theorem descendants_leaf {d : SDevice} {g : Graph} {lab : Nat → Pos} (hw : WF g) (h : Lab d g lab) {b : Nat} {eb : ElemNode}
    (heb : g.elem? b = some eb) (hl : eb.level = .enumcont) : g.descendants b = [] := by
  refine List.eq_nil_iff_forall_not_mem.2 fun j hj => ?_
  obtain ⟨ed, h2, h3⟩ := conn_first ((mem_descendants hw).1 hj)
  obtain ⟨h2, h4⟩ := List.mem_filter.1 h2
  subst h3
  have hlf := fun c => h.leaf _ eb c heb hl
  obtain ⟨x, y, ty⟩ := ed
  cases ty with
  | childU => exact (hlf y).1 (Or.inl h2)
  | childR => exact (hlf y).1 (Or.inr h2)
  | placeholder => exact (hlf y).2 h2
  | derive => simp at h4

theorem replicate_nothing {ord : List Nat → List Nat} (hord : ∀ l, (ord l).Perm l) {g g' : Graph} {src tgt : Nat} {ws : List Warn}
    (hd : g.descendants src = []) (hr : g.replicateDescendants ord src tgt = .ok g' ws) : g' = g := by
  unfold Graph.replicateDescendants at hr
  rw [hd, (hord []).eq_nil] at hr
  simp only [Graph.replicateNodes, Graph.replicateEdges, M.bind_eq_ok, M.pure_eq_ok] at hr
  obtain ⟨⟨g1, m⟩, w1, w2, ⟨h1, -⟩, ⟨g2, w3, w4, ⟨h2, -⟩, h3, -⟩, -⟩ := hr
  injection h1 with h1 h1'
  subst h1 h2
  have hnil : ∀ l : List Edge, l.filter (fun _ => false) = [] := fun l => by simp [List.filter_eq_nil_iff]
  simp [hnil, Graph.addEdges] at h3
  exact h3.1.symm

theorem lab_processEnum {d : SDevice} {ord : List Nat → List Nat} (hord : ∀ l, (ord l).Perm l) {g g' : Graph} {lab : Nat → Pos}
    {i : Nat} {e : ElemNode} {bn : Option Nat} {w : List Warn} (hi : Inv d g) (h : Lab d g lab) (he : g.elem? i = some e)
    (hl : e.level = .enumcont)
    (hbase : (e.parsed.derivedFrom = none ∧ bn = none) ∨
       (∃ b eb, g.baseElementNode i = some b ∧ g.elem? b = some eb ∧ e.level = eb.level ∧ bn = some b))
    (hr : processEnumNode ord g i bn = .ok g' w) : Lab d g' lab ∧ LabStep d i g g' lab ∧ Advance d g lab i g' lab := by
  obtain ⟨p, hp⟩ := h.node i e he
  obtain ⟨c, rfl⟩ : ∃ c, p = .enum c := by
    have := hp.level
    rw [hl] at this
    cases p <;> first | exact ⟨_, rfl⟩ | cases this
  obtain ⟨hnm, c', hc', ht1, ht2⟩ := hp.enum c rfl
  have hil : (g.node? i).isSome := IsE.some ⟨e, he⟩
  unfold processEnumNode at hr
  simp only [he, M.bind_eq_ok] at hr
  obtain ⟨g1, w1, w2, h1, h2, -⟩ := hr
  rcases hbase with ⟨h3, rfl⟩ | ⟨b, eb, h3, h4, h5, rfl⟩
  · simp only [adoptBase, M.pure_eq_ok, adoptedParsed] at h1
    obtain ⟨rfl, -⟩ := h1
    rw [setElem_elem? hil, if_pos rfl] at h2
    simp only [M.pure_eq_ok] at h2
    obtain ⟨rfl, -⟩ := h2
    have hs : (g.setElem i e).setElem i { e with isProcessed := true } = g.setElem i { e with isProcessed := true } := by
      simp [Graph.setElem]
    have : ({ e with parsed := e.parsed } : ElemNode) = e := rfl
    rw [this, hs]
    refine ⟨?_, step_setElem he rfl, .enum he hl (e' := { e with isProcessed := true }) hl rfl (Or.inl rfl)⟩
    refine lab_setEnum hi.wf h he hl hl (p := .enum c) ⟨hp.decl, hp.level, fun h4 => absurd hl h4, ?_, fun h4 => by cases h4⟩
    intro c0 hc0
    injection hc0 with hc0
    subst hc0
    refine ⟨hnm, c', hc', fun _ => ?_, fun h4 => by cases h4⟩
    cases hx : e.isProcessed with
    | true => exact ht1 hx
    | false =>
      rw [ht2 hx]
      refine .own hp.decl ?_
      rw [hc', ht2 hx] at h3
      exact h3
  · have hde := baseElementNode_edge h3
    have href := h.der _ _ hde
    simp only [adoptedParsed, h4] at h1
    have hbl : eb.level = .enumcont := by rw [← h5]; exact hl
    obtain ⟨q, hq⟩ := h.node b eb h4
    obtain ⟨cq, rfl⟩ : ∃ c, q = .enum c := by
      have := hq.level
      rw [hbl] at this
      cases q <;> first | exact ⟨_, rfl⟩ | cases this
    obtain ⟨-, cb, hcb, hb1, hb2⟩ := hq.enum cq rfl
    have htk : Takes d (lab i) cb := by
      cases hx : eb.isProcessed with
      | true => exact .base href (hb1 hx)
      | false =>
        rw [hb2 hx]
        cases hdf : cq.derivedFrom with
        | none => exact .base href (.own hq.decl hdf)
        | some s => exact .unfinished href hq.decl (by rw [hdf]; simp)
    simp only [adoptBase, M.bind_eq_ok] at h1
    obtain ⟨g0, w3, w4, h6, h7, -⟩ := h1
    obtain ⟨rfl, -, -⟩ := removeEdge_ok h6
    have hw0 : WF { g with edges := eraseEdge b i g.edges } := hi.wf.of_eq rfl rfl fun e he => Or.inl (eraseEdge_sub he)
    have L0 := lab_erase h hde
    have hdesc : ({ g.setElem i { e with parsed := eb.parsed } with edges := eraseEdge b i (g.setElem i { e with parsed := eb.parsed }).edges } : Graph).descendants b = [] := by
      have := descendants_leaf hw0 L0 (b := b) (eb := eb) h4 hbl
      unfold Graph.descendants at this ⊢
      simpa [Graph.setElem] using this
    have hg1 := replicate_nothing hord hdesc h7
    subst hg1
    have hi1 : ({ g.setElem i { e with parsed := eb.parsed } with edges := eraseEdge b i (g.setElem i { e with parsed := eb.parsed }).edges } : Graph).elem? i = some { e with parsed := eb.parsed } := by
      have : (g.setElem i { e with parsed := eb.parsed }).elem? i = some { e with parsed := eb.parsed } := by
        rw [setElem_elem? hil, if_pos rfl]
      exact this
    rw [hi1] at h2
    simp only [M.pure_eq_ok] at h2
    obtain ⟨rfl, -⟩ := h2
    have hs : ({ g.setElem i { e with parsed := eb.parsed } with edges := eraseEdge b i (g.setElem i { e with parsed := eb.parsed }).edges } : Graph).setElem i
        { e with isProcessed := true, parsed := eb.parsed } =
        ({ g with edges := eraseEdge b i g.edges } : Graph).setElem i { e with isProcessed := true, parsed := eb.parsed } := by
      simp [Graph.setElem]
    rw [hs]
    refine ⟨?_, by
      have := step_setElem (d := d) (lab := lab) (g := { g with edges := eraseEdge b i g.edges }) (e' := { e with isProcessed := true, parsed := eb.parsed }) he rfl
      exact ⟨this.old, this.self, this.new⟩,
      .enum he hl (e' := { e with isProcessed := true, parsed := eb.parsed }) hl rfl (Or.inr ⟨b, hde, rfl⟩)⟩
    refine lab_setEnum hw0 L0 (e := e) he hl hl (p := .enum c) ⟨hp.decl, hp.level, fun h4 => absurd hl h4, ?_, fun h4 => by cases h4⟩
    intro c0 hc0
    injection hc0 with hc0
    subst hc0
    exact ⟨hnm, cb, hcb, fun _ => htk, fun h4 => by cases h4⟩

theorem lab_processNode {d : SDevice} {ord : List Nat → List Nat} (hord : ∀ l, (ord l).Perm l) {g g' : Graph} {lab : Nat → Pos}
    {i : Nat} {ws : List Warn} (hi : Inv d g) (hac : Acyclic g.edges) (h : Lab d g lab) (hr : processNode ord g i = .ok g' ws) :
    ∃ lab', Lab d g' lab' ∧ (∀ k, (g.node? k).isSome → lab' k = lab k) ∧ LabStep d i g g' lab' ∧ Advance d g lab i g' lab' := by
  obtain ⟨e, bn, bp, w, he, hdev, hbase, hcase⟩ := processNode_cases hr
  have hnode := hi.nodes.elem he
  rcases hcase with ⟨hen, hp⟩ | ⟨hen, hp⟩
  · have hl : e.level = .enumcont := by rw [hnode.2.1]; exact (isEnum_level _).1 hen
    suffices hb : _ by
      obtain ⟨h1, h2⟩ := lab_processEnum hord hi h he hl hb hp
      exact ⟨lab, h1, fun _ _ => rfl, h2⟩
    rcases hbase with ⟨h1, h2, -⟩ | ⟨path, b, eb, -, h2, h3, h4, h5, -, -⟩
    · exact Or.inl ⟨h1, h2⟩
    · exact Or.inr ⟨b, eb, h2, h3, h4, h5⟩
  · have hl : e.level ≠ .enumcont := by
      rw [hnode.2.1]; intro hh; rw [(isEnum_level _).2 hh] at hen; cases hen
    refine lab_processDim hord hi hac h he hdev hl ?_ hp
    rcases hbase with h1 | ⟨path, b, eb, h1, h2, h3, h4, h5, h6, h7⟩
    · exact Or.inl h1
    · refine Or.inr ⟨path, b, eb, h1, h2, h3, h4, h5, h6, ?_⟩
      rcases h7 with h7 | h7
      · rw [h7] at hen; cases hen
      · exact h7

/-- Every declared element has a node. -/
def Sur (d : SDevice) (g : Graph) (lab : Nat → Pos) : Prop := ∀ x p, DeclAt d x p → ∃ k, IsE g k ∧ lab k = x

theorem Sur.keeps {d : SDevice} {g g' : Graph} {lab lab' : Nat → Pos} (h : Sur d g lab) (hk : Keeps g g')
    (ha : ∀ k, (g.node? k).isSome → lab' k = lab k) : Sur d g' lab' := by
  intro x p hp
  obtain ⟨k, ⟨e, he⟩, h2⟩ := h x p hp
  obtain ⟨e', h3, -⟩ := hk k e he
  exact ⟨k, ⟨e', h3⟩, by rw [ha k (IsE.some ⟨e, he⟩), h2]⟩

/-- The state of the resolver between two steps. -/
structure LabState (d : SDevice) (g : Graph) : Prop where
  inv : Inv d g
  ac : Acyclic g.edges
  lab : ∃ lab, Lab d g lab ∧ Sur d g lab

theorem lab_processNodes {d : SDevice} {ord : List Nat → List Nat} (hord : ∀ l, (ord l).Perm l) {is : List Nat} : ∀ {g g' : Graph} {ws : List Warn},
    LabState d g → processNodes ord g is = .ok g' ws → LabState d g' := by
  induction is with
  | nil =>
    intro g g' ws h hr
    simp only [processNodes, M.pure_eq_ok] at hr
    obtain ⟨rfl, -⟩ := hr
    exact h
  | cons i is ih =>
    intro g g' ws h hr
    simp only [processNodes, M.bind_eq_ok] at hr
    obtain ⟨g1, w1, w2, h1, h2, -⟩ := hr
    obtain ⟨lab, hl, hsu⟩ := h.lab
    obtain ⟨lab', hl', ha, -⟩ := lab_processNode hord h.inv h.ac hl h1
    exact ih ⟨(inv_processNode h.inv h1).1, ac_processNode h.ac h1, lab', hl', hsu.keeps (keeps_processNode h.inv h1) ha⟩ h2

theorem lab_resolvePlaceholders {d : SDevice} {phs : List Nat} : ∀ {g g' : Graph} {ws : List Warn},
    LabState d g → resolvePlaceholders g phs = .ok g' ws → LabState d g' := by
  induction phs with
  | nil =>
    intro g g' ws h hr
    simp only [resolvePlaceholders, M.pure_eq_ok] at hr
    obtain ⟨rfl, -⟩ := hr
    exact h
  | cons i is ih =>
    intro g g' ws h hr
    simp only [resolvePlaceholders, M.bind_eq_ok] at hr
    obtain ⟨g1, w1, w2, h1, h2, -⟩ := hr
    obtain ⟨lab, hl, hsu⟩ := h.lab
    exact ih ⟨inv_resolvePlaceholder h.inv h1, ac_resolvePlaceholder h.ac h1, lab, lab_resolvePlaceholder h.inv hl h1,
      hsu.keeps (keeps_resolvePlaceholder h.inv.wf h1) fun _ _ => rfl⟩ h2

theorem lab_rounds {d : SDevice} {ord : List Nat → List Nat} (hord : ∀ l, (ord l).Perm l) {fuel : Nat} : ∀ {g g' : Graph} {prev : List Nat} {ws : List Warn},
    LabState d g → rounds ord fuel g prev = .ok g' ws → LabState d g' := by
  induction fuel with
  | zero => intro g g' prev ws h hr; simp [rounds] at hr
  | succ f ih =>
    intro g g' prev ws h hr
    simp only [rounds, M.bind_eq_ok] at hr
    obtain ⟨g1, w1, w2, h1, h2, -⟩ := hr
    have s1 := lab_resolvePlaceholders h h1
    split at h2
    · simp only [M.pure_eq_ok] at h2
      obtain ⟨rfl, -⟩ := h2
      exact s1
    · split at h2
      · simp at h2
      · simp only [M.bind_eq_ok] at h2
        obtain ⟨g2, w3, w4, h3, h4, -⟩ := h2
        exact ih (lab_processNodes hord s1 h3) h4

end Svd
