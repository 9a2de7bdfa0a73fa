import Verif.Lemmas.Few
/-
Which exceptions can leave the finalisation, whatever the description.
-/
namespace Svd
open Graph Spec M

/-! ### finalisation -/

theorem ksat_procOf (g : Graph) (i : Nat) : KSat (procOf g i) := by unfold procOf; sats
theorem ksat_templateOf (g : Graph) (i : Nat) : KSat (templateOf g i) := by unfold templateOf; sats
theorem ksat_collect {α : Type} (s : FinState) (pick : Nat → Processed → M α) (hp : ∀ i p, KSat (pick i p))
    (cs : List Nat) : KSat (collect s pick cs) := by
  refine sat_filterMapM fun i _ => sat_bind (ksat_templateOf _ _) fun t => ?_
  split
  · exact sat_pure _
  · exact sat_bind (ksat_procOf _ _) fun _ => sat_bind (hp _ _) fun _ => sat_pure _
theorem ksat_finalizeFieldNode (s : FinState) (i : Nat) (cs : List Nat) : KSat (finalizeFieldNode s i cs) := by
  refine sat_bind (ksat_procOf _ _) fun p => ?_
  split
  · refine sat_bind (sat_mapM fun c _ => ?_) fun _ => ?_
    · split
      · exact sat_throw trivial
      · split
        · exact ksat_createContainer _ _ _
        · exact sat_throw trivial
    · dsimp only; sats
  · exact sat_throw trivial

theorem procLevel_withSize (x : Processed) (z : Int) : procLevel (x.withSize z) = procLevel x := by cases x <;> rfl

/-- What finalisation needs to know about kinds. -/
structure Ranked (g : Graph) : Prop where
  rcs : ∀ a b ea eb, b ∈ g.successors a → g.elem? a = some ea → g.elem? b = some eb → ea.level = .peripheral ∨ ea.level = .cluster →
    eb.level = .cluster ∨ eb.level = .register
  kind : ∀ i e x, g.elem? i = some e → e.processed = some x → procLevel x = e.level
  rank : ∀ a b ea eb, a ∈ g.elementParents b → g.elem? a = some ea → g.elem? b = some eb →
    kindRank ea.level < kindRank eb.level ∨ (ea.level = .cluster ∧ eb.level = .cluster)

theorem ksat_parentSize {g : Graph} (R : Ranked g) {f : Nat} : ∀ {i : Nat} {e : ElemNode}, g.elem? i = some e → kindRank e.level ≤ 3 →
    KSat (parentSize g f i) := by
  induction f with
  | zero => intro i e _ _; exact sat_throw trivial
  | succ f ih =>
    intro i e he hk
    rw [parentSize]
    split
    · exact sat_pure _
    · rename_i p ps heq
      split
      · exact sat_pure _
      · refine sat_bind' (ksat_procOf _ _) fun x w hx => ?_
        obtain ⟨ep, h1, h2, -⟩ := procOf_ok hx
        have h3 := R.kind p ep x h1 h2
        have h4 := R.rank p i ep e (by rw [heq]; simp) h1 he
        have h5 : kindRank ep.level < 3 := by
          rcases h4 with h4 | ⟨h4, -⟩
          · omega
          · rw [h4]; decide
        rw [← h3] at h5
        cases x with
        | periph h => dsimp only; split; exact sat_pure _; exact ih h1 (by rw [← h3]; simp [procLevel, kindRank])
        | clu h => dsimp only; split; exact sat_pure _; exact ih h1 (by rw [← h3]; simp [procLevel, kindRank])
        | reg h => simp [procLevel, kindRank] at h5
        | field h => simp [procLevel, kindRank] at h5

theorem ksat_calculateSize {g : Graph} (R : Ranked g) (cs : List Nat)
    (hcs : ∀ c ∈ cs, ∀ e, g.elem? c = some e → e.level = .cluster ∨ e.level = .register) : KSat (calculateSize g cs) := by
  refine sat_bind (sat_filterMapM fun i hi => ?_) fun _ => by sats
  unfold childSize
  refine sat_bind' (ksat_procOf _ _) fun p w hp => ?_
  obtain ⟨e, h1, h2, -⟩ := procOf_ok hp
  have h3 := R.kind i e p h1 h2
  have key : ∀ size : Option Int, kindRank (procLevel p) ≤ 3 → KSat (M.bind (templateOf g i) fun t =>
      if t then M.pure none
      else match size with
        | some s => M.pure (some (if s % 8 ≠ 0 then 0 else s))
        | none => M.bind (parentSize g (g.nodes.length + 1) i) fun s => M.pure (some s)) := by
    intro size hk
    refine sat_bind (ksat_templateOf _ _) fun t => ?_
    split
    · exact sat_pure _
    · split
      · exact sat_pure _
      · exact sat_bind (ksat_parentSize R h1 (by rw [← h3]; exact hk)) fun _ => sat_pure _
  cases p with
  | reg r => exact sat_bind (sat_pure _) fun s => key s (by simp [procLevel, kindRank])
  | clu r => exact sat_bind (sat_pure _) fun s => key s (by simp [procLevel, kindRank])
  | periph r =>
    exfalso
    rcases hcs i hi e h1 with h | h <;> rw [h] at h3 <;> cases h3
  | field r =>
    exfalso
    rcases hcs i hi e h1 with h | h <;> rw [h] at h3 <;> cases h3

theorem ksat_finalizeContainerNode {s : FinState} (R : Ranked s.g) (i : Nat) (e : ElemNode) (cs : List Nat)
    (hcs : ∀ c ∈ cs, ∀ e, s.g.elem? c = some e → e.level = .cluster ∨ e.level = .register) :
    KSat (finalizeContainerNode s i e cs) := by
  refine sat_bind (ksat_procOf _ _) fun _ => sat_bind (ksat_calculateSize R _ hcs) fun _ =>
    sat_bind (ksat_collect _ _ (fun i p => ?_) _) fun _ => sat_pure _
  unfold pickRC; sats

theorem ksat_finalizeNode {s : FinState} (R : Ranked s.g) (i : Nat) (cs : List Nat) (hcs : ∀ c ∈ cs, c ∈ s.g.successors i) :
    KSat (finalizeNode s i cs) := by
  unfold finalizeNode
  split
  · exact sat_throw trivial
  · rename_i e he
    split
    · exact sat_pure _
    · split
      · refine sat_bind (ksat_collect _ _ (fun i p => ?_) _) fun _ => sat_pure _
        unfold pickPeripheral; sats
      · rename_i hl
        exact ksat_finalizeContainerNode R _ _ _ fun c hc eb hb => R.rcs i c e eb (hcs c hc) he hb (Or.inl hl)
      · rename_i hl
        exact ksat_finalizeContainerNode R _ _ _ fun c hc eb hb => R.rcs i c e eb (hcs c hc) he hb (Or.inr hl)
      · refine sat_bind (ksat_procOf _ _) fun _ => sat_bind (ksat_collect _ _ (fun i p => ?_) _) fun _ => sat_pure _
        unfold pickField; sats
      · exact ksat_finalizeFieldNode _ _ _
      · exact sat_throw trivial

/-- The kinds of elements that have each other. -/
theorem hasChild_kind {d : SDevice} {x y : Pos} {p q : Parsed} (hp : DeclAt d x p) (hq : DeclAt d y q) : HasChild d x y → childKind p.level q.level = true
  | .own h => ownChild_kind h hp hq
  | .inherited h1 h2 => by
    obtain ⟨p', q', hp', hq', -⟩ := id (refers_kind h1)
    rw [sameKind_level (refers_kind h1) hp hq']
    exact hasChild_kind hq' hq h2
  | .nested h => by
    have h1 := sameKind_level (nested_kind h) hp hq
    obtain ⟨p', q', hp', hq', hk⟩ := nested_deeper h
    rw [declAt_unique hp' hp, declAt_unique hq' hq, h1] at hk
    rcases hk with hk | ⟨-, hk⟩
    · omega
    · rw [h1, hk]; rfl

theorem ch_kind {d : SDevice} {g : Graph} {lab : Nat → Pos} (A : LabAt d g lab) {a b : Nat} {ea eb : ElemNode} (ha : g.elem? a = some ea)
    (hb : g.elem? b = some eb) (h : Ch g a b) : childKind ea.level eb.level = true := by
  obtain ⟨p, hp⟩ := A.lab.node a ea ha
  obtain ⟨q, hq⟩ := A.lab.node b eb hb
  rw [hp.level, hq.level]
  exact hasChild_kind hp.decl hq.decl (A.lab.hasChild h id)

theorem tame_periph (d : SDevice) : Tame d (· = .peripheral) := by
  constructor
  · intro x b p hp hl hr hc
    obtain ⟨p', q', hp', hq', -⟩ := id (refers_kind hr)
    have h1 := sameKind_level (refers_kind hr) hp hq'
    have h2 := hasChild_kind hq' hp hc
    rw [← h1, hl] at h2
    cases h2
  · intro x b y q hr hi hq hl
    exfalso
    obtain ⟨p', q', hp', hq', hk⟩ := inside_deeper hi
    obtain ⟨p, hp, hd⟩ := refers_nonempty hr
    have h1 := sameKind_level (refers_kind hr) hp hp'
    rw [declAt_unique hq' hq, hl, ← h1] at hk
    rcases hk with hk | ⟨-, hk⟩
    · cases p <;> simp [Parsed.level, kindRank] at hk
      exact hd rfl
    · cases hk

theorem ksat_finalizeProcessing {d : SDevice} {g : Graph} (S : Sound d g) (F : Few (· = .peripheral) g)
    (hall : ∀ i e, g.elem? i = some e → e.isProcessed = true) : KSat (finalizeProcessing g) := by
  obtain ⟨⟨lab, A⟩, -, -⟩ := S
  have ranked : ∀ s : FinState, FinInv d (fun _ => True) g s → s.g.edges = g.edges → Ranked s.g := by
    intro s F' hs
    constructor
    · intro a b ea eb hab hea heb hl
      obtain ⟨ea0, h1, o1, rfl, -⟩ := F'.nodes a ea hea
      obtain ⟨eb0, h2, o2, rfl, -⟩ := F'.nodes b eb heb
      dsimp only at hl ⊢
      obtain ⟨⟨x, y, ty⟩, h3, h4, h5⟩ := mem_successors.1 hab
      dsimp only at h4 h5
      subst h4 h5
      rw [hs] at h3
      have hch : Ch g x y → eb0.level = .cluster ∨ eb0.level = .register := by
        intro h
        have := ch_kind A h1 h2 h
        rcases hl with hl | hl <;> rw [hl] at this <;> revert this <;> cases eb0.level <;> simp [childKind]
      cases ty with
      | childU => exact hch (Or.inl h3)
      | childR => exact hch (Or.inr h3)
      | derive =>
        obtain ⟨s', t, hs', ht, hE⟩ := A.inv.edges _ h3
        obtain ⟨es, ed, rfl, rfl, hlev, -⟩ := hE
        dsimp only at hs' ht
        rw [elem?_node?] at h1 h2
        rw [h1] at hs'
        rw [h2] at ht
        injection hs' with hs'
        injection ht with ht
        injection hs' with hs'
        injection ht with ht
        subst hs' ht
        rcases hl with hl | hl
        · exfalso
          rw [hlev] at hl
          have := (F y eb0 (elem?_node?.2 h2) hl).2 (hall _ _ (elem?_node?.2 h2))
          rw [List.eq_nil_iff_forall_not_mem] at this
          exact this _ (mem_waitE.2 ⟨h3, rfl, Or.inl rfl⟩)
        · rw [← hlev, hl]; exact Or.inl rfl
      | placeholder =>
        exfalso
        rcases A.lab.tpl _ _ h3 with h | h
        · exact isE_notP ⟨_, h2⟩ h.2
        · exact isE_notP ⟨_, h1⟩ h.1
    · intro i e x he hx
      obtain ⟨e0, h0, o, rfl, h1⟩ := F'.nodes i e he
      have hn := A.inv.nodes.elem h0
      have key : ∀ y, e0.processed = some y → procLevel y = e0.level := by
        intro y hy
        obtain ⟨-, -, ch, hm⟩ := hn.2.2.2.1 y hy
        have := made_kind hm
        rw [hn.2.1]
        cases y <;> exact this.symm
      simp only at hx ⊢
      rcases h1 with h1 | ⟨-, y, z, h2, h3⟩
      · exact key x (h1 ▸ hx)
      · rw [h3] at hx
        injection hx with hx
        rw [← hx, procLevel_withSize]
        exact key y h2
    · intro a b ea eb hab hea heb
      obtain ⟨ea0, h1, o1, rfl, -⟩ := F'.nodes a ea hea
      obtain ⟨eb0, h2, o2, rfl, -⟩ := F'.nodes b eb heb
      obtain ⟨ed, h3, h4, h5, h6, -⟩ := elementParents_edge hab
      rw [hs] at h3
      obtain ⟨ea', eb', h7, h8, h9⟩ := ch_rank A (ch_iff.2 ⟨ed, h3, h4, h5, h6⟩)
      rw [h1] at h7
      rw [h2] at h8
      injection h7 with h7
      injection h8 with h8
      subst h7 h8
      exact h9
  have key : ∀ (f : Nat) (q done : List Nat) (s : FinState), FinInv d (fun _ => True) g s → s.g.edges = g.edges → KSat (bottomUp g f q done s) := by
    intro f
    induction f with
    | zero => intro q done s _ _; cases q <;> first | exact sat_pure _ | exact sat_throw trivial
    | succ f ih =>
      intro q done s F' hs
      cases q with
      | nil => exact sat_pure _
      | cons i q =>
        rw [bottomUp_cons]
        refine sat_bind' ?_ fun s1 w h1 => ?_
        · unfold visit
          split
          · exact sat_pure _
          · rename_i c cs hsuc
            refine ksat_finalizeNode (ranked s F' hs) _ _ fun x hx => ?_
            rw [← hsuc, mem_successors] at hx
            rw [mem_successors, hs]
            exact hx
        · unfold visit at h1
          split at h1
          · rw [M.pure_eq_ok] at h1; rw [← h1.1]; exact ih _ _ _ F' hs
          · exact ih _ _ _ (finalizeNode_inv F' A.inv.nodes h1 fun _ _ => trivial) (by rw [finalizeNode_edges h1]; exact hs)
  refine key _ _ _ _ ⟨?_, ?_, ?_⟩ rfl
  · intro i e he
    exact ⟨e, he, e.processed, rfl, Or.inl rfl⟩
  · intro i c hc
    simp at hc
  · intro ps hps
    simp at hps

/-- The exceptions of the resolution. -/
theorem ksat_resolvePeripherals {d : SDevice} {ord : List Nat → List Nat} (hord : ∀ l, (ord l).Perm l) (fuel : Nat) :
    KSat (resolvePeripherals ord fuel d) := by
  unfold resolvePeripherals
  obtain ⟨g0, h0, -, -⟩ := initialization_total d
  refine sat_bind' (ksat_ex ⟨_, h0⟩) fun g0 w0 h0 => ?_
  have S0 := sound_initialization h0
  refine sat_bind' (ksat_rounds hord S0) fun g w h1 => ?_
  have S := sound_rounds hord S0 h1
  split
  · exact sat_bind (ksat_unresolvedInfo S) fun _ => sat_throw trivial
  · rename_i hun
    have F := few_rounds (tame_periph d) hord S0 (few_initialization (by simp) h0) h1
    refine sat_bind (ksat_finalizeProcessing S F ?_) fun s => ?_
    · intro i e he
      cases hp : e.isProcessed with
      | true => rfl
      | false =>
        exfalso
        apply hun
        intro hnil
        have := unprocessed_iff.2 ⟨e, he, hp⟩
        rw [hnil] at this
        cases this
    sats

end Svd
