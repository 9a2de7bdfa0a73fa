import Verif.Lemmas.LabKinds
import Verif.Lemmas.FinStep
import Verif.Lemmas.RCS
/-
The finalisation of the labelled graph.
-/
namespace Svd
open Graph Spec

theorem entrywise_left' {α β : Type} {R : α → β → Prop} {xs : List α} {ys : List β} (h : Entrywise R xs ys) {x : α} (hx : x ∈ xs) :
    ∃ y ∈ ys, R x y := by
  induction h with
  | nil => cases hx
  | cons hr _ ih =>
    rcases List.mem_cons.1 hx with rfl | hx
    · exact ⟨_, List.mem_cons_self, hr⟩
    · obtain ⟨y, h1, h2⟩ := ih hx
      exact ⟨y, List.mem_cons_of_mem _ h1, h2⟩

/-- The labelled graph at the end. -/
structure LF (d : SDevice) (S : Pos → Pos → Prop) (g : Graph) (lab : Nat → Pos) : Prop where
  inv : Inv d g
  left : ∀ i c, De g i c → S (lab i) (lab c)
  lab : Lab d g lab
  done : ∀ i e, g.elem? i = some e → e.isProcessed = true
  nest : ∀ x y, Nested d x y → S x y
  same : ∀ x y, S x y → SameKind d x y

theorem butSize_refl (h : Processed) : ButSize h h := by
  cases h
  · exact .periph (s := _)
  · exact .clu (s := _)
  · exact .reg
  · exact .field

theorem butSize_level {h h' : Processed} (hb : ButSize h h') : procLevel h = procLevel h' := by cases hb <;> rfl

theorem butSize_withSize {h : Processed} (hl : procLevel h = .peripheral ∨ procLevel h = .cluster) (m : Int) : ButSize h (h.withSize m) := by
  cases h with
  | periph p => exact .periph
  | clu p => exact .clu
  | reg r => rcases hl with hl | hl <;> cases hl
  | field r => rcases hl with hl | hl <;> cases hl

variable {d : SDevice} {S : Pos → Pos → Prop} {g : Graph} {lab : Nat → Pos}

theorem LF.proc (F : LF d S g lab) {i : Nat} {e : ElemNode} (he : g.elem? i = some e) {h : Processed} (hp : e.processed = some h) :
    procLevel h = e.level := by
  have hn := F.inv.nodes.elem he
  obtain ⟨-, -, ch, hm⟩ := hn.2.2.2.1 h hp
  have := made_kind hm
  rw [hn.2.1]
  cases h <;> exact this.symm

theorem succ_view {i c : Nat} : c ∈ g.successors i ↔ Ch g i c ∨ De g i c ∨ Pl g i c := by
  rw [mem_successors]
  constructor
  · rintro ⟨e, h1, rfl, rfl⟩
    exact edge_view h1
  · rintro ((h | h) | h | h) <;> exact ⟨_, h, rfl, rfl⟩

/-- What the label of an element among the successors is. -/
theorem LF.kid (F : LF d S g lab) {i c : Nat} {l : List Pos} (hi : IsE g i) (hc : IsE g c) (hs : c ∈ g.successors i) (hl : Cont d g lab i l) :
    InChain d l (lab c) ∨ S (lab i) (lab c) := by
  rcases succ_view.1 hs with h | h | h
  · exact (hl.sub c h).imp id (F.nest _ _)
  · exact Or.inr (F.left _ _ h)
  · rcases F.lab.tpl _ _ h with ⟨-, h1⟩ | ⟨h1, -⟩
    · exact (isE_notP hc h1).elim
    · exact (isE_notP hi h1).elim

theorem stray_kind {x y : Pos} (h : Stray d x y) : SameKind d x y := by
  rcases h with h | h
  · exact nested_kind h
  · exact sameKind_symm (refers_kind h)

theorem LF.level (F : LF d S g lab) {i c : Nat} {e ec : ElemNode} (he : g.elem? i = some e) (hc : g.elem? c = some ec)
    (h : SameKind d (lab i) (lab c)) : e.level = ec.level := by
  obtain ⟨p, hp⟩ := F.lab.node _ _ he
  obtain ⟨q, hq⟩ := F.lab.node _ _ hc
  rw [hp.level, hq.level]
  exact sameKind_level h hp.decl hq.decl

/-- A child of another kind is declared in the chain. -/
theorem LF.kidIn (F : LF d S g lab) {i c : Nat} {l : List Pos} {e ec : ElemNode} (he : g.elem? i = some e) (hc : g.elem? c = some ec)
    (hs : c ∈ g.successors i) (hl : Cont d g lab i l) (hn : e.level ≠ ec.level) : InChain d l (lab c) := by
  rcases F.kid ⟨e, he⟩ ⟨ec, hc⟩ hs hl with h | h
  · exact h
  · exact absurd (F.level he hc (F.same _ _ h)) hn

/-- What is declared in the chain is there. -/
theorem LF.all (F : LF d S g lab) {i : Nat} {l : List Pos} {e : ElemNode} (he : g.elem? i = some e) (hch : Chain d (lab i) l)
    (hl : Cont d g lab i l) (hf : e.level ≠ .field) {y : Pos} (hy : InChain d l y) :
    (e.level = .cluster ∧ ∃ z ∈ l, Endless d z y) ∨
      ∃ hs, StandsAt d y hs ∧ ∀ h ∈ hs, ∃ j ∈ g.successors i, Live g lab y h j := by
  obtain ⟨p, hp⟩ := F.lab.node _ _ he
  rcases hl.all y hy with ⟨z, hz, hr⟩ | ⟨c, ec, h1, h2, h3, h4⟩
  · exact Or.inl ⟨by rw [hp.level]; exact inChain_refers hch hy hz hr.1 hp.decl, z, hz, hr⟩
  · right
    rcases h4 with h4 | h4 | ⟨l0, hs, h5, h6⟩
    · have := F.done _ _ h2
      rw [this] at h4
      cases h4
    · obtain ⟨q, hq⟩ := F.lab.node _ _ h2
      rw [h3] at hq
      have := inChain_kind hch hy hp.decl hq.decl
      rw [← hq.level, h4, ← hp.level] at this
      exact absurd (by revert this; cases e.level <;> simp [childKind]) hf
    · refine ⟨hs, standsAt_of h5, fun h hh => ?_⟩
      obtain ⟨j, h7, h8⟩ := h6 h hh
      exact ⟨j, succ_view.2 (Or.inl h7), h8⟩

/-! ### the state of the finalisation -/

structure GoodN (d : SDevice) (S : Pos → Pos → Prop) (lab : Nat → Pos) (s : FinState) (i : Nat) : Prop where
  field : ∀ x, PickOf s (pickField s) i x → FieldOf d (lab i) x
  rc : ∀ x, PickOf s (pickRC s) i x → RCS d S (lab i) x
  periph : ∀ x, PickOf s (pickPeripheral s) i x → PeriphS d S (lab i) x

theorem GoodN.congr {s s' : FinState} {i : Nat} (h : GoodN d S lab s i) (h1 : s'.g.elem? i = s.g.elem? i)
    (h2 : s'.content.lookup i = s.content.lookup i) : GoodN d S lab s' i := by
  obtain ⟨c1, c2, c3⟩ := pick_congr (s := s') (s' := s) h1.symm h2.symm
  exact ⟨fun x hx => h.field x (c1 x hx), fun x hx => h.rc x (c2 x hx), fun x hx => h.periph x (c3 x hx)⟩

structure NodeNow (e0 e : ElemNode) : Prop where
  level : e.level = e0.level
  parsed : e.parsed = e0.parsed
  tmpl : e.isDimTemplate = e0.isDimTemplate
  back : ∀ h, e.processed = some h → ∃ h0, e0.processed = some h0 ∧ ButSize h0 h
  proc : ∀ h0, e0.processed = some h0 → ∃ h, e.processed = some h ∧ ButSize h0 h

structure FL (d : SDevice) (S : Pos → Pos → Prop) (g : Graph) (lab : Nat → Pos) (done : List Nat) (s : FinState) : Prop where
  node : ∀ i e0, g.elem? i = some e0 → ∃ e, s.g.elem? i = some e ∧ NodeNow e0 e
  back : ∀ i e, s.g.elem? i = some e → ∃ e0, g.elem? i = some e0 ∧ NodeNow e0 e
  fresh : ∀ i, i ∉ done → s.g.elem? i = g.elem? i ∧ s.content.lookup i = none
  good : ∀ i ∈ done, live g i = true → GoodN d S lab s i
  root : ∀ ps, s.resolved = some ps → DeviceS d S ps

variable {done : List Nat} {s : FinState}

theorem NodeNow.self (e : ElemNode) : NodeNow e e :=
  ⟨rfl, rfl, rfl, fun h hh => ⟨h, hh, butSize_refl h⟩, fun h hh => ⟨h, hh, butSize_refl h⟩⟩

theorem FL.liveEq (I : FL d S g lab done s) (i : Nat) : live s.g i = live g i := by
  unfold live
  cases hg : g.elem? i with
  | some e0 =>
    obtain ⟨e, h1, h2⟩ := I.node i e0 hg
    simp only [h1, h2.tmpl]
  | none =>
    cases hs : s.g.elem? i with
    | none => rfl
    | some e =>
      obtain ⟨e0, h1, -⟩ := I.back i e hs
      rw [hg] at h1
      cases h1

/-- A live child is picked with its head. -/
theorem FL.pickLive (I : FL d S g lab done s) {j : Nat} {y : Pos} {h : Processed} (hl : Live g lab y h j) :
    live s.g j = true ∧ ∃ e h', s.g.elem? j = some e ∧ e.processed = some h' ∧ ButSize h h' := by
  obtain ⟨ej, h1, -, -, h2, h3⟩ := hl
  refine ⟨by rw [I.liveEq]; simp [live, h1, h2], ?_⟩
  obtain ⟨e, h4, h5⟩ := I.node _ _ h1
  obtain ⟨h', h6, h7⟩ := h5.proc h h3
  exact ⟨e, h', h4, h6, h7⟩

/-- The children picked at a node. -/
structure Picked {α : Type} (g : Graph) (s : FinState) (pick : Nat → Processed → M α) (i : Nat) (xs : List α) : Prop where
  sub : ∀ x ∈ xs, ∃ c ∈ g.successors i, live s.g c = true ∧ PickOf s pick c x
  all : ∀ c ∈ g.successors i, live s.g c = true → ∃ x ∈ xs, PickOf s pick c x

theorem picked_collect {α : Type} {pick : Nat → Processed → M α} {i : Nat} {xs ys : List α} {w : List Warn}
    (hp : ∀ c p y w, pick c p = .ok y w → w = []) (h : collect s pick (g.successors i) = .ok xs w) (hperm : ys.Perm xs) : Picked g s pick i ys := by
  obtain ⟨-, h1⟩ := collect_inv hp h
  refine ⟨fun x hx => ?_, fun c hc hl => ?_⟩
  · obtain ⟨c, h2, h3⟩ := entrywise_right h1 (hperm.mem_iff.1 hx)
    rw [List.mem_filter] at h2
    exact ⟨c, h2.1, h2.2, h3⟩
  · obtain ⟨x, h2, h3⟩ := entrywise_left' h1 (List.mem_filter.2 ⟨hc, hl⟩)
    exact ⟨x, hperm.mem_iff.2 h2, h3⟩

theorem pickRC_head {c : Nat} {y : IRC} (h : PickOf s (pickRC s) c y) : ∃ e, s.g.elem? c = some e ∧ e.processed = some (headOf y) := by
  obtain ⟨e, p, h1, h2, h3⟩ := h
  refine ⟨e, h1, ?_⟩
  cases p <;> simp [pickRC, M.throw, M.pure] at h3
  all_goals subst h3; exact h2

theorem pickField_head {c : Nat} {y : IField} (h : PickOf s (pickField s) c y) : ∃ e, s.g.elem? c = some e ∧ e.processed = some (.field y.hd) := by
  obtain ⟨e, p, h1, h2, h3⟩ := h
  refine ⟨e, h1, ?_⟩
  cases p <;> simp [pickField, M.throw, M.pure] at h3
  subst h3; exact h2

theorem pickPeripheral_head {c : Nat} {y : IPeripheral} (h : PickOf s (pickPeripheral s) c y) :
    ∃ e, s.g.elem? c = some e ∧ e.processed = some (.periph y.hd) := by
  obtain ⟨e, p, h1, h2, h3⟩ := h
  refine ⟨e, h1, ?_⟩
  cases p <;> simp [pickPeripheral, M.throw, M.pure] at h3
  subst h3; exact h2

/-- The level of an element with this head. -/
theorem FL.levelOf (F : LF d S g lab) (I : FL d S g lab done s) {c : Nat} {e : ElemNode} {h : Processed} (he : s.g.elem? c = some e)
    (hp : e.processed = some h) : ∃ e0, g.elem? c = some e0 ∧ e0.level = procLevel h := by
  obtain ⟨e0, h1, h2⟩ := I.back _ _ he
  obtain ⟨h0, h3, h4⟩ := h2.back _ hp
  exact ⟨e0, h1, by rw [← butSize_level h4, F.proc h1 h3]⟩

/-- Chain and head of a node. -/
theorem LF.chain (F : LF d S g lab) {i : Nat} {e : ElemNode} (he : g.elem? i = some e) (hl : e.level ≠ .enumcont) :
    ∃ l, Chain d (lab i) l ∧ Cont d g lab i l ∧ ∀ h, e.processed = some h → live g i = true → Spec.Instance d (lab i) l h := by
  obtain ⟨l, h1, h2⟩ := F.lab.cont i e id he hl
  refine ⟨l, h1.done (F.done _ _ he), h2, fun h hh hl' => ?_⟩
  obtain ⟨hs, h3, h4⟩ := h1.inst h hh (by simpa [live, he] using hl')
  exact ⟨hs, standsAlong_of h3, h4⟩

theorem good_reg (F : LF d S g lab) (I : FL d S g lab done s) {i : Nat} {e : ElemNode} {r : IRegisterHd} (he : g.elem? i = some e)
    (hp : e.processed = some (.reg r)) (V : ∀ c ∈ g.successors i, c ∈ done) (hlv : live g i = true) {fs : List IField} (P : Picked g s (pickField s) i fs) :
    RCS d S (lab i) (.reg r fs) := by
  have hlev := F.proc he hp
  obtain ⟨l, h1, h2, h3⟩ := F.chain he (by rw [← hlev]; simp [procLevel])
  refine .reg (h3 _ hp hlv) ⟨fun f hf => ?_, fun y hy => ?_⟩
  · obtain ⟨c, h4, h5, h6⟩ := P.sub f hf
    obtain ⟨ec, h7, h8⟩ := pickField_head h6
    obtain ⟨e0, h9, h10⟩ := I.levelOf F h7 h8
    refine ⟨lab c, F.kidIn he h9 h4 h2 (by rw [← hlev, h10]; simp [procLevel]), ?_⟩
    exact (I.good c (V c h4) (by rw [← I.liveEq]; exact h5)).field f h6
  · rcases F.all he h1 h2 (by rw [← hlev]; simp [procLevel]) hy with ⟨h4, -⟩ | ⟨hs, h4, h5⟩
    · rw [← hlev] at h4; cases h4
    · refine ⟨hs, h4, fun h hh => ?_⟩
      obtain ⟨j, h6, h7⟩ := h5 h hh
      obtain ⟨h8, ej, h', h9, h10, h11⟩ := I.pickLive h7
      obtain ⟨x, h12, h13⟩ := P.all j h6 h8
      obtain ⟨e', h14, h15⟩ := pickField_head h13
      rw [h9] at h14
      injection h14 with h14
      subst h14
      rw [h10] at h15
      injection h15 with h15
      subst h15
      have hg := (I.good j (V j h6) (by rw [← I.liveEq]; exact h8)).field x h13
      obtain ⟨-, -, hlabj, -⟩ := h7
      rw [hlabj] at hg
      cases h11
      exact ⟨x, h12, rfl, hg⟩

theorem foundIn_of (I : FL d S g lab done s) {i : Nat} (V : ∀ c ∈ g.successors i, c ∈ done) {ys : List IRC}
    (P : Picked g s (pickRC s) i ys) {z : Pos} {h : Processed} {j : Nat} (h6 : j ∈ g.successors i) (h7 : Live g lab z h j) : FoundS d S ys z h := by
  obtain ⟨h8, ej, h', h9, h10, h11⟩ := I.pickLive h7
  obtain ⟨x, h12, h13⟩ := P.all j h6 h8
  obtain ⟨e', h14, h15⟩ := pickRC_head h13
  rw [h9] at h14
  injection h14 with h14
  subst h14
  rw [h10] at h15
  injection h15 with h15
  subst h15
  have hg := (I.good j (V j h6) (by rw [← I.liveEq]; exact h8)).rc x h13
  obtain ⟨-, -, hlabj, -⟩ := h7
  rw [hlabj] at hg
  exact .intro h12 h11 hg

theorem good_clu (F : LF d S g lab) (I : FL d S g lab done s) {i : Nat} {e : ElemNode} {h0 : Processed} {c : IClusterHd} (he : g.elem? i = some e)
    (hp : e.processed = some h0) (hb : ButSize h0 (.clu c)) (V : ∀ c ∈ g.successors i, c ∈ done) (hlv : live g i = true) {ys : List IRC}
    (P : Picked g s (pickRC s) i ys) : RCS d S (lab i) (.clu c ys) := by
  have hlev : e.level = .cluster := by rw [← F.proc he hp, butSize_level hb]; rfl
  obtain ⟨l, h1, h2, h3⟩ := F.chain he (by rw [hlev]; simp)
  refine .clu (h3 _ hp hlv) hb (fun y hy => ?_) (fun z hz => ?_)
  · obtain ⟨k, h4, h5, h6⟩ := P.sub y hy
    obtain ⟨ek, h7, h8⟩ := pickRC_head h6
    obtain ⟨e0, h9, h10⟩ := I.levelOf F h7 h8
    exact .intro (F.kid ⟨e, he⟩ ⟨e0, h9⟩ h4 h2) ((I.good k (V k h4) (by rw [← I.liveEq]; exact h5)).rc y h6)
  · rcases F.all he h1 h2 (by rw [hlev]; simp) hz with ⟨-, w, hw, hr⟩ | ⟨hs, h4, h5⟩
    · exact .lost hw hr
    · refine .kept h4 fun h hh => ?_
      obtain ⟨j, h6, h7⟩ := h5 h hh
      exact foundIn_of I V P h6 h7

theorem headOf_level (y : IRC) : procLevel (headOf y) ≠ .peripheral := by cases y <;> simp [headOf, procLevel]

theorem good_periph (F : LF d S g lab) (I : FL d S g lab done s) {i : Nat} {e : ElemNode} {h0 : Processed} {q : IPeripheral} (he : g.elem? i = some e)
    (hp : e.processed = some h0) (hb : ButSize h0 (.periph q.hd)) (V : ∀ c ∈ g.successors i, c ∈ done) (hlv : live g i = true)
    (P : Picked g s (pickRC s) i q.rcs) : PeriphS d S (lab i) q := by
  have hlev : e.level = .peripheral := by rw [← F.proc he hp, butSize_level hb]; rfl
  obtain ⟨l, h1, h2, h3⟩ := F.chain he (by rw [hlev]; simp)
  refine ⟨l, h0, h3 _ hp hlv, hb, fun y hy => ?_, fun z hz => ?_⟩
  · obtain ⟨k, h4, h5, h6⟩ := P.sub y hy
    obtain ⟨ek, h7, h8⟩ := pickRC_head h6
    obtain ⟨e0, h9, h10⟩ := I.levelOf F h7 h8
    exact ⟨lab k, F.kidIn he h9 h4 h2 (by rw [hlev, h10]; exact (headOf_level y).symm),
      (I.good k (V k h4) (by rw [← I.liveEq]; exact h5)).rc y h6⟩
  · rcases F.all he h1 h2 (by rw [hlev]; simp) hz with ⟨h4, -⟩ | ⟨hs, h4, h5⟩
    · rw [hlev] at h4; cases h4
    · refine ⟨hs, h4, fun h hh => ?_⟩
      obtain ⟨j, h6, h7⟩ := h5 h hh
      exact foundIn_of I V P h6 h7

theorem good_dev (F : LF d S g lab) (I : FL d S g lab done s) {i : Nat} {e : ElemNode} (he : g.elem? i = some e)
    (hlev : e.level = .device) (V : ∀ c ∈ g.successors i, c ∈ done) {ps : List IPeripheral}
    (P : Picked g s (pickPeripheral s) i ps) : DeviceS d S ps := by
  obtain ⟨l, h1, h2, h3⟩ := F.chain he (by rw [hlev]; simp)
  obtain ⟨p, hpn⟩ := F.lab.node _ _ he
  have hpos := device_pos hpn.decl (by rw [← hpn.level]; exact hlev)
  rw [hpos] at h1
  have hl := device_chain h1
  subst hl
  have hin : ∀ y, InChain d [[]] y ↔ OwnChild d [] y := by
    intro y
    constructor
    · rintro ⟨z, hz, ho⟩
      simp only [List.mem_singleton] at hz
      exact hz ▸ ho
    · exact fun h => ⟨[], by simp, h⟩
  refine ⟨fun q hq => ?_, fun x hx => ?_⟩
  · obtain ⟨k, h4, h5, h6⟩ := P.sub q hq
    obtain ⟨ek, h7, h8⟩ := pickPeripheral_head h6
    obtain ⟨e0, h9, h10⟩ := I.levelOf F h7 h8
    exact ⟨lab k, (hin _).1 (F.kidIn he h9 h4 h2 (by rw [hlev, h10]; simp [procLevel])),
      (I.good k (V k h4) (by rw [← I.liveEq]; exact h5)).periph q h6⟩
  · rcases F.all he (by rw [hpos]; exact h1) h2 (by rw [hlev]; simp) ((hin x).2 hx) with ⟨h4, -⟩ | ⟨hs, h4, h5⟩
    · rw [hlev] at h4; cases h4
    · refine ⟨hs, h4, fun h hh => ?_⟩
      obtain ⟨j, h6, h7⟩ := h5 h hh
      obtain ⟨h8, ej, h', h9, h10, h11⟩ := I.pickLive h7
      obtain ⟨y, h12, h13⟩ := P.all j h6 h8
      obtain ⟨e', h14, h15⟩ := pickPeripheral_head h13
      rw [h9] at h14
      injection h14 with h14
      subst h14
      rw [h10] at h15
      injection h15 with h15
      subst h15
      have hg := (I.good j (V j h6) (by rw [← I.liveEq]; exact h8)).periph y h13
      obtain ⟨-, -, hlabj, -⟩ := h7
      rw [hlabj] at hg
      exact ⟨y, h12, h11, hg⟩

/-- The containers of a field. -/
theorem good_field (F : LF d S g lab) {i : Nat} {e : ElemNode} {f : IFieldHd} (he : g.elem? i = some e)
    (hp : e.processed = some (.field f)) (hlv : live g i = true) {ks : List IEnumContainer}
    (sub : ∀ k ∈ ks, ∃ c ∈ g.successors i, ∃ ec c' w, g.elem? c = some ec ∧ ec.parsed = .enum c' ∧ createContainer c' f.lsb f.msb = .ok k w)
    (all : ∀ c ∈ g.successors i, ∃ k ∈ ks, ∃ ec c' w, g.elem? c = some ec ∧ ec.parsed = .enum c' ∧ createContainer c' f.lsb f.msb = .ok k w)
    (usages : (ks.map (·.usage)).Nodup) (two : ks.length ≤ 2) (both : ks.length = 2 → ∀ k ∈ ks, k.usage = .read ∨ k.usage = .write) :
    FieldOf d (lab i) ⟨f, ks⟩ := by
  have hlev := F.proc he hp
  obtain ⟨l, h1, h2, h3⟩ := F.chain he (by rw [← hlev]; simp [procLevel])
  have takes : ∀ c ec c', g.elem? c = some ec → ec.parsed = .enum c' → ec.level = .enumcont ∧ Takes d (lab c) c' := by
    intro c ec c' hc hpc
    have hn := F.inv.nodes.elem hc
    have hlc : ec.level = .enumcont := by rw [hn.2.1, hpc]; rfl
    obtain ⟨q, hq⟩ := F.lab.node _ _ hc
    obtain ⟨c0, rfl⟩ : ∃ c0, q = .enum c0 := by
      have := hq.level
      rw [hlc] at this
      cases q <;> first | exact ⟨_, rfl⟩ | cases this
    obtain ⟨-, c1, h4, h5, -⟩ := hq.enum c0 rfl
    rw [hpc] at h4
    injection h4 with h4
    subst h4
    exact ⟨hlc, h5 (F.done _ _ hc)⟩
  refine ⟨l, h3 _ hp hlv, ⟨fun k hk => ?_, fun y hy => ?_, usages, two, both⟩⟩
  · obtain ⟨c, hc, ec, c', w, h4, h5, h6⟩ := sub k hk
    obtain ⟨h7, h8⟩ := takes c ec c' h4 h5
    exact ⟨lab c, c', w, F.kidIn he h4 hc h2 (by rw [← hlev, h7]; simp [procLevel]), h8, h6⟩
  · obtain ⟨p, hpn⟩ := F.lab.node _ _ he
    rcases h2.all y hy with ⟨z, hz, hr⟩ | ⟨c, ec, h4, h5, h6, -⟩
    · have := inChain_refers h1 hy hz hr.1 hpn.decl
      rw [← hpn.level, ← hlev] at this
      cases this
    · obtain ⟨k, hk, ec', c', w, h7, h8, h9⟩ := all c (succ_view.2 (Or.inl h4))
      obtain ⟨-, h10⟩ := takes c ec' c' h7 h8
      rw [h6] at h10
      exact ⟨k, hk, c', w, h10, h9⟩

end Svd
