import Verif.Lemmas.FullGraph
/-
The resolved device is what the description says, with sizes.
-/
namespace Svd
open Graph Spec

variable {d : SDevice} {g : Graph} {lab : Nat → Pos} {s : FinState} {i : Nat}
variable {cls : Nat → Nat} {E : Nat → Int} {hgt : Nat → Nat} {S : Nat → Int}

theorem Ended.kid (X : Ended d g lab cls E hgt S s) {c : Nat} {e ec : ElemNode} {l : List Pos} (he : g.elem? i = some e) (hc : g.elem? c = some ec)
    (hs : c ∈ g.successors i) (hl : Cont d g lab i l) : InChain d l (lab c) :=
  ((X.tidy.lf X.acyclic).kid ⟨e, he⟩ ⟨ec, hc⟩ hs hl).resolve_right (not_nested X.acyclic)

theorem Ended.all (X : Ended d g lab cls E hgt S s) {e : ElemNode} {l : List Pos} (he : g.elem? i = some e) (hch : Chain d (lab i) l)
    (hl : Cont d g lab i l) (hf : e.level ≠ .field) {y : Pos} (hy : InChain d l y) :
    ∃ hs, StandsAt d y hs ∧ ∀ h ∈ hs, ∃ j ∈ g.successors i, Live g lab y h j := by
  rcases (X.tidy.lf X.acyclic).all he hch hl hf hy with ⟨-, z, -, h⟩ | h
  · exact (not_endless X.acyclic h.1 (.one h.2)).elim
  · exact h

theorem Ended.picked (X : Ended d g lab cls E hgt S s) {c : Nat} {es : ElemNode} {h : Processed} (hc : s.g.elem? c = some es) (hp : es.processed = some h) :
    ∃ e0 h0, g.elem? c = some e0 ∧ e0.processed = some h0 ∧ headIn g (fun _ => True) S c e0.processed = some h ∧ ButSize h0 h := by
  obtain ⟨done, I, -⟩ := X.fl
  obtain ⟨e0, h1, h2⟩ := I.back _ _ hc
  obtain ⟨h0, h3, h4⟩ := h2.back _ hp
  refine ⟨e0, h0, h1, h3, ?_, h4⟩
  have h5 := X.elem c e0 h1
  rw [hc] at h5
  injection h5 with h5
  subst h5
  exact hp

theorem Ended.field (X : Ended d g lab cls E hgt S s) {c : Nat} {f : IField} (hl : live g c = true) (h : PickOf s (pickField s) c f) : FieldOf d (lab c) f := by
  obtain ⟨done, I, hd⟩ := X.fl
  obtain ⟨e, he, -⟩ := live_elem hl
  exact (I.good c (hd c e he) hl).field f h

theorem Ended.reg (X : Ended d g lab cls E hgt S s) {r : IRegisterHd} {fs : List IField} {encl : Int} (hlv : live g i = true) (h : PickOf s (pickRC s) i (.reg r fs)) :
    RCFull d encl (lab i) (.reg r fs) := by
  obtain ⟨es, h1, h2⟩ := pickRC_head h
  obtain ⟨e0, h0, h3, h4, h5, h6⟩ := X.picked h1 h2
  have F := X.tidy.lf X.acyclic
  obtain ⟨done, I, hd⟩ := X.fl
  cases h6
  have hlev := F.proc h3 h4
  obtain ⟨l, c1, c2, c3⟩ := F.chain h3 (by rw [← hlev]; simp [procLevel])
  obtain ⟨e', p', q1, q2, q3⟩ := id h
  have hfs : fs = s.fields i := by
    cases p' <;> simp [pickRC, M.throw, M.pure] at q3
    exact q3.2.symm
  subst hfs
  obtain ⟨P, hs⟩ := (X.cont i e0 h3 hlv).fields hlev.symm
  refine .reg (c3 _ h4 hlv) ⟨fun f hf => ?_, fun y hy => ?_⟩ hs
  · obtain ⟨c, k1, k2, k3⟩ := P.sub f hf
    obtain ⟨ec, k4, k5⟩ := pickField_head k3
    obtain ⟨e1, -, k6, -⟩ := X.picked k4 k5
    exact ⟨lab c, X.kid h3 k6 k1 c2, X.field (by rw [← I.liveEq]; exact k2) k3⟩
  · obtain ⟨hs, k1, k2⟩ := X.all h3 c1 c2 (by rw [← hlev]; simp [procLevel]) hy
    refine ⟨hs, k1, fun h hh => ?_⟩
    obtain ⟨j, k3, k4⟩ := k2 h hh
    obtain ⟨k5, ej, h', k6, k7, k8⟩ := I.pickLive k4
    obtain ⟨x, k9, k10⟩ := P.all j k3 k5
    obtain ⟨e', k11, k12⟩ := pickField_head k10
    rw [k6] at k11
    cases k11
    rw [k7] at k12
    cases k12
    have hg := X.field (by rw [← I.liveEq]; exact k5) k10
    obtain ⟨-, -, hlabj, -⟩ := k4
    rw [hlabj] at hg
    cases k8
    exact ⟨x, k9, rfl, hg⟩

/-- The content of a peripheral or cluster. -/
theorem Ended.content (X : Ended d g lab cls E hgt S s) {e0 : ElemNode} {encl : Int} {l : List Pos} (h3 : g.elem? i = some e0) (hlv : live g i = true)
    (hl : e0.level = .peripheral ∨ e0.level = .cluster) (c1 : Chain d (lab i) l) (c2 : Cont d g lab i l)
    (hE : BoxLike g i → E i = (size0 g i).getD encl)
    (ih : BoxLike g i → ∀ c ∈ g.successors i, live g c = true → ∀ y, PickOf s (pickRC s) c y → RCFull d (E i) (lab c) y) :
    (∀ y ∈ s.rcs i, MemberFull d ((size0 g i).getD encl) l y) ∧ (∀ z, InChain d l z → KeptFull d ((size0 g i).getD encl) (s.rcs i) z) ∧
    SortedBy ircKey (s.rcs i) := by
  obtain ⟨P, hs⟩ := (X.cont i e0 h3 hlv).rcs hl
  obtain ⟨done, I, hd⟩ := X.fl
  have bl : ∀ c, c ∈ g.successors i → BoxLike g i := fun c hc => ⟨⟨e0, h3, hl⟩, fun h => by rw [h] at hc; cases hc⟩
  refine ⟨fun y hy => ?_, fun z hz => ?_, hs⟩
  · obtain ⟨c, k1, k2, k3⟩ := P.sub y hy
    obtain ⟨ec, k4, k5⟩ := pickRC_head k3
    obtain ⟨e1, -, k6, -⟩ := X.picked k4 k5
    have := ih (bl c k1) c k1 (by rw [← I.liveEq]; exact k2) y k3
    rw [hE (bl c k1)] at this
    exact .intro (X.kid h3 k6 k1 c2) this
  · obtain ⟨hs, k1, k2⟩ := X.all h3 c1 c2 (by rcases hl with h | h <;> rw [h] <;> simp) hz
    refine .intro k1 fun h hh => ?_
    obtain ⟨j, k3, k4⟩ := k2 h hh
    obtain ⟨k5, ej, h', k6, k7, k8⟩ := I.pickLive k4
    obtain ⟨x, k9, k10⟩ := P.all j k3 k5
    obtain ⟨e', k11, k12⟩ := pickRC_head k10
    rw [k6] at k11
    cases k11
    rw [k7] at k12
    cases k12
    have := ih (bl j k3) j k3 (by rw [← I.liveEq]; exact k5) x k10
    rw [hE (bl j k3)] at this
    obtain ⟨-, -, hlabj, -⟩ := k4
    rw [hlabj] at this
    exact .intro k9 k8 this

theorem Ended.rc (X : Ended d g lab cls E hgt S s) : ∀ (n i a : Nat) (y : IRC), hgt i = n → live g i = true → BoxLike g a → i ∈ g.successors a →
    PickOf s (pickRC s) i y → RCFull d (E a) (lab i) y := by
  intro n
  induction n using Nat.strongRecOn with
  | ind n ih =>
    intro i a y hn hlv ha hai h
    cases y with
    | reg r fs => exact X.reg hlv h
    | clu c ys =>
      obtain ⟨es, h1, h2⟩ := pickRC_head h
      obtain ⟨e0, h0, h3, h4, h5, -⟩ := X.picked h1 h2
      have F := X.tidy.lf X.acyclic
      obtain ⟨hd, rfl, hc⟩ := headIn_clu X h3 hlv h4 h5
      have hlev := F.proc h3 h4
      obtain ⟨e', p', q1, q2, q3⟩ := id h
      have hys : ys = s.rcs i := by
        cases p' <;> simp [pickRC, M.throw, M.pure] at q3
        exact q3.2.symm
      subst hys
      obtain ⟨l, c1, c2, c3⟩ := F.chain h3 (by rw [← hlev]; simp [procLevel])
      have hE : BoxLike g i → E i = (size0 g i).getD (E a) := fun hi => X.co.encl ha hi hai
      obtain ⟨m1, m2, m3⟩ := X.content h3 hlv (Or.inr hlev.symm) c1 c2 hE
        (fun hi c hc hl y hy => ih (hgt c) (by rw [← hn]; exact X.co.hgtU i c hc) c i y rfl hl hi hc hy)
      have hz := X.sized h3 hlv (Or.inr hlev.symm) hE
      rw [size0_eq h3 h4] at m1 m2 hz hc
      subst hc
      exact .clu (c3 _ h4 hlv) m1 m2 m3 hz

theorem Ended.periph (X : Ended d g lab cls E hgt S s) {a : Nat} {ea : ElemNode} {q : IPeripheral} (hlv : live g i = true) (ha : g.elem? a = some ea) (hla : ea.level = .device)
    (hai : i ∈ g.successors a) (h : PickOf s (pickPeripheral s) i q) : PeriphFull d (lab i) q := by
  obtain ⟨es, h1, h2⟩ := pickPeripheral_head h
  obtain ⟨e0, h0, h3, h4, h5, -⟩ := X.picked h1 h2
  have F := X.tidy.lf X.acyclic
  obtain ⟨hd, rfl, hc⟩ := headIn_periph X h3 hlv h4 h5
  have hlev := F.proc h3 h4
  obtain ⟨e', p', q1, q2, q3⟩ := id h
  have hys : q.rcs = s.rcs i := by
    cases p' <;> simp [pickPeripheral, M.throw, M.pure] at q3
    rw [← q3]
  obtain ⟨l, c1, c2, c3⟩ := F.chain h3 (by rw [← hlev]; simp [procLevel])
  have hE : BoxLike g i → E i = (size0 g i).getD 32 := fun hi => X.co.enclP ha hla hi hai
  obtain ⟨m1, m2, m3⟩ := X.content h3 hlv (Or.inl hlev.symm) c1 c2 hE
    (fun hi c hc hl y hy => X.rc (hgt c) c i y rfl hl hi hc hy)
  have hz := X.sized h3 hlv (Or.inl hlev.symm) hE
  rw [← hys] at m1 m2 m3 hz
  rw [size0_eq h3 h4] at m1 m2 hz hc
  exact ⟨l, hd, _, c3 _ h4 hlv, hc, m1, m2, m3, hz⟩

theorem Ended.device (X : Ended d g lab cls E hgt S s) {ps : List IPeripheral} (h : s.resolved = some ps) : DeviceFull d ps := by
  have F := X.tidy.lf X.acyclic
  obtain ⟨P, hsort⟩ := X.root ps h
  obtain ⟨hpos, e, he, hlev⟩ := X.tidy.at_.lab.root
  obtain ⟨done, I, hd⟩ := X.fl
  obtain ⟨l, h1, h2, -⟩ := F.chain he (by rw [hlev]; simp)
  rw [hpos] at h1
  have hl := device_chain h1
  subst hl
  have hin : ∀ y, InChain d [[]] y ↔ OwnChild d [] y := by
    intro y
    constructor
    · rintro ⟨z, hz, ho⟩
      simp only [List.mem_singleton] at hz
      exact hz ▸ ho
    · exact fun h => ⟨[], by simp, h⟩
  refine ⟨fun q hq => ?_, fun x hx => ?_, hsort⟩
  · obtain ⟨k, h4, h5, h6⟩ := P.sub q hq
    obtain ⟨ek, h7, h8⟩ := pickPeripheral_head h6
    obtain ⟨e1, -, h9, -⟩ := X.picked h7 h8
    exact ⟨lab k, (hin _).1 (X.kid he h9 h4 h2), X.periph (by rw [← I.liveEq]; exact h5) he hlev h4 h6⟩
  · obtain ⟨hs, h4, h5⟩ := X.all he (by rw [hpos]; exact h1) h2 (by rw [hlev]; simp) ((hin x).2 hx)
    refine ⟨hs, h4, fun h hh => ?_⟩
    obtain ⟨j, h6, h7⟩ := h5 h hh
    obtain ⟨h8, ej, h', h9, h10, h11⟩ := I.pickLive h7
    obtain ⟨y, h12, h13⟩ := P.all j h6 h8
    obtain ⟨e', h14, h15⟩ := pickPeripheral_head h13
    rw [h9] at h14
    cases h14
    rw [h10] at h15
    cases h15
    have hg := X.periph (by rw [← I.liveEq]; exact h8) he hlev h6 h13
    obtain ⟨-, -, hlabj, -⟩ := h7
    rw [hlabj] at hg
    exact ⟨y, h12, h11, hg⟩

/-- The resolved peripherals are what the description says, with order and sizes. -/
theorem resolve_full {ord : List Nat → List Nat} {fuel : Nat} (hord : ∀ l, (ord l).Perm l) (hf : Followable d) (hq : Quiet d)
    (hu : ∀ x b b', Refers d x b → Refers d x b' → b = b') {ps : List IPeripheral} {ws : List Warn}
    (h : resolvePeripherals ord fuel d = .ok ps ws) : DeviceFull d ps := by
  obtain ⟨g0, g, s, w1, w2, w3, h1, h2, h3, h4, h5, -⟩ := resolve_graph h
  have hS := roundsS_rel ord fuel g0 id []
  obtain ⟨obj, hobj⟩ : ∃ obj, roundsS ord fuel g0 id [] = .ok (g, obj) w2 := by
    cases hr : roundsS ord fuel g0 id [] with
    | err e => rw [h2, hr] at hS; exact hS.elim
    | ok z w =>
      rw [h2, hr] at hS
      obtain ⟨rfl, rfl⟩ := hS
      exact ⟨z.2, rfl⟩
  obtain ⟨lab, T, Sg, -, -⟩ := shares_end hord hf hq h1 hobj
  obtain ⟨cls, E, hgt, C⟩ := coherent_of hu hf.acyclic T Sg (shares_id g) (fun a b h => congrArg lab (show a = b from h))
  have hsim := finalizeProcessing_sim C
  obtain ⟨done, S, T1, t, Si⟩ : ∃ done S, Trav g [] done ∧ ∃ t, Sim g id cls E hgt done s t S := by
    rw [h4] at hsim
    cases hr : finalizeProcessingH g id with
    | err e => rw [hr] at hsim; exact hsim.elim
    | ok t w =>
      rw [hr] at hsim
      obtain ⟨-, done, S, k1, k2⟩ := hsim
      exact ⟨done, S, k1, t, k2⟩
  obtain ⟨done', T2, I, Fc⟩ := finalize_fc (T.lf hf.acyclic) (fun i e he hl => T.device he hl) h4
  have alld : ∀ {dn}, Trav g [] dn → ∀ i e, g.elem? i = some e → i ∈ dn := fun V i e he =>
    T.all_done V (g.edges.length + 1) i (mem_indices_of he) (by omega)
  have X : Ended d g lab cls E hgt S s := by
    refine ⟨hf.acyclic, T, C, ⟨done', I, alld T2⟩, fun i e he hl => Fc.cont i (alld T2 i e he) hl e he,
      fun ps hp => ⟨(Fc.root ps hp).1, (Fc.root ps hp).2.1⟩, fun i e he => ?_, fun j hb => ?_⟩
    · rw [Si.stage.elem, he]
      have : headIn g (· ∈ done) (fun j => S (id j)) i e.processed = headIn g (fun _ => True) S i e.processed := by
        by_cases hb : Boxed g i
        · rw [headIn_some hb (alld T1 i e he), headIn_some hb trivial]; rfl
        · rw [headIn_none fun h => hb h.1, headIn_none fun h => hb h.1]
      simp only [Option.map_some]
      rw [this]
    · obtain ⟨e, he, -⟩ := boxed_level hb
      exact Si.form j (alld T1 j e he) hb
  exact X.device h5

end Svd
