import Verif.Lemmas.FinBuild
/-
Each visit of the finalisation keeps the invariant.
-/
namespace Svd
open Graph Spec

section
variable {L : List (Nat × Parsed)} {org : Nat → Nat} {g0 : Graph} {done : List Nat} {s : FinState}
variable {i : Nat}

theorem Base.mono (B : Base g0 done s) (i : Nat) : Base g0 (i :: done) s :=
  ⟨B.plain, B.ends, B.len, B.same, fun j hj => B.fresh j fun hc => hj (by simp [hc]), B.tmpl⟩

theorem lookup_ne {β : Type} {i j : Nat} {c : β} {l : List (Nat × β)} (h : j ≠ i) : ((i, c) :: l).lookup j = l.lookup j := by
  rw [List.lookup_cons]
  have : (j == i) = false := by simpa using h
  rw [this]

theorem Base.push {i : Nat} (B : Base g0 (i :: done) s) (c : Content) : Base g0 (i :: done) { s with content := (i, c) :: s.content } :=
  ⟨B.plain, B.ends, B.len, B.same, fun j hj => ⟨(B.fresh j hj).1, by
    rw [← (B.fresh j hj).2]; exact lookup_ne fun hc => hj (by simp [hc])⟩, B.tmpl⟩

theorem Base.set {i : Nat} (B : Base g0 done s) {e : ElemNode} {p p' : Processed} (he : s.g.elem? i = some e) (ht : e.isDimTemplate = false)
    (hp : e.processed = some p) : Base g0 (i :: done) { s with g := s.g.setElem i { e with processed := some p' } } := by
  have hi : (s.g.node? i).isSome := by rw [elem?_node?.1 he]; rfl
  have hlt := node?_lt (elem?_node?.1 he)
  have hel : ∀ j, (s.g.setElem i { e with processed := some p' }).elem? j = if j = i then some { e with processed := some p' } else s.g.elem? j :=
    fun j => setElem_elem? hi
  refine ⟨setElem_plain B.plain hlt, B.ends, ?_, ?_, ?_, ?_⟩
  · rw [← B.len]
    simp [Graph.setElem]
  · intro j e0 h0
    obtain ⟨e1, h1, h2, h3, h4, h5⟩ := B.same j e0 h0
    simp only [hel]
    by_cases hj : j = i
    · subst hj
      rw [he] at h1
      cases h1
      rw [if_pos rfl]
      refine ⟨_, rfl, h2, h3, h4, ?_⟩
      rw [← h5, hp]
      rfl
    · rw [if_neg hj]
      exact ⟨e1, h1, h2, h3, h4, h5⟩
  · intro j hj
    simp only [hel]
    rw [if_neg (fun hc => hj (by simp [hc]))]
    exact B.fresh j fun hc => hj (by simp [hc])
  · intro j e0 h0 h1
    simp only [hel]
    by_cases hj : j = i
    · subst hj
      have := B.tmpl j e0 h0 h1
      rw [he] at this
      cases this
      rw [ht] at h1
      cases h1
    · rw [if_neg hj]
      exact B.tmpl j e0 h0 h1

theorem Base.live (B : Base g0 done s) (P : Plain g0) {c : Nat} (hc : c < g0.nodes.length) : live s.g c = live g0 c := by
  obtain ⟨e, he⟩ := P.elem c hc
  obtain ⟨e', h1, -, -, h2, -⟩ := B.same c e he
  unfold Svd.live
  rw [he, h1]
  simp only [h2]

/-- The invariant is kept if only the visited node changes. -/
theorem FInv.next (I : FInv L org g0 done s) {i : Nat} {s1 : FinState} (B : Base g0 (i :: done) s1)
    (hf : ∀ j, j ≠ i → s1.g.elem? j = s.g.elem? j ∧ s1.content.lookup j = s.content.lookup j)
    (hi : ∀ e0 h, g0.elem? i = some e0 → e0.isDimTemplate = false → e0.processed = some h → 1 ≤ org i → Good L org s1 i h)
    (hr : ∀ ps, s1.resolved = some ps → s.resolved = some ps ∨ ∀ ts ks, Kids L 0 ks → Reps L ks (ts.map ofPeriph) →
      ∃ ps', PeriphsBuilt ts ps' ∧ ps'.Perm ps ∧ SortedBy periphKey ps) : FInv L org g0 (i :: done) s1 := by
  refine ⟨B, ?_, ?_⟩
  · intro j hj e0 h h1 h2 h3 h4
    by_cases hji : j = i
    · subst hji
      exact hi e0 h h1 h2 h3 h4
    · have hjd : j ∈ done := by
        rcases List.mem_cons.1 hj with h | h
        · exact absurd h hji
        · exact h
      exact (I.good j hjd e0 h h1 h2 h3 h4).congr (hf j hji).1 (hf j hji).2
  · intro ps h1
    rcases hr ps h1 with h | h
    · exact I.root ps h
    · exact h

theorem Final.kids_nil (F : Final L org g0) {i : Nat} (hi : i < g0.nodes.length) {ks : List Nat} (hk : Kids L (org i) ks) :
    outs g0 i = [] ↔ ks = [] := by
  constructor
  · intro h
    cases ks with
    | nil => rfl
    | cons k ks =>
      obtain ⟨h1, p, h2⟩ := (hk.2 k).1 (by simp)
      have := mem_outs.2 ((F.shape.low i k (List.getElem?_eq_some_iff.1 h2).1 hi).2 ⟨h1, p, h2⟩)
      rw [h] at this
      cases this
  · rintro rfl
    cases h : outs g0 i with
    | nil => rfl
    | cons c cs =>
      obtain ⟨h1, p, h2⟩ := F.edge (mem_outs.1 (by rw [h]; simp : c ∈ outs g0 i))
      have := (hk.2 (org c)).2 ⟨h1, p, h2⟩
      cases this

/-- What is needed at a node. -/
structure AtNode (L : List (Nat × Parsed)) (org : Nat → Nat) (s : FinState) (i : Nat) (h : Processed) : Prop where
  field : ∀ f, Rep L (org i) (ofField f) → ∃ hd, h = .field hd ∧ PickOf s (pickField s) i ⟨hd, s.conts i⟩ ∧
    ContainersBuilt f.containers hd.lsb hd.msb (s.conts i)
  reg : ∀ r, Rep L (org i) (ofRC (.reg r)) → ∃ hd, h = .reg hd ∧ PickOf s (pickRC s) i (.reg hd (s.fields i)) ∧
    ∃ fs', FieldsBuilt r.fields fs' ∧ fs'.Perm (s.fields i) ∧ SortedBy fieldKey (s.fields i)
  box : ∀ D E ch, Box L (org i) D E ch → ∃ e, s.g.elem? i = some e ∧
    ((∃ hd, h = .clu hd ∧ e.processed = some (.clu { hd with props := { hd.props with size := sizeWith D E ch } })) ∨
     (∃ hd, h = .periph hd ∧ e.processed = some (.periph { hd with props := { hd.props with size := sizeWith D E ch } }))) ∧
    ∃ ys', RCsBuilt (D.getD E) ch ys' ∧ ys'.Perm (s.rcs i) ∧ SortedBy ircKey (s.rcs i)

theorem AtNode.good {i : Nat} {h : Processed} {q : Nat} {p : Parsed} (hp : L[org i]? = some (q, p)) (hl : procLevel h = levelOf p)
    (A : AtNode L org s i h) : Good L org s i h := by
  constructor
  · intro f hf
    obtain ⟨hd, rfl, h1, h2⟩ := A.field f hf
    exact ⟨_, h1, rfl, h2⟩
  · intro x E hx hE
    obtain ⟨q', hq⟩ := rep_declOf hx
    rw [hp] at hq
    cases hq
    cases x with
    | reg r =>
      obtain ⟨hd, rfl, h1, fs', h2⟩ := A.reg r hx
      refine ⟨_, h1, ?_⟩
      simp only [RCBuilt]
      exact ⟨hd, _, fs', rfl, rfl, h2⟩
    | clu c ch =>
      obtain ⟨e, h1, h2, ys', h3, h4, h5⟩ := A.box c.props.size E ch ⟨hE, Or.inl ⟨c, hx, rfl⟩⟩
      rcases h2 with ⟨hd, rfl, h2⟩ | ⟨hd, rfl, h2⟩
      · refine ⟨.clu { hd with props := { hd.props with size := sizeWith c.props.size E ch } } (s.rcs i), ⟨e, _, h1, h2, rfl⟩, ?_⟩
        simp only [RCBuilt]
        exact ⟨hd, _, ys', rfl, rfl, h3, h4, h5⟩
      · simp [procLevel, levelOf, declOf] at hl
  · intro x hx hE
    have hq : ∃ q', L[org i]? = some (q', Parsed.periph x.hd) := by simp only [ofPeriph, Rep] at hx; exact hx.1
    obtain ⟨q', hq⟩ := hq
    rw [hp] at hq
    cases hq
    obtain ⟨e, h1, h2, ys', h3, h4, h5⟩ := A.box x.hd.props.size 32 x.rcs ⟨hE, Or.inr ⟨x, hx, rfl, rfl, rfl⟩⟩
    rcases h2 with ⟨hd, rfl, h2⟩ | ⟨hd, rfl, h2⟩
    · simp [procLevel, levelOf] at hl
    · exact ⟨⟨_, s.rcs i⟩, ⟨e, _, h1, h2, rfl⟩, hd, ys', rfl, rfl, h3, h4, h5⟩

theorem clu_self (hd : IClusterHd) {z : Option Int} (h : hd.props.size = z) : { hd with props := { hd.props with size := z } } = hd := by
  subst h; rfl
theorem periph_self (hd : IPeripheralHd) {z : Option Int} (h : hd.props.size = z) : { hd with props := { hd.props with size := z } } = hd := by
  subst h; rfl

theorem containersBuilt_nil (a b : Int) : ContainersBuilt [] a b [] :=
  ⟨⟨[], .refl _, .nil⟩, by simp, by simp, by simp⟩

/-- A node without children. -/
theorem leaf_good (F : Final L org g0) (B : Base g0 done s) {i : Nat} (hi : i < g0.nodes.length) (hd : i ∉ done) (ho : outs g0 i = [])
    {e0 : ElemNode} {h : Processed} (he : g0.elem? i = some e0) (hp : e0.processed = some h) (h1 : 1 ≤ org i) : Good L org s i h := by
  obtain ⟨q, p, e, h2, h3, h4⟩ := F.info hi h1
  rw [he] at h3
  cases h3
  have hen : p.isEnum = false := by
    cases p <;> try rfl
    rename_i en
    have h5 := F.exp (org i)
    exfalso
    have : e0.processed = none := by
      by_cases hl : i < L.length
      · have hs := F.shape.self i hl
        rw [hs] at h2
        have := F.shape.node i _ h2
        rw [if_pos (by omega), he] at this
        cases this
        simp [doneNode, expandO, expandM, extractDimOf, M.bind, M.throw, initNode]
      · obtain ⟨q', p', x, -, -, h6, h7, -⟩ := F.shape.inst i (by omega) hi
        rw [h2] at h6
        cases h6
        simp [isDimB, expandO, expandM, extractDimOf, M.bind, M.throw] at h7
    rw [hp] at this
    cases this
  obtain ⟨h', h5, h6, h7, -⟩ := h4.head hen
  rw [hp] at h5
  cases h5
  obtain ⟨h8, h9⟩ := B.fresh i hd
  rw [he] at h8
  have hks : ∀ ks, Kids L (org i) ks → ks = [] := fun ks hk => (F.kids_nil hi hk).1 ho
  refine AtNode.good h2 h7 ⟨?_, ?_, ?_⟩
  · intro f hf
    simp only [ofField, Rep] at hf
    obtain ⟨⟨q', hq⟩, ks, hk, hr⟩ := hf
    rw [h2] at hq
    cases hq
    rw [hks ks hk] at hr
    have hc : f.containers = [] := by
      cases hcs : f.containers with
      | nil => rfl
      | cons a l => rw [hcs] at hr; simp [Reps] at hr
    cases h <;> simp [procLevel, levelOf] at h7
    rename_i hd
    refine ⟨hd, rfl, ⟨e0, _, h8, hp, rfl⟩, ?_⟩
    rw [hc, conts_eq, h9]
    exact containersBuilt_nil _ _
  · intro r hr
    simp only [ofRC, Rep] at hr
    obtain ⟨⟨q', hq⟩, ks, hk, hr⟩ := hr
    rw [h2] at hq
    cases hq
    rw [hks ks hk] at hr
    have hc : r.fields = [] := by
      cases hcs : r.fields with
      | nil => rfl
      | cons a l => rw [hcs] at hr; simp [Reps] at hr
    cases h <;> simp [procLevel, levelOf] at h7
    rename_i hd
    refine ⟨hd, rfl, ⟨e0, _, h8, hp, rfl⟩, [], ?_⟩
    rw [hc, fields_eq, h9]
    exact ⟨.nil, .refl _, .nil⟩
  · intro D E ch hb
    obtain ⟨q', p', h10, h11, h12, ks, hk, hr⟩ := hb.decl
    rw [h2] at h10
    cases h10
    rw [hks ks hk] at hr
    have hc : ch = [] := by
      cases ch with
      | nil => rfl
      | cons a l => simp [ofRCs, Reps] at hr
    subst hc
    refine ⟨e0, h8, ?_, [], by simp [RCsBuilt], by rw [rcs_eq, h9]; exact .refl _, by rw [rcs_eq, h9]; exact .nil⟩
    have hs : sizeWith D E [] = D := by simp [sizeWith]
    rw [hs]
    rw [h12] at h6
    rcases box_level h7 h11 with ⟨x, rfl⟩ | ⟨x, rfl⟩ <;> simp only [sizeOfP] at h6
    · exact Or.inr ⟨x, rfl, by rw [periph_self x h6]; exact hp⟩
    · exact Or.inl ⟨x, rfl, by rw [clu_self x h6]; exact hp⟩


theorem sorted_irc (xs : List IRC) : SortedBy ircKey (sortBy ircLe xs) := by
  refine (sortBy_sorted ircLe_total xs).imp fun {a b} h => ?_
  have := intStrLe_spec.1 h
  cases a <;> cases b <;> exact this
theorem sorted_if (xs : List IField) : SortedBy fieldKey (sortBy ifLe xs) :=
  (sortBy_sorted ifLe_total xs).imp fun h => intStrLe_spec.1 h
theorem sorted_ip (xs : List IPeripheral) : SortedBy periphKey (sortBy ipLe xs) :=
  (sortBy_sorted ipLe_total xs).imp fun h => intStrLe_spec.1 h

/-- The collected children, in the order of the declarations. -/
theorem collect_kids {α : Type} (F : Final L org g0) {done' : List Nat} {s1 : FinState} (B1 : Base g0 done' s1) {i : Nat} (hi : i < g0.nodes.length)
    {pick pick1 : Nat → Processed → M α} (hnw : ∀ c p y w, pick1 c p = .ok y w → w = []) {xs : List α} {w : List Warn}
    (h : collect s1 pick1 (outs g0 i) = .ok xs w) (hc : ∀ c y, (i, c) ∈ ends g0 → PickOf s1 pick1 c y → PickOf s pick c y) {ks : List Nat}
    (hk : Kids L (org i) ks) :
    ∃ ys, Entrywise (PickOf s pick) (ks.flatMap (repsAt L org g0 i)) ys ∧ ys.Perm xs := by
  obtain ⟨-, h1⟩ := collect_inv hnw h
  have h2 : (outs g0 i).filter (live s1.g) = (outs g0 i).filter (live g0) := by
    refine List.filter_congr fun c hc => ?_
    exact B1.live F.shape.plain (F.shape.plain.lt (mem_outs.1 hc)).2
  rw [h2] at h1
  have h3 := entrywise_imp h1 (S := PickOf s pick) fun c hcm y _ hy => by
    rw [List.mem_filter, mem_outs] at hcm
    exact hc c y hcm.1 hy
  exact entrywise_perm (F.kids_perm hi hk) h3

theorem Final.ne_kid (F : Final L org g0) {i c : Nat} (h : (i, c) ∈ ends g0) : c ≠ i := by
  rintro rfl
  have := F.shape.rank F.ok h
  omega

/-- Visiting a peripheral or cluster. -/
theorem container_next (F : Final L org g0) (I : FInv L org g0 done s) {q : List Nat} (T : Trav g0 (i :: q) done)
    (hi : i < g0.nodes.length) (hd : i ∉ done) (V : ∀ c, (i, c) ∈ ends g0 → c ∈ done) (hne : outs g0 i ≠ []) {e : ElemNode}
    (he : s.g.elem? i = some e) (ht : e.isDimTemplate = false) (h1 : 1 ≤ org i) {s1 : FinState} {w : List Warn}
    (hlev : e.level = .peripheral ∨ e.level = .cluster)
    (h : finalizeContainerNode s i e (outs g0 i) = .ok s1 w) : FInv L org g0 (i :: done) s1 := by
  have B := I.base
  have he0 : g0.elem? i = some e := by rw [← (B.fresh i hd).1]; exact he
  unfold finalizeContainerNode at h
  simp only [M.bind_eq_ok, M.pure_eq_ok] at h
  obtain ⟨p, w1, w2, h2, ⟨m, w3, w4, h3, ⟨xs, w5, w6, h4, ⟨rfl, -⟩, -⟩, -⟩, -⟩ := h
  obtain ⟨e', h5, h6, -⟩ := procOf_ok h2
  rw [he] at h5
  cases h5
  have B1 := B.set (p' := p.withSize m) he ht h6
  have hel : ∀ j, (s.g.setElem i { e with processed := some (p.withSize m) }).elem? j =
      if j = i then some { e with processed := some (p.withSize m) } else s.g.elem? j :=
    fun j => setElem_elem? (by rw [elem?_node?.1 he]; rfl)
  obtain ⟨qq, pp, e2, h7, h8, h9⟩ := F.info hi h1
  rw [he0] at h8
  cases h8
  have hbx : isBox pp = true := by
    have := h9.level
    cases pp <;> simp only [levelOf] at this <;> rw [this] at hlev <;> simp at hlev <;> rfl
  obtain ⟨h', h10, h11, h12, -⟩ := h9.head (by cases pp <;> simp [isBox] at hbx <;> rfl)
  rw [h6] at h10
  cases h10
  refine I.next (B1.push _) ?_ ?_ ?_
  · intro j hj
    refine ⟨?_, lookup_ne hj⟩
    show (s.g.setElem i _).elem? j = _
    rw [hel, if_neg hj]
  · intro e0 h h13 h14 h15 _
    rw [he0] at h13
    cases h13
    rw [h6] at h15
    cases h15
    refine AtNode.good h7 h12 ⟨?_, ?_, ?_⟩
    · intro f hf
      simp only [ofField, Rep] at hf
      obtain ⟨⟨q', hq⟩, -⟩ := hf
      rw [h7] at hq
      cases hq
      simp [isBox] at hbx
    · intro r hr
      simp only [ofRC, Rep] at hr
      obtain ⟨⟨q', hq⟩, -⟩ := hr
      rw [h7] at hq
      cases hq
      simp [isBox] at hbx
    · intro D E ch hb
      obtain ⟨q', p', h16, h17, h18, ks, hk, hr⟩ := hb.decl
      have hche : ch ≠ [] := by
        rintro rfl
        have := Reps.nil hr
        exact hne ((F.kids_nil hi hk).2 this)
      have hcs := calculateSize_box F I T hi hd V hb hche
      have hm : m = contentSize (D.getD E) ch := by
        rw [h3] at hcs
        split at hcs <;> cases hcs
        rfl
      have hs : sizeWith D E ch = some m := by
        rw [hm]
        cases ch with
        | nil => exact absurd rfl hche
        | cons x ch => simp [sizeWith]
      rw [hs]
      have hrc : FinState.rcs { g := s.g.setElem i { e with processed := some (p.withSize m) },
                                content := (i, .rcs (sortBy ircLe xs)) :: s.content, resolved := s.resolved } i = sortBy ircLe xs := by
        rw [rcs_eq]
        simp [rcsOf]
      rw [hrc]
      refine ⟨_, by show (s.g.setElem i _).elem? i = _; rw [hel, if_pos rfl], ?_, ?_⟩
      · rcases box_level h12 hbx with ⟨x, rfl⟩ | ⟨x, rfl⟩
        · exact Or.inr ⟨x, rfl, rfl⟩
        · exact Or.inl ⟨x, rfl, rfl⟩
      · obtain ⟨ys, h19, h20⟩ := collect_kids (s := s) (pick := pickRC s) F B1 hi (fun _ _ _ _ h => pickRC_nw h) h4 (by
          intro c y hm hy
          refine (pick_congr (s := _) (s' := s) ?_ ?_).2.1 y hy
          · show _ = (s.g.setElem i _).elem? c
            rw [hel, if_neg (F.ne_kid hm)]
          · rfl) hk
        refine ⟨ys, ?_, h20.trans (sortBy_perm xs).symm, sorted_irc xs⟩
        refine built_rcs F I hi V ch ks ys ?_ hr h19
        intro k hkm
        obtain ⟨h21, p0, h22⟩ := (hk.2 k).1 hkm
        refine ⟨?_, p0, h22⟩
        rw [← h18]
        exact hb.1.child h21 h22 h16 h17
  · intro ps hps
    exact Or.inl hps

/-- Visiting a register. -/
theorem register_next (F : Final L org g0) (I : FInv L org g0 done s)
    (hi : i < g0.nodes.length) (hd : i ∉ done) (V : ∀ c, (i, c) ∈ ends g0 → c ∈ done) {e : ElemNode}
    (he : s.g.elem? i = some e) (h1 : 1 ≤ org i) {fs : List IField} {w : List Warn} (hlev : e.level = .register)
    (h : collect s (pickField s) (outs g0 i) = .ok fs w) :
    FInv L org g0 (i :: done) { s with content := (i, .fields (sortBy ifLe fs)) :: s.content } := by
  have B := I.base
  have he0 : g0.elem? i = some e := by rw [← (B.fresh i hd).1]; exact he
  obtain ⟨qq, pp, e2, h7, h8, h9⟩ := F.info hi h1
  rw [he0] at h8
  cases h8
  obtain ⟨r0, rfl⟩ : ∃ r, pp = .reg r := by
    have := h9.level
    rw [hlev] at this
    cases pp <;> simp only [levelOf, reduceCtorEq] at this
    exact ⟨_, rfl⟩
  obtain ⟨h', h10, h11, h12, -⟩ := h9.head rfl
  refine I.next ((B.mono i).push _) (fun j hj => ⟨rfl, lookup_ne hj⟩) ?_ (fun ps hps => Or.inl hps)
  intro e0 h h13 h14 h15 _
  rw [he0] at h13
  cases h13
  rw [h10] at h15
  cases h15
  refine AtNode.good h7 h12 ⟨?_, ?_, ?_⟩
  · intro f hf
    simp only [ofField, Rep] at hf
    obtain ⟨⟨q', hq⟩, -⟩ := hf
    rw [h7] at hq
    cases hq
  · intro r hr
    simp only [ofRC, Rep] at hr
    obtain ⟨⟨q', hq⟩, ks, hk, hr⟩ := hr
    rw [h7] at hq
    cases hq
    cases h' <;> simp [procLevel, levelOf] at h12
    rename_i hd'
    have hfs : FinState.fields { s with content := (i, .fields (sortBy ifLe fs)) :: s.content } i = sortBy ifLe fs := by
      rw [fields_eq]
      simp [fieldsOf]
    refine ⟨hd', rfl, ⟨e, _, he, h10, rfl⟩, ?_⟩
    rw [hfs]
    obtain ⟨ys, h19, h20⟩ := collect_kids (s := s) (pick := pickField s) F B hi (fun _ _ _ _ h => pickField_nw h) h
      (fun c y _ hy => hy) hk
    exact ⟨ys, built_fields F I hi V r0.fields ks ys (fun k hkm => (hk.2 k).1 hkm) hr h19, h20.trans (sortBy_perm fs).symm, sorted_if fs⟩
  · intro D E ch hb
    obtain ⟨q', p', h16, h17, -⟩ := hb.decl
    rw [h7] at h16
    cases h16
    simp [isBox] at h17

/-- Visiting the device. -/
theorem device_next (F : Final L org g0) (I : FInv L org g0 done s)
    (hi : i < g0.nodes.length) (V : ∀ c, (i, c) ∈ ends g0 → c ∈ done) (h0 : org i = 0) {ps : List IPeripheral} {w : List Warn}
    (h : collect s (pickPeripheral s) (outs g0 i) = .ok ps w) :
    FInv L org g0 (i :: done) { s with resolved := some (sortBy ipLe ps) } := by
  have B := I.base
  refine I.next ⟨B.plain, B.ends, B.len, B.same, fun j hj => B.fresh j fun hc => hj (by simp [hc]), B.tmpl⟩ (fun j hj => ⟨rfl, rfl⟩) ?_ ?_
  · intro e0 h h1 h2 h3 h4
    omega
  · intro ps' hps
    right
    cases hps
    intro ts ks hk hr
    have hk' : Kids L (org i) ks := by rw [h0]; exact hk
    obtain ⟨ys, h19, h20⟩ := collect_kids (s := s) (pick := pickPeripheral s) F B hi (fun _ _ _ _ h => pickPeripheral_nw h) h
      (fun c y _ hy => hy) hk'
    exact ⟨ys, built_periphs F I hi h0 V ts ks ys (fun k hkm => (hk'.2 k).1 hkm) hr h19, h20.trans (sortBy_perm ps).symm, sorted_ip ps⟩

/-! ### containers of a field -/

def enumAt (L : List (Nat × Parsed)) (c : Nat) : Option SEnumContainer :=
  match L[c]? with
  | some (_, .enum ec) => some ec
  | _ => none

theorem reps_enums : ∀ (cs : List SEnumContainer) (ks : List Nat), Reps L ks (cs.map ofEnum) → ks.filterMap (enumAt L) = cs ∧ ∀ k ∈ ks, (enumAt L k).isSome
  | [], ks, h => by
    have := Reps.nil h
    subst this
    simp
  | c :: cs, ks, h => by
    simp only [List.map_cons] at h
    obtain ⟨k, ks, rfl, h1, h2⟩ := Reps.cons h
    obtain ⟨h3, h4⟩ := reps_enums cs ks h2
    simp only [ofEnum, Rep] at h1
    obtain ⟨⟨q, hq⟩, -⟩ := h1
    have h5 : enumAt L k = some c := by unfold enumAt; rw [hq]
    constructor
    · rw [List.filterMap_cons_some h5, h3]
    · intro k' hk
      rcases List.mem_cons.1 hk with rfl | hk
      · rw [h5]; rfl
      · exact h4 k' hk

theorem Final.enum_kids (F : Final L org g0) {i : Nat} (hi : i < g0.nodes.length) {ks : List Nat} (hk : Kids L (org i) ks)
    (he : ∀ k ∈ ks, (enumAt L k).isSome) : (outs g0 i).Perm ks := by
  rw [List.perm_ext_iff_of_nodup (outs_nodup F.shape.nodup i) hk.1]
  intro c
  rw [mem_outs]
  constructor
  · intro hm
    obtain ⟨h1, p, h2⟩ := F.edge hm
    have h3 := (hk.2 _).2 ⟨h1, p, h2⟩
    by_cases hc : c < L.length
    · rwa [F.shape.self c hc] at h3
    · obtain ⟨q', p', x, -, -, h6, h7, -⟩ := F.shape.inst c (by omega) (F.shape.plain.lt hm).2
      have := he _ h3
      unfold enumAt at this
      rw [h6] at this
      cases p' <;> simp at this
      simp [isDimB, expandO, expandM, extractDimOf, M.bind, M.throw] at h7
  · intro hc
    obtain ⟨h1, p, h2⟩ := (hk.2 c).1 hc
    exact (F.shape.low i c (List.getElem?_eq_some_iff.1 h2).1 hi).2 ⟨h1, p, h2⟩

theorem each_entrywise {α β : Type} {f : α → M β} {xs : List α} {ys : List β} {ws : List Warn} (h : M.Each f xs ys ws) :
    Entrywise (fun x y => ∃ w, f x = .ok y w) xs ys := by
  induction h with
  | nil => exact .nil
  | cons h1 _ ih => exact .cons ⟨_, h1⟩ ih

theorem entrywise_filterMap {α β γ : Type} {R : γ → β → Prop} {S : α → β → Prop} {f : α → Option γ} {xs : List α} {ys : List β} (h : Entrywise S xs ys)
    (hf : ∀ x ∈ xs, ∀ y, S x y → ∃ c, f x = some c ∧ R c y) : Entrywise R (xs.filterMap f) ys := by
  induction h with
  | nil => exact .nil
  | cons h1 _ ih =>
    obtain ⟨c, h2, h3⟩ := hf _ (by simp) _ h1
    rw [List.filterMap_cons_some h2]
    exact .cons h3 (ih fun x hx => hf x (by simp [hx]))

/-- Visiting a field. -/
theorem field_next (F : Final L org g0) (I : FInv L org g0 done s)
    (hi : i < g0.nodes.length) (hd : i ∉ done) {e : ElemNode}
    (he : s.g.elem? i = some e) (h1 : 1 ≤ org i) {s1 : FinState} {w : List Warn} (hlev : e.level = .field)
    (h : finalizeFieldNode s i (outs g0 i) = .ok s1 w) : FInv L org g0 (i :: done) s1 := by
  have B := I.base
  have he0 : g0.elem? i = some e := by rw [← (B.fresh i hd).1]; exact he
  obtain ⟨qq, pp, e2, h7, h8, h9⟩ := F.info hi h1
  rw [he0] at h8
  cases h8
  obtain ⟨f0, rfl⟩ : ∃ r, pp = .field r := by
    have := h9.level
    rw [hlev] at this
    cases pp <;> simp only [levelOf, reduceCtorEq] at this
    exact ⟨_, rfl⟩
  obtain ⟨h', h10, h11, h12, -⟩ := h9.head rfl
  cases h' <;> simp [procLevel, levelOf] at h12
  rename_i hd'
  unfold finalizeFieldNode at h
  have hpr : procOf s.g i = .ok (.field hd') [] := by
    unfold procOf
    rw [he]
    simp only [h10]
    rfl
  rw [hpr] at h
  simp only [M.bind_eq_ok] at h
  obtain ⟨p, w1, w2, hp, h2, -⟩ := h
  cases hp
  simp only [M.bind_eq_ok] at h2
  obtain ⟨conts, w3, w4, h3, h4, -⟩ := h2
  split at h4
  · simp [M.throw] at h4
  rename_i hc1
  split at h4
  · simp [M.throw] at h4
  rename_i hc2
  split at h4
  · simp [M.throw] at h4
  rename_i hc3
  rw [M.pure_eq_ok] at h4
  obtain ⟨rfl, -⟩ := h4
  refine I.next ((B.mono i).push _) (fun j hj => ⟨rfl, lookup_ne hj⟩) ?_ (fun ps hps => Or.inl hps)
  intro e0 h h13 h14 h15 _
  rw [he0] at h13
  cases h13
  rw [h10] at h15
  cases h15
  refine AtNode.good h7 rfl ⟨?_, ?_, ?_⟩
  · intro f hf
    simp only [ofField, Rep] at hf
    obtain ⟨⟨q', hq⟩, ks, hk, hr⟩ := hf
    rw [h7] at hq
    cases hq
    have hcs : FinState.conts { s with content := (i, .conts conts) :: s.content } i = conts := by
      rw [conts_eq]
      simp [contsOf]
    refine ⟨hd', rfl, ⟨e, _, he, h10, rfl⟩, ?_⟩
    rw [hcs]
    obtain ⟨h16, h17⟩ := reps_enums _ _ hr
    have hperm := F.enum_kids hi hk h17
    refine ⟨⟨(outs g0 i).filterMap (enumAt L), ?_, ?_⟩, ?_, by omega, ?_⟩
    · rw [← h16]
      exact hperm.filterMap _
    · refine entrywise_filterMap (each_entrywise (M.mapM_eq_ok.1 h3)) ?_
      rintro c hc k ⟨w, hw⟩
      have hcl : c < L.length := by
        obtain ⟨-, p, h19⟩ := (hk.2 c).1 (hperm.mem_iff.1 hc)
        exact (List.getElem?_eq_some_iff.1 h19).1
      obtain ⟨h18, p, h19⟩ := F.edge (mem_outs.1 hc)
      obtain ⟨q2, p2, ce, h20, h21, h22⟩ := F.info (F.shape.plain.lt (mem_outs.1 hc)).2 h18
      obtain ⟨ce', h23, -, h24, -⟩ := B.same c ce h21
      rw [h23] at hw
      simp only [h24, h22.parsed] at hw
      rw [F.shape.self c hcl] at h20
      cases p2 <;> simp [M.throw] at hw
      rename_i ec
      exact ⟨ec, by unfold enumAt; rw [h20], w, hw⟩
    · refine eraseDups_length_nodup _ ?_
      simpa using hc1
    · intro hl k hkm
      simp only [Bool.and_eq_true, decide_eq_true_eq, Bool.not_eq_true', List.all_eq_false, List.mem_map, not_and, not_exists,
        Bool.or_eq_true, beq_iff_eq] at hc3
      refine Classical.byContradiction fun hcc => ?_
      exact hc3 hl k.usage ⟨k, hkm, rfl⟩ hcc
  · intro r hr
    simp only [ofRC, Rep] at hr
    obtain ⟨⟨q', hq⟩, -⟩ := hr
    rw [h7] at hq
    cases hq
  · intro D E ch hb
    obtain ⟨q', p', h16, h17, -⟩ := hb.decl
    rw [h7] at h16
    cases h16
    simp [isBox] at h17

theorem visit_next (F : Final L org g0) (I : FInv L org g0 done s) {q : List Nat} (T : Trav g0 (i :: q) done) {s1 : FinState} {w : List Warn}
    (h : visit g0 s i = .ok s1 w) : FInv L org g0 (i :: done) s1 := by
  have B := I.base
  have hi : i < g0.nodes.length := T.lt i (by simp)
  have hd : i ∉ done := by
    have := T.nodup
    rw [List.cons_append, List.nodup_cons, List.mem_append] at this
    exact fun hc => this.1 (Or.inr hc)
  have V : ∀ c, (i, c) ∈ ends g0 → c ∈ done := by
    intro c hc
    refine T.qs i (by simp) c ?_
    rw [successors_eq F.shape.nodup]
    exact mem_outs.2 hc
  unfold visit at h
  rw [successors_eq F.shape.nodup] at h
  cases ho : outs g0 i with
  | nil =>
    rw [ho] at h
    simp only [M.pure_eq_ok] at h
    obtain ⟨rfl, -⟩ := h
    exact I.next (B.mono i) (fun j hj => ⟨rfl, rfl⟩) (fun e0 h h1 h2 h3 h4 => leaf_good F B hi hd ho h1 h3 h4) (fun ps hps => Or.inl hps)
  | cons c0 cs0 =>
    rw [ho] at h
    simp only at h
    rw [← ho] at h
    have hne : outs g0 i ≠ [] := by rw [ho]; simp
    obtain ⟨e, he0⟩ := F.shape.plain.elem i hi
    have he : s.g.elem? i = some e := by rw [(B.fresh i hd).1]; exact he0
    unfold finalizeNode at h
    rw [he] at h
    simp only at h
    by_cases h0 : org i = 0
    · have := F.org_zero hi h0
      subst this
      have hl : e.level = .device := by
        have h4 := F.shape.node 0 _ F.ok.root
        simp only [Nat.zero_le, if_true] at h4
        rw [he0] at h4
        cases h4
        rfl
      split at h
      · rename_i ht
        rw [M.pure_eq_ok] at h
        obtain ⟨rfl, -⟩ := h
        exact I.next (B.mono 0) (fun j hj => ⟨rfl, rfl⟩) (fun _ _ _ _ _ h4 => by omega) (fun ps hps => Or.inl hps)
      · rw [hl] at h
        simp only [M.bind_eq_ok, M.pure_eq_ok] at h
        obtain ⟨ps, w1, w2, h1, ⟨rfl, -⟩, -⟩ := h
        exact device_next F I hi V h0 h1
    · have h1 : 1 ≤ org i := by omega
      obtain ⟨qq, pp, e2, h7, h8, h9⟩ := F.info hi h1
      rw [he0] at h8
      cases h8
      split at h
      · rename_i ht
        rw [M.pure_eq_ok] at h
        obtain ⟨rfl, -⟩ := h
        refine I.next (B.mono i) (fun j hj => ⟨rfl, rfl⟩) (fun e0 _ h2 h3 _ _ => ?_) (fun ps hps => Or.inl hps)
        rw [he0] at h2
        cases h2
        rw [ht] at h3
        cases h3
      · rename_i ht
        have ht' : e.isDimTemplate = false := by simpa using ht
        split at h
        · rename_i hl
          have := h9.level
          rw [hl] at this
          have hdev := (F.ok.inner (org i) _ h1 h7).1
          cases pp <;> simp [levelOf] at this
          exact absurd rfl hdev
        · rename_i hl
          exact container_next F I T hi hd V hne he ht' h1 (Or.inl hl) h
        · rename_i hl
          exact container_next F I T hi hd V hne he ht' h1 (Or.inr hl) h
        · rename_i hl
          simp only [M.bind_eq_ok, M.pure_eq_ok] at h
          obtain ⟨_, _, _, -, ⟨fs, w1, w2, h2, ⟨rfl, -⟩, -⟩, -⟩ := h
          exact register_next F I hi hd V he h1 hl h2
        · rename_i hl
          exact field_next F I hi hd he h1 hl h
        · simp [M.throw] at h

theorem FInv.start (F : Final L org g0) : FInv L org g0 [] { g := g0 } :=
  ⟨⟨F.shape.plain, rfl, rfl, fun _ e0 h => ⟨e0, h, rfl, rfl, rfl, rfl⟩, fun _ _ => ⟨rfl, rfl⟩, fun _ _ h _ => h⟩,
    by simp, by simp⟩

theorem Final.built (F : Final L org g0) {s : FinState} {w : List Warn} (h : finalizeProcessing g0 = .ok s w) {ps : List IPeripheral}
    (hr : s.resolved = some ps) {ts : List SPeriphT} {ks : List Nat} (hk : Kids L 0 ks) (hre : Reps L ks (ts.map ofPeriph)) :
    ∃ ps', PeriphsBuilt ts ps' ∧ ps'.Perm ps ∧ SortedBy periphKey ps := by
  obtain ⟨done', -, I⟩ := bottomUp_trav (FInv L org g0) (fun i q done s s1 w T I hv => visit_next F I T hv) _ _ _ _ _ _ (Trav.start g0)
    (FInv.start F) h
  exact I.root ps hr ts ks hk hre

end
end Svd
