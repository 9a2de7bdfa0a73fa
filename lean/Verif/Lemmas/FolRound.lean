import Verif.Lemmas.FolSort
/-
References that can be followed: a round.
-/
namespace Svd
open Graph Spec

/-! ### kinds of the nodes -/

theorem node_rank {d : SDevice} {g : Graph} {lab : Nat → Pos} (h : Lab d g lab) {a k : Nat} {ea ek : ElemNode} (ha : g.elem? a = some ea)
    (hk : g.elem? k = some ek) (hi : Inside d (lab a) (lab k)) : kindRank ea.level < kindRank ek.level ∨ (ea.level = .cluster ∧ ek.level = .cluster) := by
  obtain ⟨p, hp⟩ := h.node a ea ha
  obtain ⟨q, hq⟩ := h.node k ek hk
  obtain ⟨p', q', h1, h2, h3⟩ := inside_deeper hi
  rw [hp.level, hq.level, declAt_unique hp.decl h1, declAt_unique hq.decl h2]
  exact h3

theorem device_zero {d : SDevice} {g : Graph} {lab : Nat → Pos} {old D : Nat → Prop} (h : Lab d g lab) (F : Fol d g lab old D) {k : Nat} {e : ElemNode}
    (he : g.elem? k = some e) (hl : e.level = .device) : k = 0 := by
  rcases F.up k ⟨e, he⟩ with h1 | ⟨a, h1⟩
  · exact h1
  · obtain ⟨ea, hea⟩ := (h.tch _ _ h1).1
    rcases node_rank h hea he (.one (h.hasChild h1 id)) with h2 | ⟨-, h2⟩
    · rw [hl] at h2; simp [kindRank] at h2
    · rw [hl] at h2; cases h2

theorem periph_root {d : SDevice} {g : Graph} {lab : Nat → Pos} {old D : Nat → Prop} (h : Lab d g lab) (F : Fol d g lab old D) {k : Nat} {e : ElemNode}
    (he : g.elem? k = some e) (hl : e.level = .peripheral) : Ch g 0 k := by
  rcases F.up k ⟨e, he⟩ with h1 | ⟨a, h1⟩
  · subst h1
    obtain ⟨-, er, h2, h3⟩ := h.root
    rw [he] at h2
    injection h2 with h2
    subst h2
    rw [hl] at h3
    cases h3
  · obtain ⟨ea, hea⟩ := (h.tch _ _ h1).1
    rcases node_rank h hea he (.one (h.hasChild h1 id)) with h2 | ⟨-, h2⟩
    · rw [hl] at h2
      have : ea.level = .device := by
        generalize ea.level = l at h2
        cases l <;> simp [kindRank] at h2 ⊢
      rw [device_zero h F hea this] at h1
      exact h1
    · rw [hl] at h2; cases h2

theorem hasChild_own {d : SDevice} (hb : ∀ x, ¬ Precedes d x x) {x y : Pos} : HasChild d x y → ∃ z, OwnChild d z y ∧ (x = z ∨ SameKind d x z)
  | .own h => ⟨x, h, Or.inl rfl⟩
  | .inherited h1 h2 => by
    obtain ⟨z, h3, h4⟩ := hasChild_own hb h2
    refine ⟨z, h3, Or.inr ?_⟩
    rcases h4 with rfl | h4
    · exact refers_kind h1
    · exact sameKind_trans (refers_kind h1) h4
  | .nested h => (not_nested hb h).elim

/-! ### which nodes are processed -/

theorem below_done {d : SDevice} {g : Graph} {lab : Nat → Pos} (R : Ready d g lab) {a k : Nat} (hc : Ch g a k) (hd : Done g a) :
    Done g k ∨ k ∈ sortedProcessable g := by
  obtain ⟨e, he⟩ := (R.phase.at_.lab.tch _ _ hc).2
  cases hp : e.isProcessed with
  | true => exact Or.inl ⟨e, he, hp⟩
  | false =>
    refine Or.inr ((sorted_mem R.phase.at_.ac).2 ⟨processable_root he hp (R.phase.res _ _ hc hd) (fun j hj => R.free _ _ _ hj hc hd), ?_⟩)
    unfold Graph.isUnprocessed
    rw [he]
    simp [hp]

theorem shallow_done {d : SDevice} {g : Graph} {lab : Nat → Pos} (hf : Followable d) (R : Ready d g lab)
    (hper : ∀ k e, g.elem? k = some e → e.level = .peripheral → Done g k) :
    ∀ k, IsE g k → Shallow d (lab k) → Done g k ∨ k ∈ processableNodes g := by
  have h := R.phase.at_.lab
  refine up_induct R.phase.at_.ac fun k ih => ?_
  rintro ⟨e, he⟩ hs
  rcases R.fol.up k ⟨e, he⟩ with h1 | ⟨a, h1⟩
  · rw [h1]; exact Or.inl R.phase.root
  · cases hp : e.isProcessed with
    | true => exact Or.inl ⟨e, he, hp⟩
    | false =>
      have hIH : Done g a ∨ a ∈ processableNodes g := by
        have hsa : Shallow d (lab a) := by
          intro y p hy hdf hor
          refine hs y p hy hdf (Or.inr ?_)
          rcases hor with rfl | hor
          · exact .one (h.hasChild h1 id)
          · exact inside_trans hor (.one (h.hasChild h1 id))
        rcases h1 with h1' | h1'
        · exact ih _ h1' rfl (h.tch _ _ (Or.inl h1')).1 hsa
        · exact ih _ h1' rfl (h.tch _ _ (Or.inr h1')).1 hsa
      by_cases hda : Done g a
      · exact Or.inr (processable_root he hp (R.phase.res _ _ h1 hda) fun j hj => R.free _ _ _ hj h1 hda)
      · refine Or.inr (processable_child he (hIH.resolve_left hda) h1 fun j hj => ?_)
        have hP : IsP g j := (h.plP hj).1 ⟨e, he⟩
        obtain ⟨path, hpath⟩ := hP
        obtain ⟨p, k1, k2⟩ := h.ph j k path hpath hj
        have hlen := hs (lab k) p k1 (by rw [k2]; simp) (Or.inl rfl)
        obtain ⟨z, h3, h4⟩ := hasChild_own hf.acyclic (h.hasChild h1 id)
        obtain ⟨ea, hea⟩ := (h.tch _ _ h1).1
        obtain ⟨pa, hpa⟩ := h.node a ea hea
        obtain ⟨m, q, h5, h6⟩ := h3
        rw [h5] at hlen
        simp only [List.length_append, List.length_cons, List.length_nil] at hlen
        have hdz : ∃ pz, DeclAt d z pz ∧ ea.level = pz.level := by
          rcases h4 with h4 | h4
          · exact ⟨pa, by rw [← h4]; exact hpa.decl, hpa.level⟩
          · obtain ⟨p1, p2, m1, m2, m3⟩ := h4
            refine ⟨p2, m2, ?_⟩
            rw [hpa.level, ← kindOf_level, ← kindOf_level, declAt_unique hpa.decl m1]
            exact m3
        obtain ⟨pz, hz, hlz⟩ := hdz
        have hdone : Done g a := by
          have hdev : DeclAt d [] .device := ⟨_, rfl⟩
          rcases z with _ | ⟨m', _ | ⟨_, _⟩⟩
          · have : pz = .device := declAt_unique hz hdev
            rw [this] at hlz
            rw [device_zero h R.fol hea hlz]
            exact R.phase.root
          · refine hper a ea hea ?_
            rw [hlz]
            have ho : OwnChild d [] [m'] := ⟨m', pz, rfl, hz⟩
            have := ownChild_kind ho hdev hz
            generalize pz.level = l at this
            cases l <;> first | rfl | cases this
          · simp only [List.length_cons] at hlen
            omega
        exact hda hdone

/-- The base of an element of the round is processed, or it is in the round. -/
theorem base_done {d : SDevice} {g : Graph} {lab : Nat → Pos} (hf : Followable d) (R : Ready d g lab) {b i : Nat} {e : ElemNode} (hd : De g b i)
    (he : g.elem? i = some e) (hl : e.level ≠ .enumcont) : Done g b ∨ b ∈ sortedProcessable g := by
  rcases R.fol.src b i e hd he hl with ⟨a, h1, h2⟩ | ⟨h1, h2⟩
  · exact below_done R h1 h2
  · obtain ⟨eb, heb⟩ := (R.phase.at_.lab.tde _ _ hd).1
    rcases shallow_done hf R h1 b ⟨eb, heb⟩ h2 with h3 | h3
    · exact Or.inl h3
    · cases hp : eb.isProcessed with
      | true => exact Or.inl ⟨eb, heb, hp⟩
      | false =>
        refine Or.inr ((sorted_mem R.phase.at_.ac).2 ⟨h3, ?_⟩)
        unfold Graph.isUnprocessed
        rw [heb]
        simp [hp]

theorem all_done {d : SDevice} {g : Graph} {lab : Nat → Pos} (R : Ready d g lab) (hnil : sortedProcessable g = []) : g.unprocessed = [] := by
  have h := R.phase.at_.lab
  have : ∀ k, IsE g k → Done g k := by
    refine up_induct R.phase.at_.ac fun k ih => ?_
    intro hk
    rcases R.fol.up k hk with h1 | ⟨a, h1⟩
    · rw [h1]; exact R.phase.root
    · have hda : Done g a := by
        rcases h1 with h1' | h1'
        · exact ih _ h1' rfl (h.tch _ _ (Or.inl h1')).1
        · exact ih _ h1' rfl (h.tch _ _ (Or.inr h1')).1
      rcases below_done R h1 hda with h2 | h2
      · exact h2
      · rw [hnil] at h2; cases h2
  cases hu : g.unprocessed with
  | nil => rfl
  | cons x xs =>
    obtain ⟨e, he, hp⟩ := unprocessed_iff.1 (show x ∈ g.unprocessed by rw [hu]; simp)
    obtain ⟨e', he', hp'⟩ := this x ⟨e, he⟩
    rw [he] at he'
    injection he' with he'
    subst he'
    rw [hp] at hp'
    cases hp'

/-! ### the nodes are processed -/

/-- References and placeholders of the nodes that are there already stay as they are. -/
theorem advance_in {d : SDevice} {g g' : Graph} {lab lab' : Nat → Pos} {i : Nat} (hw : WF g) (h : Lab d g lab) (hb : ∀ x, ¬ Precedes d x x)
    (A : Advance d g lab i g' lab') {k : Nat} (hk : (g.node? k).isSome) : (∀ b, De g' b k → De g b k) ∧ ∀ j, Pl g' j k → Pl g j k := by
  cases A with
  | @enum e e' es he hl hl' hp hes =>
    have hsub : ∀ ed ∈ es, ed ∈ g.edges := by
      rcases hes with rfl | ⟨b, hd, rfl⟩
      · exact fun _ h => h
      · exact fun _ h => eraseEdge_sub h
    exact ⟨fun b hd => hsub _ hd, fun j hp => hsub _ hp⟩
  | @dim g1 lab1 e x0 t I _ _ he hl hp hw1 hx ha hf lo ln _ _ =>
    have key : (∀ b, De g1 b k → De g b k) ∧ ∀ j, Pl g1 j k → Pl g j k := by
      cases ha with
      | none => exact ⟨fun _ h => h, fun _ h => h⟩
      | @some _ _ s φ hdr hr l1 l2 hbase =>
        have nf : ∀ j, j ∈ ({ g with edges := eraseEdge s i g.edges } : Graph).descendants s → k ≠ φ j := by
          rintro j hj rfl
          have : g.node? (φ j) = none := hr.fresh j hj
          rw [this] at hk
          cases hk
        constructor
        · intro b hd
          rcases (hr.edges _ _ _).1 hd with h1 | ⟨x, y, -, h2, -, h3, -⟩ | ⟨y, h2, h3, -⟩ | ⟨-, y, _, h2, h3, -⟩
          · exact eraseEdge_sub h1
          · exact (nf y h2 h3).elim
          · exact (nf y h2 h3).elim
          · exact (nf y h2 h3).elim
        · intro b hd
          rcases (hr.edges _ _ _).1 hd with h1 | ⟨x, y, -, h2, -, h3, -⟩ | ⟨y, h2, h3, -⟩ | ⟨-, y, _, h2, h3, -⟩
          · exact eraseEdge_sub h1
          · exact (nf y h2 h3).elim
          · exact (nf y h2 h3).elim
          · exact (nf y h2 h3).elim
    exact ⟨fun b hd => key.1 b (hf.de _ _ hd), fun j hp => key.2 j (hf.pl _ _ hp)⟩

/-- What holds while the nodes of a round are processed; `is` are the nodes to come. -/
structure Going (d : SDevice) (old : Nat → Prop) (g : Graph) (lab : Nat → Pos) (is : List Nat) : Prop where
  at_ : LabAt d g lab
  listed : Listed g
  res : Res g
  root : Done g 0
  fol : Fol d g lab old (Done g)
  hold : ∀ k, old k → (g.node? k).isSome
  todo : ∀ k ∈ is, old k ∧ k ∈ g.unprocessed ∧ ∀ j, ¬ Pl g j k
  nodup : is.Nodup
  per : ∀ k e, g.elem? k = some e → e.level = .peripheral → Done g k ∨ k ∈ is
  base : ∀ l1 i l2, is = l1 ++ i :: l2 → ∀ b e, De g b i → g.elem? i = some e → e.level ≠ .enumcont → Done g b ∨ b ∈ l1

theorem going_start {d : SDevice} {g : Graph} {lab : Nat → Pos} (hf : Followable d) (R : Ready d g lab) :
    Going d (fun k => (g.node? k).isSome) g lab (sortedProcessable g) where
  at_ := R.phase.at_
  listed := R.phase.listed
  res := R.phase.res
  root := R.phase.root
  fol := R.fol
  hold := fun _ h => h
  todo := fun k hk => by
    have h1 := sorted_sub.2 k hk
    obtain ⟨e, he, -⟩ := unprocessed_iff.1 h1
    exact ⟨IsE.some ⟨e, he⟩, h1, processable_no_pl ((sorted_mem R.phase.at_.ac).1 hk).1⟩
  nodup := sorted_sub.1
  per := fun k e he hl => below_done R (periph_root R.phase.at_.lab R.fol he hl) R.phase.root
  base := fun l1 i l2 hl b e hd he hne => by
    rcases base_done hf R hd he hne with h1 | h1
    · exact Or.inl h1
    · exact Or.inr (sorted_order hl hd rfl h1)

theorem not_done {g : Graph} {k : Nat} (h : k ∈ g.unprocessed) : ¬ Done g k := by
  rintro ⟨e, he, hp⟩
  obtain ⟨e', he', hp'⟩ := unprocessed_iff.1 h
  rw [he] at he'
  injection he' with he'
  subst he'
  rw [hp] at hp'
  cases hp'

theorem going_advance {d : SDevice} {ord : List Nat → List Nat} (hf : Followable d) {old : Nat → Prop} {g g' : Graph}
    {lab lab' : Nat → Pos} {i : Nat} {is : List Nat} {ws : List Warn} (G : Going d old g lab (i :: is)) (hr : processNode ord g i = .ok g' ws)
    (h1 : Lab d g' lab') (h2 : ∀ k, (g.node? k).isSome → lab' k = lab k) (h3 : LabStep d i g g' lab') (h4 : Advance d g lab i g' lab') :
    Going d old g' lab' is ∧ Done g' i ∧ ∀ k, Done g k → Done g' k := by
  have hw := G.at_.inv.wf
  obtain ⟨hoi, hui, -⟩ := G.todo i (by simp)
  have hnd := List.nodup_cons.1 G.nodup
  have same : ∀ k, (g.node? k).isSome → k ≠ i → g'.elem? k = g.elem? k := by
    intro k hk hki
    unfold Graph.elem?
    rw [h3.old k hk hki]
  have hDi : Done g' i := h3.self
  have mono : ∀ k, Done g k → Done g' k := by
    rintro k ⟨e, he, hp⟩
    by_cases hki : k = i
    · rw [hki]; exact hDi
    · exact ⟨e, by rw [same k (IsE.some ⟨e, he⟩) hki]; exact he, hp⟩
  refine ⟨?_, hDi, mono⟩
  have hni : ∀ k ∈ is, k ≠ i := fun k hk hki => hnd.1 (hki ▸ hk)
  exact
    { at_ := ⟨(inv_processNode G.at_.inv hr).1, ac_processNode G.at_.ac hr, h1⟩
      listed := G.listed.processNode hw hr
      res := res_advance hw G.at_.lab hf.acyclic h4 G.res
      root := mono 0 G.root
      fol := fol_advance hw G.at_.lab h1 hf.acyclic h4 hoi G.hold G.fol
      hold := fun k hk => by
        by_cases hki : k = i
        · obtain ⟨e, he, -⟩ := hDi
          rw [hki]
          exact IsE.some ⟨e, he⟩
        · rw [h3.old k (G.hold k hk) hki]; exact G.hold k hk
      todo := fun k hk => by
        obtain ⟨k1, k2, k3⟩ := G.todo k (List.mem_cons_of_mem _ hk)
        refine ⟨k1, ?_, fun j hj => k3 j ((advance_in hw G.at_.lab hf.acyclic h4 (G.hold k k1)).2 j hj)⟩
        obtain ⟨e, he, hp⟩ := unprocessed_iff.1 k2
        exact unprocessed_iff.2 ⟨e, by rw [same k (G.hold k k1) (hni k hk)]; exact he, hp⟩
      nodup := hnd.2
      per := fun k e he hl => by
        cases hn : g.node? k with
        | none =>
          cases hp : e.isProcessed with
          | true => exact Or.inl ⟨e, he, hp⟩
          | false =>
            exfalso
            have hin := h3.new k e hn he hp
            obtain ⟨ei, hei, -⟩ := hDi
            rcases node_rank h1 hei he hin with h5 | ⟨-, h5⟩
            · rw [hl] at h5
              have hdev : ei.level = .device := by
                generalize ei.level = l at h5
                cases l <;> simp [kindRank] at h5 ⊢
              obtain ⟨e0, he0, -⟩ := unprocessed_iff.1 hui
              have h6 : (lab' i) = [] := by
                obtain ⟨p, hp⟩ := h1.node i ei hei
                exact device_pos hp.decl (by rw [← hp.level]; exact hdev)
              rw [h2 i (IsE.some ⟨e0, he0⟩)] at h6
              obtain ⟨p0, hp0⟩ := G.at_.lab.node i e0 he0
              have h7 : e0.level = .device := by
                rw [hp0.level]
                have : p0 = .device := declAt_unique hp0.decl (by rw [h6]; exact ⟨_, rfl⟩)
                rw [this]
                rfl
              have h8 := device_zero G.at_.lab G.fol he0 h7
              rw [h8] at hui
              exact not_done hui G.root
            · rw [hl] at h5; cases h5
        | some n =>
          by_cases hki : k = i
          · rw [hki]; exact Or.inl hDi
          · rw [same k (by rw [hn]; rfl) hki] at he
            rcases G.per k e he hl with h5 | h5
            · exact Or.inl (mono k h5)
            · exact Or.inr ((List.mem_cons.1 h5).resolve_left hki)
      base := fun l1 j l2 hl b e hd he hne => by
        have hj : j ∈ is := by rw [hl]; simp
        obtain ⟨k1, -, -⟩ := G.todo j (List.mem_cons_of_mem _ hj)
        have hd' := (advance_in hw G.at_.lab hf.acyclic h4 (G.hold j k1)).1 b hd
        rw [same j (G.hold j k1) (hni j hj)] at he
        rcases G.base (i :: l1) j l2 (by rw [hl]; rfl) b e hd' he hne with h5 | h5
        · exact Or.inl (mono b h5)
        · rcases List.mem_cons.1 h5 with rfl | h5
          · exact Or.inl hDi
          · exact Or.inr h5 }

theorem going_step {d : SDevice} {ord : List Nat → List Nat} (hord : ∀ l, (ord l).Perm l) (hf : Followable d) {old : Nat → Prop} {g g' : Graph}
    {lab : Nat → Pos} {i : Nat} {is : List Nat} {ws : List Warn} (G : Going d old g lab (i :: is)) (hr : processNode ord g i = .ok g' ws) :
    ∃ lab', Going d old g' lab' is ∧ Done g' i ∧ ∀ k, Done g k → Done g' k := by
  obtain ⟨lab', h1, h2, h3, h4⟩ := lab_processNode hord G.at_.inv G.at_.ac G.at_.lab hr
  exact ⟨lab', going_advance hf G hr h1 h2 h3 h4⟩

theorem going_err {d : SDevice} {ord : List Nat → List Nat} {old : Nat → Prop} {g : Graph}
    {lab : Nat → Pos} {i : Nat} {is : List Nat} {x : Exn} (G : Going d old g lab (i :: is)) (hr : processNode ord g i = .err x) : NErr x := by
  obtain ⟨hoi, hui, hpl⟩ := G.todo i (by simp)
  unfold processNode at hr
  split at hr
  · cases hr; trivial
  · rename_i e he
    split at hr
    · cases hr; trivial
    · rename_i hdev
      rw [M.bind_eq_err] at hr
      rcases hr with hr | ⟨⟨bn, bp⟩, w, h1, hr⟩
      · exfalso
        split at hr
        · simp at hr
        · rename_i path hpath
          have hex : ∃ b, De g b i := by
            rcases G.fol.pend i e he (not_done hui) (by rw [hpath]; simp) with ⟨j, hj⟩ | hb
            · exact (hpl j hj).elim
            · exact hb
          have hbase : ∃ b, g.baseElementNode i = some b := by
            obtain ⟨b, hb⟩ := hex
            unfold Graph.baseElementNode
            cases hfind : (g.inEdges i).find? fun e => e.ty == .derive with
            | some ed => exact ⟨_, rfl⟩
            | none =>
              have := List.find?_eq_none.1 hfind ⟨b, i, .derive⟩ (by unfold Graph.inEdges; exact List.mem_filter.2 ⟨hb, by simp⟩)
              simp at this
          obtain ⟨b, hb⟩ := hbase
          have hde : De g b i := baseElementNode_edge hb
          obtain ⟨s, t, k1, k2, es, ed, rfl, rfl, k3, -⟩ := G.at_.inv.edges _ hde
          have hes := elem?_node?.2 k1
          have hed := elem?_node?.2 k2
          rw [he] at hed
          injection hed with hed
          subst hed
          rw [M.bind_eq_err] at hr
          rcases hr with hr | ⟨⟨b', eb⟩, w, h1, hr⟩
          · unfold derivedFromBase at hr
            rw [hb] at hr
            simp only [hes, k3, ne_eq, not_true_eq_false, if_false] at hr
            simp at hr
          · obtain ⟨m1, m2, m3⟩ := derivedFromBase_ok h1
            rw [hb] at m1
            injection m1 with m1
            subst m1
            rw [hes] at m2
            injection m2 with m2
            subst m2
            simp only at hr
            split at hr
            · rename_i hc
              simp only [Bool.and_eq_true, Bool.not_eq_true', Option.isNone_iff_eq_none] at hc
              obtain ⟨n1, n2, n3, n4, n5⟩ := G.at_.inv.nodes.elem he
              obtain ⟨o1, o2, o3, o4, o5⟩ := G.at_.inv.nodes.elem hes
              have hne : e.level ≠ .enumcont := by
                intro hl
                rw [n2, ← isEnum_level] at hl
                rw [hl] at hc
                cases hc.2
              have hnd : es.level ≠ .device := by
                rw [← m3, n2]
                intro hl
                refine hdev ?_
                generalize e.parsed = p at hl
                cases p <;> first | rfl | cases hl
              rcases G.base [] i is rfl b e hde he hne with ⟨e', p1, p2⟩ | p1
              · rw [hes] at p1
                injection p1 with p1
                subst p1
                have := o5 p2 hnd (by rw [← m3]; exact hne)
                rw [hc.1] at this
                cases this
              · cases p1
            · simp at hr
      · dsimp only at hr
        split at hr
        · exact (rsat_processEnumNode _ _ _ _).err hr
        · exact (rsat_processDimable _ _ _ _ _ _).err hr

theorem going_run {d : SDevice} {ord : List Nat → List Nat} (hord : ∀ l, (ord l).Perm l) (hf : Followable d) {old : Nat → Prop} {is : List Nat} :
    ∀ {g : Graph} {lab : Nat → Pos}, Going d old g lab is →
      (∀ x, processNodes ord g is = .err x → NErr x) ∧
      ∀ g' ws, processNodes ord g is = .ok g' ws → ∃ lab', Going d old g' lab' [] ∧ (∀ k ∈ is, Done g' k) ∧ ∀ k, Done g k → Done g' k := by
  induction is with
  | nil =>
    intro g lab G
    refine ⟨fun x h => by simp [processNodes] at h, fun g' ws h => ?_⟩
    simp only [processNodes, M.pure_eq_ok] at h
    obtain ⟨rfl, -⟩ := h
    exact ⟨lab, G, by simp, fun _ h => h⟩
  | cons i is ih =>
    intro g lab G
    refine ⟨fun x h => ?_, fun g' ws h => ?_⟩
    · simp only [processNodes, M.bind_eq_err] at h
      rcases h with h | ⟨g1, w, h1, h⟩
      · exact going_err G h
      · obtain ⟨lab1, G1, -⟩ := going_step hord hf G h1
        exact (ih G1).1 x h
    · simp only [processNodes, M.bind_eq_ok] at h
      obtain ⟨g1, w1, w2, h1, h2, -⟩ := h
      obtain ⟨lab1, G1, hi, hm⟩ := going_step hord hf G h1
      obtain ⟨lab2, G2, h3, h4⟩ := (ih G1).2 g' w2 h2
      refine ⟨lab2, G2, fun k hk => ?_, fun k hk => h4 k (hm k hk)⟩
      rcases List.mem_cons.1 hk with rfl | hk
      · exact h4 _ hi
      · exact h3 k hk

theorem phase_next {d : SDevice} {old : Nat → Prop} {g : Graph} {lab : Nat → Pos} (G : Going d old g lab []) : Phase d g lab where
  at_ := G.at_
  listed := G.listed
  res := G.res
  root := G.root
  per := Or.inr fun k e he hl => (G.per k e he hl).resolve_right (by simp)
  fol := by
    have F := G.fol
    exact
      { shared := F.shared, up := F.up, pend := F.pend, plCh := F.plCh, uni := F.uni, src := F.src
        chPl := fun a h c h1 h2 => by
          rcases F.chPl a h c h1 h2 with h3 | ⟨-, h3⟩
          · exact Or.inl h3
          · exact Or.inr ⟨id, h3⟩
        srcOld := fun _ _ h _ => h.elim }

/-- The rounds do not fail because of references. -/
theorem follow_rounds {d : SDevice} {ord : List Nat → List Nat} (hord : ∀ l, (ord l).Perm l) (hf : Followable d) {fuel : Nat} :
    ∀ {g : Graph} {lab : Nat → Pos} {prev : List Nat}, Phase d g lab → (∀ k ∈ prev, Done g k) →
      (∀ x, rounds ord fuel g prev = .err x → NErr x ∨ x = .outOfFuel) ∧ ∀ g' ws, rounds ord fuel g prev = .ok g' ws → g'.unprocessed = [] := by
  induction fuel with
  | zero =>
    intro g lab prev P hprev
    refine ⟨fun x h => ?_, fun g' ws h => ?_⟩
    · simp only [rounds] at h
      cases h
      exact Or.inr rfl
    · simp [rounds] at h
  | succ f ih =>
    intro g lab prev P hprev
    have loopless : ∀ {g1 w1}, resolvePlaceholders g g.placeholders = .ok g1 w1 → sortedProcessable g1 ≠ [] → sortedProcessable g1 ≠ prev := by
      intro g1 w1 h1 hne heq
      obtain ⟨-, he, -⟩ := phase_run hf P h1
      obtain ⟨k, ks, hk⟩ := List.exists_cons_of_ne_nil hne
      have h2 : k ∈ sortedProcessable g1 := by rw [hk]; simp
      exact not_done (sorted_sub.2 k h2) ((done_congr he k).2 (hprev k (heq ▸ h2)))
    refine ⟨fun x h => ?_, fun g' ws h => ?_⟩
    · simp only [rounds, M.bind_eq_err] at h
      rcases h with h | ⟨g1, w1, h1, h⟩
      · exact Or.inl (phase_run_err hf P h)
      have R := ready_of hf P h1
      split at h
      · simp at h
      · rename_i hne
        split at h
        · rename_i heq
          exact (loopless h1 hne heq).elim
        · simp only [M.bind_eq_err] at h
          have G := going_run hord hf (going_start hf R)
          rcases h with h | ⟨g2, w2, h2, h⟩
          · exact Or.inl (G.1 x h)
          · obtain ⟨lab2, G2, h3, -⟩ := G.2 g2 w2 h2
            exact (ih (phase_next G2) h3).1 x h
    · simp only [rounds, M.bind_eq_ok] at h
      obtain ⟨g1, w1, w2, h1, h, -⟩ := h
      have R := ready_of hf P h1
      split at h
      · rename_i hnil
        simp only [M.pure_eq_ok] at h
        obtain ⟨rfl, -⟩ := h
        exact all_done R hnil
      · split at h
        · simp at h
        · simp only [M.bind_eq_ok] at h
          have G := going_run hord hf (going_start hf R)
          obtain ⟨g2, w3, w4, h2, h, -⟩ := h
          obtain ⟨lab2, G2, h3, -⟩ := G.2 g2 w3 h2
          exact (ih (phase_next G2) h3).2 g' w4 h

end Svd
