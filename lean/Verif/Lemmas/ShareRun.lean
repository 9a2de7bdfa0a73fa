import Verif.Lemmas.Share
import Verif.Lemmas.SharedEnd
/-
Which nodes refer to the same object, at the end of the main loop.
-/
namespace Svd
open Graph Spec M

theorem processNodeS_cases {ord : List Nat → List Nat} {g g' : Graph} {obj obj' : Nat → Nat} {i : Nat} {ws : List Warn}
    (h : processNodeS ord g obj i = .ok (g', obj') ws) :
    ∃ e bn bp w, g.elem? i = some e ∧ e.parsed ≠ .device ∧
      ((e.parsed.derivedFrom = none ∧ bn = none ∧ bp = none) ∨
       (∃ path b eb, e.parsed.derivedFrom = some path ∧ g.baseElementNode i = some b ∧ g.elem? b = some eb ∧
          e.level = eb.level ∧ bn = some b ∧ bp = eb.processed ∧ (e.parsed.isEnum = true ∨ eb.processed.isSome))) ∧
      ((e.parsed.isEnum = true ∧ processEnumNode ord g i bn = .ok g' w ∧ obj' = obj) ∨
       (e.parsed.isEnum = false ∧ processDimableS ord g obj i e.parsed bn bp = .ok (g', obj') w)) := by
  unfold processNodeS at h
  split at h
  · simp at h
  · rename_i e he
    split at h
    · simp at h
    · rename_i hdev
      simp only [M.bind_eq_ok] at h
      obtain ⟨⟨bn, bp⟩, w1, w2, h1, h2, -⟩ := h
      have hbase : ((e.parsed.derivedFrom = none ∧ bn = none ∧ bp = none) ∨
       (∃ path b eb, e.parsed.derivedFrom = some path ∧ g.baseElementNode i = some b ∧ g.elem? b = some eb ∧
          e.level = eb.level ∧ bn = some b ∧ bp = eb.processed ∧ (e.parsed.isEnum = true ∨ eb.processed.isSome))) := by
        split at h1
        · rename_i hd
          simp only [M.pure_eq_ok, Prod.mk.injEq] at h1
          exact Or.inl ⟨hd, h1.1.1.symm, h1.1.2.symm⟩
        · rename_i path hd
          right
          simp only [M.bind_eq_ok] at h1
          obtain ⟨⟨b, eb⟩, w3, w4, h3, h4, -⟩ := h1
          obtain ⟨a1, a2, a3⟩ := derivedFromBase_ok h3
          split at h4
          · simp at h4
          · rename_i hc
            simp only [M.pure_eq_ok, Prod.mk.injEq] at h4
            refine ⟨path, b, eb, hd, a1, a2, a3, h4.1.1.symm, h4.1.2.symm, ?_⟩
            simp only [Bool.and_eq_true, not_and, Bool.not_eq_true'] at hc
            cases hp : eb.processed with
            | some _ => exact Or.inr rfl
            | none => left; simpa [hp] using hc
      simp only at h2
      split at h2
      · rename_i hen
        simp only [M.bind_eq_ok, M.pure_eq_ok, Prod.mk.injEq] at h2
        obtain ⟨g1, w3, w4, h3, ⟨⟨rfl, rfl⟩, -⟩, -⟩ := h2
        exact ⟨e, bn, bp, w3, he, hdev, hbase, Or.inl ⟨hen, h3, rfl⟩⟩
      · rename_i hen
        exact ⟨e, bn, bp, w2, he, hdev, hbase, Or.inr ⟨by simpa using hen, h2⟩⟩

theorem processDimableS_cases {ord : List Nat → List Nat} {g g' : Graph} {obj obj' : Nat → Nat} {i : Nat} {p : Parsed} {bn : Option Nat}
    {b : Option Processed} {ws : List Warn} (h : processDimableS ord g obj i p bn b = .ok (g', obj') ws) :
    (∃ x w, updateNode ord g i bn x false = .ok g' w ∧ obj' = obj) ∨
    (∃ (xs : List Processed) (t : Processed) (w : List Warn) (g1 : Graph) (e : ElemNode) (g2 : Graph) (js : List Nat), updateNode ord g i bn t true = .ok g1 w ∧ g1.elem? i = some e ∧
      (∃ w, addInstances e.level e.parsed g1 ((g1.elementParents i).flatMap fun par => xs.map fun x => (par, x)) = .ok (g2, js) w) ∧
      (∃ w, linkInstances i g2 js = .ok g' w) ∧ obj' = shareInstances obj xs.length js) := by
  unfold processDimableS at h
  simp only [M.bind_eq_ok] at h
  obtain ⟨⟨isDim, names, ds⟩, w1, w2, h1, ⟨xs, w3, w4, h2, h3, -⟩, -⟩ := h
  simp only at h3
  split at h3
  · simp at h3
  · rename_i x rest
    split at h3
    · right
      unfold updateDimNodeS at h3
      simp only [M.bind_eq_ok] at h3
      obtain ⟨g1, w5, w6, h4, h5, -⟩ := h3
      split at h5
      · simp at h5
      · rename_i e he
        simp only [M.bind_eq_ok, M.pure_eq_ok, Prod.mk.injEq] at h5
        obtain ⟨⟨g2, js⟩, w7, w8, h6, ⟨g3, w9, w10, h7, ⟨⟨rfl, rfl⟩, -⟩, -⟩, -⟩ := h5
        exact ⟨_, _, _, g1, e, g2, js, h4, he, ⟨_, h6⟩, ⟨_, h7⟩, rfl⟩
    · left
      simp only [M.bind_eq_ok, M.pure_eq_ok, Prod.mk.injEq] at h3
      obtain ⟨g1, w5, w6, h4, ⟨⟨rfl, rfl⟩, -⟩, -⟩ := h3
      exact ⟨x, w5, h4, rfl⟩

theorem adoptBase_mono {ord : List Nat → List Nat} (hord : ∀ l, (ord l).Perm l) {g g' : Graph} {i : Nat} {bn : Option Nat} {ws : List Warn} (hw : WF g)
    (hi : (g.node? i).isSome) (hb : ∀ b, bn = some b → ¬ Ch g b i ∧ ¬ Pl g b i) (hr : adoptBase ord g i bn = .ok g' ws) {a c : Nat} (h : Ch g a c) : Ch g' a c := by
  cases bn with
  | none =>
    simp only [adoptBase, M.pure_eq_ok] at hr
    exact hr.1 ▸ h
  | some b =>
    simp only [adoptBase, M.bind_eq_ok] at hr
    obtain ⟨g1, w1, w2, h1, h2, -⟩ := hr
    obtain ⟨rfl, -, -⟩ := removeEdge_ok h1
    have hw1 : WF { g with edges := eraseEdge b i g.edges } := hw.of_eq rfl rfl (fun e he => Or.inl (eraseEdge_sub he))
    obtain ⟨φ, R⟩ := replicateDescendants_rep hord hw1 hi h2
    obtain ⟨n1, n2⟩ := hb b rfl
    have := ((erase_views (g' := { g with edges := eraseEdge b i g.edges }) n1 n2 rfl).1 a c).2 h
    exact this.imp (fun h => (R.edges _ _ _).2 (Or.inl h)) fun h => (R.edges _ _ _).2 (Or.inl h)

/-- A new child of an old node stands for the element that is processed. -/
theorem advance_label {d : SDevice} {g g' : Graph} {lab lab' : Nat → Pos} {i : Nat} (hw : WF g) (h : Lab d g lab) (hb : ∀ x, ¬ Precedes d x x)
    (A : Advance d g lab i g' lab') {a j : Nat} (ha : (g.node? a).isSome) (hi : a ≠ i) (hj : g.node? j = none) (hc : Ch g' a j) : lab' j = lab i := by
  cases A with
  | @enum e e' es he hl hl' hp hes =>
    exfalso
    have hch : Ch g a j := by
      rcases hes with rfl | ⟨s, hd, rfl⟩
      · exact hc
      · obtain ⟨n1, n2⟩ := de_not h hb hd
        exact ((erase_views n1 n2 rfl).1 a j).1 hc
    have := (h.tch _ _ hch).2.some
    rw [hj] at this
    cases this
  | @dim g1 lab1 e x0 t I _ _ he hl hp hw1 hx ha' hf lo ln hI hmk =>
    have old1 : (g1.node? a).isSome ∧ lab1 i = lab i := by
      cases ha' with
      | none => exact ⟨ha, rfl⟩
      | @some _ _ s φ hdr hr l1 l2 hbase =>
        exact ⟨Ext.isSome hr.ext ha, l1 i (IsE.some ⟨e, he⟩)⟩
    rcases (hf.ch a j).1 hc with h1 | ⟨x, h1⟩ | ⟨⟨p, x, h1⟩, -⟩
    · exfalso
      cases ha' with
      | none =>
        have := (h.tch _ _ h1).2.some
        rw [hj] at this
        cases this
      | @some _ _ s φ hdr hr l1 l2 hbase =>
        have n0 : ∀ k, k ∈ ({ g with edges := eraseEdge s i g.edges } : Graph).descendants s → a ≠ φ k := by
          rintro k hk rfl
          have : g.node? (φ k) = none := hr.fresh k hk
          rw [this] at ha
          cases ha
        have old : ∀ ty, (⟨a, j, ty⟩ : Edge) ∈ g.edges → False := by
          intro ty hm
          have := (hw.edges_valid _ hm).2
          simp only at this
          rw [hj] at this
          cases this
        rcases h1 with h1 | h1
        · rcases (hr.edges _ _ _).1 h1 with h1 | ⟨x, y, h2, -, h3, -⟩ | ⟨y, h2, h3, h4, -⟩ | ⟨h2, -⟩
          · exact old _ (eraseEdge_sub h1)
          · exact n0 x h2 h3
          · cases h4
          · exact hi h2
        · rcases (hr.edges _ _ _).1 h1 with h1 | ⟨x, y, h2, -, h3, -⟩ | ⟨y, h2, h3, h4, -⟩ | ⟨h2, -⟩
          · exact old _ (eraseEdge_sub h1)
          · exact n0 x h2 h3
          · cases h4
          · exact hi h2
    · rw [ln j a x h1, old1.2]
    · have := hf.fresh _ _ _ h1
      rw [this] at old1
      exact absurd old1.1 (by simp)

set_option maxHeartbeats 1000000 in
theorem shares_processNode {d : SDevice} {ord : List Nat → List Nat} (hord : ∀ l, (ord l).Perm l) {g g' : Graph} {obj obj' : Nat → Nat} {lab lab' : Nat → Pos} {i : Nat}
    {ws : List Warn} (hacy : ∀ x, ¬ Precedes d x x) (A : LabAt d g lab) (hun : i ∈ g.unprocessed) (Sg : Single g) (S : Shares g obj) (L : ∀ a b, obj a = obj b → lab a = lab b)
    (hV : Advance d g lab i g' lab') (hlab : ∀ k, (g.node? k).isSome → lab' k = lab k)
    (hr : processNodeS ord g obj i = .ok (g', obj') ws) : Shares g' obj' ∧ ∀ a b, obj' a = obj' b → lab' a = lab' b := by
  obtain ⟨e, bn, bp, w, he, hdev, hbase, hcase⟩ := processNodeS_cases hr
  obtain ⟨e', he', hpr⟩ := unprocessed_iff.1 hun
  rw [he] at he'
  injection he' with he'
  subst he'
  have T := A.lab.typed
  have hw := A.inv.wf
  have hi : IsE g i := ⟨e, he⟩
  have hnd : ¬ Done g i := not_done hun
  have hb : ∀ b, bn = some b → De g b i := by
    intro b hb
    rcases hbase with ⟨-, h2, -⟩ | ⟨path, b', eb, -, h2, -, -, h5, -⟩
    · rw [h2] at hb; cases hb
    · rw [h5] at hb
      injection hb with hb
      subst hb
      exact baseElementNode_edge h2
  have hb' : ∀ b, bn = some b → ¬ Ch g b i ∧ ¬ Pl g b i := fun b h => de_not A.lab hacy (hb b h)
  have hN : ∀ b, bn = some b → ∀ j, Conn (g.edges.filter fun e => e.ty != .derive) b j → ¬ De g b j := by
    intro b hbb j hcn hde
    exact not_endless hacy (A.lab.der _ _ hde) ((inside_of A.lab hcn (A.lab.tde _ _ hde).2).1 (A.lab.tde _ _ hde).1)
  have doneI : ∀ a, Done g a → a ≠ i ∧ (g.node? a).isSome := by
    rintro a ⟨ea, h1, h2⟩
    refine ⟨?_, IsE.some ⟨_, h1⟩⟩
    rintro rfl
    exact hnd ⟨ea, h1, h2⟩
  have labOld : ∀ a b, obj a = obj b → lab' a = lab' b := by
    intro a b h
    rcases S.both h with rfl | ⟨h1, h2⟩
    · rfl
    · rw [hlab a (doneI a h1).2, hlab b (doneI b h2).2, L a b h]
  rcases hcase with ⟨hen, hp, rfl⟩ | ⟨hen, hp⟩
  · refine ⟨?_, labOld⟩
    unfold processEnumNode at hp
    rw [he] at hp
    simp only [M.bind_eq_ok] at hp
    obtain ⟨g1, w1, w2, h1, h2, -⟩ := hp
    have hs := setElem_wf (e := { e with parsed := adoptedParsed g e bn }) hw hi.some
    have he0 : (g.setElem i { e with parsed := adoptedParsed g e bn }).elem? i = some { e with parsed := adoptedParsed g e bn } := by
      rw [elem?_node?, hs.2, if_pos rfl]
    have hi0 : ((g.setElem i { e with parsed := adoptedParsed g e bn }).node? i).isSome := IsE.some ⟨_, he0⟩
    have hw1 := (adoptBase_wf hs.1 h1 hi0)
    rw [hw1.2.elem he0] at h2
    simp only [M.pure_eq_ok] at h2
    obtain ⟨rfl, -⟩ := h2
    have hs0 : ∀ a, a ≠ i → (g.setElem i { e with parsed := adoptedParsed g e bn }).node? a = g.node? a := fun a h => by
      rw [hs.2, if_neg h]
    refine S.grow ?_ ?_ ?_
    · intro a ha
      obtain ⟨h3, h4⟩ := doneI a ha
      rw [setElem_elem? (IsE.some ⟨_, hw1.2.elem he0⟩), if_neg h3]
      obtain ⟨ea, h5, -⟩ := ha
      rw [h5]
      refine hw1.2.elem ?_
      rw [elem?_node?] at h5 ⊢
      rw [hs0 a h3, h5]
    · intro a ha
      obtain ⟨h3, h4⟩ := doneI a ha
      have := kidsIn_adoptBase (k := a) (g := g.setElem i { e with parsed := adoptedParsed g e bn }) hord hs.1 (fun b hbb => (hb' b hbb).1) h1 (by rw [hs0 a h3]; exact h4) h3
      exact this
    · intro a c hc
      have := adoptBase_mono (g := g.setElem i { e with parsed := adoptedParsed g e bn }) hord hs.1 hi0 hb' h1 hc
      exact this
  · have hC : ∀ w g1, adoptBase ord g i bn = .ok g1 w → Typed g1 ∧ ∀ c, Ch g1 i c → ¬ De g1 i c := by
      intro w g1 h1
      rcases hbase with ⟨-, h2, -⟩ | ⟨path, b, eb, hpath, h2, h3, h4, h5, h6, h7⟩
      · subst h2
        simp only [adoptBase, M.pure_eq_ok] at h1
        obtain ⟨rfl, -⟩ := h1
        exact ⟨T, fun c hc hd => (de_not A.lab hacy hd).1 hc⟩
      · subst h5
        have hps : eb.processed.isSome := h7.resolve_left (by rw [hen]; simp)
        obtain ⟨lab1, k1, ⟨k2, k3, k4⟩, -⟩ := lab_adoptBase hord hw A.lab he hpr h3 h4.symm (hb b rfl) h1
        exact ⟨k1.typed, fun c hc => adopt_no_de hw A.lab hacy hi (k4 (Option.isSome_iff_exists.1 hps)) k1 hc⟩
    -- the node itself
    have upd : ∀ {g1 : Graph} {x : Processed} {t : Bool} {w : List Warn}, updateNode ord g i bn x t = .ok g1 w →
        Shares g1 obj ∧ (∀ a c, Ch g1 a c → IsE g1 a ∧ IsE g1 c) ∧ WF g1 ∧ IsE g1 i ∧ Single g1 ∧ (∀ a, Ch g1 a i → Ch g a i) ∧ ∀ a, (g.node? a).isSome → (g1.node? a).isSome := by
      intro g1 x t w h2
      obtain ⟨w1, w2, w3, w4⟩ := updateNode_wf hw h2 he
      have S1 := single_updateNode hord hw T hi hb hN (hC _) Sg h2
      have h2' := h2
      obtain ⟨ga, ea, k1, k2, k3, k4⟩ := updateNode_ok h2
      obtain ⟨Ta, -⟩ := hC _ _ k1
      have hwa := adoptBase_wf hw k1 hi.some
      have T2 := typed_setElem (e' := { ea with isProcessed := true, processed := some x, isDimTemplate := ea.isDimTemplate || t }) hwa.1 Ta k2
      have hv : ∀ a c, Ch g1 a c ↔ Ch ga a c := by
        intro a c
        rw [k4]
        refine (resolveChildEdges_views ?_).1 a c
        intro c hc
        exact (mem_children_iff T2.tch).1 hc
      have hE1 : ∀ a, IsE ga a → IsE g1 a := by
        intro a ha
        have h3 := (isE_setElem (e' := { ea with isProcessed := true, processed := some x, isDimTemplate := ea.isDimTemplate || t }) hwa.1 k2 a).2 ha
        rw [k4]
        unfold IsE Graph.elem? at h3 ⊢
        rw [node?_congr (resolveChildEdges_nodes (i := i)).1]
        exact h3
      have hsome : ∀ a, (g.node? a).isSome → (g1.node? a).isSome := by
        intro a ha
        by_cases hai : a = i
        · subst hai; exact IsE.some ⟨_, w2⟩
        · obtain ⟨n, hn⟩ := Option.isSome_iff_exists.1 ha
          rw [w4 a n hai hn]; rfl
      refine ⟨S.grow ?_ ?_ ?_, ?_, w1, ⟨_, w2⟩, S1, ?_, hsome⟩
      · rintro a ha
        obtain ⟨h3, h4⟩ := doneI a ha
        obtain ⟨ea, h5, -⟩ := ha
        rw [h5]
        rw [elem?_node?] at h5 ⊢
        exact w4 a _ h3 h5
      · intro a ha
        obtain ⟨h3, h4⟩ := doneI a ha
        exact kidsIn_updateNode hord hw (fun b h => (hb' b h).1) h2 h4 h3
      · intro a c hc
        exact (hv a c).2 (adoptBase_mono hord hw hi.some hb' k1 hc)
      · intro a c hc
        obtain ⟨h3, h4⟩ := Ta.tch a c ((hv a c).1 hc)
        exact ⟨hE1 a h3, hE1 c h4⟩
      · intro a hc
        have hc := (hv a i).1 hc
        cases hbn : bn with
        | none =>
          rw [hbn] at k1
          simp only [adoptBase, M.pure_eq_ok] at k1
          rw [k1.1]; exact hc
        | some b =>
          rw [hbn] at k1
          simp only [adoptBase, M.bind_eq_ok] at k1
          obtain ⟨g0, w5, w6, k5, k6, -⟩ := k1
          obtain ⟨rfl, -, -⟩ := removeEdge_ok k5
          have hw1 : WF { g with edges := eraseEdge b i g.edges } := hw.of_eq rfl rfl (fun e he => Or.inl (eraseEdge_sub he))
          obtain ⟨φ, R⟩ := replicateDescendants_rep hord hw1 hi.some k6
          have ni : ∀ j, j ∈ ({ g with edges := eraseEdge b i g.edges } : Graph).descendants b → i ≠ φ j := by
            intro j hj h
            have h3 : g.node? (φ j) = none := R.fresh j hj
            have h4 := hi.some
            rw [h, h3] at h4
            cases h4
          rcases hc with hc | hc
          · rcases (R.edges _ _ _).1 hc with h1 | ⟨x, y, -, h2, -, h3, -⟩ | ⟨y, h2, h3, -⟩ | ⟨-, y, _, h2, h3, -⟩
            · exact Or.inl (eraseEdge_sub h1)
            · exact absurd h3 (ni y h2)
            · exact absurd h3 (ni y h2)
            · exact absurd h3 (ni y h2)
          · rcases (R.edges _ _ _).1 hc with h1 | ⟨x, y, -, h2, -, h3, -⟩ | ⟨y, h2, h3, -⟩ | ⟨-, y, _, h2, h3, -⟩
            · exact Or.inr (eraseEdge_sub h1)
            · exact absurd h3 (ni y h2)
            · exact absurd h3 (ni y h2)
            · exact absurd h3 (ni y h2)
    rcases processDimableS_cases hp with ⟨x, w, h2, rfl⟩ | ⟨xs, t, w, g1, e1, g2, js, h2, h3, ⟨w', h4⟩, ⟨w'', h5⟩, rfl⟩
    · exact ⟨(upd h2).1, labOld⟩
    · obtain ⟨S1, tch, hw1, hE1, Sg1, par, hsome⟩ := upd h2
      have hi1 : ∀ b, obj b = obj i → b = i := fun b hbi => (S.own i b hbi.symm hnd).symm
      obtain ⟨q1, q2, q3⟩ := shares_instances (e := e1) hw1 tch Sg1 S1 hi1 hE1 h4 h5
      refine ⟨q1, fun a b h => ?_⟩
      rcases q2 a b h with rfl | h | ⟨ha, hb⟩
      · rfl
      · exact labOld a b h
      · have key : ∀ j ∈ js, lab' j = lab i := by
          intro j hj
          obtain ⟨k1, p, k2, k3⟩ := q3 j hj
          have hpi := par p k2
          have hEp := (A.lab.tch _ _ hpi).1
          refine advance_label hw A.lab hacy hV hEp.some ?_ ?_ k3
          · rintro rfl
            exact hacy _ (precedes_inside (.one (A.lab.hasChild hpi id)))
          · cases hn : g.node? j with
            | none => rfl
            | some n =>
              have := hsome j (by rw [hn]; rfl)
              rw [k1] at this
              cases this
        rw [key a ha, key b hb]

/-! ### the main loop -/

theorem chs_resolvePlaceholder {d : SDevice} {g g' : Graph} {lab : Nat → Pos} (A : LabAt d g lab) {k : Nat} {ws : List Warn}
    (hr : resolvePlaceholder g k = .ok g' ws) : chs g'.edges = chs g.edges := by
  obtain ⟨path, par, hk, hpar, h⟩ := resolvePlaceholder_ok hr
  rcases h with ⟨rfl, -⟩ | ⟨c, ec, b, w, hD, hc, hec, -, hadd⟩
  · rfl
  · obtain ⟨rfl, -, -⟩ := rawAddEdge_nodes hadd
    show chs (_ :: (g.removePlaceholder k).edges) = _
    rw [chs_cons_neg rfl]
    unfold Graph.removePlaceholder Graph.removeNode chs
    simp only [List.filter_filter]
    congr 1
    refine List.filter_congr fun e he => ?_
    cases hch : isChildEdge e with
    | false => simp
    | true =>
      obtain ⟨h1, h2⟩ := A.lab.tch _ _ (ch_iff.2 ⟨e, he, rfl, rfl, hch⟩)
      have n1 : e.src ≠ k := fun h => isE_notP h1 (by rw [h]; exact ⟨_, hk⟩)
      have n2 : e.dst ≠ k := fun h => isE_notP h2 (by rw [h]; exact ⟨_, hk⟩)
      simp [n1, n2]

theorem shares_phase {d : SDevice} {g g' : Graph} {lab : Nat → Pos} {obj : Nat → Nat} (hf : Followable d) (P : Phase d g lab) (S : Shares g obj) {k : Nat}
    {ws : List Warn} (hr : resolvePlaceholder g k = .ok g' ws) : Shares g' obj := by
  obtain ⟨-, he, -, hch, -⟩ := phase_step hf P hr
  refine S.grow (fun a _ => he a) (fun a _ => ?_) (fun a b h => (hch a b).2 h)
  unfold kidsIn
  rw [chs_resolvePlaceholder P.at_ hr]

theorem shares_phases {d : SDevice} {lab : Nat → Pos} {obj : Nat → Nat} (hf : Followable d) {phs : List Nat} : ∀ {g g' : Graph} {ws : List Warn}, Phase d g lab →
    Shares g obj → resolvePlaceholders g phs = .ok g' ws → Shares g' obj := by
  induction phs with
  | nil =>
    intro g g' ws _ S hr
    simp only [resolvePlaceholders, M.pure_eq_ok] at hr
    exact hr.1 ▸ S
  | cons k ks ih =>
    intro g g' ws P S hr
    simp only [resolvePlaceholders, M.bind_eq_ok] at hr
    obtain ⟨g1, w1, w2, h1, h2, -⟩ := hr
    exact ih (phase_step hf P h1).1 (shares_phase hf P S h1) h2

theorem MRel.fst {m : M Graph} {m' : M (Graph × (Nat → Nat))} (h : MRel (fun g1 s1 => s1.1 = g1) m m') {g : Graph} {obj : Nat → Nat} {w : List Warn}
    (hm : m' = .ok (g, obj) w) : m = .ok g w := by
  subst hm
  cases m with
  | err e => exact h.elim
  | ok a w' =>
    obtain ⟨rfl, h⟩ := h
    simp only at h
    rw [h]

theorem shares_run {d : SDevice} {ord : List Nat → List Nat} (hord : ∀ l, (ord l).Perm l) (hf : Followable d) (hq : Quiet d) {old : Nat → Prop} {is : List Nat} :
    ∀ {g g' : Graph} {obj obj' : Nat → Nat} {lab : Nat → Pos} {ws : List Warn}, Going d old g lab is → Neat d g lab → Single g → Shares g obj →
      (∀ a b, obj a = obj b → lab a = lab b) →
      (DeP g ∨ ∀ k ∈ is, ∀ e, g.elem? k = some e → e.level ≠ .peripheral) → processNodesS ord g obj is = .ok (g', obj') ws →
      ∃ lab', Going d old g' lab' [] ∧ (∀ k ∈ is, Done g' k) ∧ (∀ k, Done g k → Done g' k) ∧ Neat d g' lab' ∧ Single g' ∧ Shares g' obj' ∧
        ∀ a b, obj' a = obj' b → lab' a = lab' b := by
  induction is with
  | nil =>
    intro g g' obj obj' lab ws G N Sg S L C hr
    simp only [processNodesS, M.pure_eq_ok, Prod.mk.injEq] at hr
    obtain ⟨⟨rfl, rfl⟩, -⟩ := hr
    exact ⟨lab, G, by simp, fun _ h => h, N, Sg, S, L⟩
  | cons i is ih =>
    intro g g' obj obj' lab ws G N Sg S L C hr
    simp only [processNodesS, M.bind_eq_ok] at hr
    obtain ⟨⟨g1, obj1⟩, w1, w2, h1, h2, -⟩ := hr
    have h0 := (processNodeS_rel ord g obj i).fst h1
    obtain ⟨lab1, ⟨G1, hi, hm⟩, N1, C1, k1, k2⟩ := neat_advance hord hf hq G N C h0
    have hui := (G.todo i (by simp)).2.1
    have Sg1 := single_processNode hord hf.acyclic G.at_ hui Sg h0
    obtain ⟨S1, L1⟩ := shares_processNode hord hf.acyclic G.at_ hui Sg S L k2 k1 h1
    obtain ⟨lab2, G2, h3, h4, N2, Sg2, S2, L2⟩ := ih G1 N1 Sg1 S1 L1 C1 h2
    refine ⟨lab2, G2, fun k hk => ?_, fun k hk => h4 k (hm k hk), N2, Sg2, S2, L2⟩
    rcases List.mem_cons.1 hk with rfl | hk
    · exact h4 _ hi
    · exact h3 k hk

theorem shares_rounds {d : SDevice} {ord : List Nat → List Nat} (hord : ∀ l, (ord l).Perm l) (hf : Followable d) (hq : Quiet d) {fuel : Nat} :
    ∀ {g g' : Graph} {obj obj' : Nat → Nat} {lab : Nat → Pos} {prev : List Nat} {ws : List Warn}, Phase d g lab → Neat d g lab → Calm g → Single g → Shares g obj →
      (∀ a b, obj a = obj b → lab a = lab b) → (∀ k ∈ prev, Done g k) →
      roundsS ord fuel g obj prev = .ok (g', obj') ws → ∃ lab', Phase d g' lab' ∧ Neat d g' lab' ∧ Single g' ∧ Shares g' obj' ∧ ∀ a b, obj' a = obj' b → lab' a = lab' b := by
  induction fuel with
  | zero => intro g g' obj obj' lab prev ws _ _ _ _ _ _ _ hr; simp [roundsS] at hr
  | succ f ih =>
    intro g g' obj obj' lab prev ws P N C Sg S L hprev hr
    simp only [roundsS, M.bind_eq_ok] at hr
    obtain ⟨g1, w1, w2, h1, h, -⟩ := hr
    have R := ready_of hf P h1
    obtain ⟨N1, C1⟩ := neat_phases hf P N C h1
    have Sg1 := single_resolvePlaceholders Sg h1
    have S1 := shares_phases hf P S h1
    split at h
    · simp only [M.pure_eq_ok, Prod.mk.injEq] at h
      obtain ⟨⟨rfl, rfl⟩, -⟩ := h
      exact ⟨lab, R.phase, N1, Sg1, S1, L⟩
    · split at h
      · simp at h
      · simp only [M.bind_eq_ok] at h
        obtain ⟨⟨g2, obj2⟩, w3, w4, h2, h, -⟩ := h
        obtain ⟨lab2, G2, h3, -, N2, Sg2, S2, L2⟩ := shares_run hord hf hq (going_start hf R) N1 Sg1 S1 L (calm_start C1) h2
        exact ih (phase_next G2) N2 (Or.inr fun k e he hl => (G2.per k e he hl).resolve_right (by simp)) Sg2 S2 L2 h3 h

/-- The graph and the objects at the end of the main loop. -/
theorem shares_end {d : SDevice} {ord : List Nat → List Nat} (hord : ∀ l, (ord l).Perm l) (hf : Followable d) (hq : Quiet d) {fuel : Nat}
    {g0 g : Graph} {obj : Nat → Nat} {ws w : List Warn} (h0 : initialization d = .ok g0 w) (hr : roundsS ord fuel g0 id [] = .ok (g, obj) ws) :
    ∃ lab, Tidy d g lab ∧ Single g ∧ Shares g obj ∧ ∀ a b, obj a = obj b → lab a = lab b := by
  obtain ⟨lab0, P, N, C⟩ := neat_initial hf.acyclic h0
  have hr' := (roundsS_rel ord fuel g0 id []).fst hr
  have R := root_rounds hord P.at_ (root_initialization h0) hr'
  obtain ⟨lab, P', N', Sg, S, L⟩ := shares_rounds hord hf hq P N C (single_initialization h0) (shares_id g0) (fun a b h => congrArg lab0 (show a = b from h)) (by simp) hr
  obtain ⟨hun, -⟩ := neat_rounds hord hf hq P N C (by simp) hr'
  exact ⟨lab, tidy_of hun P' N' R, Sg, S, L⟩

end Svd
