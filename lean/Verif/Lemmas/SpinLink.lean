import Verif.Lemmas.SpinAdopt
/-
The other step of the endless run: a reference is resolved, or left alone.
-/
namespace Svd
open Graph Spec

theorem searchGo_none {g : Graph} {ex : Nat} {part : Str} {sub : Nat → M (List Nat)} {l : List Nat} :
    ∀ {ms : List Nat}, (∀ n ∈ l, n = ex ∨ g.nameOf n ≠ some part) → searchGo g ex part sub ms l = M.pure ms := by
  induction l with
  | nil => intro ms _; rfl
  | cons n ns ih =>
    intro ms h
    unfold searchGo
    by_cases h1 : n = ex
    · rw [if_pos h1]; exact ih fun x hx => h x (by simp [hx])
    · rw [if_neg h1]
      have h2 : g.nameOf n ≠ some part := (h n (by simp)).resolve_left h1
      rw [if_pos h2]
      exact ih fun x hx => h x (by simp [hx])

theorem searchGo_single {g : Graph} {ex r : Nat} {part : Str} {sub : Nat → M (List Nat)} {l : List Nat} {n0 : Nat} (hn : l.Nodup) (h0 : n0 ∈ l)
    (hx : n0 ≠ ex) (hp : g.nameOf n0 = some part) (hs : sub n0 = M.pure [r]) (ho : ∀ n ∈ l, n = n0 ∨ n = ex ∨ g.nameOf n ≠ some part) :
    searchGo g ex part sub [] l = M.pure [r] := by
  induction l with
  | nil => cases h0
  | cons n ns ih =>
    obtain ⟨hn1, hn2⟩ := List.nodup_cons.1 hn
    unfold searchGo
    by_cases hnn : n = n0
    · subst hnn
      rw [if_neg hx, if_neg (by simpa using hp), hs]
      simp only [M.pure_bind]
      rw [if_neg (by simp)]
      refine (searchGo_none ?_).trans rfl
      intro y hy
      rcases ho y (by simp [hy]) with h1 | h1
      · exact absurd (h1 ▸ hy) hn1
      · exact h1
    · have h0' : n0 ∈ ns := by
        rcases List.mem_cons.1 h0 with h1 | h1
        · exact absurd h1.symm hnn
        · exact h1
      have ih' := ih hn2 h0' fun y hy => ho y (by simp [hy])
      by_cases h1 : n = ex
      · rw [if_pos h1]; exact ih'
      · rw [if_neg h1]
        have h2 : g.nameOf n ≠ some part := ((ho n (by simp)).resolve_left hnn).resolve_left h1
        rw [if_pos h2]
        exact ih'

theorem mem_children {g : Graph} (ty : Typed g) {a c : Nat} : c ∈ g.elementChildren a ↔ Ch g a c := by
  constructor
  · intro h
    obtain ⟨ed, k1, k2, k3, k4, -⟩ := elementChildren_edge h
    exact ch_iff.2 ⟨ed, k1, k2, k3, k4⟩
  · intro h
    obtain ⟨ed, k1, k2, k3, k4⟩ := ch_iff.1 h
    unfold Graph.elementChildren Graph.outEdges
    rw [List.mem_map]
    refine ⟨ed, ?_, k3⟩
    rw [List.mem_filter, List.mem_filter]
    refine ⟨⟨k1, by simpa using k2⟩, ?_⟩
    rw [k3, k4, isE_iff.2 (ty.tch _ _ h).2]
    rfl

theorem mem_parents {g : Graph} (ty : Typed g) {a c : Nat} : a ∈ g.elementParents c ↔ Ch g a c := by
  constructor
  · intro h
    obtain ⟨ed, k1, k2, k3, k4, -⟩ := elementParents_edge h
    exact ch_iff.2 ⟨ed, k1, k2, k3, k4⟩
  · intro h
    obtain ⟨ed, k1, k2, k3, k4⟩ := ch_iff.1 h
    unfold Graph.elementParents Graph.inEdges
    rw [List.mem_map]
    refine ⟨ed, ?_, k2⟩
    rw [List.mem_filter, List.mem_filter]
    refine ⟨⟨k1, by simpa using k3⟩, ?_⟩
    rw [k2, k4, isE_iff.2 (ty.tch _ _ h).1]
    rfl

theorem siblings_eq {g : Graph} (F : Fit g) {o d : Nat} (h : Ch g o d) :
    (g.elementSiblings d).Nodup ∧ ∀ j, j ∈ g.elementSiblings d ↔ (Ch g o j ∨ De g o j) ∧ j ≠ d := by
  have hs : g.elementSiblings d = (g.successors o).filter fun c => g.isElem c && c != d := by
    unfold Graph.elementSiblings
    cases hp : g.elementParents d with
    | nil => have := (mem_parents F.ty).2 h; rw [hp] at this; cases this
    | cons p ps =>
      have : Ch g p d := (mem_parents F.ty).1 (by rw [hp]; simp)
      rw [F.one _ _ _ this h]
  rw [hs]
  refine ⟨List.filter_sublist.nodup (nodup_dedup _), fun j => ?_⟩
  rw [List.mem_filter, succ_view]
  simp only [Bool.and_eq_true, bne_iff_ne, ne_eq]
  constructor
  · rintro ⟨h1, h2, h3⟩
    refine ⟨?_, h3⟩
    rcases h1 with h1 | h1 | h1
    · exact Or.inl h1
    · exact Or.inr h1
    · rcases F.ty.tpl _ _ h1 with h4 | h4
      · exact absurd h4.2 (isE_notP (isE_iff.1 h2))
      · exact absurd h4.1 (isE_notP (F.ty.tch _ _ h).1)
  · rintro ⟨h1 | h1, h3⟩
    · exact ⟨Or.inl h1, isE_iff.2 (F.ty.tch _ _ h1).2, h3⟩
    · exact ⟨Or.inr (Or.inl h1), isE_iff.2 (F.ty.tde _ _ h1).2, h3⟩

/-! ### a reference that is left alone -/

/-- The device node has just the peripheral `1`, called `P`. -/
structure Top (g : Graph) : Prop where
  top : ∀ j, Ch g 0 j ↔ j = 1
  name : g.nameOf 1 = some (s%"P")

theorem Top.kids {g : Graph} (F : Fit g) (t : Top g) : g.elementChildren 0 = [1] :=
  list_single (F.single.children 0) ((mem_children F.ty).2 ((t.top 1).2 rfl)) fun y hy => (t.top y).1 ((mem_children F.ty).1 hy)

/-- The placeholder `p` of `d` within `o` will not be resolved now: `o` is not processed, or `d` is derived from `K` and
there is no `K` beside it. -/
structure Dead (g : Graph) (p o d : Nat) : Prop where
  op : Pl g o p
  pd : Pl g p d
  od : Ch g o d
  why : g.isProcessed o = false ∨ (g.node? p = some (.ph (s%"K")) ∧ ∀ j, Ch g o j ∨ De g o j → j ≠ d → g.nameOf j ≠ some (s%"K"))

theorem pl_parent {g : Graph} (F : Fit g) {p o : Nat} (hp : IsP g p) (h : Pl g o p) : g.placeholderParent p = .ok o [] := by
  obtain ⟨a, h1, h2, -⟩ := placeholderParent_total F.held F.ty hp
  rw [h1, F.held.inU _ _ _ hp h2 h]

theorem pl_child {g : Graph} (F : Fit g) {p d : Nat} (hp : IsP g p) (h : Pl g p d) : g.placeholderChild p = .ok d [] := by
  obtain ⟨a, h1, h2, -⟩ := placeholderChild_total F.held F.ty hp
  rw [h1, F.held.outU _ _ _ hp h2 h]

theorem Dead.skip {g : Graph} (F : Fit g) (t : Top g) {p o d : Nat} (hp : IsP g p) (D : Dead g p o d) : resolvePlaceholder g p = .ok g [] := by
  obtain ⟨path, hn⟩ := hp
  have hp : IsP g p := ⟨path, hn⟩
  unfold resolvePlaceholder
  rw [hn]
  simp only
  rw [pl_parent F hp D.op]
  show M.bind (M.pure o) _ = _
  simp only [M.pure_bind]
  rcases D.why with h1 | ⟨h1, h2⟩
  · rw [h1]; rfl
  · cases hpr : g.isProcessed o with
    | false => rfl
    | true =>
      simp only [Bool.not_true, Bool.false_eq_true, if_false]
      rw [pl_child F hp D.pd]
      show M.bind (M.pure d) _ = _
      simp only [M.pure_bind]
      obtain ⟨e, he⟩ := (F.ty.tch _ _ D.od).2
      rw [he]
      simp only
      rw [hn] at h1
      injection h1 with h1
      injection h1 with h1
      subst h1
      have : pathResolving g d e.level (s%"K") = M.pure none := by
        unfold pathResolving
        have hs : splitC '.' (s%"K") = [s%"K"] := by decide
        rw [hs]
        have s1 : searchNodes g d e.level [s%"K"] (g.elementSiblings d) = M.pure [] := by
          unfold searchNodes
          refine searchGo_none ?_
          intro n hn
          obtain ⟨h3, h4⟩ := ((siblings_eq F D.od).2 n).1 hn
          exact Or.inr (h2 n h3 h4)
        have s2 : searchNodes g d e.level [s%"K"] (g.elementChildren 0) = M.pure [] := by
          unfold searchNodes
          refine searchGo_none ?_
          intro n hn
          rw [t.kids F, List.mem_singleton] at hn
          subst hn
          right
          rw [t.name]
          decide
        simp only [s1, s2, M.pure_bind]
      rw [this]
      rfl

/-! ### a reference that is resolved -/

/-- The placeholder `p` has been replaced by a derivation of `d` from `b`. -/
structure Bound (g g' : Graph) (p b d : Nat) : Prop where
  fit : Fit g'
  node : ∀ j, g'.node? j = if j = p then none else g.node? j
  ch : ∀ x y, Ch g' x y ↔ Ch g x y
  de : ∀ x y, De g' x y ↔ De g x y ∨ (x = b ∧ y = d)
  pl : ∀ x y, Pl g' x y ↔ Pl g x y ∧ x ≠ p ∧ y ≠ p
  keep : ∀ a b, (⟨a, b, .childR⟩ : Edge) ∈ g.edges → (⟨a, b, .childR⟩ : Edge) ∈ g'.edges
  phs : g'.placeholders = g.placeholders.filter (· != p)

set_option maxHeartbeats 1000000 in
theorem bound {g : Graph} (F : Fit g) {p o d b : Nat} {path : Str} {e : ElemNode} (hn : g.node? p = some (.ph path)) (hop : Pl g o p) (hpd : Pl g p d)
    (ho : g.isProcessed o = true) (he : g.elem? d = some e) (hr : pathResolving g d e.level path = M.pure (some b)) (hb : IsE g b)
    (hnr : ¬ Reach g.edges d b) (hnd : ¬ De g b d) : ∃ g', resolvePlaceholder g p = .ok g' [] ∧ Bound g g' p b d := by
  have hp : IsP g p := ⟨path, hn⟩
  have hw := F.wf
  have hdE : IsE g d := ⟨e, he⟩
  obtain ⟨hw1, n1, ed1⟩ := removePlaceholder_wf hw (i := p) (by rw [hn]; rfl)
  have hbp : b ≠ p := by rintro rfl; exact isE_notP hb hp
  have hdp : d ≠ p := by rintro rfl; exact isE_notP hdE hp
  obtain ⟨g', hg'⟩ : ∃ g' : Graph, g' = { g.removePlaceholder p with edges := ⟨b, d, .derive⟩ :: (g.removePlaceholder p).edges } := ⟨_, rfl⟩
  have hraw : (g.removePlaceholder p).rawAddEdge .cycle b d .derive = .ok g' [] := by
    unfold Graph.rawAddEdge
    rw [if_neg, hg']
    · rfl
    · intro h1
      rw [hasPath_iff] at h1
      apply hnr
      rcases h1 with h1 | h1
      · exact Or.inl h1
      · refine Or.inr (h1.mono ?_)
        intro x hx
        rw [ed1] at hx
        exact ⟨x, (List.mem_filter.1 hx).1, rfl, rfl⟩
  have hres : resolvePlaceholder g p = .ok g' [] := by
    unfold resolvePlaceholder
    rw [hn]
    simp only
    rw [pl_parent F hp hop]
    show M.bind (M.pure o) _ = _
    simp only [M.pure_bind, ho, Bool.not_true, Bool.false_eq_true, if_false]
    rw [pl_child F hp hpd]
    show M.bind (M.pure d) _ = _
    simp only [M.pure_bind, he, hr]
    exact hraw
  have ed : g'.edges = ⟨b, d, .derive⟩ :: g.edges.filter fun e => e.src != p && e.dst != p := by rw [hg']; simp only; rw [ed1]
  have nd : ∀ j, g'.node? j = if j = p then none else g.node? j := by
    intro j
    rw [← n1 j]
    exact node?_congr (by rw [hg']) j
  have fil : ∀ x y t, (⟨x, y, t⟩ : Edge) ∈ g.edges.filter (fun e => e.src != p && e.dst != p) ↔ ⟨x, y, t⟩ ∈ g.edges ∧ x ≠ p ∧ y ≠ p := by
    intro x y t
    rw [List.mem_filter]
    simp
  have vch : ∀ x y, Ch g' x y ↔ Ch g x y := by
    intro x y
    have h1 : Ch g x y → x ≠ p ∧ y ≠ p := by
      intro h1
      constructor
      · rintro rfl; exact isE_notP (F.ty.tch _ _ h1).1 hp
      · rintro rfl; exact isE_notP (F.ty.tch _ _ h1).2 hp
    unfold Ch
    rw [ed, List.mem_cons, List.mem_cons, fil, fil]
    constructor
    · rintro ((h2 | h2) | (h2 | h2))
      · cases h2
      · exact Or.inl h2.1
      · cases h2
      · exact Or.inr h2.1
    · intro h2
      have h3 := h1 h2
      rcases h2 with h2 | h2
      · exact Or.inl (Or.inr ⟨h2, h3⟩)
      · exact Or.inr (Or.inr ⟨h2, h3⟩)
  have vde : ∀ x y, De g' x y ↔ De g x y ∨ (x = b ∧ y = d) := by
    intro x y
    have h1 : De g x y → x ≠ p ∧ y ≠ p := by
      intro h1
      constructor
      · rintro rfl; exact isE_notP (F.ty.tde _ _ h1).1 hp
      · rintro rfl; exact isE_notP (F.ty.tde _ _ h1).2 hp
    unfold De
    rw [ed, List.mem_cons, fil]
    constructor
    · rintro (h2 | h2)
      · injection h2 with h2 h3; exact Or.inr ⟨h2, h3⟩
      · exact Or.inl h2.1
    · rintro (h2 | ⟨rfl, rfl⟩)
      · exact Or.inr ⟨h2, h1 h2⟩
      · exact Or.inl rfl
  have vpl : ∀ x y, Pl g' x y ↔ Pl g x y ∧ x ≠ p ∧ y ≠ p := by
    intro x y
    unfold Pl
    rw [ed, List.mem_cons, fil]
    constructor
    · rintro (h2 | h2)
      · cases h2
      · exact h2
    · intro h2; exact Or.inr h2
  have iE : ∀ j, IsE g j → IsE g' j := by
    intro j hj
    have hjp : j ≠ p := by rintro rfl; exact isE_notP hj hp
    obtain ⟨x, hx⟩ := hj
    exact ⟨x, by rw [elem?_node?, nd, if_neg hjp]; exact elem?_node?.1 hx⟩
  have iP : ∀ j, IsP g j → j ≠ p → IsP g' j := by
    rintro j ⟨x, hx⟩ hj
    exact ⟨x, by rw [nd, if_neg hj]; exact hx⟩
  have pe : pls g'.edges = pls (g.removePlaceholder p).edges := by
    rw [ed, ed1]
    unfold pls
    rw [List.filter_cons_of_neg (fun h1 => by cases h1)]
  refine ⟨g', hres, ⟨?_, ac_resolvePlaceholder F.ac hres, ?_, ?_, single_resolvePlaceholder F.single hres, ?_, ?_, ?_⟩, nd, vch, vde, vpl, ?_, ?_⟩
  · rw [hg']
    refine hw1.of_eq rfl rfl ?_
    intro x hx
    rcases List.mem_cons.1 hx with rfl | hx
    · right
      rw [n1, n1, if_neg hbp, if_neg hdp]
      exact ⟨hb.some, hdE.some⟩
    · exact Or.inl hx
  · refine ⟨fun x y h1 => ?_, fun x y h1 => ?_, fun x y h1 => ?_⟩
    · obtain ⟨h2, h3⟩ := F.ty.tch _ _ ((vch _ _).1 h1)
      exact ⟨iE _ h2, iE _ h3⟩
    · rcases (vde _ _).1 h1 with h1 | ⟨rfl, rfl⟩
      · obtain ⟨h2, h3⟩ := F.ty.tde _ _ h1
        exact ⟨iE _ h2, iE _ h3⟩
      · exact ⟨iE _ hb, iE _ hdE⟩
    · obtain ⟨h1, h2, h3⟩ := (vpl _ _).1 h1
      rcases F.ty.tpl _ _ h1 with h4 | h4
      · exact Or.inl ⟨iE _ h4.1, iP _ h4.2 h3⟩
      · exact Or.inr ⟨iP _ h4.1 h2, iE _ h4.2⟩
  · exact (held_removePlaceholder F.held F.ty hp).congr pe (isP_congr (by rw [hg']))
  · refine ⟨?_, fun j => ?_⟩
    · rw [hg']
      exact List.filter_sublist.nodup F.listed.1
    · rw [hg']
      show j ∈ g.placeholders.filter (· != p) ↔ _
      rw [← hg', List.mem_filter, F.listed.2]
      unfold IsP
      rw [nd]
      by_cases hj : j = p
      · subst hj; simp
      · simp [hj]
  · intro a a' y h1 h2
    exact F.one _ _ _ ((vch _ _).1 h1) ((vch _ _).1 h2)
  · rw [ed]
    unfold des
    rw [List.filter_cons_of_pos rfl]
    refine List.nodup_cons.2 ⟨?_, ?_⟩
    · intro h1
      exact hnd ((fil _ _ _).1 (List.mem_filter.1 h1).1).1
    · have := F.des
      unfold Svd.des at this
      exact (List.Sublist.filter _ List.filter_sublist).nodup this
  · intro x y h1
    rw [ed]
    refine List.mem_cons_of_mem _ ((fil _ _ _).2 ⟨h1, ?_⟩)
    constructor
    · rintro rfl; exact isE_notP (F.ty.tch _ _ (Or.inr h1)).1 hp
    · rintro rfl; exact isE_notP (F.ty.tch _ _ (Or.inr h1)).2 hp
  · rw [hg']; rfl

end Svd
