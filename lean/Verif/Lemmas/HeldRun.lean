import Verif.Lemmas.Held
import Verif.Lemmas.FolList
/-
Every placeholder keeps its two edges in the course of the resolution.
-/
namespace Svd
open Graph Spec

theorem conn_filter_last {es : List Edge} {x y : Nat} (h : Conn es x y) : ∃ e ∈ es, e.dst = y ∧ (e.src = x ∨ Conn es x e.src) := by
  induction h with
  | @edge e he => exact ⟨e, he, rfl, Or.inl rfl⟩
  | @step e b he _ ih =>
    obtain ⟨e', h1, h2, h3⟩ := ih
    refine ⟨e', h1, h2, Or.inr ?_⟩
    rcases h3 with h3 | h3
    · rw [h3]; exact Conn.edge he
    · exact Conn.step he h3

theorem isE_replica {g g' : Graph} {src tgt : Nat} {sel : Nat → Prop} {φ : Nat → Nat} (R : Replica g g' src tgt sel φ) :
    (∀ k, IsE g k → IsE g' k) ∧ (∀ k, IsP g k → IsP g' k) ∧ (∀ j, sel j → (IsE g' (φ j) ↔ IsE g j) ∧ (IsP g' (φ j) ↔ IsP g j)) := by
  refine ⟨?_, ?_, ?_⟩
  · rintro k ⟨e, he⟩
    exact ⟨e, R.ext.elem he⟩
  · rintro k ⟨e, he⟩
    exact ⟨e, R.ext _ _ he⟩
  · intro j hj
    unfold IsE IsP
    simp only [elem?_node?, (R.copy j hj).2, and_self]

theorem typed_replica {g g' : Graph} {src tgt : Nat} {sel : Nat → Prop} {φ : Nat → Nat} (T : Typed g) (R : Replica g g' src tgt sel φ)
    (ht : IsE g tgt) : Typed g' := by
  obtain ⟨hE, hP, hφ⟩ := isE_replica R
  have step : ∀ a b ty, (⟨a, b, ty⟩ : Edge) ∈ g'.edges →
      ((ty ≠ .placeholder → IsE g' a ∧ IsE g' b) ∧ (ty = .placeholder → (IsE g' a ∧ IsP g' b) ∨ (IsP g' a ∧ IsE g' b))) := by
    have old : ∀ a b ty, (⟨a, b, ty⟩ : Edge) ∈ g.edges →
        ((ty ≠ .placeholder → IsE g a ∧ IsE g b) ∧ (ty = .placeholder → (IsE g a ∧ IsP g b) ∨ (IsP g a ∧ IsE g b))) := by
      intro a b ty h
      cases ty with
      | childU => exact ⟨fun _ => T.tch _ _ (Or.inl h), fun h => by cases h⟩
      | childR => exact ⟨fun _ => T.tch _ _ (Or.inr h), fun h => by cases h⟩
      | derive => exact ⟨fun _ => T.tde _ _ h, fun h => by cases h⟩
      | placeholder => exact ⟨fun h => absurd rfl h, fun _ => T.tpl _ _ h⟩
    intro a b ty h
    rcases (R.edges a b ty).1 h with h | ⟨i, j, hi, hj, rfl, rfl, h0⟩ | ⟨j, hj, rfl, rfl, h0⟩ | ⟨rfl, j, ty', hj, rfl, -, rfl⟩
    · obtain ⟨h1, h2⟩ := old a b ty h
      exact ⟨fun h => ⟨hE _ (h1 h).1, hE _ (h1 h).2⟩, fun h => (h2 h).imp (fun x => ⟨hE _ x.1, hP _ x.2⟩) (fun x => ⟨hP _ x.1, hE _ x.2⟩)⟩
    · obtain ⟨h1, h2⟩ := old i j ty h0
      rw [(hφ i hi).1, (hφ i hi).2, (hφ j hj).1, (hφ j hj).2]
      exact ⟨h1, h2⟩
    · obtain ⟨h1, -⟩ := old a j .derive h0
      have h1 := h1 (by simp)
      exact ⟨fun _ => ⟨hE _ h1.1, (hφ j hj).1.2 h1.2⟩, fun h => by cases h⟩
    · have hn := (R.copy j hj)
      unfold copyEdgeT
      obtain ⟨n, hn'⟩ := Option.isSome_iff_exists.1 hn.1
      rw [hn']
      cases n with
      | ph path => exact ⟨fun h => absurd rfl h, fun _ => Or.inl ⟨hE _ ht, (hφ j hj).2.2 ⟨path, hn'⟩⟩⟩
      | elem e =>
        refine ⟨fun _ => ⟨hE _ ht, (hφ j hj).1.2 ⟨e, elem?_node?.2 hn'⟩⟩, fun h => ?_⟩
        revert h
        cases hg : g.elem? src with
        | none => simp
        | some x => cases hx : x.isProcessed <;> simp [hx]
  refine ⟨?_, ?_, ?_⟩
  · rintro a b (h | h)
    · exact (step _ _ _ h).1 (by simp)
    · exact (step _ _ _ h).1 (by simp)
  · intro a b h; exact (step _ _ _ h).1 (by simp)
  · intro a b h; exact (step _ _ _ h).2 rfl

theorem held_replicate {ord : List Nat → List Nat} (hord : ∀ l, (ord l).Perm l) {g g' : Graph} {src tgt : Nat} {ws : List Warn} (hw : WF g)
    (hac : Acyclic g.edges) (T : Typed g) (ht : IsE g tgt) (h : Held g) (hr : g.replicateDescendants ord src tgt = .ok g' ws) :
    Held g' ∧ Typed g' := by
  obtain ⟨φ, R⟩ := replicateDescendants_rep hord hw ht.some hr
  refine ⟨?_, typed_replica T R ht⟩
  obtain ⟨hE, hP, hφ⟩ := isE_replica R
  have live : ∀ a b, Pl g a b → (g.node? a).isSome ∧ (g.node? b).isSome := fun a b h => hw.edges_valid _ h
  -- the placeholders of the new graph
  have isP : ∀ k, IsP g' k → IsP g k ∨ ∃ j, j ∈ g.descendants src ∧ k = φ j ∧ IsP g j := by
    intro k hk
    obtain ⟨p, hp⟩ := hk
    rcases R.only k (by rw [hp]; rfl) with h1 | ⟨j, hj, rfl⟩
    · obtain ⟨n, hn⟩ := Option.isSome_iff_exists.1 h1
      rw [R.ext _ _ hn] at hp
      injection hp with hp
      subst hp
      exact Or.inl ⟨p, hn⟩
    · exact Or.inr ⟨j, hj, rfl, (hφ j hj).2.1 ⟨p, hp⟩⟩
  have notnew : ∀ k, (g.node? k).isSome → ∀ j, j ∈ g.descendants src → k ≠ φ j := by
    rintro k hk j hj rfl
    rw [R.fresh j hj] at hk
    cases hk
  -- placeholder edges between old nodes
  have oldIn : ∀ a b, (g.node? b).isSome → (Pl g' a b ↔ Pl g a b) := by
    intro a b hb
    constructor
    · intro h1
      rcases (R.edges a b _).1 h1 with h1 | ⟨i, j, hi, hj, rfl, rfl, h1⟩ | ⟨j, hj, rfl, h2, -⟩ | ⟨rfl, j, ty', hj, rfl, -, -⟩
      · exact h1
      · exact absurd rfl (notnew _ hb j hj)
      · cases h2
      · exact absurd rfl (notnew _ hb j hj)
    · intro h1; exact (R.edges a b _).2 (Or.inl h1)
  have oldOut : ∀ k b, IsP g k → (Pl g' k b ↔ Pl g k b) := by
    intro k b hk
    have hks : (g.node? k).isSome := by obtain ⟨p, hp⟩ := hk; rw [hp]; rfl
    constructor
    · intro h1
      rcases (R.edges k b _).1 h1 with h1 | ⟨i, j, hi, hj, rfl, rfl, h1⟩ | ⟨j, hj, rfl, h2, -⟩ | ⟨rfl, j, ty', hj, rfl, -, -⟩
      · exact h1
      · exact absurd rfl (notnew _ hks i hi)
      · cases h2
      · exact (isE_notP ht hk).elim
    · intro h1; exact (R.edges k b _).2 (Or.inl h1)
  have newOut : ∀ j x, j ∈ g.descendants src → IsP g j → (Pl g' (φ j) x ↔ ∃ b, b ∈ g.descendants src ∧ x = φ b ∧ Pl g j b) := by
    intro j x hj hpj
    constructor
    · intro h1
      rcases (R.edges (φ j) x _).1 h1 with h1 | ⟨i, b, hi, hb, h2, rfl, h1⟩ | ⟨b, hb, rfl, h2, -⟩ | ⟨h2, b, ty', hb, rfl, -, -⟩
      · have := (live _ _ h1).1
        rw [R.fresh j hj] at this
        cases this
      · have := R.inj _ _ hj hi h2
        subst this
        exact ⟨b, hb, rfl, h1⟩
      · cases h2
      · exact absurd h2.symm (notnew _ ht.some j hj)
    · rintro ⟨b, hb, rfl, h1⟩
      exact (R.edges _ _ _).2 (Or.inr (Or.inl ⟨j, b, hj, hb, rfl, rfl, h1⟩))
  have newIn : ∀ j x, j ∈ g.descendants src → IsP g j → (Pl g' x (φ j) ↔ (∃ a, a ∈ g.descendants src ∧ x = φ a ∧ Pl g a j) ∨ (x = tgt ∧ Pl g src j)) := by
    intro j x hj hpj
    have toPl : ∀ a ty, (⟨a, j, ty⟩ : Edge) ∈ g.edges → Pl g a j := by
      intro a ty h1
      cases ty with
      | childU => exact (isE_notP (T.tch _ _ (Or.inl h1)).2 hpj).elim
      | childR => exact (isE_notP (T.tch _ _ (Or.inr h1)).2 hpj).elim
      | derive => exact (isE_notP (T.tde _ _ h1).2 hpj).elim
      | placeholder => exact h1
    constructor
    · intro h1
      rcases (R.edges x (φ j) _).1 h1 with h1 | ⟨i, b, hi, hb, rfl, h2, h1⟩ | ⟨b, hb, -, h2, -⟩ | ⟨rfl, b, ty', hb, h2, h3, -⟩
      · have := (live _ _ h1).2
        rw [R.fresh j hj] at this
        cases this
      · have := R.inj _ _ hj hb h2
        subst this
        exact Or.inl ⟨i, hi, rfl, h1⟩
      · cases h2
      · have := R.inj _ _ hj hb h2
        subst this
        exact Or.inr ⟨rfl, toPl _ _ h3⟩
    · rintro (⟨a, ha, rfl, h1⟩ | ⟨rfl, h1⟩)
      · exact (R.edges _ _ _).2 (Or.inr (Or.inl ⟨a, j, ha, hj, rfl, rfl, h1⟩))
      · refine (R.edges _ _ _).2 (Or.inr (Or.inr (Or.inr ⟨rfl, j, _, hj, rfl, h1, ?_⟩)))
        obtain ⟨p, hp⟩ := hpj
        unfold copyEdgeT
        rw [hp]
  refine ⟨pls_replicate hord hw T ht.some hr h.nodup, ?_, ?_, ?_, ?_⟩
  · intro k hk
    rcases isP k hk with h1 | ⟨j, hj, rfl, h1⟩
    · obtain ⟨a, ha⟩ := h.inE k h1
      exact ⟨a, (oldIn _ _ (live _ _ ha).2).2 ha⟩
    · obtain ⟨e, he, h2, h3⟩ := conn_filter_last ((mem_descendants hw).1 hj)
      rw [List.mem_filter] at he
      have hpl : Pl g e.src j := by
        obtain ⟨a, b, t⟩ := e
        simp only at h2
        subst h2
        cases t with
        | childU => exact (isE_notP (T.tch _ _ (Or.inl he.1)).2 h1).elim
        | childR => exact (isE_notP (T.tch _ _ (Or.inr he.1)).2 h1).elim
        | derive => exact (isE_notP (T.tde _ _ he.1).2 h1).elim
        | placeholder => exact he.1
      rcases h3 with h3 | h3
      · exact ⟨tgt, (newIn j _ hj h1).2 (Or.inr ⟨rfl, by rw [← h3]; exact hpl⟩)⟩
      · exact ⟨φ e.src, (newIn j _ hj h1).2 (Or.inl ⟨e.src, (mem_descendants hw).2 h3, rfl, hpl⟩)⟩
  · intro k hk
    rcases isP k hk with h1 | ⟨j, hj, rfl, h1⟩
    · obtain ⟨a, ha⟩ := h.outE k h1
      exact ⟨a, (oldOut _ _ h1).2 ha⟩
    · obtain ⟨b, hb⟩ := h.outE j h1
      refine ⟨φ b, (newOut j _ hj h1).2 ⟨b, ?_, rfl, hb⟩⟩
      rw [mem_descendants hw] at hj ⊢
      exact hj.trans (Conn.edge (List.mem_filter.2 ⟨hb, by simp⟩))
  · intro k a a' hk ha ha'
    rcases isP k hk with h1 | ⟨j, hj, rfl, h1⟩
    · have hks : (g.node? k).isSome := by obtain ⟨p, hp⟩ := h1; rw [hp]; rfl
      exact h.inU k a a' h1 ((oldIn _ _ hks).1 ha) ((oldIn _ _ hks).1 ha')
    · have no : ∀ x, x ∈ g.descendants src → Pl g x j → ¬ Pl g src j := by
        intro x hx h2 h3
        have := h.inU j x src h1 h2 h3
        subst this
        rw [mem_descendants hw] at hx
        exact hac x (hx.mono fun e he => ⟨e, (List.mem_filter.1 he).1, rfl, rfl⟩)
      rcases (newIn j _ hj h1).1 ha with ⟨x, hx, rfl, h2⟩ | ⟨rfl, h2⟩ <;>
        rcases (newIn j _ hj h1).1 ha' with ⟨y, hy, rfl, h3⟩ | ⟨rfl, h3⟩
      · rw [h.inU j x y h1 h2 h3]
      · exact absurd h3 (no x hx h2)
      · exact absurd h2 (no y hy h3)
      · rfl
  · intro k a a' hk ha ha'
    rcases isP k hk with h1 | ⟨j, hj, rfl, h1⟩
    · exact h.outU k a a' h1 ((oldOut _ _ h1).1 ha) ((oldOut _ _ h1).1 ha')
    · obtain ⟨x, hx, rfl, h2⟩ := (newOut j _ hj h1).1 ha
      obtain ⟨y, hy, rfl, h3⟩ := (newOut j _ hj h1).1 ha'
      rw [h.outU j x y h1 h2 h3]

/-! ### the other operations do not touch placeholder edges -/

theorem pls_erase {a b : Nat} {es : List Edge} (h : (⟨a, b, .placeholder⟩ : Edge) ∉ es) : pls (eraseEdge a b es) = pls es := by
  induction es with
  | nil => rfl
  | cons e es ih =>
    simp only [eraseEdge]
    rw [List.mem_cons, not_or] at h
    split
    · rename_i hc
      simp only [Bool.and_eq_true, beq_iff_eq] at hc
      unfold pls
      rw [List.filter_cons_of_neg]
      obtain ⟨x, y, t⟩ := e
      simp only at hc
      obtain ⟨rfl, rfl⟩ := hc
      intro ht
      simp only [beq_iff_eq] at ht
      subst ht
      exact h.1 rfl
    · have ih := ih h.2
      unfold pls at ih ⊢
      rw [List.filter_cons, List.filter_cons, ih]

theorem pls_retype {a b : Nat} {ty : EdgeT} {es : List Edge} (h : (⟨a, b, .placeholder⟩ : Edge) ∉ es) (ht : ty ≠ .placeholder) :
    pls (retypeEdge a b ty es) = pls es := by
  induction es with
  | nil => rfl
  | cons e es ih =>
    simp only [retypeEdge]
    rw [List.mem_cons, not_or] at h
    split
    · rename_i hc
      simp only [Bool.and_eq_true, beq_iff_eq] at hc
      unfold pls
      rw [List.filter_cons_of_neg, List.filter_cons_of_neg]
      · obtain ⟨x, y, t⟩ := e
        simp only at hc
        obtain ⟨rfl, rfl⟩ := hc
        intro ht
        simp only [beq_iff_eq] at ht
        subst ht
        exact h.1 rfl
      · simpa using ht
    · have ih := ih h.2
      unfold pls at ih ⊢
      rw [List.filter_cons, List.filter_cons, ih]

theorem pls_resolveChildEdges {i : Nat} {cs : List Nat} : ∀ {g : Graph}, (∀ c ∈ cs, ¬ Pl g i c) →
    pls (resolveChildEdges i g cs).edges = pls g.edges := by
  induction cs with
  | nil => intro g _; rfl
  | cons c cs ih =>
    intro g h
    simp only [resolveChildEdges]
    have h1 : pls (g.updateEdge i c .childR).edges = pls g.edges := pls_retype (h c (by simp)) (by simp)
    rw [ih, h1]
    intro x hx
    rw [pl_pls, h1, ← pl_pls]
    exact h x (by simp [hx])

theorem pls_addElementChild {g g' : Graph} {par j : Nat} {e : ElemNode} {ws : List Warn} (h : g.addElementChild par e .childR = .ok (g', j) ws) :
    pls g'.edges = pls g.edges := by
  unfold Graph.addElementChild Graph.rawAddEdge at h
  simp only [M.bind_eq_ok] at h
  obtain ⟨g1, w1, w2, h1, h2, -⟩ := h
  split at h1
  · simp at h1
  · simp only [M.pure_eq_ok] at h1 h2
    obtain ⟨h2, -⟩ := h2
    obtain ⟨rfl, -⟩ := h1
    injection h2 with h2 _
    rw [← h2]
    simp only [addNode_edges]
    unfold pls
    rw [List.filter_cons_of_neg (by simp)]

theorem pls_addInstances {lvl : Level} {p : Parsed} {xs : List (Nat × Processed)} : ∀ {g g' : Graph} {js : List Nat} {ws : List Warn},
    addInstances lvl p g xs = .ok (g', js) ws → pls g'.edges = pls g.edges := by
  induction xs with
  | nil =>
    intro g g' js ws hr
    simp only [addInstances, M.pure_eq_ok, Prod.mk.injEq] at hr
    obtain ⟨⟨rfl, -⟩, -⟩ := hr
    rfl
  | cons x xs ih =>
    obtain ⟨par, x⟩ := x
    intro g g' js ws hr
    simp only [addInstances, M.bind_eq_ok, M.pure_eq_ok, Prod.mk.injEq] at hr
    obtain ⟨⟨g1, j⟩, w1, w2, h1, ⟨⟨g2, js'⟩, w3, w4, h2, ⟨⟨h3, -⟩, -⟩, -⟩, -⟩ := hr
    subst h3
    rw [ih h2, pls_addElementChild h1]

theorem pls_linkChildren {j : Nat} {cs : List Nat} : ∀ {g g' : Graph} {ws : List Warn}, linkChildren j g cs = .ok g' ws →
    pls g'.edges = pls g.edges ∧ g'.nodes = g.nodes := by
  induction cs with
  | nil =>
    intro g g' ws hr
    simp only [linkChildren, M.pure_eq_ok] at hr
    obtain ⟨rfl, -⟩ := hr
    exact ⟨rfl, rfl⟩
  | cons c cs ih =>
    intro g g' ws hr
    simp only [linkChildren, M.bind_eq_ok] at hr
    obtain ⟨g1, w1, w2, h1, h2, -⟩ := hr
    unfold Graph.addEdge Graph.rawAddEdge at h1
    split at h1
    · simp at h1
    · simp only [M.pure_eq_ok] at h1
      obtain ⟨rfl, -⟩ := h1
      obtain ⟨h3, h4⟩ := ih h2
      refine ⟨?_, h4⟩
      rw [h3]
      unfold pls
      rw [List.filter_cons_of_neg (by simp)]

theorem pls_linkInstances {i : Nat} {js : List Nat} : ∀ {g g' : Graph} {ws : List Warn}, linkInstances i g js = .ok g' ws →
    pls g'.edges = pls g.edges ∧ g'.nodes = g.nodes := by
  induction js with
  | nil =>
    intro g g' ws hr
    simp only [linkInstances, M.pure_eq_ok] at hr
    obtain ⟨rfl, -⟩ := hr
    exact ⟨rfl, rfl⟩
  | cons c cs ih =>
    intro g g' ws hr
    simp only [linkInstances, M.bind_eq_ok] at hr
    obtain ⟨g1, w1, w2, h1, h2, -⟩ := hr
    obtain ⟨h3, h4⟩ := ih h2
    obtain ⟨h5, h6⟩ := pls_linkChildren h1
    exact ⟨h3.trans h5, h4.trans h6⟩

theorem isP_setElem {g : Graph} (hw : WF g) {i : Nat} {e e' : ElemNode} (he : g.elem? i = some e) (k : Nat) : IsP (g.setElem i e') k ↔ IsP g k := by
  have hs := setElem_wf (e := e') hw (IsE.some ⟨e, he⟩)
  unfold IsP
  rw [hs.2]
  by_cases hk : k = i
  · subst hk
    rw [if_pos rfl, elem?_node?.1 he]
    simp
  · rw [if_neg hk]

theorem isE_setElem {g : Graph} (hw : WF g) {i : Nat} {e e' : ElemNode} (he : g.elem? i = some e) (k : Nat) : IsE (g.setElem i e') k ↔ IsE g k := by
  have hs := setElem_wf (e := e') hw (IsE.some ⟨e, he⟩)
  unfold IsE
  simp only [elem?_node?]
  rw [hs.2]
  by_cases hk : k = i
  · subst hk
    rw [if_pos rfl, elem?_node?.1 he]
    simp
  · rw [if_neg hk]

theorem typed_setElem {g : Graph} (hw : WF g) (T : Typed g) {i : Nat} {e e' : ElemNode} (he : g.elem? i = some e) : Typed (g.setElem i e') := by
  have h1 := fun k => isP_setElem (e' := e') hw he k
  have h2 := fun k => isE_setElem (e' := e') hw he k
  refine ⟨?_, ?_, ?_⟩
  · intro a b h
    rw [h2, h2]; exact T.tch a b h
  · intro a b h
    rw [h2, h2]; exact T.tde a b h
  · intro a b h
    rw [h2, h2, h1, h1]; exact T.tpl a b h

theorem held_adoptBase {ord : List Nat → List Nat} (hord : ∀ l, (ord l).Perm l) {g g' : Graph} {i : Nat} {bn : Option Nat} {ws : List Warn} (hw : WF g)
    (hac : Acyclic g.edges) (T : Typed g) (hi : IsE g i) (hb : ∀ b, bn = some b → De g b i) (h : Held g) (hr : adoptBase ord g i bn = .ok g' ws) :
    Held g' ∧ Typed g' := by
  cases bn with
  | none =>
    simp only [adoptBase, M.pure_eq_ok] at hr
    obtain ⟨rfl, -⟩ := hr
    exact ⟨h, T⟩
  | some b =>
    simp only [adoptBase, M.bind_eq_ok] at hr
    obtain ⟨g1, w1, w2, h1, h2, -⟩ := hr
    obtain ⟨rfl, -, -⟩ := removeEdge_ok h1
    have hd := hb b rfl
    have hs : ∀ e ∈ eraseEdge b i g.edges, e ∈ g.edges := fun e he => eraseEdge_sub he
    have hw1 : WF { g with edges := eraseEdge b i g.edges } := hw.of_eq rfl rfl (fun e he => Or.inl (hs e he))
    have hno : ¬ Pl g b i := by
      intro hp
      rcases T.tpl _ _ hp with h3 | h3
      · exact isE_notP hi h3.2
      · exact isE_notP (T.tde _ _ hd).1 h3.1
    have H1 : Held { g with edges := eraseEdge b i g.edges } := h.congr (pls_erase hno) (isP_congr rfl)
    have T1 : Typed { g with edges := eraseEdge b i g.edges } := by
      refine ⟨?_, ?_, ?_⟩
      · rintro x y (hxy | hxy)
        · exact T.tch x y (Or.inl (hs _ hxy))
        · exact T.tch x y (Or.inr (hs _ hxy))
      · intro x y hxy; exact T.tde x y (hs _ hxy)
      · intro x y hxy; exact T.tpl x y (hs _ hxy)
    exact held_replicate hord hw1 (hac.sub hs) T1 hi H1 h2

theorem held_updateNode {ord : List Nat → List Nat} (hord : ∀ l, (ord l).Perm l) {g g' : Graph} {i : Nat} {bn : Option Nat} {p : Processed} {t : Bool}
    {ws : List Warn} (hw : WF g) (hac : Acyclic g.edges) (T : Typed g) (hi : IsE g i) (hb : ∀ b, bn = some b → De g b i) (h : Held g)
    (hr : updateNode ord g i bn p t = .ok g' ws) : Held g' := by
  obtain ⟨g1, e1, h1, h2, h3, rfl⟩ := updateNode_ok hr
  obtain ⟨H1, T1⟩ := held_adoptBase hord hw hac T hi hb h h1
  have hw1 := (adoptBase_wf hw h1 hi.some).1
  have T2 := typed_setElem (e' := { e1 with isProcessed := true, processed := some p, isDimTemplate := e1.isDimTemplate || t }) hw1 T1 h2
  have H2 : Held (g1.setElem i { e1 with isProcessed := true, processed := some p, isDimTemplate := e1.isDimTemplate || t }) :=
    H1.congr rfl (isP_setElem hw1 h2)
  refine H2.congr (pls_resolveChildEdges ?_) (isP_congr resolveChildEdges_nodes.1)
  intro c hc hp
  obtain ⟨ed, -, -, -, -, h6⟩ := elementChildren_edge hc
  rcases T2.tpl _ _ hp with h7 | h7
  · exact isE_notP (isE_iff.1 h6) h7.2
  · exact isE_notP ((isE_setElem hw1 h2 i).2 ⟨_, h2⟩) h7.1

theorem held_processNode {d : SDevice} {ord : List Nat → List Nat} (hord : ∀ l, (ord l).Perm l) {g g' : Graph} {lab : Nat → Pos} {i : Nat} {ws : List Warn}
    (A : LabAt d g lab) (h : Held g) (hr : processNode ord g i = .ok g' ws) : Held g' := by
  obtain ⟨e, bn, bp, w, he, hdev, hbase, hcase⟩ := processNode_cases hr
  have T := A.lab.typed
  have hw := A.inv.wf
  have hi : IsE g i := ⟨e, he⟩
  have hb : ∀ b, bn = some b → De g b i := by
    intro b hb
    rcases hbase with ⟨-, h2, -⟩ | ⟨path, b', eb, -, h2, -, -, h5, -⟩
    · rw [h2] at hb; cases hb
    · rw [h5] at hb
      injection hb with hb
      subst hb
      exact baseElementNode_edge h2
  rcases hcase with ⟨hen, hp⟩ | ⟨hen, hp⟩
  · unfold processEnumNode at hp
    rw [he] at hp
    simp only [M.bind_eq_ok] at hp
    obtain ⟨g1, w1, w2, h1, h2, -⟩ := hp
    have hs := setElem_wf (e := { e with parsed := adoptedParsed g e bn }) hw hi.some
    have he0 : (g.setElem i { e with parsed := adoptedParsed g e bn }).elem? i = some { e with parsed := adoptedParsed g e bn } := by
      rw [elem?_node?, hs.2, if_pos rfl]
    obtain ⟨H1, T1⟩ := held_adoptBase hord hs.1 (g := g.setElem i { e with parsed := adoptedParsed g e bn }) A.ac (typed_setElem hw T he) ⟨_, he0⟩ hb
      (h.congr rfl (isP_setElem hw he)) h1
    have hw1 := (adoptBase_wf hs.1 h1 (by rw [elem?_node?.1 he0]; rfl))
    rw [hw1.2.elem he0] at h2
    simp only [M.pure_eq_ok] at h2
    obtain ⟨rfl, -⟩ := h2
    exact H1.congr rfl (isP_setElem hw1.1 (hw1.2.elem he0))
  · rcases processDimable_ok hp with ⟨x, w, -, -, h2⟩ | ⟨xs, t, w, -, -, -, h2⟩
    · exact held_updateNode hord hw A.ac T hi hb h h2
    · obtain ⟨g1, e1, g2, js, h3, h4, h5, h6⟩ := updateDimNode_ok h2
      have H1 := held_updateNode hord hw A.ac T hi hb h h3
      have hw1 := updateNode_wf hw h3 he
      have hlive : ∀ x ∈ (g1.elementParents i).flatMap (fun par => xs.map fun x => (par, x)), (g1.node? x.1).isSome := by
        intro x hx
        obtain ⟨par, hpar, hx⟩ := List.mem_flatMap.1 hx
        obtain ⟨y, -, rfl⟩ := List.mem_map.1 hx
        obtain ⟨ed, h2, rfl, -, -, -⟩ := elementParents_edge hpar
        exact (hw1.1.edges_valid _ h2).1
      obtain ⟨-, hx2, hf, hin, hlen, hold, -⟩ := addInstances_effect (e := e1) hw1.1 h5 hlive
      have hP : ∀ k, IsP g2 k ↔ IsP g1 k := by
        intro k
        by_cases hk : k ∈ js
        · constructor
          · rintro ⟨p, hp⟩
            exfalso
            obtain ⟨n, hn⟩ := List.getElem?_of_mem hk
            have hlt : n < js.length := (List.getElem?_eq_some_iff.1 hn).1
            obtain ⟨y, hy⟩ : ∃ y, ((g1.elementParents i).flatMap (fun par => xs.map fun x => (par, x)))[n]? = some y := by
              rw [hlen] at hlt
              exact ⟨_, List.getElem?_eq_getElem hlt⟩
            have hz : (k, y) ∈ js.zip ((g1.elementParents i).flatMap (fun par => xs.map fun x => (par, x))) := by
              refine List.mem_of_getElem? (i := n) ?_
              rw [List.getElem?_zip_eq_some]
              exact ⟨hn, hy⟩
            have := hin k y.1 y.2 hz
            rw [elem?_node?, hp] at this
            cases this
          · rintro ⟨p, hp⟩
            rw [hf k hk] at hp
            cases hp
        · unfold IsP
          rw [hold k hk]
      have H2 : Held g2 := H1.congr (pls_addInstances h5) hP
      obtain ⟨h7, h8⟩ := pls_linkInstances h6
      exact H2.congr h7 (isP_congr h8)

theorem held_resolvePlaceholder {d : SDevice} {g g' : Graph} {lab : Nat → Pos} {k : Nat} {ws : List Warn} (A : LabAt d g lab) (h : Held g)
    (hr : resolvePlaceholder g k = .ok g' ws) : Held g' := by
  obtain ⟨path, h1, rfl | ⟨c, e, b, w, -, -, -, h2⟩⟩ := resolvePlaceholder_cases hr
  · exact h
  · have H := held_removePlaceholder h A.lab.typed ⟨path, h1⟩
    unfold Graph.rawAddEdge at h2
    split at h2
    · simp at h2
    · simp only [M.pure_eq_ok] at h2
      obtain ⟨rfl, -⟩ := h2
      refine H.congr ?_ (isP_congr rfl)
      unfold pls
      rw [List.filter_cons_of_neg (by simp)]

end Svd
