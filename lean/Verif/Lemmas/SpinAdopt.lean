import Verif.Lemmas.Single
import Verif.Lemmas.UpdTotal
/-
One step of the endless run: an element takes over the content of its base when that content is a single derived
element with one derived element inside.
-/
namespace Svd
open Graph Spec

/-! ### derivation edges -/

/-- The derivation edges. -/
def des (es : List Edge) : List Edge := es.filter fun e => e.ty == .derive

theorem de_des {g : Graph} {a b : Nat} : De g a b ↔ (⟨a, b, .derive⟩ : Edge) ∈ des g.edges := by
  unfold des De
  rw [List.mem_filter]
  simp

theorem des_none {es : List Edge} (h : ∀ e ∈ es, e.ty ≠ .derive) : des es = [] := by
  unfold des
  rw [List.filter_eq_nil_iff]
  intro e he
  simpa using h e he

theorem des_addEdges {g g' : Graph} {es : List Edge} {ws : List Warn} (h : g.addEdges es = .ok g' ws) (h1 : ∀ e ∈ es, e.ty ≠ .derive) :
    des g'.edges = des g.edges := by
  obtain ⟨-, -, -, h2, -⟩ := addEdges_nodes h
  rw [h2]
  have : des (es.reverse ++ g.edges) = des es.reverse ++ des g.edges := List.filter_append ..
  rw [this, des_none (fun e he => h1 e (List.mem_reverse.1 he)), List.nil_append]

theorem des_replicateEdges {m : List (Nat × Nat)} {sel : List Nat} {is : List Nat} : ∀ {g g' : Graph} {ws : List Warn},
    replicateEdges m sel g is = .ok g' ws → (∀ i ∈ is, i ∈ sel) → (∀ a, ∀ j ∈ sel, ¬ De g a j) → des g'.edges = des g.edges := by
  induction is with
  | nil =>
    intro g g' ws hr _ _
    simp only [replicateEdges, M.pure_eq_ok] at hr
    rw [← hr.1]
  | cons i is ih =>
    intro g g' ws hr hs hn
    simp only [replicateEdges, M.bind_eq_ok] at hr
    obtain ⟨g1, w1, w2, h1, ⟨g2, w3, w4, h2, h3, -⟩, -⟩ := hr
    have d1 : des g1.edges = des g.edges := by
      refine des_addEdges h1 ?_
      intro e he
      obtain ⟨x, hx, rfl⟩ := List.mem_map.1 he
      simp only [List.mem_filter, Graph.outEdges, List.contains_iff_mem] at hx
      intro hty
      simp only at hty
      refine hn x.src x.dst hx.2 ?_
      obtain ⟨a, b, t⟩ := x
      simp only at hty
      subst hty
      exact hx.1.1
    have hn1 : ∀ a, ∀ j ∈ sel, ¬ De g1 a j := by
      intro a j hj hd
      refine hn a j hj ?_
      rw [de_des, ← d1]
      exact de_des.1 hd
    have d2 : des g2.edges = des g1.edges := by
      refine des_addEdges h2 ?_
      intro e he
      obtain ⟨x, hx, rfl⟩ := List.mem_map.1 he
      simp only [List.mem_filter, Graph.inEdges, beq_iff_eq] at hx
      obtain ⟨⟨h5, h6⟩, h7⟩ := hx
      refine absurd ?_ (hn1 x.src i (hs i (by simp)))
      obtain ⟨a, b, t⟩ := x
      simp only at h6 h7
      subst h6 h7
      exact h5
    have hn2 : ∀ a, ∀ j ∈ sel, ¬ De g2 a j := by
      intro a j hj hd
      refine hn1 a j hj ?_
      rw [de_des, ← d2]
      exact de_des.1 hd
    rw [ih h3 (fun x hx => hs x (by simp [hx])) hn2, d2, d1]

theorem des_replicate {ord : List Nat → List Nat} (hord : ∀ l, (ord l).Perm l) {g g' : Graph} {src tgt : Nat} {ws : List Warn} (h : WF g)
    (hN : ∀ a, ∀ j ∈ g.descendants src, ¬ De g a j) (hr : g.replicateDescendants ord src tgt = .ok g' ws) : des g'.edges = des g.edges := by
  unfold Graph.replicateDescendants at hr
  simp only [M.bind_eq_ok] at hr
  obtain ⟨⟨g1, m⟩, w1, w2, h1, ⟨g2, w3, w4, h2, h3, -⟩, -⟩ := hr
  obtain ⟨-, -, -, he, -⟩ := replicateNodes_wf h h1 (by simp)
  have d1 : des g1.edges = des g.edges := by rw [he]
  have d2 := des_replicateEdges h2 (fun i hi => hi) (by
    intro a j hj hd
    refine hN a j ((hord _).mem_iff.1 hj) ?_
    rw [de_des, ← d1]
    exact de_des.1 hd)
  have d3 := des_addEdges h3 (by
    intro e he
    obtain ⟨x, hx, rfl⟩ := List.mem_map.1 he
    simp only
    split
    · decide
    · split <;> (try split) <;> decide)
  rw [d3, d2, d1]

theorem des_retype {a b : Nat} {ty : EdgeT} {es : List Edge} (h : (⟨a, b, .derive⟩ : Edge) ∉ es) (ht : ty ≠ .derive) :
    des (retypeEdge a b ty es) = des es := by
  induction es with
  | nil => rfl
  | cons e es ih =>
    have h2 : (⟨a, b, .derive⟩ : Edge) ∉ es := fun hm => h (List.mem_cons_of_mem _ hm)
    rw [retypeEdge]
    split
    · rename_i hc
      simp only [Bool.and_eq_true, beq_iff_eq] at hc
      have h3 : e.ty ≠ .derive := by
        intro h3
        apply h
        obtain ⟨x, y, t⟩ := e
        simp only at hc h3
        obtain ⟨rfl, rfl⟩ := hc
        subst h3
        exact List.mem_cons_self
      unfold des
      rw [List.filter_cons_of_neg (by simpa using ht), List.filter_cons_of_neg (by simpa using h3)]
    · unfold des at ih ⊢
      rw [List.filter_cons, List.filter_cons, ih h2]

theorem des_resolveChildEdges {i : Nat} {cs : List Nat} : ∀ {g : Graph}, (∀ c ∈ cs, ¬ De g i c) →
    des (resolveChildEdges i g cs).edges = des g.edges := by
  induction cs with
  | nil => intro g _; rfl
  | cons c cs ih =>
    intro g h
    have h1 : des (g.updateEdge i c .childR).edges = des g.edges := des_retype (h c (by simp)) (by decide)
    simp only [resolveChildEdges]
    rw [ih, h1]
    intro x hx hd
    refine h x (by simp [hx]) ?_
    rw [de_des, ← h1]
    exact de_des.1 hd

/-! ### placeholders -/

theorem phs_replicateNodes {is : List Nat} : ∀ {g g' : Graph} {m m' : List (Nat × Nat)} {ws : List Warn},
    g.replicateNodes m is = .ok (g', m') ws → ∃ L, g'.placeholders = g.placeholders ++ L := by
  induction is with
  | nil =>
    intro g g' m m' ws hr
    simp only [Graph.replicateNodes, M.pure_eq_ok, Prod.mk.injEq] at hr
    exact ⟨[], by rw [← hr.1.1]; simp⟩
  | cons i is ih =>
    intro g g' m m' ws hr
    have hadd : ∀ n, (g.addNode n).1.placeholders = g.placeholders := by
      intro n
      unfold Graph.addNode
      split <;> rfl
    unfold Graph.replicateNodes at hr
    split at hr
    · simp at hr
    · rename_i n hn
      obtain ⟨L, hL⟩ := ih hr
      cases n with
      | elem e => exact ⟨L, hL.trans (congrArg (· ++ L) (hadd (.elem e)))⟩
      | ph path => exact ⟨[(g.addNode (.ph path)).2] ++ L,
          hL.trans ((congrArg (fun x => (x ++ [(g.addNode (.ph path)).2]) ++ L) (hadd (.ph path))).trans (List.append_assoc ..))⟩

theorem phs_replicate {ord : List Nat → List Nat} {g g' : Graph} {a b : Nat} {ws : List Warn}
    (hr : g.replicateDescendants ord a b = .ok g' ws) : ∃ L, g'.placeholders = g.placeholders ++ L := by
  unfold Graph.replicateDescendants at hr
  simp only [M.bind_eq_ok] at hr
  obtain ⟨⟨g1, m⟩, w1, w2, h1, ⟨g2, w3, w4, h2, h3, -⟩, -⟩ := hr
  obtain ⟨L, hL⟩ := phs_replicateNodes h1
  obtain ⟨h4, h5, -, -⟩ := replicateEdges_nodes h2
  obtain ⟨-, -, h6, -⟩ := addEdges_nodes h3
  exact ⟨L, by rw [h6, h5, hL]⟩

/-! ### the step -/

/-- What holds of the graph throughout. -/
structure Fit (g : Graph) : Prop where
  wf : WF g
  ac : Acyclic g.edges
  ty : Typed g
  held : Held g
  single : Single g
  listed : Listed g
  one : ∀ a a' b, Ch g a b → Ch g a' b → a = a'
  des : (des g.edges).Nodup

/-- Below `a` there is just the derived element `z` (waiting at `h`), and in it just the derived element `k` (waiting at
`q`). -/
structure Tree (g : Graph) (a z h k q : Nat) : Prop where
  ch : ∀ x, Ch g a x ↔ x = z
  pl : ∀ x, Pl g a x ↔ x = h
  zch : ∀ x, Ch g z x ↔ x = k
  zpl : ∀ x, Pl g z x ↔ x = q
  hpl : ∀ x, Pl g h x ↔ x = z
  kch : ∀ x, ¬ Ch g k x
  kpl : ∀ x, ¬ Pl g k x
  qpl : ∀ x, Pl g q x ↔ x = k
  zde : ∀ x, ¬ De g x z
  kde : ∀ x, ¬ De g x k

theorem Tree.reach {g : Graph} {a z h k q : Nat} (ty : Typed g) (T : Tree g a z h k q) {j : Nat} :
    Conn (g.edges.filter fun e => e.ty != .derive) a j ↔ j = z ∨ j = h ∨ j = k ∨ j = q := by
  have hz : Ch g a z := (T.ch z).2 rfl
  have hh : Pl g a h := (T.pl h).2 rfl
  have hk : Ch g z k := (T.zch k).2 rfl
  have hq : Pl g z q := (T.zpl q).2 rfl
  have ea := (ty.tch _ _ hz).1
  have ez := (ty.tch _ _ hz).2
  have ek := (ty.tch _ _ hk).2
  have ph : IsP g h := by
    rcases ty.tpl _ _ hh with h1 | h1
    · exact h1.2
    · exact absurd h1.1 (isE_notP ea)
  have pq : IsP g q := by
    rcases ty.tpl _ _ hq with h1 | h1
    · exact h1.2
    · exact absurd h1.1 (isE_notP ez)
  have step : ∀ x y, (Ch g x y ∨ Pl g x y) → (x = a ∨ x = z ∨ x = h ∨ x = k ∨ x = q) → (y = z ∨ y = h ∨ y = k ∨ y = q) := by
    rintro x y (h1 | h1) (rfl | rfl | rfl | rfl | rfl)
    · exact Or.inl ((T.ch y).1 h1)
    · exact Or.inr (Or.inr (Or.inl ((T.zch y).1 h1)))
    · exact absurd ph (isE_notP (ty.tch _ _ h1).1)
    · exact absurd h1 (T.kch y)
    · exact absurd pq (isE_notP (ty.tch _ _ h1).1)
    · exact Or.inr (Or.inl ((T.pl y).1 h1))
    · exact Or.inr (Or.inr (Or.inr ((T.zpl y).1 h1)))
    · exact Or.inl ((T.hpl y).1 h1)
    · exact absurd h1 (T.kpl y)
    · exact Or.inr (Or.inr (Or.inl ((T.qpl y).1 h1)))
  have view : ∀ e ∈ (g.edges.filter fun e => e.ty != .derive), Ch g e.src e.dst ∨ Pl g e.src e.dst := by
    intro e he
    obtain ⟨h1, h2⟩ := List.mem_filter.1 he
    obtain ⟨x, y, t⟩ := e
    cases t with
    | childU => exact Or.inl (Or.inl h1)
    | childR => exact Or.inl (Or.inr h1)
    | placeholder => exact Or.inr h1
    | derive => simp at h2
  have conn : ∀ x y, (Ch g x y ∨ Pl g x y) → Conn (g.edges.filter fun e => e.ty != .derive) x y := by
    rintro x y ((h1 | h1) | h1)
    · exact Conn.edge (e := ⟨x, y, .childU⟩) (List.mem_filter.2 ⟨h1, rfl⟩)
    · exact Conn.edge (e := ⟨x, y, .childR⟩) (List.mem_filter.2 ⟨h1, rfl⟩)
    · exact Conn.edge (e := ⟨x, y, .placeholder⟩) (List.mem_filter.2 ⟨h1, rfl⟩)
  constructor
  · intro hc
    obtain ⟨e, he, hs⟩ := conn_last hc
    have := Conn.closed (a := a) (b := e.src) (T := [a, z, h, k, q]) (es := g.edges.filter fun e => e.ty != .derive) (by
      intro e he hs
      have := step e.src e.dst (view e he) (by simpa using hs)
      simp only [List.mem_cons, List.not_mem_nil, or_false]
      exact Or.inr this)
    obtain ⟨h1, h2⟩ := hs
    rw [← h1]
    refine step e.src e.dst (view e he) ?_
    rcases h2 with h2 | h2
    · exact Or.inl h2
    · simpa using this h2 (by simp)
  · have cz := conn a z (Or.inl hz)
    rintro (rfl | rfl | rfl | rfl)
    · exact cz
    · exact conn _ _ (Or.inr hh)
    · exact cz.trans (conn _ _ (Or.inl hk))
    · exact cz.trans (conn _ _ (Or.inr hq))

theorem Tree.kinds {g : Graph} {a z h k q : Nat} (ty : Typed g) (T : Tree g a z h k q) :
    IsE g a ∧ IsE g z ∧ IsP g h ∧ IsE g k ∧ IsP g q := by
  have hz : Ch g a z := (T.ch z).2 rfl
  have hh : Pl g a h := (T.pl h).2 rfl
  have hk : Ch g z k := (T.zch k).2 rfl
  have hq : Pl g z q := (T.zpl q).2 rfl
  have ea := (ty.tch _ _ hz).1
  have ez := (ty.tch _ _ hz).2
  refine ⟨ea, ez, ?_, (ty.tch _ _ hk).2, ?_⟩
  · rcases ty.tpl _ _ hh with h1 | h1
    · exact h1.2
    · exact absurd h1.1 (isE_notP ea)
  · rcases ty.tpl _ _ hq with h1 | h1
    · exact h1.2
    · exact absurd h1.1 (isE_notP ez)

theorem erase_des {a b : Nat} {es : List Edge} (hn : (des es).Nodup) (h1 : ∀ e ∈ es, e.src = a → e.dst = b → e.ty = .derive)
    (h2 : (⟨a, b, .derive⟩ : Edge) ∈ es) : des (eraseEdge a b es) = (des es).filter fun e => !(e.src == a && e.dst == b) := by
  induction es with
  | nil => cases h2
  | cons e es ih =>
    rw [eraseEdge]
    by_cases hc : (e.src == a && e.dst == b) = true
    · rw [if_pos hc]
      simp only [Bool.and_eq_true, beq_iff_eq] at hc
      have hty := h1 e (by simp) hc.1 hc.2
      have he : e = ⟨a, b, .derive⟩ := by
        obtain ⟨x, y, t⟩ := e
        simp only at hc hty
        obtain ⟨rfl, rfl⟩ := hc
        rw [hty]
      subst he
      have hd : des (⟨a, b, .derive⟩ :: es) = ⟨a, b, .derive⟩ :: des es := List.filter_cons_of_pos rfl
      rw [hd] at hn ⊢
      rw [List.filter_cons_of_neg (by simp)]
      symm
      rw [List.filter_eq_self]
      intro x hx
      have hne := (List.nodup_cons.1 hn).1
      have hxd : x.ty = .derive := by
        unfold des at hx
        simpa using (List.mem_filter.1 hx).2
      simp only [Bool.not_eq_true', Bool.and_eq_false_iff, beq_eq_false_iff_ne]
      by_cases h3 : x.src = a
      · right
        intro h4
        apply hne
        obtain ⟨p, q, t⟩ := x
        simp only at h3 h4 hxd
        subst h3 h4 hxd
        exact hx
      · exact Or.inl h3
    · rw [if_neg hc]
      have h2' : (⟨a, b, .derive⟩ : Edge) ∈ es := by
        rcases List.mem_cons.1 h2 with h3 | h3
        · subst h3; simp at hc
        · exact h3
      have ih' := ih (by
        unfold des at hn ⊢
        exact (List.Sublist.filter _ (List.sublist_cons_self e es)).nodup hn) (fun x hx => h1 x (List.mem_cons_of_mem _ hx)) h2'
      unfold des at ih' ⊢
      rw [List.filter_cons, List.filter_cons]
      split
      · rw [ih', List.filter_cons_of_pos (by rw [Bool.not_eq_true']; exact Bool.eq_false_iff.2 hc)]
      · exact ih'

/-- The element `i` has taken over the content of `bb`, the new nodes being `z'`, `h'`, `k'` and `q'`. -/
structure Took (g g' : Graph) (i bb z h k q z' h' k' q' : Nat) (e : ElemNode) (p : Processed) : Prop where
  fit : Fit g'
  own : g'.elem? i = some { e with isProcessed := true, processed := some p }
  old : ∀ j n, j ≠ i → g.node? j = some n → g'.node? j = some n
  only : ∀ j, (g'.node? j).isSome → (g.node? j).isSome ∨ j = z' ∨ j = h' ∨ j = k' ∨ j = q'
  cz : g'.node? z' = g.node? z ∧ g.node? z' = none
  chh : g'.node? h' = g.node? h ∧ g.node? h' = none
  ck : g'.node? k' = g.node? k ∧ g.node? k' = none
  cq : g'.node? q' = g.node? q ∧ g.node? q' = none
  ch : ∀ a b, Ch g' a b ↔ Ch g a b ∨ (a = i ∧ b = z') ∨ (a = z' ∧ b = k')
  pl : ∀ a b, Pl g' a b ↔ Pl g a b ∨ (a = i ∧ b = h') ∨ (a = h' ∧ b = z') ∨ (a = z' ∧ b = q') ∨ (a = q' ∧ b = k')
  de : ∀ a b, De g' a b ↔ De g a b ∧ ¬ (a = bb ∧ b = i)
  cr : ∀ x, Ch g' i x → (⟨i, x, .childR⟩ : Edge) ∈ g'.edges
  keep : ∀ a b, (⟨a, b, .childR⟩ : Edge) ∈ g.edges → (⟨a, b, .childR⟩ : Edge) ∈ g'.edges
  phs : ∃ L, g'.placeholders = g.placeholders ++ L

theorem WF.edges_valid' {g : Graph} (h : WF g) {a b : Nat} (hc : Ch g a b) : (g.node? a).isSome ∧ (g.node? b).isSome := by
  rcases hc with hc | hc
  · exact h.edges_valid _ hc
  · exact h.edges_valid _ hc

set_option maxHeartbeats 4000000 in
theorem took {ord : List Nat → List Nat} (hord : ∀ l, (ord l).Perm l) {g : Graph} {i bb z h k q : Nat} {e : ElemNode} (p : Processed)
    (F : Fit g) (he : g.elem? i = some e) (hep : e.processed = none) (hd : De g bb i) (hc : ¬ Ch g bb i)
    (hi : ∀ x, Ch g i x → ¬ De g i x) (T : Tree g bb z h k q) :
    ∃ g' z' h' k' q', updateNode ord g i (some bb) p false = .ok g' [] ∧ Took g g' i bb z h k q z' h' k' q' e p := by
  have hw := F.wf
  have hiE : IsE g i := ⟨e, he⟩
  have his : (g.node? i).isSome := hiE.some
  obtain ⟨kb, kz, kh, kk, kq⟩ := T.kinds F.ty
  have hpl : ¬ Pl g bb i := by
    intro h1
    rcases F.ty.tpl _ _ h1 with h2 | h2
    · exact isE_notP hiE h2.2
    · exact isE_notP kb h2.1
  -- the graph without the derivation edge
  obtain ⟨ge, hge⟩ : ∃ ge, ge = { g with edges := eraseEdge bb i g.edges } := ⟨_, rfl⟩
  have hsub : ∀ x ∈ ge.edges, x ∈ g.edges := by intro x hx; subst hge; exact eraseEdge_sub hx
  have hnodes : ge.nodes = g.nodes := by rw [hge]
  have hwe : WF ge := hw.of_eq hnodes (by rw [hge]) fun x hx => Or.inl (hsub x hx)
  obtain ⟨v1, v2, v3, v4⟩ := erase_views (g' := ge) hc hpl hge
  have dge : des ge.edges = (des g.edges).filter fun x => !(x.src == bb && x.dst == i) := by
    rw [hge]
    refine erase_des F.des ?_ hd
    intro x hx hs hdst
    rcases edge_view hx with h1 | h1 | h1
    · rw [hs, hdst] at h1; exact absurd h1 hc
    · obtain ⟨x, y, t⟩ := x
      simp only at hs hdst
      subst hs hdst
      cases t with
      | childU => exact absurd (Or.inl hx) hc
      | childR => exact absurd (Or.inr hx) hc
      | placeholder => exact absurd hx hpl
      | derive => rfl
    · rw [hs, hdst] at h1; exact absurd h1 hpl
  have vd : ∀ a b, De ge a b ↔ De g a b ∧ ¬ (a = bb ∧ b = i) := by
    intro a b
    rw [de_des, dge, List.mem_filter, ← de_des]
    simp only [Bool.not_eq_true', Bool.and_eq_false_iff, beq_eq_false_iff_ne, ne_eq, Classical.not_and_iff_not_or_not]
  have elm : ∀ j, ge.elem? j = g.elem? j := elem?_congr hnodes
  have nod : ∀ j, ge.node? j = g.node? j := node?_congr hnodes
  have eE : ∀ j, IsE ge j ↔ IsE g j := by intro j; unfold IsE; rw [elm]
  have eP : ∀ j, IsP ge j ↔ IsP g j := by intro j; unfold IsP; rw [nod]
  have tye : Typed ge := ⟨fun a b h1 => by rw [eE, eE]; exact F.ty.tch a b ((v1 a b).1 h1), fun a b h1 => by rw [eE, eE]; exact F.ty.tde a b (v2 a b h1),
    fun a b h1 => by rw [eE, eE, eP, eP]; exact F.ty.tpl a b ((v4 a b).1 h1)⟩
  have Te : Tree ge bb z h k q := by
    refine ⟨fun x => (v1 _ _).trans (T.ch x), fun x => (v4 _ _).trans (T.pl x), fun x => (v1 _ _).trans (T.zch x), fun x => (v4 _ _).trans (T.zpl x),
      fun x => (v4 _ _).trans (T.hpl x), fun x h1 => T.kch x ((v1 _ _).1 h1), fun x h1 => T.kpl x ((v4 _ _).1 h1), fun x => (v4 _ _).trans (T.qpl x),
      fun x h1 => T.zde x (v2 _ _ h1), fun x h1 => T.kde x (v2 _ _ h1)⟩
  have sel : ∀ j, j ∈ ge.descendants bb ↔ j = z ∨ j = h ∨ j = k ∨ j = q := fun j => (mem_descendants hwe).trans (Te.reach tye)
  have noDe : ∀ a, ∀ j ∈ ge.descendants bb, ¬ De ge a j := by
    intro a j hj h1
    rcases (sel j).1 hj with rfl | rfl | rfl | rfl
    · exact Te.zde a h1
    · exact isE_notP (tye.tde _ _ h1).2 ((eP _).2 kh)
    · exact Te.kde a h1
    · exact isE_notP (tye.tde _ _ h1).2 ((eP _).2 kq)
  -- the copies
  obtain ⟨g', hr⟩ := updateNode_total hord (p := p) (t := false) hw F.ac he hep (bn := some bb) (by intro b hb; injection hb with hb; subst hb; exact hd)
  obtain ⟨g1, e1, h1, h2, h3, hg'⟩ := updateNode_ok hr
  have h1' := h1
  simp only [adoptBase, M.bind_eq_ok] at h1'
  obtain ⟨ge', w1, w2, q1, q2, -⟩ := h1'
  obtain ⟨q3, -, -⟩ := removeEdge_ok q1
  rw [← hge] at q3
  subst q3
  obtain ⟨φ, R⟩ := replicateDescendants_rep hord hwe (by rw [nod]; exact his) q2
  obtain ⟨r1, r2, r3⟩ := replica_views' tye.tch tye.tpl R ((eE _).2 kb) (fun j hj => noDe _ j hj)
  have d1 : des g1.edges = des ge'.edges := des_replicate hord hwe noDe q2
  have e1e : e1 = e := by
    have := R.ext i _ (by rw [nod]; exact elem?_node?.1 he)
    rw [elem?_node?, this] at h2
    injection h2 with h2
    injection h2 with h2
    exact h2.symm
  subst e1e
  obtain ⟨hw1, x1⟩ := adoptBase_wf hw h1 his
  obtain ⟨H1, T1⟩ := held_adoptBase hord hw F.ac F.ty hiE (by intro b hb; injection hb with hb; subst hb; exact hd) F.held h1
  have sz := (sel z).2 (Or.inl rfl)
  have sh := (sel h).2 (Or.inr (Or.inl rfl))
  have sk := (sel k).2 (Or.inr (Or.inr (Or.inl rfl)))
  have sq := (sel q).2 (Or.inr (Or.inr (Or.inr rfl)))
  have fresh : ∀ j, j ∈ ge'.descendants bb → g.node? (φ j) = none := fun j hj => by rw [← nod]; exact R.fresh j hj
  have live : ∀ j, (g.node? j).isSome → ∀ x, x ∈ ge'.descendants bb → j ≠ φ x := by
    rintro j hj x hx rfl
    rw [fresh x hx] at hj
    cases hj
  have deg : ∀ a b, De g1 a b ↔ De g a b ∧ ¬ (a = bb ∧ b = i) := by
    intro a b
    rw [de_des, d1, ← de_des, vd]
  have ch1 : ∀ a b, Ch g1 a b ↔ Ch g a b ∨ (a = i ∧ b = φ z) ∨ (a = φ z ∧ b = φ k) := by
    intro a b
    rw [r1, v1]
    constructor
    · rintro (c | ⟨x, y, hx, hy, rfl, rfl, c⟩ | ⟨rfl, y, hy, rfl, c⟩)
      · exact Or.inl c
      · rw [v1] at c
        rcases (sel x).1 hx with rfl | rfl | rfl | rfl
        · rw [(T.zch y).1 c]; exact Or.inr (Or.inr ⟨rfl, rfl⟩)
        · exact absurd kh (isE_notP (F.ty.tch _ _ c).1)
        · exact absurd c (T.kch y)
        · exact absurd kq (isE_notP (F.ty.tch _ _ c).1)
      · rw [v1] at c
        rw [(T.ch y).1 c]
        exact Or.inr (Or.inl ⟨rfl, rfl⟩)
    · rintro (c | ⟨rfl, rfl⟩ | ⟨rfl, rfl⟩)
      · exact Or.inl c
      · exact Or.inr (Or.inr ⟨rfl, z, sz, rfl, (v1 _ _).2 ((T.ch z).2 rfl)⟩)
      · exact Or.inr (Or.inl ⟨z, k, sz, sk, rfl, rfl, (v1 _ _).2 ((T.zch k).2 rfl)⟩)
  have pl1 : ∀ a b, Pl g1 a b ↔ Pl g a b ∨ (a = i ∧ b = φ h) ∨ (a = φ h ∧ b = φ z) ∨ (a = φ z ∧ b = φ q) ∨ (a = φ q ∧ b = φ k) := by
    intro a b
    rw [r3, v4]
    constructor
    · rintro (c | ⟨x, y, hx, hy, rfl, rfl, c⟩ | ⟨rfl, y, hy, rfl, c⟩)
      · exact Or.inl c
      · rw [v4] at c
        rcases (sel x).1 hx with rfl | rfl | rfl | rfl
        · rw [(T.zpl y).1 c]; exact Or.inr (Or.inr (Or.inr (Or.inl ⟨rfl, rfl⟩)))
        · rw [(T.hpl y).1 c]; exact Or.inr (Or.inr (Or.inl ⟨rfl, rfl⟩))
        · exact absurd c (T.kpl y)
        · rw [(T.qpl y).1 c]; exact Or.inr (Or.inr (Or.inr (Or.inr ⟨rfl, rfl⟩)))
      · rw [v4] at c
        rw [(T.pl y).1 c]
        exact Or.inr (Or.inl ⟨rfl, rfl⟩)
    · rintro (c | ⟨rfl, rfl⟩ | ⟨rfl, rfl⟩ | ⟨rfl, rfl⟩ | ⟨rfl, rfl⟩)
      · exact Or.inl c
      · exact Or.inr (Or.inr ⟨rfl, h, sh, rfl, (v4 _ _).2 ((T.pl h).2 rfl)⟩)
      · exact Or.inr (Or.inl ⟨h, z, sh, sz, rfl, rfl, (v4 _ _).2 ((T.hpl z).2 rfl)⟩)
      · exact Or.inr (Or.inl ⟨z, q, sz, sq, rfl, rfl, (v4 _ _).2 ((T.zpl q).2 rfl)⟩)
      · exact Or.inr (Or.inl ⟨q, k, sq, sk, rfl, rfl, (v4 _ _).2 ((T.qpl k).2 rfl)⟩)
  have noBoth : ∀ c, Ch g1 i c → ¬ De g1 i c := by
    intro c hc1 hd1
    obtain ⟨hd2, -⟩ := (deg _ _).1 hd1
    rcases (ch1 _ _).1 hc1 with c1 | ⟨-, rfl⟩ | ⟨c1, -⟩
    · exact hi c c1 hd2
    · exact absurd rfl (live _ (hw.edges_valid _ hd2).2 z sz)
    · exact absurd c1 (live _ his z sz)
  -- the element is processed
  obtain ⟨E', hE'⟩ : ∃ E', E' = { e1 with isProcessed := true, processed := some p, isDimTemplate := e1.isDimTemplate || false } := ⟨_, rfl⟩
  rw [← hE'] at hg'
  obtain ⟨g2, hg2⟩ : ∃ g2, g2 = g1.setElem i E' := ⟨_, rfl⟩
  rw [← hg2] at hg'
  have ed2 : g2.edges = g1.edges := by rw [hg2]; rfl
  have T2 : Typed g2 := by rw [hg2]; exact typed_setElem hw1 T1 h2
  have vCh : ∀ a b, Ch g2 a b ↔ Ch g1 a b := by intro a b; unfold Ch; rw [ed2]
  have vDe : ∀ a b, De g2 a b ↔ De g1 a b := by intro a b; unfold De; rw [ed2]
  have vPl : ∀ a b, Pl g2 a b ↔ Pl g1 a b := by intro a b; unfold Pl; rw [ed2]
  have kids : ∀ c ∈ g2.elementChildren i, Ch g2 i c := by
    intro c hc1
    obtain ⟨ed, k1, k2, k3, k4, -⟩ := elementChildren_edge hc1
    exact ch_iff.2 ⟨ed, k1, k2, k3, k4⟩
  obtain ⟨u1, u2, u3⟩ := resolveChildEdges_views (i := i) (g := g2) kids
  rw [← hg'] at u1 u2 u3
  have d3 : des g'.edges = des g1.edges := by
    rw [hg', des_resolveChildEdges, ed2]
    intro c hc1 hd1
    exact noBoth c ((vCh _ _).1 (kids c hc1)) ((vDe _ _).1 hd1)
  have p3 : pls g'.edges = pls g1.edges := by
    rw [hg', pls_resolveChildEdges, ed2]
    intro c hc1 hp1
    have hh := T2.tch _ _ (kids c hc1)
    rcases T2.tpl _ _ hp1 with h7 | h7
    · exact isE_notP hh.2 h7.2
    · exact isE_notP hh.1 h7.1
  have nn : ∀ j, g'.node? j = if j = i then some (.elem E') else g1.node? j := by
    intro j
    rw [hg', node?_congr resolveChildEdges_nodes.1, hg2]
    exact (setElem_wf hw1 (elem?_node?.1 h2 ▸ rfl)).2 j
  have gch : ∀ a b, Ch g' a b ↔ Ch g a b ∨ (a = i ∧ b = φ z) ∨ (a = φ z ∧ b = φ k) := fun a b => (u1 a b).trans ((vCh a b).trans (ch1 a b))
  have gpl : ∀ a b, Pl g' a b ↔ Pl g a b ∨ (a = i ∧ b = φ h) ∨ (a = φ h ∧ b = φ z) ∨ (a = φ z ∧ b = φ q) ∨ (a = φ q ∧ b = φ k) := by
    intro a b
    rw [pl_pls, p3, ← pl_pls]
    exact pl1 a b
  have gde : ∀ a b, De g' a b ↔ De g a b ∧ ¬ (a = bb ∧ b = i) := by
    intro a b
    rw [de_des, d3, ← de_des]
    exact deg a b
  have fitted : Fit g' := by
    have hb : ∀ b, some bb = some b → De g b i := by intro b hb; injection hb with hb; subst hb; exact hd
    refine ⟨(updateNode_wf hw hr he).1, ac_updateNode F.ac hr, ?_, held_updateNode hord hw F.ac F.ty hiE hb F.held hr, ?_, Listed.updateNode hw F.listed his hr, ?_, ?_⟩
    · have eE' : ∀ j, IsE g' j ↔ IsE g2 j := by intro j; unfold IsE; rw [hg', elem?_congr resolveChildEdges_nodes.1]
      have eP' : ∀ j, IsP g' j ↔ IsP g2 j := by intro j; unfold IsP; rw [hg', node?_congr resolveChildEdges_nodes.1]
      exact ⟨fun a b h1 => by rw [eE', eE']; exact T2.tch a b ((u1 a b).1 h1), fun a b h1 => by rw [eE', eE']; exact T2.tde a b (u2 a b h1),
        fun a b h1 => by rw [eE', eE', eP', eP']; exact T2.tpl a b (u3 a b h1)⟩
    · refine single_updateNode hord hw F.ty hiE hb ?_ ?_ F.single hr
      · intro b hb2 j hj
        injection hb2 with hb2
        subst hb2
        intro hdj
        rcases (T.reach F.ty).1 hj with rfl | rfl | rfl | rfl
        · exact T.zde _ hdj
        · exact isE_notP (F.ty.tde _ _ hdj).2 kh
        · exact T.kde _ hdj
        · exact isE_notP (F.ty.tde _ _ hdj).2 kq
      · intro g1' h1'
        rw [h1] at h1'
        injection h1' with h1' _
        subst h1'
        exact ⟨T1, noBoth⟩
    · intro a a' b c1 c2
      have old : ∀ x, (g.node? x).isSome → x ≠ φ z ∧ x ≠ φ k := fun x hx => ⟨live x hx z sz, live x hx k sk⟩
      have zk : φ z ≠ φ k := by
        intro h1
        have := R.inj z k sz sk h1
        subst this
        exact T.kch _ ((T.zch _).2 rfl)
      rcases (gch _ _).1 c1 with c1 | ⟨rfl, rfl⟩ | ⟨rfl, rfl⟩ <;> rcases (gch _ _).1 c2 with c2 | ⟨c2, c3⟩ | ⟨c2, c3⟩
      · exact F.one _ _ _ c1 c2
      · exact absurd c3 (old _ (hw.edges_valid' c1).2).1
      · exact absurd c3 (old _ (hw.edges_valid' c1).2).2
      · exact absurd rfl (old _ (hw.edges_valid' c2).2).1
      · exact c2.symm
      · exact absurd c3 zk
      · exact absurd rfl (old _ (hw.edges_valid' c2).2).2
      · exact absurd c3.symm zk
      · exact c2.symm
    · rw [d3, d1, dge]
      exact List.filter_sublist.nodup F.des
  refine ⟨g', φ z, φ h, φ k, φ q, hr, fitted, ?_, ?_, ?_, ?_, ?_, ?_, ?_, gch, gpl, gde, ?_, ?_, ?_⟩
  · rw [elem?_node?, nn, if_pos rfl, hE', Bool.or_false]
  · intro j n hj hn
    rw [nn, if_neg hj]
    exact x1 _ _ hn
  · intro j hj
    rw [nn] at hj
    split at hj
    · rename_i hji; subst hji; exact Or.inl his
    · rcases R.only j hj with h5 | ⟨x, hx, rfl⟩
      · rw [nod] at h5; exact Or.inl h5
      · rcases (sel x).1 hx with rfl | rfl | rfl | rfl
        · exact Or.inr (Or.inl rfl)
        · exact Or.inr (Or.inr (Or.inl rfl))
        · exact Or.inr (Or.inr (Or.inr (Or.inl rfl)))
        · exact Or.inr (Or.inr (Or.inr (Or.inr rfl)))
  · exact ⟨by rw [nn, if_neg (live _ his z sz).symm, (R.copy z sz).2, nod], fresh z sz⟩
  · exact ⟨by rw [nn, if_neg (live _ his h sh).symm, (R.copy h sh).2, nod], fresh h sh⟩
  · exact ⟨by rw [nn, if_neg (live _ his k sk).symm, (R.copy k sk).2, nod], fresh k sk⟩
  · exact ⟨by rw [nn, if_neg (live _ his q sq).symm, (R.copy q sq).2, nod], fresh q sq⟩
  · intro x hx
    rw [hg']
    refine resolveChildEdges_new kids ?_
    have hx2 : Ch g2 i x := (u1 _ _).1 hx
    obtain ⟨ed, k1, k2, k3, k4⟩ := ch_iff.1 hx2
    unfold Graph.elementChildren Graph.outEdges
    rw [List.mem_map]
    refine ⟨ed, ?_, k3⟩
    rw [List.mem_filter, List.mem_filter]
    refine ⟨⟨k1, by simpa using k2⟩, ?_⟩
    rw [k3, k4, isE_iff.2 (T2.tch _ _ hx2).2]
    rfl
  · intro a b hab
    rw [hg']
    refine resolveChildEdges_resolved ?_
    rw [ed2]
    refine (R.edges _ _ _).2 (Or.inl ?_)
    rw [hge]
    refine eraseEdge_keep hab ?_
    rintro ⟨c1, c2⟩
    simp only at c1 c2
    subst c1 c2
    exact hc (Or.inr hab)
  · obtain ⟨L, hL⟩ := phs_replicate q2
    refine ⟨L, ?_⟩
    rw [hg', resolveChildEdges_phs, hg2]
    show g1.placeholders = _
    rw [hL, hge]

end Svd
