import Verif.Lemmas.LabBuild
import Verif.Lemmas.Rep
/-
Labels: an element takes over the descendants of the element it is derived from.
-/
namespace Svd
open Graph Spec

theorem eraseEdge_keep {a b : Nat} {es : List Edge} {e : Edge} (h : e ∈ es) (hn : ¬ (e.src = a ∧ e.dst = b)) :
    e ∈ eraseEdge a b es := by
  induction es with
  | nil => cases h
  | cons x xs ih =>
    simp only [eraseEdge]
    rcases List.mem_cons.1 h with rfl | h
    · rw [if_neg (by simpa using fun h1 h2 => hn ⟨h1, h2⟩)]
      simp
    · split
      · exact h
      · exact List.mem_cons_of_mem _ (ih h)

theorem chainOf_head {d : SDevice} {x : Pos} {e : ElemNode} {l : List Pos} (h : ChainOf d x e l) : x ∈ l := by
  cases hp : e.isProcessed with
  | false => rw [h.raw hp]; simp
  | true => cases h.done hp <;> simp

/-- The reference edge is dropped. -/
theorem lab_erase {d : SDevice} {g : Graph} {lab : Nat → Pos} (h : Lab d g lab) {b i : Nat} (hd : De g b i) :
    Lab d { g with edges := eraseEdge b i g.edges } lab := by
  generalize hg' : ({ g with edges := eraseEdge b i g.edges } : Graph) = g'
  have hn : ∀ k, g'.node? k = g.node? k := by intro k; subst hg'; rfl
  have he : ∀ k, g'.elem? k = g.elem? k := by intro k; subst hg'; rfl
  have sub : ∀ e : Edge, e ∈ g'.edges → e ∈ g.edges := by intro e h1; subst hg'; exact eraseEdge_sub h1
  have keep : ∀ e : Edge, e ∈ g.edges → ¬ (e.src = b ∧ e.dst = i) → e ∈ g'.edges := by
    intro e h1 h2; subst hg'; exact eraseEdge_keep h1 h2
  have cs : ∀ x y, Ch g' x y → Ch g x y := fun x y h1 => h1.imp (sub _) (sub _)
  have ds : ∀ x y, De g' x y → De g x y := fun x y h1 => sub _ h1
  have ps : ∀ x y, Pl g' x y → Pl g x y := fun x y h1 => sub _ h1
  have ck : ∀ x y, Ch g x y → ¬ (x = b ∧ y = i) → Ch g' x y := fun x y h1 h2 => h1.imp (fun h => keep _ h h2) fun h => keep _ h h2
  have hE : ∀ k, IsE g' k ↔ IsE g k := by intro k; unfold IsE; rw [he]
  have hP : ∀ k, IsP g' k ↔ IsP g k := by intro k; unfold IsP; rw [hn]
  constructor
  · rw [he]; exact h.root
  · intro k e h1; rw [he] at h1; exact h.node k e h1
  · intro x y h1; rw [hE, hE]; exact h.tch x y (cs x y h1)
  · intro x y h1; rw [hE, hE]; exact h.tde x y (ds x y h1)
  · intro x y h1; rw [hE, hE, hP, hP]; exact h.tpl x y (ps x y h1)
  · intro k e x h1 h2
    rw [he] at h1
    exact ⟨fun h3 => (h.leaf k e x h1 h2).1 (cs _ _ h3), fun h3 => (h.leaf k e x h1 h2).2 (ps _ _ h3)⟩
  · intro x y h1; exact h.der x y (ds x y h1)
  · intro x y path h1 h2
    rw [hn] at h1
    exact h.ph x y path h1 (ps _ _ h2)
  · intro x k y h1 h2 h3
    exact h.phIn x k y ((hP k).1 h1) (ps _ _ h2) (ps _ _ h3)
  · intro k e hX h1 h2
    rw [he] at h1
    obtain ⟨l, h3, h4⟩ := h.cont k e hX h1 h2
    refine ⟨l, h3, fun c hc => h4.sub c (cs _ _ hc), fun y hy => ?_⟩
    rcases h4.all y hy with h5 | h5
    · exact Or.inl h5
    · by_cases hyi : k = b ∧ y = lab i
      · obtain ⟨rfl, rfl⟩ := hyi
        exact Or.inl ⟨lab k, chainOf_head h3, h.der _ _ hd, chainOf_has h3 hy⟩
      · right
        have hk : ∀ c, lab c = y → Ch g k c → Ch g' k c := by
          intro c h6 h7
          refine ck k c h7 ?_
          rintro ⟨rfl, rfl⟩
          exact hyi ⟨rfl, h6.symm⟩
        obtain ⟨c, ec, h6, h7, h8, h9⟩ := h5
        refine ⟨c, ec, hk c h8 h6, by rw [he]; exact h7, h8, ?_⟩
        rcases h9 with h9 | h9 | ⟨l0, hs, h10, h11⟩
        · exact Or.inl h9
        · exact Or.inr (Or.inl h9)
        · refine Or.inr (Or.inr ⟨l0, hs, h10, fun hh hm => ?_⟩)
          obtain ⟨j, h12, ej, h13, h14, h15⟩ := h11 hh hm
          exact ⟨j, hk j h14 h12, ej, by rw [he]; exact h13, h14, h15⟩

theorem inside_left {d : SDevice} {x b y : Pos} (h : Refers d x b) (hi : Inside d b y) : Inside d x y := by
  cases hi with
  | one h1 => exact .one (.inherited h h1)
  | more h1 h2 => exact .more (.inherited h h1) h2

/-- What a path that is not along references leads to lies inside. -/
theorem inside_of {d : SDevice} {g : Graph} {lab : Nat → Pos} (h : Lab d g lab) {x j : Nat}
    (hc : Conn (g.edges.filter fun e => e.ty != .derive) x j) (hj : IsE g j) :
    (IsE g x → Inside d (lab x) (lab j)) ∧ (IsP g x → ∀ a, Pl g a x → Inside d (lab a) (lab j)) := by
  induction hc with
  | edge he =>
    rename_i e
    obtain ⟨he, hty⟩ := List.mem_filter.1 he
    have hv : Ch g e.src e.dst ∨ Pl g e.src e.dst := by
      obtain ⟨a, b, ty⟩ := e
      cases ty with
      | childU => exact Or.inl (Or.inl he)
      | childR => exact Or.inl (Or.inr he)
      | placeholder => exact Or.inr he
      | derive => simp at hty
    constructor
    · intro hx
      rcases hv with hv | hv
      · exact .one (h.hasChild hv id)
      · rcases h.tpl _ _ hv with ⟨-, h1⟩ | ⟨h1, -⟩
        · exact (isE_notP hj h1).elim
        · exact (isE_notP hx h1).elim
    · intro hx a ha
      rcases hv with hv | hv
      · exact (isE_notP (h.tch _ _ hv).1 hx).elim
      · exact .one (h.phIn a _ _ hx ha hv)
  | step he _ ih =>
    rename_i e _ _
    obtain ⟨ih1, ih2⟩ := ih hj
    obtain ⟨he, hty⟩ := List.mem_filter.1 he
    have hv : Ch g e.src e.dst ∨ Pl g e.src e.dst := by
      obtain ⟨a, b, ty⟩ := e
      cases ty with
      | childU => exact Or.inl (Or.inl he)
      | childR => exact Or.inl (Or.inr he)
      | placeholder => exact Or.inr he
      | derive => simp at hty
    constructor
    · intro hx
      rcases hv with hv | hv
      · exact .more (h.hasChild hv id) (ih1 (h.tch _ _ hv).2)
      · rcases h.tpl _ _ hv with ⟨-, h1⟩ | ⟨h1, -⟩
        · exact ih2 h1 _ hv
        · exact (isE_notP hx h1).elim
    · intro hx a ha
      rcases hv with hv | hv
      · exact (isE_notP (h.tch _ _ hv).1 hx).elim
      · rcases h.tpl _ _ hv with ⟨h1, -⟩ | ⟨-, h1⟩
        · exact (isE_notP h1 hx).elim
        · exact .more (h.phIn a _ _ hx ha hv) (ih1 h1)

theorem mem_descendants {g : Graph} (hw : WF g) {src j : Nat} : j ∈ g.descendants src ↔
    Conn (g.edges.filter fun e => e.ty != .derive) src j := by
  unfold Graph.descendants
  simp only [List.mem_filter, List.contains_iff_mem]
  constructor
  · rintro ⟨-, h1⟩
    obtain ⟨s, hs, hre⟩ := mem_closure.1 h1
    obtain ⟨e, he, rfl⟩ := List.mem_map.1 hs
    obtain ⟨he2, hsrc⟩ := List.mem_filter.1 he
    have hsrc : e.src = src := by simpa using hsrc
    rw [← hsrc]
    rcases hre with hre | hre
    · rw [← hre]; exact .edge he2
    · exact .step he2 hre
  · intro h1
    constructor
    · have : (g.node? j).isSome := by
        induction h1 with
        | edge he => exact (hw.edges_valid _ (List.mem_filter.1 he).1).2
        | step _ _ ih => exact ih
      obtain ⟨n, hn⟩ := Option.isSome_iff_exists.1 this
      have := node?_lt hn
      rw [rangeFrom_zero]
      simpa using this
    · refine mem_closure.2 ?_
      cases h1 with
      | edge he => exact ⟨_, List.mem_map.2 ⟨_, List.mem_filter.2 ⟨he, by simp⟩, rfl⟩, Or.inl rfl⟩
      | step he hc => exact ⟨_, List.mem_map.2 ⟨_, List.mem_filter.2 ⟨he, by simp⟩, rfl⟩, Or.inr hc⟩

theorem conn_first {es : List Edge} {x y : Nat} (h : Conn es x y) : ∃ e ∈ es, e.src = x := by
  cases h with
  | edge h => exact ⟨_, h, rfl⟩
  | step h _ => exact ⟨_, h, rfl⟩

open Classical in
/-- The labels after copying. -/
noncomputable def copyLab (sel : Nat → Prop) (φ : Nat → Nat) (lab : Nat → Pos) (k : Nat) : Pos :=
  if h : ∃ i, sel i ∧ k = φ i then lab h.choose else lab k

theorem copyLab_copy {g g' : Graph} {src tgt : Nat} {sel : Nat → Prop} {φ : Nat → Nat} (hr : Replica g g' src tgt sel φ)
    (lab : Nat → Pos) {i : Nat} (hi : sel i) : copyLab sel φ lab (φ i) = lab i := by
  have h : ∃ j, sel j ∧ φ i = φ j := ⟨i, hi, rfl⟩
  unfold copyLab
  rw [dif_pos h]
  exact congrArg lab (hr.inj _ _ hi h.choose_spec.1 h.choose_spec.2).symm

theorem copyLab_old {g g' : Graph} {src tgt : Nat} {sel : Nat → Prop} {φ : Nat → Nat} (hr : Replica g g' src tgt sel φ)
    (lab : Nat → Pos) {k : Nat} (hk : (g.node? k).isSome) : copyLab sel φ lab k = lab k := by
  have h : ¬ ∃ j, sel j ∧ k = φ j := by
    rintro ⟨j, hj, rfl⟩
    rw [hr.fresh j hj] at hk
    cases hk
  unfold copyLab
  rw [dif_neg h]

set_option maxHeartbeats 1000000 in
theorem lab_replicate {d : SDevice} {g g' : Graph} {lab : Nat → Pos} {src tgt : Nat} {φ : Nat → Nat} {e eb : ElemNode} (hw : WF g)
    (h : Lab d g lab) (hr : Replica g g' src tgt (· ∈ g.descendants src) φ) (he : g.elem? tgt = some e)
    (hp : e.isProcessed = false) (heb : g.elem? src = some eb) (hl : eb.level = e.level)
    (href : Refers d (lab tgt) (lab src)) :
    ∃ lab', LabX d g' lab' (· = tgt) ∧ ((∀ k, (g.node? k).isSome → lab' k = lab k) ∧
        (∀ k, g.node? k = none → IsE g' k → Inside d (lab tgt) (lab' k)) ∧ ∀ k, k ∈ g.descendants src → lab' (φ k) = lab k) ∧
      (e.level ≠ .enumcont → eb.isProcessed = true → ∃ lb, ChainOf d (lab src) eb lb ∧ Cont d g' lab' tgt (lab tgt :: lb)) := by
  have hsel : ∀ j, j ∈ g.descendants src ↔ Conn (g.edges.filter fun e => e.ty != .derive) src j := fun j => mem_descendants hw
  generalize hS : (· ∈ g.descendants src) = sel at hr
  have hsel : ∀ j, sel j ↔ Conn (g.edges.filter fun e => e.ty != .derive) src j := by
    intro j; rw [← hS]; exact hsel j
  have hmem : ∀ k, k ∈ g.descendants src → sel k := by intro k hk; rw [← hS]; exact hk
  clear hS
  refine ⟨copyLab sel φ lab, ?_⟩
  have lc : ∀ {i}, sel i → copyLab sel φ lab (φ i) = lab i := fun hi => copyLab_copy hr lab hi
  have lo : ∀ {k}, (g.node? k).isSome → copyLab sel φ lab k = lab k := fun hk => copyLab_old hr lab hk
  generalize copyLab sel φ lab = lab' at lc lo
  have notnew : ∀ {k i}, (g.node? k).isSome → sel i → k ≠ φ i := by
    rintro k i hk hi rfl
    rw [hr.fresh i hi] at hk
    cases hk
  have selCh : ∀ {i j}, sel i → Ch g i j → sel j := by
    intro i j hi hc
    rw [hsel] at hi ⊢
    refine hi.trans ?_
    rcases hc with hc | hc
    · exact .edge (e := ⟨i, j, .childU⟩) (List.mem_filter.2 ⟨hc, rfl⟩)
    · exact .edge (e := ⟨i, j, .childR⟩) (List.mem_filter.2 ⟨hc, rfl⟩)
  have selSrc : ∀ {j}, Ch g src j → sel j := by
    intro j hc
    rw [hsel]
    rcases hc with hc | hc
    · exact .edge (e := ⟨src, j, .childU⟩) (List.mem_filter.2 ⟨hc, rfl⟩)
    · exact .edge (e := ⟨src, j, .childR⟩) (List.mem_filter.2 ⟨hc, rfl⟩)
  have node_old : ∀ {k}, (g.node? k).isSome → g'.node? k = g.node? k := by
    intro k hk
    obtain ⟨n, hn⟩ := Option.isSome_iff_exists.1 hk
    rw [hn, hr.ext _ _ hn]
  have elem_old : ∀ {k}, (g.node? k).isSome → g'.elem? k = g.elem? k := by
    intro k hk
    unfold Graph.elem?
    rw [node_old hk]
  have elem_copy : ∀ {i}, sel i → g'.elem? (φ i) = g.elem? i := by
    intro i hi
    unfold Graph.elem?
    rw [(hr.copy i hi).2]
  have E_old : ∀ {k}, IsE g k → IsE g' k := fun hk => hr.ext.isE hk
  have P_old : ∀ {k}, IsP g k → IsP g' k := fun hk => hr.ext.isP hk
  have E_copy : ∀ {i}, sel i → (IsE g' (φ i) ↔ IsE g i) := by
    intro i hi; unfold IsE; rw [elem_copy hi]
  have P_copy : ∀ {i}, sel i → (IsP g' (φ i) ↔ IsP g i) := by
    intro i hi; unfold IsP; rw [(hr.copy i hi).2]
  have htgt : (g.node? tgt).isSome := IsE.some ⟨e, he⟩
  have hsrc : (g.node? src).isSome := IsE.some ⟨eb, heb⟩
  have live : ∀ {a b ty}, (⟨a, b, ty⟩ : Edge) ∈ g.edges → (g.node? a).isSome ∧ (g.node? b).isSome := fun h1 => hw.edges_valid _ h1
  have notDer : ∀ j, copyEdgeT g src j ≠ .derive := by
    intro j
    unfold copyEdgeT
    split
    · decide
    · split
      · split <;> decide
      · decide
  have isPl : ∀ j, sel j → (copyEdgeT g src j = .placeholder ↔ IsP g j) := by
    intro j hj
    unfold copyEdgeT
    obtain ⟨n, hn⟩ := Option.isSome_iff_exists.1 (hr.copy j hj).1
    rw [hn]
    unfold IsP
    rw [hn]
    cases n with
    | ph path => simp
    | elem x =>
      simp only [Option.some.injEq, reduceCtorEq, exists_false, iff_false]
      split
      · split <;> decide
      · decide
  have eOrP : ∀ j, sel j → ¬ IsP g j → IsE g j := by
    intro j hj hn
    obtain ⟨n, hn2⟩ := Option.isSome_iff_exists.1 (hr.copy j hj).1
    cases n with
    | ph path => exact absurd ⟨path, hn2⟩ hn
    | elem x => exact ⟨x, elem?_node?.2 hn2⟩
  -- the views of the new edges
  have vCh : ∀ a b, Ch g' a b ↔ Ch g a b ∨ (∃ i j, sel i ∧ sel j ∧ a = φ i ∧ b = φ j ∧ Ch g i j) ∨
      (a = tgt ∧ ∃ j, sel j ∧ b = φ j ∧ IsE g j ∧ (Ch g src j ∨ De g src j)) := by
    intro a b
    constructor
    · intro hc
      obtain ⟨ty, hty, hc⟩ : ∃ ty, (ty = EdgeT.childU ∨ ty = EdgeT.childR) ∧ (⟨a, b, ty⟩ : Edge) ∈ g'.edges := by
        rcases hc with hc | hc
        · exact ⟨_, Or.inl rfl, hc⟩
        · exact ⟨_, Or.inr rfl, hc⟩
      have toCh : ∀ {x y}, (⟨x, y, ty⟩ : Edge) ∈ g.edges → Ch g x y := by
        intro x y h1
        rcases hty with rfl | rfl
        · exact Or.inl h1
        · exact Or.inr h1
      rcases (hr.edges a b ty).1 hc with h1 | ⟨i, j, h1, h2, h3, h4, h5⟩ | ⟨j, h1, h2, h3, h4⟩ | ⟨h1, j, ty', h2, h3, h4, h5⟩
      · exact Or.inl (toCh h1)
      · exact Or.inr (Or.inl ⟨i, j, h1, h2, h3, h4, toCh h5⟩)
      · rcases hty with rfl | rfl <;> cases h3
      · have hE : IsE g j := eOrP j h2 (fun h6 => by
          rw [(isPl j h2).2 h6] at h5
          rcases hty with rfl | rfl <;> cases h5)
        refine Or.inr (Or.inr ⟨h1, j, h2, h3, hE, ?_⟩)
        rcases edge_view h4 with h6 | h6 | h6
        · exact Or.inl h6
        · exact Or.inr h6
        · rcases h.tpl _ _ h6 with ⟨-, h7⟩ | ⟨h7, -⟩
          · exact (isE_notP hE h7).elim
          · exact (isE_notP ⟨eb, heb⟩ h7).elim
    · rintro (h1 | ⟨i, j, h1, h2, h3, h4, h5⟩ | ⟨h1, j, h2, h3, h4, h5⟩)
      · exact h1.imp (fun h2 => (hr.edges _ _ _).2 (Or.inl h2)) fun h2 => (hr.edges _ _ _).2 (Or.inl h2)
      · exact h5.imp (fun h6 => (hr.edges _ _ _).2 (Or.inr (Or.inl ⟨i, j, h1, h2, h3, h4, h6⟩)))
          fun h6 => (hr.edges _ _ _).2 (Or.inr (Or.inl ⟨i, j, h1, h2, h3, h4, h6⟩))
      · obtain ⟨ty', h6⟩ : ∃ ty', (⟨src, j, ty'⟩ : Edge) ∈ g.edges := by
          rcases h5 with (h5 | h5) | h5
          · exact ⟨_, h5⟩
          · exact ⟨_, h5⟩
          · exact ⟨_, h5⟩
        have h7 := (hr.edges a b (copyEdgeT g src j)).2 (Or.inr (Or.inr (Or.inr ⟨h1, j, ty', h2, h3, h6, rfl⟩)))
        have h8 := notDer j
        have h9 : copyEdgeT g src j ≠ .placeholder := fun h9 => isE_notP h4 ((isPl j h2).1 h9)
        generalize copyEdgeT g src j = ty at h7 h8 h9
        cases ty with
        | childU => exact Or.inl h7
        | childR => exact Or.inr h7
        | placeholder => exact absurd rfl h9
        | derive => exact absurd rfl h8
  have vDe : ∀ a b, De g' a b ↔ De g a b ∨ (∃ i j, sel i ∧ sel j ∧ a = φ i ∧ b = φ j ∧ De g i j) ∨
      (∃ j, sel j ∧ b = φ j ∧ De g a j) := by
    intro a b
    unfold De
    rw [hr.edges]
    constructor
    · rintro (h1 | h1 | ⟨j, h1, h2, h3, h4⟩ | ⟨-, j, ty', -, -, -, h5⟩)
      · exact Or.inl h1
      · exact Or.inr (Or.inl h1)
      · exact Or.inr (Or.inr ⟨j, h1, h2, h4⟩)
      · exact absurd h5.symm (notDer j)
    · rintro (h1 | h1 | ⟨j, h1, h2, h4⟩)
      · exact Or.inl h1
      · exact Or.inr (Or.inl h1)
      · exact Or.inr (Or.inr (Or.inl ⟨j, h1, h2, rfl, h4⟩))
  have vPl : ∀ a b, Pl g' a b → Pl g a b ∨ (∃ i j, sel i ∧ sel j ∧ a = φ i ∧ b = φ j ∧ Pl g i j) ∨
      (a = tgt ∧ ∃ j, sel j ∧ b = φ j ∧ IsP g j ∧ Pl g src j) := by
    intro a b hc
    rcases (hr.edges _ _ _).1 hc with h1 | h1 | ⟨j, h1, h2, h3, h4⟩ | ⟨h1, j, ty', h2, h3, h4, h5⟩
    · exact Or.inl h1
    · exact Or.inr (Or.inl h1)
    · cases h3
    · have hP := (isPl j h2).1 h5.symm
      refine Or.inr (Or.inr ⟨h1, j, h2, h3, hP, ?_⟩)
      rcases edge_view h4 with h6 | h6 | h6
      · exact (isE_notP (h.tch _ _ h6).2 hP).elim
      · exact (isE_notP (h.tde _ _ h6).2 hP).elim
      · exact h6
  have chOld : ∀ {k c}, (g.node? k).isSome → k ≠ tgt → (Ch g' k c ↔ Ch g k c) := by
    intro k c hk hkt
    rw [vCh]
    constructor
    · rintro (h1 | ⟨i, j, h1, h2, h3, -⟩ | ⟨h1, -⟩)
      · exact h1
      · exact absurd h3 (notnew hk h1)
      · exact absurd h1 hkt
    · exact Or.inl
  have chCopy : ∀ {i c}, sel i → (Ch g' (φ i) c ↔ ∃ j, sel j ∧ c = φ j ∧ Ch g i j) := by
    intro i c hi
    rw [vCh]
    constructor
    · rintro (h1 | ⟨i', j, h1, h2, h3, h4, h5⟩ | ⟨h1, -⟩)
      · exact absurd rfl (notnew (ch_some hw h1).1 hi)
      · have := hr.inj _ _ hi h1 h3
        subst this
        exact ⟨j, h2, h4, h5⟩
      · exact absurd h1.symm (notnew htgt hi)
    · rintro ⟨j, h1, h2, h3⟩
      exact Or.inr (Or.inl ⟨i, j, hi, h1, rfl, h2, h3⟩)
  -- presence
  have presOld : ∀ {k y}, (∀ c, Ch g k c → Ch g' k c) → PresentIn d g lab k y → PresentIn d g' lab' k y := by
    intro k y hc hpr
    exact hpr.mono hc fun c h1 => ⟨elem_old (ch_some hw h1).2, lo (ch_some hw h1).2⟩
  have presCopy : ∀ {k k' y}, (∀ c, Ch g k c → sel c ∧ Ch g' k' (φ c)) → PresentIn d g lab k y → PresentIn d g' lab' k' y := by
    rintro k k' y hc ⟨c, ec, h1, h2, h3, h4⟩
    obtain ⟨h5, h6⟩ := hc c h1
    refine ⟨φ c, ec, h6, by rw [elem_copy h5]; exact h2, by rw [lc h5]; exact h3, ?_⟩
    rcases h4 with h4 | h4 | ⟨l0, hs, h7, h8⟩
    · exact Or.inl h4
    · exact Or.inr (Or.inl h4)
    · refine Or.inr (Or.inr ⟨l0, hs, h7, fun hh hm => ?_⟩)
      obtain ⟨j, h9, ej, h10, h11, h12⟩ := h8 hh hm
      obtain ⟨h13, h14⟩ := hc j h9
      exact ⟨φ j, h14, ej, by rw [elem_copy h13]; exact h10, by rw [lc h13]; exact h11, h12⟩
  have nodeCase : ∀ {k x}, g'.elem? k = some x → (IsE g k ∧ g.elem? k = some x ∧ lab' k = lab k) ∨
      ∃ i, sel i ∧ k = φ i ∧ g.elem? i = some x ∧ lab' k = lab i := by
    intro k x hk
    rcases hr.only k (IsE.some ⟨x, hk⟩) with h1 | ⟨i, h1, rfl⟩
    · rw [elem_old h1] at hk
      exact Or.inl ⟨⟨x, hk⟩, hk, lo h1⟩
    · rw [elem_copy h1] at hk
      exact Or.inr ⟨i, h1, rfl, hk, lc h1⟩
  have new : ∀ k, g.node? k = none → IsE g' k → Inside d (lab tgt) (lab' k) := by
    intro k hk hE
    rcases hr.only k hE.some with h1 | ⟨j, hj, rfl⟩
    · rw [hk] at h1; cases h1
    · rw [lc hj]
      exact inside_left href ((inside_of h ((hsel j).1 hj) ((E_copy hj).1 hE)).1 ⟨eb, heb⟩)
  refine ⟨?_, ⟨fun k hk => lo hk, new, fun k hk => lc (hmem k hk)⟩, ?_⟩
  · constructor
    · obtain ⟨h0, e0, h1, h2⟩ := h.root
      have := IsE.some ⟨e0, h1⟩
      rw [lo this, elem_old this]
      exact ⟨h0, e0, h1, h2⟩
    · intro k x hk
      rcases nodeCase hk with ⟨-, h1, h2⟩ | ⟨i, -, -, h1, h2⟩
      · rw [h2]; exact h.node _ _ h1
      · rw [h2]; exact h.node _ _ h1
    · intro a b hc
      rcases (vCh a b).1 hc with h1 | ⟨i, j, h1, h2, rfl, rfl, h5⟩ | ⟨rfl, j, h2, rfl, h4, -⟩
      · exact (h.tch _ _ h1).imp E_old E_old
      · rw [E_copy h1, E_copy h2]; exact h.tch _ _ h5
      · exact ⟨E_old ⟨e, he⟩, (E_copy h2).2 h4⟩
    · intro a b hc
      rcases (vDe a b).1 hc with h1 | ⟨i, j, h1, h2, rfl, rfl, h5⟩ | ⟨j, h2, rfl, h4⟩
      · exact (h.tde _ _ h1).imp E_old E_old
      · rw [E_copy h1, E_copy h2]; exact h.tde _ _ h5
      · rw [E_copy h2]; exact (h.tde _ _ h4).imp E_old id
    · intro a b hc
      rcases vPl a b hc with h1 | ⟨i, j, h1, h2, rfl, rfl, h5⟩ | ⟨rfl, j, h2, rfl, h4, -⟩
      · exact (h.tpl _ _ h1).imp (fun h2 => h2.imp E_old P_old) fun h2 => h2.imp P_old E_old
      · rw [E_copy h1, E_copy h2, P_copy h1, P_copy h2]; exact h.tpl _ _ h5
      · exact Or.inl ⟨E_old ⟨e, he⟩, (P_copy h2).2 h4⟩
    · intro k x b hk hx
      rcases nodeCase hk with ⟨h0, h1, -⟩ | ⟨i, h0, rfl, h1, -⟩
      · have hnosel : k = tgt → ∀ j, ¬ sel j := by
          rintro rfl j hj
          rw [he] at h1
          injection h1 with h1
          subst h1
          have hlf := fun b => h.leaf src eb b heb (hl.trans hx)
          rw [hsel] at hj
          have : ∃ b, Ch g src b ∨ Pl g src b := by
            obtain ⟨ed, h2, h3⟩ := conn_first hj
            obtain ⟨h2, h4⟩ := List.mem_filter.1 h2
            subst h3
            obtain ⟨x, y, ty⟩ := ed
            refine ⟨y, ?_⟩
            cases ty with
            | childU => exact Or.inl (Or.inl h2)
            | childR => exact Or.inl (Or.inr h2)
            | placeholder => exact Or.inr h2
            | derive => simp at h4
          obtain ⟨b, hb | hb⟩ := this
          · exact (hlf b).1 hb
          · exact (hlf b).2 hb
        constructor
        · intro hc
          rcases (vCh _ _).1 hc with h2 | ⟨i, j, h2, -, rfl, -⟩ | ⟨h2, j, h3, -⟩
          · exact (h.leaf _ _ _ h1 hx).1 h2
          · exact notnew h0.some h2 rfl
          · exact hnosel h2 j h3
        · intro hc
          rcases vPl _ _ hc with h2 | ⟨i, j, h2, -, rfl, -⟩ | ⟨h2, j, h3, -⟩
          · exact (h.leaf _ _ _ h1 hx).2 h2
          · exact notnew h0.some h2 rfl
          · exact hnosel h2 j h3
      · constructor
        · intro hc
          obtain ⟨j, -, -, h4⟩ := (chCopy h0).1 hc
          exact (h.leaf _ _ _ h1 hx).1 h4
        · intro hc
          rcases vPl _ _ hc with h2 | ⟨i', j, h2, -, h3, -, h4⟩ | ⟨h2, -⟩
          · exact notnew (live h2).1 h0 rfl
          · have := hr.inj _ _ h0 h2 h3
            subst this
            exact (h.leaf _ _ _ h1 hx).2 h4
          · exact notnew htgt h0 h2.symm
    · intro a b hc
      rcases (vDe a b).1 hc with h1 | ⟨i, j, h1, h2, rfl, rfl, h5⟩ | ⟨j, h2, rfl, h4⟩
      · rw [lo (live h1).1, lo (live h1).2]; exact h.der _ _ h1
      · rw [lc h1, lc h2]; exact h.der _ _ h5
      · rw [lc h2, lo (live h4).1]; exact h.der _ _ h4
    · intro a b path ha hc
      rcases vPl a b hc with h1 | ⟨i, j, h1, h2, rfl, rfl, h5⟩ | ⟨rfl, -⟩
      · rw [node_old (live h1).1] at ha
        rw [lo (live h1).2]
        exact h.ph _ _ _ ha h1
      · rw [(hr.copy _ h1).2] at ha
        rw [lc h2]
        exact h.ph _ _ _ ha h5
      · exact (isE_notP (E_old ⟨e, he⟩) ⟨path, ha⟩).elim
    · intro a k b hk h1 h2
      have hnt : k ≠ tgt := by
        rintro rfl
        exact isE_notP (E_old ⟨e, he⟩) hk
      rcases vPl a k h1 with h3 | ⟨i, j, h3, h4, rfl, rfl, h5⟩ | ⟨rfl, j, h3, rfl, h4, h5⟩
      · rcases vPl k b h2 with h6 | ⟨i, j, h6, -, rfl, -⟩ | ⟨h6, -⟩
        · rw [lo (live h3).1, lo (live h6).2]
          refine h.phIn a k b ?_ h3 h6
          obtain ⟨q, hq⟩ := hk
          exact ⟨q, by rw [← node_old (live h3).2]; exact hq⟩
        · exact absurd rfl (notnew (live h3).2 h6)
        · exact absurd h6 hnt
      · rcases vPl _ b h2 with h6 | ⟨i', j', h6, h7, h8, rfl, h9⟩ | ⟨h6, -⟩
        · exact absurd rfl (notnew (live h6).1 h4)
        · have := hr.inj _ _ h4 h6 h8
          subst this
          rw [lc h3, lc h7]
          exact h.phIn _ _ _ ((P_copy h4).1 hk) h5 h9
        · exact absurd h6 hnt
      · rcases vPl _ b h2 with h6 | ⟨i', j', h6, h7, h8, rfl, h9⟩ | ⟨h6, -⟩
        · exact absurd rfl (notnew (live h6).1 h3)
        · have := hr.inj _ _ h3 h6 h8
          subst this
          rw [lo htgt, lc h7]
          exact .inherited href (h.phIn _ _ _ h4 h5 h9)
        · exact absurd h6 hnt
    · intro k x hX hk hx
      rcases nodeCase hk with ⟨h0, h1, h2⟩ | ⟨i, h0, rfl, h1, h2⟩
      · obtain ⟨l, h3, h4⟩ := h.cont k x id h1 hx
        refine ⟨l, by rw [h2]; exact h3, ?_, ?_⟩
        · intro c hc
          have hc := (chOld h0.some hX).1 hc
          rw [h2, lo (ch_some hw hc).2]
          exact h4.sub c hc
        · intro y hy
          exact (h4.all y hy).imp id (presOld fun c hc => (chOld h0.some hX).2 hc)
      · obtain ⟨l, h3, h4⟩ := h.cont i x id h1 hx
        refine ⟨l, by rw [h2]; exact h3, ?_, ?_⟩
        · intro c hc
          obtain ⟨j, h5, rfl, h6⟩ := (chCopy h0).1 hc
          rw [h2, lc h5]
          exact h4.sub j h6
        · intro y hy
          exact (h4.all y hy).imp id (presCopy fun c hc => ⟨selCh h0 hc, (chCopy h0).2 ⟨c, selCh h0 hc, rfl, hc⟩⟩)
  · intro hne hpb
    obtain ⟨lb, h1, h2⟩ := h.cont src eb id heb (by rw [hl]; exact hne)
    obtain ⟨lt, h3, h4⟩ := h.cont tgt e id he hne
    have hlt := h3.raw hp
    subst hlt
    refine ⟨lb, h1, ?_, ?_⟩
    · intro c hc
      rw [lo htgt]
      rcases (vCh _ _).1 hc with h5 | ⟨i, j, h5, -, h6, -⟩ | ⟨-, j, h5, rfl, h6, h7⟩
      · rw [lo (ch_some hw h5).2]
        rcases h4.sub c h5 with ⟨z, hz, ho⟩ | h6
        · simp only [List.mem_singleton] at hz
          subst hz
          exact Or.inl ⟨_, by simp, ho⟩
        · exact Or.inr h6
      · exact absurd h6 (notnew htgt h5)
      · rw [lc h5]
        rcases h7 with h7 | h7
        · rcases h2.sub j h7 with ⟨z, hz, ho⟩ | h8
          · exact Or.inl ⟨z, List.mem_cons_of_mem _ hz, ho⟩
          · exact Or.inr (.inherited href h8)
        · exact Or.inr (.here href (h.der _ _ h7) ((inside_of h ((hsel j).1 h5) h6).1 ⟨eb, heb⟩))
    · rintro y ⟨z, hz, ho⟩
      rcases List.mem_cons.1 hz with rfl | hz
      · rcases h4.all y ⟨_, by simp, ho⟩ with ⟨z, hz, hzr⟩ | h5
        · simp only [List.mem_singleton] at hz
          subst hz
          exact Or.inl ⟨_, by simp, hzr⟩
        · exact Or.inr (presOld (fun c hc => (vCh _ _).2 (Or.inl hc)) h5)
      · rcases h2.all y ⟨z, hz, ho⟩ with ⟨z, hz, hzr⟩ | h5
        · exact Or.inl ⟨z, List.mem_cons_of_mem _ hz, hzr⟩
        · refine Or.inr (presCopy (fun c hc => ⟨selSrc hc, ?_⟩) h5)
          exact (vCh _ _).2 (Or.inr (Or.inr ⟨rfl, c, selSrc hc, rfl, (h.tch _ _ hc).2, Or.inl hc⟩))

end Svd
