import Verif.Lemmas.Fol
/-
References that can be followed: the content of the base is copied.
-/
namespace Svd
open Graph Spec

/-- What lies below `src`. -/
abbrev Below (g : Graph) (src j : Nat) : Prop := Conn (g.edges.filter fun e => e.ty != .derive) src j

theorem below_ch {g : Graph} {i j : Nat} (h : Ch g i j) : Below g i j := by
  rcases h with h | h
  · exact .edge (e := ⟨i, j, .childU⟩) (List.mem_filter.2 ⟨h, rfl⟩)
  · exact .edge (e := ⟨i, j, .childR⟩) (List.mem_filter.2 ⟨h, rfl⟩)

theorem below_pl {g : Graph} {i j : Nat} (h : Pl g i j) : Below g i j :=
  .edge (e := ⟨i, j, .placeholder⟩) (List.mem_filter.2 ⟨h, rfl⟩)

theorem below_last {g : Graph} {x j : Nat} (h : Below g x j) : ∃ a, (a = x ∨ Below g x a) ∧ (Ch g a j ∨ Pl g a j) := by
  obtain ⟨e, h1, h2, h3⟩ := conn_last h
  obtain ⟨h1, h4⟩ := List.mem_filter.1 h1
  obtain ⟨a, b, ty⟩ := e
  subst h2
  refine ⟨a, h3, ?_⟩
  cases ty with
  | childU => exact Or.inl (Or.inl h1)
  | childR => exact Or.inl (Or.inr h1)
  | placeholder => exact Or.inr h1
  | derive => simp at h4

/-- An element below has a parent below. -/
theorem below_parent {d : SDevice} {g : Graph} {lab : Nat → Pos} {old D : Nat → Prop} (h : Lab d g lab) (F : Fol d g lab old D) {x j : Nat}
    (hx : IsE g x) (hj : IsE g j) (hb : Below g x j) : ∃ a, (a = x ∨ Below g x a) ∧ Ch g a j := by
  obtain ⟨a, h1, h2 | h2⟩ := below_last hb
  · exact ⟨a, h1, h2⟩
  · have hP : IsP g a := by
      rcases h.tpl _ _ h2 with ⟨-, h3⟩ | ⟨h3, -⟩
      · exact (isE_notP hj h3).elim
      · exact h3
    rcases h1 with rfl | h1
    · exact (isE_notP hx hP).elim
    · obtain ⟨b, h3, h4 | h4⟩ := below_last h1
      · exact (isE_notP (h.tch _ _ h4).2 hP).elim
      · exact ⟨b, h3, F.plCh b a j hP h4 h2⟩

set_option maxHeartbeats 1000000 in
theorem fol_replicate {d : SDevice} {g g' : Graph} {lab lab' : Nat → Pos} {old : Nat → Prop} {src tgt : Nat} {φ : Nat → Nat}
    (hw : WF g) (h : Lab d g lab) (hb : ∀ x, ¬ Precedes d x x)
    (hr : Replica g g' src tgt (· ∈ g.descendants src) φ) (hsrc : IsE g src) (htgt : IsE g tgt)
    (href : Refers d (lab tgt) (lab src)) (hos : old src) (hold : ∀ k, old k → (g.node? k).isSome)
    (F : Fol d g lab old fun k => Done g k ∨ k = tgt)
    (lo : ∀ k, (g.node? k).isSome → lab' k = lab k) (lc : ∀ k, k ∈ g.descendants src → lab' (φ k) = lab k) :
    Fol d g' lab' old fun k => Done g' k ∨ k = tgt := by
  have hsel : ∀ j, j ∈ g.descendants src ↔ Below g src j := fun j => mem_descendants hw
  generalize hS : (· ∈ g.descendants src) = sel at hr
  have hsel : ∀ j, sel j ↔ Below g src j := by intro j; rw [← hS]; exact hsel j
  have lc : ∀ {k}, sel k → lab' (φ k) = lab k := by intro k hk; rw [← hS] at hk; exact lc k hk
  have lo : ∀ {k}, (g.node? k).isSome → lab' k = lab k := fun hk => lo _ hk
  clear hS
  have inside : ∀ {j}, sel j → IsE g j → Inside d (lab src) (lab j) := fun hj hE => (inside_of h ((hsel _).1 hj) hE).1 hsrc
  have hN : ∀ j, sel j → ¬ De g src j := fun j hj hd => not_endless hb (h.der _ _ hd) (inside hj (h.tde _ _ hd).2)
  obtain ⟨vCh, vDe, vPl⟩ := replica_views h hr hsrc hN
  have notnew : ∀ {k i}, (g.node? k).isSome → sel i → k ≠ φ i := by
    rintro k i hk hi rfl
    rw [hr.fresh i hi] at hk
    cases hk
  have selCh : ∀ {i j}, i = src ∨ sel i → Ch g i j → sel j := by
    intro i j hi hc
    rw [hsel] at hi ⊢
    rcases hi with rfl | hi
    · exact below_ch hc
    · exact hi.trans (below_ch hc)
  have selPl : ∀ {i j}, i = src ∨ sel i → Pl g i j → sel j := by
    intro i j hi hc
    rw [hsel] at hi ⊢
    rcases hi with rfl | hi
    · exact below_pl hc
    · exact hi.trans (below_pl hc)
  have selUp : ∀ {j}, sel j → IsE g j → ∃ a, (a = src ∨ sel a) ∧ Ch g a j := by
    intro j hj hE
    obtain ⟨a, h1, h2⟩ := below_parent h F hsrc hE ((hsel j).1 hj)
    exact ⟨a, by rw [hsel]; exact h1, h2⟩
  have elem_old : ∀ {k}, (g.node? k).isSome → g'.elem? k = g.elem? k := by
    intro k hk
    obtain ⟨n, hn⟩ := Option.isSome_iff_exists.1 hk
    unfold Graph.elem?
    rw [hn, hr.ext _ _ hn]
  have elem_copy : ∀ {i}, sel i → g'.elem? (φ i) = g.elem? i := by
    intro i hi
    unfold Graph.elem?
    rw [(hr.copy i hi).2]
  have tgtNot : ¬ sel tgt := fun ht => not_endless hb href (inside ht htgt)
  have srcNot : ∀ {i}, sel i → IsE g i → lab i ≠ lab src := by
    intro i hi hE heq
    have := precedes_inside (inside hi hE)
    rw [heq] at this
    exact hb _ this
  have D_old : ∀ {k}, (Done g k ∨ k = tgt) → (Done g' k ∨ k = tgt) := by
    rintro k (⟨e, h1, h2⟩ | h1)
    · exact Or.inl ⟨e, by rw [elem_old (IsE.some ⟨e, h1⟩)]; exact h1, h2⟩
    · exact Or.inr h1
  have D_copy : ∀ {k}, sel k → (Done g k ∨ k = tgt) → (Done g' (φ k) ∨ φ k = tgt) := by
    rintro k hk (⟨e, h1, h2⟩ | rfl)
    · exact Or.inl ⟨e, by rw [elem_copy hk]; exact h1, h2⟩
    · exact absurd hk tgtNot
  have cases_node : ∀ {k}, (g'.node? k).isSome → (g.node? k).isSome ∨ ∃ i, sel i ∧ k = φ i := fun hk => hr.only _ hk
  have chOld : ∀ {a c}, (g.node? c).isSome → (Ch g' a c ↔ Ch g a c) := by
    intro a c hc
    rw [vCh]
    constructor
    · rintro (h1 | ⟨i, j, h1, h2, h3, h4, -⟩ | ⟨h1, j, h2, h3, -⟩)
      · exact h1
      · exact absurd h4 (notnew hc h2)
      · exact absurd h3 (notnew hc h2)
    · exact Or.inl
  have chNew : ∀ {a j}, sel j → (Ch g' a (φ j) ↔ (∃ i, sel i ∧ a = φ i ∧ Ch g i j) ∨ (a = tgt ∧ Ch g src j)) := by
    intro a j hj
    rw [vCh]
    constructor
    · rintro (h1 | ⟨i, j', h1, h2, h3, h4, h5⟩ | ⟨h1, j', h2, h3, h4⟩)
      · exact absurd rfl (notnew (ch_some hw h1).2 hj)
      · rw [← hr.inj _ _ hj h2 h4] at h5
        exact Or.inl ⟨i, h1, h3, h5⟩
      · rw [← hr.inj _ _ hj h2 h3] at h4
        exact Or.inr ⟨h1, h4⟩
    · rintro (⟨i, h1, h2, h3⟩ | ⟨h1, h2⟩)
      · exact Or.inr (Or.inl ⟨i, j, h1, hj, h2, rfl, h3⟩)
      · exact Or.inr (Or.inr ⟨h1, j, hj, rfl, h2⟩)
  have plOld : ∀ {a c}, (g.node? c).isSome → (Pl g' a c ↔ Pl g a c) := by
    intro a c hc
    rw [vPl]
    constructor
    · rintro (h1 | ⟨i, j, h1, h2, h3, h4, -⟩ | ⟨h1, j, h2, h3, -⟩)
      · exact h1
      · exact absurd h4 (notnew hc h2)
      · exact absurd h3 (notnew hc h2)
    · exact Or.inl
  have plNew : ∀ {a j}, sel j → (Pl g' a (φ j) ↔ (∃ i, sel i ∧ a = φ i ∧ Pl g i j) ∨ (a = tgt ∧ Pl g src j)) := by
    intro a j hj
    rw [vPl]
    constructor
    · rintro (h1 | ⟨i, j', h1, h2, h3, h4, h5⟩ | ⟨h1, j', h2, h3, h4⟩)
      · exact absurd rfl (notnew (pl_some hw h1).2 hj)
      · rw [← hr.inj _ _ hj h2 h4] at h5
        exact Or.inl ⟨i, h1, h3, h5⟩
      · rw [← hr.inj _ _ hj h2 h3] at h4
        exact Or.inr ⟨h1, h4⟩
    · rintro (⟨i, h1, h2, h3⟩ | ⟨h1, h2⟩)
      · exact Or.inr (Or.inl ⟨i, j, h1, hj, h2, rfl, h3⟩)
      · exact Or.inr (Or.inr ⟨h1, j, hj, rfl, h2⟩)
  have deNew : ∀ {a j}, sel j → (De g' a (φ j) ↔ (∃ i, sel i ∧ a = φ i ∧ De g i j) ∨ De g a j) := by
    intro a j hj
    rw [vDe]
    constructor
    · rintro (h1 | ⟨i, j', h1, h2, h3, h4, h5⟩ | ⟨j', h2, h3, h4⟩)
      · exact absurd rfl (notnew (de_some hw h1).2 hj)
      · rw [← hr.inj _ _ hj h2 h4] at h5
        exact Or.inl ⟨i, h1, h3, h5⟩
      · rw [← hr.inj _ _ hj h2 h3] at h4
        exact Or.inr h4
    · rintro (⟨i, h1, h2, h3⟩ | h2)
      · exact Or.inr (Or.inl ⟨i, j, h1, hj, h2, rfl, h3⟩)
      · exact Or.inr (Or.inr ⟨j, hj, rfl, h2⟩)
  have deOld : ∀ {a c}, (g.node? c).isSome → (De g' a c ↔ De g a c) := by
    intro a c hc
    rw [vDe]
    constructor
    · rintro (h1 | ⟨i, j, h1, h2, h3, h4, -⟩ | ⟨j, h2, h3, -⟩)
      · exact h1
      · exact absurd h4 (notnew hc h2)
      · exact absurd h3 (notnew hc h2)
    · exact Or.inl
  have near : ∀ {x}, (g.node? x).isSome → Near d g lab (fun k => Done g k ∨ k = tgt) x → Near d g' lab' (fun k => Done g' k ∨ k = tgt) x := by
    rintro x hx (⟨a, h1, h2⟩ | ⟨h1, h2⟩)
    · exact Or.inl ⟨a, (vCh _ _).2 (Or.inl h1), D_old h2⟩
    · refine Or.inr ⟨fun k e hk hl => ?_, by rw [lo hx]; exact h2⟩
      rcases cases_node (IsE.some ⟨e, hk⟩) with h3 | ⟨i, h3, rfl⟩
      · rw [elem_old h3] at hk
        exact D_old (h1 k e hk hl)
      · rw [elem_copy h3] at hk
        exact D_copy h3 (h1 i e hk hl)
  -- a placeholder of a child below is below
  have phSel : ∀ {a k j}, (a = src ∨ sel a) → Pl g k j → Ch g a j → ∃ k', sel k' ∧ Pl g k' j := by
    intro a k j ha hk hc
    rcases F.chPl a k j hk hc with ⟨k', h1, h2⟩ | ⟨h1, -, i, k', -, h3, h4, h5⟩
    · exact ⟨k', selPl ha h1, h2⟩
    · rcases ha with rfl | ha
      · exact absurd hos h1
      · obtain ⟨p, h6, h7⟩ := selUp ha (h.tch _ _ hc).1
        exact ⟨k', selPl (Or.inr (selCh h6 (h3 p h7))) h4, h5⟩
  constructor
  · -- shared
    intro a a' c h1 h2 hne
    rcases cases_node (ch_some hr.wf h1).2 with hc | ⟨j, hj, rfl⟩
    · rw [chOld hc] at h1 h2
      obtain ⟨h3, h4, h5⟩ := F.shared a a' c h1 h2 hne
      exact ⟨D_old h3, D_old h4, by rw [lo (ch_some hw h1).1, lo (ch_some hw h2).1]; exact h5⟩
    · rw [chNew hj] at h1 h2
      rcases h1 with ⟨i, h1, rfl, h3⟩ | ⟨rfl, h3⟩ <;> rcases h2 with ⟨i', h2, rfl, h4⟩ | ⟨rfl, h4⟩
      · obtain ⟨h5, h6, h7⟩ := F.shared i i' j h3 h4 (fun hh => hne (by rw [hh]))
        exact ⟨D_copy h1 h5, D_copy h2 h6, by rw [lc h1, lc h2]; exact h7⟩
      · exfalso
        have hi : i ≠ src := by
          rintro rfl
          exact srcNot h1 hsrc rfl
        obtain ⟨-, -, h7⟩ := F.shared i src j h3 h4 hi
        exact srcNot h1 (h.tch _ _ h3).1 h7
      · exfalso
        have hi : i' ≠ src := by
          rintro rfl
          exact srcNot h2 hsrc rfl
        obtain ⟨-, -, h7⟩ := F.shared i' src j h4 h3 hi
        exact srcNot h2 (h.tch _ _ h4).1 h7
      · exact absurd rfl hne
  · -- up
    intro c hE
    rcases cases_node hE.some with hc | ⟨j, hj, rfl⟩
    · have : IsE g c := by obtain ⟨e, he⟩ := hE; rw [elem_old hc] at he; exact ⟨e, he⟩
      rcases F.up c this with h1 | ⟨a, h1⟩
      · exact Or.inl h1
      · exact Or.inr ⟨a, (vCh _ _).2 (Or.inl h1)⟩
    · have : IsE g j := by obtain ⟨e, he⟩ := hE; rw [elem_copy hj] at he; exact ⟨e, he⟩
      obtain ⟨a, h1 | h1, h2⟩ := selUp hj this
      · subst h1
        exact Or.inr ⟨tgt, (chNew hj).2 (Or.inr ⟨rfl, h2⟩)⟩
      · exact Or.inr ⟨φ a, (chNew hj).2 (Or.inl ⟨a, h1, rfl, h2⟩)⟩
  · -- pend
    intro c e he hD hdf
    rcases cases_node (IsE.some ⟨e, he⟩) with hc | ⟨j, hj, rfl⟩
    · rw [elem_old hc] at he
      rcases F.pend c e he (fun h1 => hD (D_old h1)) hdf with ⟨k, h1⟩ | ⟨b, h1⟩
      · exact Or.inl ⟨k, (plOld hc).2 h1⟩
      · exact Or.inr ⟨b, (deOld hc).2 h1⟩
    · rw [elem_copy hj] at he
      rcases F.pend j e he (fun h1 => hD (D_copy hj h1)) hdf with ⟨k, h1⟩ | ⟨b, h1⟩
      · obtain ⟨a, h2, h3⟩ := selUp hj ⟨e, he⟩
        obtain ⟨k', h4, h5⟩ := phSel h2 h1 h3
        exact Or.inl ⟨φ k', (plNew hj).2 (Or.inl ⟨k', h4, rfl, h5⟩)⟩
      · exact Or.inr ⟨b, (deNew hj).2 (Or.inr h1)⟩
  · -- plCh
    intro a k c hP h1 h2
    have ntgt : k ≠ tgt := by
      rintro rfl
      obtain ⟨e, he⟩ := htgt
      exact isE_notP (hr.ext.isE ⟨e, he⟩) hP
    rcases cases_node (pl_some hr.wf h1).2 with hk | ⟨k0, hk, rfl⟩
    · rw [plOld hk] at h1
      rcases (vPl _ _).1 h2 with h3 | ⟨i, j, h3, h4, h5, -⟩ | ⟨h3, -⟩
      · refine (vCh _ _).2 (Or.inl (F.plCh a k c ?_ h1 h3))
        obtain ⟨path, hp⟩ := hP
        obtain ⟨n, hn⟩ := Option.isSome_iff_exists.1 hk
        have := hr.ext _ _ hn
        rw [hp] at this
        exact ⟨path, by rw [hn, this]⟩
      · exact absurd h5 (notnew hk h3)
      · exact absurd h3 ntgt
    · have hP0 : IsP g k0 := by unfold IsP at hP ⊢; rw [(hr.copy k0 hk).2] at hP; exact hP
      rcases (vPl _ _).1 h2 with h3 | ⟨i, j, h3, h4, h5, rfl, h6⟩ | ⟨h3, -⟩
      · exact absurd rfl (notnew (pl_some hw h3).1 hk)
      · rw [← hr.inj _ _ hk h3 h5] at h6
        rw [plNew hk] at h1
        rw [chNew h4]
        rcases h1 with ⟨i', h7, rfl, h8⟩ | ⟨rfl, h8⟩
        · exact Or.inl ⟨i', h7, rfl, F.plCh i' k0 j hP0 h8 h6⟩
        · exact Or.inr ⟨rfl, F.plCh src k0 j hP0 h8 h6⟩
      · exact absurd h3 ntgt
  · -- uni
    intro k k' c hE h1 h2
    rcases cases_node hE.some with hc | ⟨j, hj, rfl⟩
    · have : IsE g c := by obtain ⟨e, he⟩ := hE; rw [elem_old hc] at he; exact ⟨e, he⟩
      rw [plOld hc] at h1 h2
      exact F.uni k k' c this h1 h2
    · have hE : IsE g j := by obtain ⟨e, he⟩ := hE; rw [elem_copy hj] at he; exact ⟨e, he⟩
      have nP : ¬ Pl g src j := by
        intro h3
        rcases h.tpl _ _ h3 with ⟨-, h4⟩ | ⟨h4, -⟩
        · exact isE_notP hE h4
        · exact isE_notP hsrc h4
      rw [plNew hj] at h1 h2
      rcases h1 with ⟨i, h1, rfl, h3⟩ | ⟨-, h3⟩
      · rcases h2 with ⟨i', h2, rfl, h4⟩ | ⟨-, h4⟩
        · rw [F.uni i i' j hE h3 h4]
        · exact absurd h4 nP
      · exact absurd h3 nP
  · -- chPl
    intro a k c h1 h2
    rcases cases_node (ch_some hr.wf h2).2 with hc | ⟨j, hj, rfl⟩
    · rw [plOld hc] at h1
      rw [chOld hc] at h2
      rcases F.chPl a k c h1 h2 with ⟨k', h3, h4⟩ | ⟨h3, h4, i, k', h5, h6, h7, h8⟩
      · exact Or.inl ⟨k', (vPl _ _).2 (Or.inl h3), (plOld hc).2 h4⟩
      · refine Or.inr ⟨h3, D_old h4, i, k', D_old h5, fun p hp => ?_, (vPl _ _).2 (Or.inl h7), (plOld hc).2 h8⟩
        rw [chOld (ch_some hw h2).1] at hp
        exact (vCh _ _).2 (Or.inl (h6 p hp))
    · rw [chNew hj] at h2
      have hE : IsE g j := by
        rcases h2 with ⟨i, -, -, h3⟩ | ⟨-, h3⟩
        · exact (h.tch _ _ h3).2
        · exact (h.tch _ _ h3).2
      have hk : ∃ k0, sel k0 ∧ k = φ k0 ∧ Pl g k0 j := by
        rw [plNew hj] at h1
        rcases h1 with h1 | ⟨-, h3⟩
        · exact h1
        · exfalso
          rcases h.tpl _ _ h3 with ⟨-, h4⟩ | ⟨h4, -⟩
          · exact isE_notP hE h4
          · exact isE_notP hsrc h4
      obtain ⟨k0, hk0, rfl, hkj⟩ := hk
      rcases h2 with ⟨a0, h2, rfl, h3⟩ | ⟨rfl, h3⟩
      · rcases F.chPl a0 k0 j hkj h3 with ⟨k', h4, h5⟩ | ⟨h4, h5, i, k', h6, h7, h8, h9⟩
        · have := selPl (Or.inr h2) h4
          exact Or.inl ⟨φ k', (plNew this).2 (Or.inl ⟨a0, h2, rfl, h4⟩), (plNew hj).2 (Or.inl ⟨k', this, rfl, h5⟩)⟩
        · obtain ⟨p, hp, hp'⟩ := selUp h2 (h.tch _ _ h3).1
          have hi : sel i := selCh hp (h7 p hp')
          have hk' : sel k' := selPl (Or.inr hi) h8
          refine Or.inr ⟨fun ho => ?_, D_copy h2 h5, φ i, φ k', D_copy hi h6, fun q hq => ?_, (plNew hk').2 (Or.inl ⟨i, hi, rfl, h8⟩),
            (plNew hj).2 (Or.inl ⟨k', hk', rfl, h9⟩)⟩
          · exact notnew (hold _ ho) h2 rfl
          · rw [chNew h2] at hq
            rw [chNew hi]
            rcases hq with ⟨q0, g1, rfl, g2⟩ | ⟨rfl, g2⟩
            · exact Or.inl ⟨q0, g1, rfl, h7 q0 g2⟩
            · exact Or.inr ⟨rfl, h7 src g2⟩
      · rcases F.chPl src k0 j hkj h3 with ⟨k', h4, h5⟩ | ⟨h4, -⟩
        · have := selPl (Or.inl rfl) h4
          exact Or.inl ⟨φ k', (plNew this).2 (Or.inr ⟨rfl, h4⟩), (plNew hj).2 (Or.inl ⟨k', this, rfl, h5⟩)⟩
        · exact absurd hos h4
  · -- srcOld
    intro b c ho h1
    rw [deOld (hold c ho)] at h1
    exact F.srcOld b c ho h1
  · -- src
    intro x c e h1 he hl
    rcases cases_node (IsE.some ⟨e, he⟩) with hc | ⟨j, hj, rfl⟩
    · rw [elem_old hc] at he
      rw [deOld hc] at h1
      exact near (de_some hw h1).1 (F.src x c e h1 he hl)
    · rw [elem_copy hj] at he
      rw [deNew hj] at h1
      rcases h1 with ⟨i, hi, rfl, h1⟩ | h1
      · rcases F.src i j e h1 he hl with ⟨a, h2, h3⟩ | ⟨h2, h3⟩
        · obtain ⟨a0, h4, h5⟩ := selUp hi (h.tde _ _ h1).1
          have hD : Done g a0 ∨ a0 = tgt := by
            by_cases haa : a0 = a
            · rw [haa]; exact h3
            · exact (F.shared a0 a i h5 h2 haa).1
          rcases h4 with rfl | h4
          · exact Or.inl ⟨tgt, (chNew hi).2 (Or.inr ⟨rfl, h5⟩), Or.inr rfl⟩
          · exact Or.inl ⟨φ a0, (chNew hi).2 (Or.inl ⟨a0, h4, rfl, h5⟩), D_copy h4 hD⟩
        · refine Or.inr ⟨fun k ek hk hlk => ?_, by rw [lc hi]; exact h3⟩
          rcases cases_node (IsE.some ⟨ek, hk⟩) with h4 | ⟨i', h4, rfl⟩
          · rw [elem_old h4] at hk
            exact D_old (h2 k ek hk hlk)
          · rw [elem_copy h4] at hk
            exact D_copy h4 (h2 i' ek hk hlk)
      · exact near (de_some hw h1).1 (F.src x j e h1 he hl)

end Svd
