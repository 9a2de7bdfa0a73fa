import Verif.Lemmas.FolAdopt
/-
References that can be followed: an element is finished.
-/
namespace Svd
open Graph Spec

theorem LabX.plP {d : SDevice} {g : Graph} {lab : Nat → Pos} {X : Nat → Prop} (h : LabX d g lab X) {k c : Nat} (hp : Pl g k c) :
    (IsE g c → IsP g k) ∧ (IsE g k → IsP g c) := by
  refine ⟨fun hE => ?_, fun hE => ?_⟩
  · rcases h.tpl _ _ hp with ⟨-, h1⟩ | ⟨h1, -⟩
    · exact (isE_notP hE h1).elim
    · exact h1
  · rcases h.tpl _ _ hp with ⟨-, h1⟩ | ⟨h1, -⟩
    · exact h1
    · exact (isE_notP hE h1).elim

set_option maxHeartbeats 1000000 in
theorem fol_finish {d : SDevice} {g g' : Graph} {lab lab' : Nat → Pos} {old : Nat → Prop} {i : Nat} {e : ElemNode} {x0 : Processed} {t : Bool}
    {I : Nat → Nat → Processed → Prop} (hw : WF g) (h : LabX d g lab (· = i)) (h' : Lab d g' lab') (hb : ∀ x, ¬ Precedes d x x)
    (he : g.elem? i = some e) (N : Finish g g' i e x0 t I) (hoi : old i) (hold : ∀ k, old k → (g.node? k).isSome)
    (F : Fol d g lab old fun k => Done g k ∨ k = i)
    (lo : ∀ k, (g.node? k).isSome → lab' k = lab k) (ln : ∀ j a x, I j a x → lab' j = lab i) :
    Fol d g' lab' old (Done g') := by
  have hiE : IsE g i := ⟨e, he⟩
  have notI : ∀ {k}, (g.node? k).isSome → ∀ a x, ¬ I k a x := by
    intro k hk a x hI
    rw [N.fresh _ _ _ hI] at hk
    cases hk
  have cases_node : ∀ {k}, (g'.node? k).isSome → (g.node? k).isSome ∨ ∃ a x, I k a x := by
    intro k hk
    by_cases hI : ∃ a x, I k a x
    · exact Or.inr hI
    · left
      by_cases hki : k = i
      · rw [hki]; exact hiE.some
      · rw [N.old k hki (fun a x h1 => hI ⟨a, x, h1⟩)] at hk
        exact hk
  have elem_old : ∀ {k ek}, (g.node? k).isSome → g'.elem? k = some ek → ∃ ek0, g.elem? k = some ek0 ∧ ek.level = ek0.level ∧ (k ≠ i → ek = ek0) := by
    intro k ek hk hek
    by_cases hki : k = i
    · subst hki
      rw [N.self] at hek
      injection hek with hek
      exact ⟨e, he, by rw [← hek], fun h1 => absurd rfl h1⟩
    · refine ⟨ek, ?_, rfl, fun _ => rfl⟩
      unfold Graph.elem? at hek ⊢
      rw [N.old k hki (notI hk)] at hek
      exact hek
  have E_old : ∀ {k}, (g.node? k).isSome → IsE g' k → IsE g k := by
    rintro k hk ⟨ek, h1⟩
    obtain ⟨e0, h2, -⟩ := elem_old hk h1
    exact ⟨e0, h2⟩
  have D_i : Done g' i := ⟨_, N.self, rfl⟩
  have D_I : ∀ {j a x}, I j a x → Done g' j := fun hI => ⟨_, N.inst _ _ _ hI, rfl⟩
  have D_old : ∀ {k}, (Done g k ∨ k = i) → Done g' k := by
    rintro k (⟨ek, h1, h2⟩ | rfl)
    · by_cases hki : k = i
      · rw [hki]; exact D_i
      · refine ⟨ek, ?_, h2⟩
        have := N.old k hki (notI (IsE.some ⟨ek, h1⟩))
        unfold Graph.elem? at h1 ⊢
        rw [this]; exact h1
    · exact D_i
  have chOld : ∀ {a c}, Ch g a c → Ch g' a c := fun hc => (N.ch _ _).2 (Or.inl hc)
  have chCases : ∀ {a c}, (g.node? c).isSome → Ch g' a c → Ch g a c ∨ ((∃ p x, I a p x) ∧ Ch g i c) := by
    intro a c hc h1
    rcases (N.ch _ _).1 h1 with h2 | ⟨x, h2⟩ | h2
    · exact Or.inl h2
    · exact absurd h2 (notI hc _ _)
    · exact Or.inr h2
  have plK : ∀ {k c}, Pl g k c → Pl g' k c := by
    intro k c hp
    refine N.plK _ _ hp ?_
    rintro ⟨rfl, h1⟩
    exact isE_notP (h.tch _ _ h1).2 ((h.plP hp).2 hiE)
  have deK : ∀ {b c}, De g b c → De g' b c := by
    intro b c hd
    refine N.deK _ _ hd ?_
    rintro ⟨rfl, h1⟩
    have h2 := h'.hasChild (chOld h1) id
    have h3 := h.der _ _ hd
    rw [lo _ (ch_some hw h1).1, lo _ (ch_some hw h1).2] at h2
    exact not_endless hb h3 (.one h2)
  constructor
  · -- shared
    intro a a' c h1 h2 hne
    rcases cases_node (ch_some N.wf h1).2 with hc | ⟨q, x, hI⟩
    · rcases chCases hc h1 with h3 | ⟨⟨p, x, h3⟩, h3'⟩ <;> rcases chCases hc h2 with h4 | ⟨⟨p', x', h4⟩, h4'⟩
      · obtain ⟨h5, h6, h7⟩ := F.shared a a' c h3 h4 hne
        exact ⟨D_old h5, D_old h6, by rw [lo _ (ch_some hw h3).1, lo _ (ch_some hw h4).1]; exact h7⟩
      · rw [lo _ (ch_some hw h3).1, ln _ _ _ h4]
        by_cases hai : a = i
        · rw [hai]; exact ⟨D_i, D_I h4, rfl⟩
        · obtain ⟨h5, -, h7⟩ := F.shared a i c h3 h4' hai
          exact ⟨D_old h5, D_I h4, h7⟩
      · rw [lo _ (ch_some hw h4).1, ln _ _ _ h3]
        by_cases hai : a' = i
        · rw [hai]; exact ⟨D_I h3, D_i, rfl⟩
        · obtain ⟨h5, -, h7⟩ := F.shared a' i c h4 h3' hai
          exact ⟨D_I h3, D_old h5, h7.symm⟩
      · rw [ln _ _ _ h3, ln _ _ _ h4]
        exact ⟨D_I h3, D_I h4, rfl⟩
    · exfalso
      have key : ∀ b, Ch g' b c → ∃ x, I c b x := by
        intro b hbc
        rcases (N.ch _ _).1 hbc with h3 | h3 | ⟨-, h3⟩
        · exact absurd hI (notI (ch_some hw h3).2 _ _)
        · exact h3
        · exact absurd hI (notI (ch_some hw h3).2 _ _)
      obtain ⟨x1, h3⟩ := key a h1
      obtain ⟨x2, h4⟩ := key a' h2
      exact hne (N.fn _ _ _ _ _ h3 h4)
  · -- up
    intro c hE
    rcases cases_node hE.some with hc | ⟨q, x, hI⟩
    · rcases F.up c (E_old hc hE) with h1 | ⟨a, h1⟩
      · exact Or.inl h1
      · exact Or.inr ⟨a, chOld h1⟩
    · exact Or.inr ⟨q, (N.ch _ _).2 (Or.inr (Or.inl ⟨x, hI⟩))⟩
  · -- pend
    intro c ec hc hD hdf
    have hci : c ≠ i := by rintro rfl; exact hD D_i
    rcases cases_node (IsE.some ⟨ec, hc⟩) with hs | ⟨q, x, hI⟩
    · obtain ⟨e0, h1, -, h2⟩ := elem_old hs hc
      rw [h2 hci] at hdf
      rcases F.pend c e0 h1 (fun h3 => hD (D_old h3)) hdf with ⟨k, h4⟩ | ⟨b, h4⟩
      · exact Or.inl ⟨k, plK h4⟩
      · exact Or.inr ⟨b, deK h4⟩
    · exact absurd (D_I hI) hD
  · -- plCh
    intro a k c hP h1 h2
    refine chOld (F.plCh a k c ?_ (N.pl _ _ h1) (N.pl _ _ h2))
    have hk := (pl_some hw (N.pl _ _ h1)).2
    have hki : k ≠ i := by
      rintro rfl
      exact isE_notP ⟨_, N.self⟩ hP
    unfold IsP at hP ⊢
    rw [N.old k hki (notI hk)] at hP
    exact hP
  · -- uni
    intro k k' c hE h1 h2
    exact F.uni k k' c (E_old (pl_some hw (N.pl _ _ h1)).2 hE) (N.pl _ _ h1) (N.pl _ _ h2)
  · -- chPl
    intro a k c h1 h2
    have h1 := N.pl _ _ h1
    have hc := (pl_some hw h1).2
    rcases chCases hc h2 with h3 | ⟨⟨p, x, h3⟩, h4⟩
    · rcases F.chPl a k c h1 h3 with ⟨k', h4, h5⟩ | ⟨h4, h5, i0, k', h6, h7, h8, h9⟩
      · exact Or.inl ⟨k', plK h4, plK h5⟩
      · refine Or.inr ⟨h4, D_old h5, i0, k', D_old h6, fun p hp => ?_, plK h8, plK h9⟩
        rcases chCases (ch_some hw h3).1 hp with h10 | ⟨h10, h11⟩
        · exact chOld (h7 p h10)
        · exact (N.ch _ _).2 (Or.inr (Or.inr ⟨h10, h7 i h11⟩))
    · rcases F.chPl i k c h1 h4 with ⟨k', h5, h6⟩ | ⟨h5, -⟩
      · refine Or.inr ⟨fun ho => notI (hold _ ho) _ _ h3, D_I h3, i, k', D_i, fun q hq => ?_, plK h5, plK h6⟩
        rcases (N.ch _ _).1 hq with h7 | ⟨x', h7⟩ | ⟨-, h7⟩
        · exact absurd h3 (notI (ch_some hw h7).2 _ _)
        · exact chOld (N.par _ _ _ h7)
        · exact absurd h3 (notI (ch_some hw h7).2 _ _)
      · exact absurd hoi h5
  · -- srcOld
    intro b c ho h1
    exact F.srcOld b c ho (N.de _ _ h1)
  · -- src
    intro b c ec h1 hc hl
    have h1 := N.de _ _ h1
    obtain ⟨e0, h2, h3, -⟩ := elem_old (de_some hw h1).2 hc
    rw [h3] at hl
    rcases F.src b c e0 h1 h2 hl with ⟨a, h4, h5⟩ | ⟨h4, h5⟩
    · exact Or.inl ⟨a, chOld h4, D_old h5⟩
    · refine Or.inr ⟨fun k ek hk hlk => ?_, by rw [lo _ (de_some hw h1).1]; exact h5⟩
      rcases cases_node (IsE.some ⟨ek, hk⟩) with hs | ⟨q, x, hI⟩
      · obtain ⟨e1, h6, h7, -⟩ := elem_old hs hk
        rw [h7] at hlk
        exact D_old (h4 k e1 h6 hlk)
      · exact D_I hI

/-! ### a container of enumerated values is finished -/

theorem fol_enum {d : SDevice} {g g' : Graph} {lab : Nat → Pos} {old : Nat → Prop} {i : Nat} {e e' : ElemNode} (hw : WF g)
    (he : g.elem? i = some e) (hl : e.level = e'.level) (hp : e'.isProcessed = true) (hg : g' = g.setElem i e')
    (F : Fol d g lab old fun k => Done g k ∨ k = i) : Fol d g' lab old (Done g') := by
  have hil : (g.node? i).isSome := IsE.some ⟨e, he⟩
  have hel : ∀ k, g'.elem? k = if k = i then some e' else g.elem? k := by intro k; rw [hg]; exact setElem_elem? hil
  have hn : ∀ k, g'.node? k = if k = i then some (.elem e') else g.node? k := by rw [hg]; exact (setElem_wf (e := e') hw hil).2
  have hed : g'.edges = g.edges := by rw [hg]; rfl
  obtain ⟨vc, vd, vp⟩ := edges_eq_view hed
  have hE : ∀ k, IsE g' k → IsE g k := by
    rintro k ⟨x, hk⟩
    rw [hel] at hk
    by_cases hki : k = i
    · rw [hki]; exact ⟨e, he⟩
    · rw [if_neg hki] at hk; exact ⟨x, hk⟩
  have D_old : ∀ {k}, (Done g k ∨ k = i) → Done g' k := by
    intro k hk
    by_cases hki : k = i
    · exact ⟨e', by rw [hel, if_pos hki], hp⟩
    · rcases hk with ⟨x, h1, h2⟩ | h1
      · exact ⟨x, by rw [hel, if_neg hki]; exact h1, h2⟩
      · exact absurd h1 hki
  have nI : ∀ {k}, ¬ Done g' k → k ≠ i := by
    rintro k hk rfl
    exact hk (D_old (Or.inr rfl))
  constructor
  · intro a a' c h1 h2 h3
    rw [vc] at h1 h2
    obtain ⟨h4, h5, h6⟩ := F.shared a a' c h1 h2 h3
    exact ⟨D_old h4, D_old h5, h6⟩
  · intro c h1
    rcases F.up c (hE c h1) with h2 | ⟨a, h2⟩
    · exact Or.inl h2
    · exact Or.inr ⟨a, (vc _ _).2 h2⟩
  · intro c x h1 h2 h3
    rw [hel, if_neg (nI h2)] at h1
    rcases F.pend c x h1 (fun h4 => h2 (D_old h4)) h3 with ⟨k, h4⟩ | ⟨b, h4⟩
    · exact Or.inl ⟨k, (vp _ _).2 h4⟩
    · exact Or.inr ⟨b, (vd _ _).2 h4⟩
  · intro a k c h0 h1 h2
    rw [vp] at h1 h2
    rw [vc]
    refine F.plCh a k c ?_ h1 h2
    unfold IsP at h0 ⊢
    rw [hn] at h0
    by_cases hki : k = i
    · rw [if_pos hki] at h0
      obtain ⟨_, h0⟩ := h0
      cases h0
    · rw [if_neg hki] at h0; exact h0
  · intro k k' c h0 h1 h2
    rw [vp] at h1 h2
    exact F.uni k k' c (hE c h0) h1 h2
  · intro a k c h1 h2
    rw [vp] at h1
    rw [vc] at h2
    rcases F.chPl a k c h1 h2 with ⟨k', h3, h4⟩ | ⟨h3, h4, x, k', h5, h6, h7, h8⟩
    · exact Or.inl ⟨k', (vp _ _).2 h3, (vp _ _).2 h4⟩
    · refine Or.inr ⟨h3, D_old h4, x, k', D_old h5, fun p hp => ?_, (vp _ _).2 h7, (vp _ _).2 h8⟩
      rw [vc] at hp ⊢
      exact h6 p hp
  · intro b c h1 h2; exact F.srcOld b c h1 ((vd _ _).1 h2)
  · intro b c x h1 h2 h3
    obtain ⟨x0, h2', h3'⟩ : ∃ x0, g.elem? c = some x0 ∧ x0.level ≠ .enumcont := by
      rw [hel] at h2
      by_cases hci : c = i
      · rw [if_pos hci] at h2
        injection h2 with h2
        rw [← h2, ← hl] at h3
        rw [hci]
        exact ⟨e, he, h3⟩
      · rw [if_neg hci] at h2; exact ⟨x, h2, h3⟩
    rcases F.src b c x0 ((vd _ _).1 h1) h2' h3' with ⟨a, h4, h5⟩ | ⟨h4, h5⟩
    · exact Or.inl ⟨a, (vc _ _).2 h4, D_old h5⟩
    · refine Or.inr ⟨fun k ek hk hlk => ?_, h5⟩
      rw [hel] at hk
      by_cases hki : k = i
      · exact D_old (Or.inr hki)
      · rw [if_neg hki] at hk
        exact D_old (h4 k ek hk hlk)

end Svd
