import Verif.Spec.Follow
import Verif.Lemmas.Ends
/-
References that can be followed: what holds of the graph from round to round.
-/
namespace Svd
open Graph Spec

/-! ### nothing depends on itself -/

theorem precedes_inside {d : SDevice} {x y : Pos} : Inside d x y → Precedes d x y
  | .one h => .has h
  | .more h1 h2 => .trans (.has h1) (precedes_inside h2)

theorem not_endless {d : SDevice} (hb : ∀ x, ¬ Precedes d x x) {x s : Pos} (h1 : Refers d x s) (h2 : Inside d s x) : False :=
  hb x (precedes_inside (inside_left h1 h2))

theorem not_nested {d : SDevice} (hb : ∀ x, ¬ Precedes d x x) {x y : Pos} : ¬ Nested d x y
  | .here _ h2 h3 => not_endless hb h2 h3
  | .inherited _ h2 => not_nested hb h2

/-! ### the invariant -/

/-- The element is processed. -/
def Done (g : Graph) (a : Nat) : Prop := ∃ e, g.elem? a = some e ∧ e.isProcessed = true

/-- The element `b` can be processed in this round, if it is not processed yet. -/
def Near (d : SDevice) (g : Graph) (lab : Nat → Pos) (D : Nat → Prop) (b : Nat) : Prop :=
  (∃ a, Ch g a b ∧ D a) ∨ ((∀ k e, g.elem? k = some e → e.level = .peripheral → D k) ∧ Shallow d (lab b))

/-- `old`: the nodes that are there at the beginning of the round; `D`: the processed nodes. -/
structure Fol (d : SDevice) (g : Graph) (lab : Nat → Pos) (old D : Nat → Prop) : Prop where
  shared : ∀ a a' c, Ch g a c → Ch g a' c → a ≠ a' → D a ∧ D a' ∧ lab a = lab a'
  up : ∀ c, IsE g c → c = 0 ∨ ∃ a, Ch g a c
  pend : ∀ c e, g.elem? c = some e → ¬ D c → e.parsed.derivedFrom ≠ none → (∃ h, Pl g h c) ∨ ∃ b, De g b c
  plCh : ∀ a h c, IsP g h → Pl g a h → Pl g h c → Ch g a c
  uni : ∀ h h' c, IsE g c → Pl g h c → Pl g h' c → h = h'
  chPl : ∀ a h c, Pl g h c → Ch g a c → (∃ h', Pl g a h' ∧ Pl g h' c) ∨
    (¬ old a ∧ D a ∧ ∃ i h', D i ∧ (∀ p, Ch g p a → Ch g p i) ∧ Pl g i h' ∧ Pl g h' c)
  srcOld : ∀ b c, old c → De g b c → old b
  src : ∀ b c e, De g b c → g.elem? c = some e → e.level ≠ .enumcont → Near d g lab D b

theorem Near.mono {d : SDevice} {g : Graph} {lab : Nat → Pos} {D D' : Nat → Prop} (h : ∀ k, D k → D' k) {b : Nat}
    (hr : Near d g lab D b) : Near d g lab D' b := by
  rcases hr with ⟨a, h1, h2⟩ | ⟨h1, h2⟩
  · exact Or.inl ⟨a, h1, h _ h2⟩
  · exact Or.inr ⟨fun k e hk hl => h _ (h1 k e hk hl), h2⟩

theorem Fol.mono {d : SDevice} {g : Graph} {lab : Nat → Pos} {old D D' : Nat → Prop} (F : Fol d g lab old D) (h : ∀ k, D k → D' k) :
    Fol d g lab old D' where
  shared a a' c h1 h2 h3 := by
    obtain ⟨h4, h5, h6⟩ := F.shared a a' c h1 h2 h3
    exact ⟨h _ h4, h _ h5, h6⟩
  up := F.up
  pend c e h1 h2 h3 := F.pend c e h1 (fun h4 => h2 (h _ h4)) h3
  plCh := F.plCh
  uni := F.uni
  chPl a k c h1 h2 := by
    rcases F.chPl a k c h1 h2 with h3 | ⟨h3, h4, i, h', h5, h6⟩
    · exact Or.inl h3
    · exact Or.inr ⟨h3, h _ h4, i, h', h _ h5, h6⟩
  srcOld := F.srcOld
  src b c e h1 h2 h3 := (F.src b c e h1 h2 h3).mono h

/-! ### a reference edge is dropped -/

theorem erase_views {g : Graph} {b i : Nat} (hc : ¬ Ch g b i) (hp : ¬ Pl g b i) {g' : Graph}
    (hg : g' = { g with edges := eraseEdge b i g.edges }) :
    (∀ x y, Ch g' x y ↔ Ch g x y) ∧ (∀ x y, De g' x y → De g x y) ∧ (∀ x y, De g x y → ¬ (x = b ∧ y = i) → De g' x y) ∧
      ∀ x y, Pl g' x y ↔ Pl g x y := by
  have sub : ∀ e : Edge, e ∈ g'.edges → e ∈ g.edges := by intro e h1; subst hg; exact eraseEdge_sub h1
  have keep : ∀ e : Edge, e ∈ g.edges → ¬ (e.src = b ∧ e.dst = i) → e ∈ g'.edges := by
    intro e h1 h2; subst hg; exact eraseEdge_keep h1 h2
  refine ⟨fun x y => ⟨fun h1 => h1.imp (sub _) (sub _), fun h1 => ?_⟩, fun x y h1 => sub _ h1, fun x y h1 h2 => keep _ h1 h2,
    fun x y => ⟨fun h1 => sub _ h1, fun h1 => ?_⟩⟩
  · have hn : ¬ (x = b ∧ y = i) := by rintro ⟨rfl, rfl⟩; exact hc h1
    exact h1.imp (fun h => keep _ h hn) fun h => keep _ h hn
  · have hn : ¬ (x = b ∧ y = i) := by rintro ⟨rfl, rfl⟩; exact hp h1
    exact keep _ h1 hn

theorem fol_erase {d : SDevice} {g g' : Graph} {lab : Nat → Pos} {old D : Nat → Prop} {b i : Nat} (F : Fol d g lab old D)
    (hc : ¬ Ch g b i) (hp : ¬ Pl g b i) (hg : g' = { g with edges := eraseEdge b i g.edges }) (hi : D i) : Fol d g' lab old D := by
  obtain ⟨vc, vd, vk, vp⟩ := erase_views hc hp hg
  have he : ∀ k, g'.elem? k = g.elem? k := by intro k; subst hg; rfl
  have hE : ∀ k, IsE g' k ↔ IsE g k := by intro k; unfold IsE; rw [he]
  constructor
  · intro a a' c h1 h2; rw [vc] at h1 h2; exact F.shared a a' c h1 h2
  · intro c h1
    rw [hE] at h1
    rcases F.up c h1 with h2 | ⟨a, h2⟩
    · exact Or.inl h2
    · exact Or.inr ⟨a, (vc _ _).2 h2⟩
  · intro c e h1 h2 h3
    rw [he] at h1
    rcases F.pend c e h1 h2 h3 with ⟨k, h4⟩ | ⟨x, h4⟩
    · exact Or.inl ⟨k, (vp _ _).2 h4⟩
    · exact Or.inr ⟨x, vk _ _ h4 (by rintro ⟨-, rfl⟩; exact h2 hi)⟩
  · intro a k c h0 h1 h2
    rw [vp] at h1 h2
    rw [vc]
    exact F.plCh a k c (by subst hg; exact h0) h1 h2
  · intro k k' c h0 h1 h2
    rw [vp] at h1 h2
    exact F.uni k k' c ((hE c).1 h0) h1 h2
  · intro a k c h1 h2
    rw [vp] at h1
    rw [vc] at h2
    rcases F.chPl a k c h1 h2 with ⟨h', h3, h4⟩ | ⟨h3, h4, x, h', h5, h6, h7, h8⟩
    · exact Or.inl ⟨h', (vp _ _).2 h3, (vp _ _).2 h4⟩
    · refine Or.inr ⟨h3, h4, x, h', h5, fun p hp => ?_, (vp _ _).2 h7, (vp _ _).2 h8⟩
      rw [vc] at hp ⊢
      exact h6 p hp
  · intro x c h1 h2; exact F.srcOld x c h1 (vd _ _ h2)
  · intro x c e h1 h2 h3
    rw [he] at h2
    rcases F.src x c e (vd _ _ h1) h2 h3 with ⟨a, h4, h5⟩ | ⟨h4, h5⟩
    · exact Or.inl ⟨a, (vc _ _).2 h4, h5⟩
    · exact Or.inr ⟨fun k ek hk hl => h4 k ek (by rw [← he]; exact hk) hl, h5⟩

/-! ### the content of the base is copied -/

theorem replica_views' {g g' : Graph} {src tgt : Nat} {sel : Nat → Prop} {φ : Nat → Nat}
    (tch : ∀ a b, Ch g a b → IsE g a ∧ IsE g b) (tpl : ∀ a b, Pl g a b → (IsE g a ∧ IsP g b) ∨ (IsP g a ∧ IsE g b))
    (hr : Replica g g' src tgt sel φ) (hE : IsE g src) (hN : ∀ j, sel j → ¬ De g src j) :
    (∀ a b, Ch g' a b ↔ Ch g a b ∨ (∃ i j, sel i ∧ sel j ∧ a = φ i ∧ b = φ j ∧ Ch g i j) ∨ (a = tgt ∧ ∃ j, sel j ∧ b = φ j ∧ Ch g src j)) ∧
    (∀ a b, De g' a b ↔ De g a b ∨ (∃ i j, sel i ∧ sel j ∧ a = φ i ∧ b = φ j ∧ De g i j) ∨ (∃ j, sel j ∧ b = φ j ∧ De g a j)) ∧
    (∀ a b, Pl g' a b ↔ Pl g a b ∨ (∃ i j, sel i ∧ sel j ∧ a = φ i ∧ b = φ j ∧ Pl g i j) ∨ (a = tgt ∧ ∃ j, sel j ∧ b = φ j ∧ Pl g src j)) := by
  have notDer : ∀ j, copyEdgeT g src j ≠ .derive := by
    intro j
    unfold copyEdgeT
    split
    · decide
    · split
      · split <;> decide
      · decide
  have isPl : ∀ j, sel j → (copyEdgeT g src j = .placeholder ↔ IsP g j) := by
    intro j hj
    unfold copyEdgeT
    obtain ⟨n, hn⟩ := Option.isSome_iff_exists.1 (hr.copy j hj).1
    rw [hn]
    unfold IsP
    rw [hn]
    cases n with
    | ph path => simp
    | elem x =>
      simp only [Option.some.injEq, reduceCtorEq, exists_false, iff_false]
      split
      · split <;> decide
      · decide
  have plP : ∀ {j}, Pl g src j → IsP g j := by
    intro j hj
    rcases tpl _ _ hj with ⟨-, h1⟩ | ⟨h1, -⟩
    · exact h1
    · exact (isE_notP hE h1).elim
  refine ⟨?_, ?_, ?_⟩
  · intro a b
    constructor
    · intro hc
      obtain ⟨ty, hty, hc⟩ : ∃ ty, (ty = EdgeT.childU ∨ ty = EdgeT.childR) ∧ (⟨a, b, ty⟩ : Edge) ∈ g'.edges := by
        rcases hc with hc | hc
        · exact ⟨_, Or.inl rfl, hc⟩
        · exact ⟨_, Or.inr rfl, hc⟩
      have toCh : ∀ {x y}, (⟨x, y, ty⟩ : Edge) ∈ g.edges → Ch g x y := by
        intro x y h1
        rcases hty with rfl | rfl
        · exact Or.inl h1
        · exact Or.inr h1
      rcases (hr.edges a b ty).1 hc with h1 | ⟨i, j, h1, h2, h3, h4, h5⟩ | ⟨j, h1, h2, h3, h4⟩ | ⟨h1, j, ty', h2, h3, h4, h5⟩
      · exact Or.inl (toCh h1)
      · exact Or.inr (Or.inl ⟨i, j, h1, h2, h3, h4, toCh h5⟩)
      · rcases hty with rfl | rfl <;> cases h3
      · refine Or.inr (Or.inr ⟨h1, j, h2, h3, ?_⟩)
        rcases edge_view h4 with h6 | h6 | h6
        · exact h6
        · exact absurd h6 (hN j h2)
        · rw [(isPl j h2).2 (plP h6)] at h5
          rcases hty with rfl | rfl <;> cases h5
    · rintro (h1 | ⟨i, j, h1, h2, h3, h4, h5⟩ | ⟨h1, j, h2, h3, h5⟩)
      · exact h1.imp (fun h2 => (hr.edges _ _ _).2 (Or.inl h2)) fun h2 => (hr.edges _ _ _).2 (Or.inl h2)
      · exact h5.imp (fun h6 => (hr.edges _ _ _).2 (Or.inr (Or.inl ⟨i, j, h1, h2, h3, h4, h6⟩)))
          fun h6 => (hr.edges _ _ _).2 (Or.inr (Or.inl ⟨i, j, h1, h2, h3, h4, h6⟩))
      · obtain ⟨ty', h6⟩ : ∃ ty', (⟨src, j, ty'⟩ : Edge) ∈ g.edges := by
          rcases h5 with h5 | h5
          · exact ⟨_, h5⟩
          · exact ⟨_, h5⟩
        have h7 := (hr.edges a b (copyEdgeT g src j)).2 (Or.inr (Or.inr (Or.inr ⟨h1, j, ty', h2, h3, h6, rfl⟩)))
        have h8 := notDer j
        have h9 : copyEdgeT g src j ≠ .placeholder := fun h9 => isE_notP (tch _ _ h5).2 ((isPl j h2).1 h9)
        generalize copyEdgeT g src j = ty at h7 h8 h9
        cases ty with
        | childU => exact Or.inl h7
        | childR => exact Or.inr h7
        | placeholder => exact absurd rfl h9
        | derive => exact absurd rfl h8
  · intro a b
    unfold De
    rw [hr.edges]
    constructor
    · rintro (h1 | h1 | ⟨j, h1, h2, h3, h4⟩ | ⟨-, j, ty', -, -, -, h5⟩)
      · exact Or.inl h1
      · exact Or.inr (Or.inl h1)
      · exact Or.inr (Or.inr ⟨j, h1, h2, h4⟩)
      · exact absurd h5.symm (notDer j)
    · rintro (h1 | h1 | ⟨j, h1, h2, h4⟩)
      · exact Or.inl h1
      · exact Or.inr (Or.inl h1)
      · exact Or.inr (Or.inr (Or.inl ⟨j, h1, h2, rfl, h4⟩))
  · intro a b
    unfold Pl
    rw [hr.edges]
    constructor
    · rintro (h1 | h1 | ⟨j, h1, h2, h3, h4⟩ | ⟨h1, j, ty', h2, h3, h4, h5⟩)
      · exact Or.inl h1
      · exact Or.inr (Or.inl h1)
      · cases h3
      · have hP := (isPl j h2).1 h5.symm
        refine Or.inr (Or.inr ⟨h1, j, h2, h3, ?_⟩)
        rcases edge_view h4 with h6 | h6 | h6
        · exact (isE_notP (tch _ _ h6).2 hP).elim
        · exact absurd h6 (hN j h2)
        · exact h6
    · rintro (h1 | h1 | ⟨h1, j, h2, h3, h4⟩)
      · exact Or.inl h1
      · exact Or.inr (Or.inl h1)
      · refine Or.inr (Or.inr (Or.inr ⟨h1, j, _, h2, h3, h4, ((isPl j h2).2 (plP h4)).symm⟩))

theorem replica_views {d : SDevice} {g g' : Graph} {lab : Nat → Pos} {src tgt : Nat} {sel : Nat → Prop} {φ : Nat → Nat}
    (h : Lab d g lab) (hr : Replica g g' src tgt sel φ) (hE : IsE g src) (hN : ∀ j, sel j → ¬ De g src j) :
    (∀ a b, Ch g' a b ↔ Ch g a b ∨ (∃ i j, sel i ∧ sel j ∧ a = φ i ∧ b = φ j ∧ Ch g i j) ∨ (a = tgt ∧ ∃ j, sel j ∧ b = φ j ∧ Ch g src j)) ∧
    (∀ a b, De g' a b ↔ De g a b ∨ (∃ i j, sel i ∧ sel j ∧ a = φ i ∧ b = φ j ∧ De g i j) ∨ (∃ j, sel j ∧ b = φ j ∧ De g a j)) ∧
    (∀ a b, Pl g' a b ↔ Pl g a b ∨ (∃ i j, sel i ∧ sel j ∧ a = φ i ∧ b = φ j ∧ Pl g i j) ∨ (a = tgt ∧ ∃ j, sel j ∧ b = φ j ∧ Pl g src j)) :=
  replica_views' h.tch h.tpl hr hE hN

theorem conn_last {es : List Edge} {x j : Nat} (h : Conn es x j) : ∃ e ∈ es, e.dst = j ∧ (e.src = x ∨ Conn es x e.src) := by
  induction h with
  | edge he => exact ⟨_, he, rfl, Or.inl rfl⟩
  | step he _ ih =>
    obtain ⟨e', h1, h2, h3⟩ := ih
    refine ⟨e', h1, h2, Or.inr ?_⟩
    rcases h3 with h3 | h3
    · rw [h3]; exact .edge he
    · exact .step he h3

end Svd
