import Verif.Lemmas.Embed
/-
The same description in another order: each is part of the other.
-/
namespace Svd
open Spec

theorem Like.symm {p q : Parsed} (h : Like p q) : Like q p := by
  cases h with
  | same => exact .same
  | @reg r fs => exact Like.reg (r := { r with fields := fs }) (fs := r.fields)
  | @field f cs hc => exact Like.field (f := { f with containers := cs }) (cs := f.containers) hc.symm

/-- internal: two renumberings of positions that undo each other. -/
structure Undo (f g : Pos → Pos) : Prop where
  gf : ∀ x, g (f x) = x
  fg : ∀ x, f (g x) = x
  nil : f [] = []
  step : ∀ x k, ∃ j, f (x ++ [k]) = f x ++ [j]
  back : ∀ x k, ∃ j, g (x ++ [k]) = g x ++ [j]

/-- internal: `f` leads from the declarations of one tree to the same ones in another. -/
def Carries (t t' : DTree) (f : Pos → Pos) : Prop :=
  ∀ x p ts, treeAt t x = some (.node p ts) → ∃ p' ts', treeAt t' (f x) = some (.node p' ts') ∧ Like p p'

/-- internal: the same tree in another order. -/
def Rearr (t t' : DTree) : Prop := ∃ f g, Undo f g ∧ Carries t t' f ∧ Carries t' t g

theorem rearr_refl (t : DTree) : Rearr t t :=
  ⟨id, id, ⟨fun _ => rfl, fun _ => rfl, rfl, fun _ k => ⟨k, rfl⟩, fun _ k => ⟨k, rfl⟩⟩, fun _ p ts h => ⟨p, ts, h, .same⟩, fun _ p ts h => ⟨p, ts, h, .same⟩⟩

/-- The positions of a reordered list. -/
theorem perm_positions {α : Type} {l l' : List α} (h : l.Perm l') :
    ∃ s t : Nat → Nat, (∀ k, t (s k) = k) ∧ (∀ k, s (t k) = k) ∧ ∀ k, l'[s k]? = l[k]? := by
  induction h with
  | nil => exact ⟨id, id, fun _ => rfl, fun _ => rfl, fun _ => rfl⟩
  | cons x _ ih =>
    obtain ⟨s, t, h1, h2, h3⟩ := ih
    refine ⟨fun | 0 => 0 | k + 1 => s k + 1, fun | 0 => 0 | k + 1 => t k + 1, ?_, ?_, ?_⟩
    · rintro (_ | k) <;> simp [h1]
    · rintro (_ | k) <;> simp [h2]
    · rintro (_ | k) <;> simp [h3]
  | swap x y l =>
    refine ⟨fun | 0 => 1 | 1 => 0 | k => k, fun | 0 => 1 | 1 => 0 | k => k, ?_, ?_, ?_⟩
    · rintro (_ | _ | k) <;> rfl
    · rintro (_ | _ | k) <;> rfl
    · rintro (_ | _ | k) <;> rfl
  | trans _ _ ih1 ih2 =>
    obtain ⟨s, t, h1, h2, h3⟩ := ih1
    obtain ⟨s', t', h1', h2', h3'⟩ := ih2
    exact ⟨fun k => s' (s k), fun k => t (t' k), fun k => by simp [h1, h1'], fun k => by simp [h2, h2'], fun k => by rw [h3', h3]⟩

theorem entrywise_at {α β : Type} {R : α → β → Prop} {xs : List α} {ys : List β} (h : Entrywise R xs ys) (k : Nat) :
    (xs[k]? = none ∧ ys[k]? = none) ∨ ∃ x y, xs[k]? = some x ∧ ys[k]? = some y ∧ R x y := by
  induction h generalizing k with
  | nil => exact .inl ⟨rfl, rfl⟩
  | cons h _ ih =>
    cases k with
    | zero => exact .inr ⟨_, _, rfl, rfl, h⟩
    | succ k => simpa using ih k

theorem rearr_node {p p' : Parsed} (hp : Like p p') {ts ts' : List DTree} (h : Reorder Rearr ts ts') : Rearr (.node p ts) (.node p' ts') := by
  obtain ⟨zs, h1, h2⟩ := h
  obtain ⟨s, t, st1, st2, st3⟩ := perm_positions h2
  have hk : ∀ k : Nat, ∃ F : (Pos → Pos) × (Pos → Pos), Undo F.1 F.2 ∧ ∀ a z, ts[k]? = some a → zs[k]? = some z → Carries a z F.1 ∧ Carries z a F.2 := by
    intro k
    rcases entrywise_at h1 k with ⟨e, -⟩ | ⟨x, y, e1, e2, f, g, e3, e4, e5⟩
    · exact ⟨(id, id), ⟨fun _ => rfl, fun _ => rfl, rfl, fun _ k => ⟨k, rfl⟩, fun _ k => ⟨k, rfl⟩⟩, fun a z ha _ => by rw [e] at ha; cases ha⟩
    · refine ⟨(f, g), e3, fun a z ha hz => ?_⟩
      rw [e1] at ha
      rw [e2] at hz
      cases ha
      cases hz
      exact ⟨e4, e5⟩
  obtain ⟨F, hF⟩ := Classical.axiomOfChoice hk
  refine ⟨fun | [] => [] | k :: ks => s k :: (F k).1 ks, fun | [] => [] | j :: js => t j :: (F (t j)).2 js, ⟨?_, ?_, rfl, ?_, ?_⟩, ?_, ?_⟩
  · rintro (_ | ⟨k, ks⟩)
    · rfl
    · simp only [st1, (hF k).1.gf]
  · rintro (_ | ⟨k, ks⟩)
    · rfl
    · simp only [st2, (hF (t k)).1.fg]
  · rintro (_ | ⟨k, ks⟩) m
    · exact ⟨s m, by simp [(hF m).1.nil]⟩
    · obtain ⟨j, hj⟩ := (hF k).1.step ks m
      exact ⟨j, by simp [hj]⟩
  · rintro (_ | ⟨k, ks⟩) m
    · have : (F (t m)).2 [] = [] := by
        have := (hF (t m)).1.gf []
        rwa [(hF (t m)).1.nil] at this
      exact ⟨t m, by simp [this]⟩
    · obtain ⟨j, hj⟩ := (hF (t k)).1.back ks m
      exact ⟨j, by simp [hj]⟩
  · rintro (_ | ⟨k, ks⟩) q us hq
    · simp only [treeAt, Option.some.injEq, DTree.node.injEq] at hq
      obtain ⟨rfl, rfl⟩ := hq
      exact ⟨p', ts', rfl, hp⟩
    · rcases entrywise_at h1 k with ⟨e, -⟩ | ⟨x, y, e1, e2, -⟩
      · simp [treeAt, e] at hq
      · simp only [treeAt, e1, Option.bind_some] at hq
        obtain ⟨q', us', h3, h4⟩ := ((hF k).2 x y e1 e2).1 ks q us hq
        exact ⟨q', us', by simp only [treeAt, st3, e2, Option.bind_some, h3], h4⟩
  · rintro (_ | ⟨k, ks⟩) q us hq
    · simp only [treeAt, Option.some.injEq, DTree.node.injEq] at hq
      obtain ⟨rfl, rfl⟩ := hq
      exact ⟨p, ts, rfl, hp.symm⟩
    · have e0 : zs[t k]? = ts'[k]? := by rw [← st3, st2]
      rcases entrywise_at h1 (t k) with ⟨-, e⟩ | ⟨x, y, e1, e2, -⟩
      · rw [e0] at e
        simp [treeAt, e] at hq
      · rw [e0] at e2
        simp only [treeAt, e2, Option.bind_some] at hq
        obtain ⟨q', us', h3, h4⟩ := ((hF (t k)).2 x y e1 (e0.trans e2)).2 ks q us hq
        exact ⟨q', us', by simp only [treeAt, e1, Option.bind_some, h3], h4⟩

theorem reorder_map {α β : Type} {R : α → α → Prop} {S : β → β → Prop} {h : α → β} {xs ys : List α} (hr : Reorder R xs ys)
    (hs : ∀ x ∈ xs, ∀ y, R x y → S (h x) (h y)) : Reorder S (xs.map h) (ys.map h) := by
  obtain ⟨zs, h1, h2⟩ := hr
  exact ⟨zs.map h, entrywise_maps h1 hs, h2.map h⟩

theorem rearr_field {x y : SField} (h : ShuffledField x y) : Rearr (ofField x) (ofField y) := by
  obtain ⟨cs, h1, rfl⟩ := h
  obtain ⟨zs, h2, h3⟩ := reorder_refl (R := Rearr) (xs := x.containers.map ofEnum) fun _ _ => rearr_refl _
  exact rearr_node (.field h1) ⟨zs, h2, h3.trans (h1.map _)⟩

theorem ofRCs_map (xs : List SRC) : ofRCs xs = xs.map ofRC := by
  induction xs with
  | nil => rfl
  | cons x xs ih => simp only [ofRCs, ih, List.map_cons]

mutual
theorem rearr_rc : (x : SRC) → ∀ {y : SRC}, ShuffledRC x y → Rearr (ofRC x) (ofRC y)
  | .reg r, y, h => by
    rw [ShuffledRC] at h
    obtain ⟨fs, rfl, h1⟩ := h
    exact rearr_node .reg (reorder_map h1 fun f _ g hg => rearr_field hg)
  | .clu c ch, y, h => by
    rw [ShuffledRC] at h
    obtain ⟨zs, ys, rfl, h1, h2⟩ := h
    refine rearr_node .same ⟨ofRCs zs, rearr_rcs ch h1, ?_⟩
    rw [ofRCs_map, ofRCs_map]
    exact h2.map _
theorem rearr_rcs : (xs : List SRC) → ∀ {ys : List SRC}, ShuffledRCs xs ys → Entrywise Rearr (ofRCs xs) (ofRCs ys)
  | [], ys, h => by
    rw [ShuffledRCs] at h
    subst h
    exact .nil
  | x :: xs, ys, h => by
    rw [ShuffledRCs] at h
    obtain ⟨z, zs, rfl, h1, h2⟩ := h
    exact .cons (rearr_rc x h1) (rearr_rcs xs h2)
end

theorem rearr_device {d d' : SDevice} (h : Reordered d d') : Rearr (declTree d) (declTree d') := by
  obtain ⟨ps, rfl, h1⟩ := h
  refine rearr_node .same (reorder_map h1 ?_)
  rintro p _ q ⟨zs, ys, rfl, h2, h3⟩
  refine rearr_node .same ⟨ofRCs zs, rearr_rcs _ h2, ?_⟩
  rw [ofRCs_map, ofRCs_map]
  exact h3.map _

theorem Undo.symm {f g : Pos → Pos} (h : Undo f g) : Undo g f where
  gf := h.fg
  fg := h.gf
  nil := by
    have := h.gf []
    rwa [h.nil] at this
  step := h.back
  back := h.step

theorem embeds_of_rearr {d d' : SDevice} {f g : Pos → Pos} (h : Undo f g) (c : Carries (declTree d) (declTree d') f)
    (c' : Carries (declTree d') (declTree d) g) : Embeds d d' f where
  inj := fun x y e => by rw [← h.gf x, e, h.gf]
  nil := h.nil
  step := h.step
  decl := by
    rintro x p ⟨ts, hx⟩
    obtain ⟨p', ts', h1, h2⟩ := c x p ts hx
    exact ⟨p', ⟨ts', h1⟩, h2⟩
  back := by
    rintro x p y' - - ⟨k, q, rfl, ts, h1⟩
    obtain ⟨q', ts', h2, -⟩ := c' _ _ _ h1
    obtain ⟨j, hj⟩ := h.back (f x) k
    refine ⟨g (f x ++ [k]), (h.fg _).symm, j, q', ?_, ts', h2⟩
    rw [hj, h.gf]

/-- A reordered description: each is part of the other. -/
theorem reordered_embeds {d d' : SDevice} (h : Reordered d d') :
    ∃ f g, Embeds d d' f ∧ Embeds d' d g ∧ (∀ x, f (g x) = x) ∧ ∀ x, g (f x) = x := by
  obtain ⟨f, g, h1, h2, h3⟩ := rearr_device h
  exact ⟨f, g, embeds_of_rearr h1 h2 h3, embeds_of_rearr h1.symm h3 h2, h1.fg, h1.gf⟩

/-! ### further peripherals -/

/-- With further peripherals declared after its own, a description is part of the whole. -/
theorem appended_embeds (d : SDevice) (more : List SPeriphT) : Embeds d { d with peripherals := d.peripherals ++ more } id where
  inj := fun _ _ e => e
  nil := rfl
  step := fun _ k => ⟨k, rfl⟩
  decl := by
    rintro x p ⟨ts, hx⟩
    cases x with
    | nil =>
      cases declAt_nil ⟨ts, hx⟩
      exact ⟨_, ⟨_, rfl⟩, .same⟩
    | cons k ks =>
      refine ⟨p, ⟨ts, ?_⟩, .same⟩
      simp only [treeAt, declTree] at hx ⊢
      obtain ⟨a, h1, h2⟩ := Option.bind_eq_some_iff.1 hx
      refine Option.bind_eq_some_iff.2 ⟨a, ?_, h2⟩
      rw [List.map_append, List.getElem?_append_left]
      · exact h1
      · exact (List.getElem?_eq_some_iff.1 h1).1
  back := by
    rintro x p y' hx ⟨ts, hp⟩ ⟨k, q, rfl, us, hq⟩
    refine ⟨_, rfl, k, q, rfl, us, ?_⟩
    cases x with
    | nil => exact absurd rfl hx
    | cons m ms =>
      simp only [id, treeAt, declTree, List.cons_append] at hp hq ⊢
      obtain ⟨a, h1, -⟩ := Option.bind_eq_some_iff.1 hp
      rw [List.map_append, List.getElem?_append_left (List.getElem?_eq_some_iff.1 h1).1] at hq
      exact hq

end Svd
