import Verif.Lemmas.LabKinds
/-
Derivation paths: kinds, and the references of peripherals.
-/
namespace Svd
open Spec

/-- How deep elements of a kind stand. -/
def kindRank : Level → Nat
  | .device => 0
  | .peripheral => 1
  | .cluster => 2
  | .register => 3
  | .field => 4
  | .enumcont => 5

/-- What can lie in what, at any depth. -/
def DeeperKind (d : SDevice) (x y : Pos) : Prop :=
  ∃ p q, DeclAt d x p ∧ DeclAt d y q ∧ (kindRank p.level < kindRank q.level ∨ (p.level = .cluster ∧ q.level = .cluster))

theorem deeper_own {d : SDevice} {x y : Pos} (h : OwnChild d x y) : DeeperKind d x y := by
  obtain ⟨p, q, hp, hq⟩ := ownChild_decl h
  refine ⟨p, q, hp, hq, ?_⟩
  have := ownChild_kind h hp hq
  revert this
  cases p.level <;> cases q.level <;> simp [childKind, kindRank]

theorem deeper_left {d : SDevice} {x y z : Pos} (h : SameKind d x y) (h' : DeeperKind d y z) : DeeperKind d x z := by
  obtain ⟨p, q, hp, hq, hk⟩ := h'
  obtain ⟨p', q', hp', hq', -⟩ := id h
  have := sameKind_level h hp' hp
  exact ⟨p', q, hp', hq, by rw [this]; exact hk⟩

theorem deeper_trans {d : SDevice} {x y z : Pos} (h : DeeperKind d x y) (h' : DeeperKind d y z) : DeeperKind d x z := by
  obtain ⟨p, q, hp, hq, hk⟩ := h
  obtain ⟨q', r, hq', hr, hk'⟩ := h'
  rw [declAt_unique hq' hq] at hk'
  refine ⟨p, r, hp, hr, ?_⟩
  rcases hk with hk | ⟨h1, h2⟩
  · rcases hk' with hk' | ⟨h3, h4⟩
    · exact Or.inl (by omega)
    · rw [h3] at hk; rw [h4]; exact Or.inl hk
  · rcases hk' with hk' | ⟨h3, h4⟩
    · rw [h2] at hk'; rw [h1]; exact Or.inl hk'
    · exact Or.inr ⟨h1, h4⟩

mutual
theorem hasChild_deeper {d : SDevice} {x y : Pos} : HasChild d x y → DeeperKind d x y
  | .own h => deeper_own h
  | .inherited h1 h2 => deeper_left (refers_kind h1) (hasChild_deeper h2)
  | .nested h => nested_deeper h
theorem nested_deeper {d : SDevice} {x y : Pos} : Nested d x y → DeeperKind d x y
  | .here h1 h2 h3 => by
    have h4 := deeper_left (refers_kind h1) (inside_deeper h3)
    exact h4
  | .inherited h1 h2 => deeper_left (refers_kind h1) (nested_deeper h2)
theorem inside_deeper {d : SDevice} {x y : Pos} : Inside d x y → DeeperKind d x y
  | .one h => hasChild_deeper h
  | .more h1 h2 => deeper_trans (hasChild_deeper h1) (inside_deeper h2)
end

/-- The target of a path lies below its start. -/
theorem walk_deeper {d : SDevice} {x t : Pos} {ns : List Str} : Walk d x ns t → ((∃ n, ns = [n]) ∧ x = t ∧ ∃ n, ns = [n] ∧ Called d x n) ∨ DeeperKind d x t
  | .last h => Or.inl ⟨⟨_, rfl⟩, rfl, _, rfl, h⟩
  | .down _ h2 h3 => by
    right
    rcases walk_deeper h3 with ⟨-, rfl, -⟩ | h4
    · exact hasChild_deeper h2
    · exact deeper_trans (hasChild_deeper h2) h4

theorem nested_cluster {d : SDevice} {x y : Pos} (h : Nested d x y) : ∃ c, DeclAt d y (.clu c) := by
  obtain ⟨p, q, hp, hq, hk⟩ := nested_deeper h
  have := sameKind_level (nested_kind h) hp hq
  rw [this] at hk
  rcases hk with hk | ⟨-, hk⟩
  · omega
  · cases q <;> first | exact ⟨_, hq⟩ | cases hk

theorem splitC_single {c : Char} : ∀ {s n : Str}, splitC c s = [n] → n = s ∧ c ∉ s
  | [], n, h => by simp [splitC] at h; simp [h]
  | x :: xs, n, h => by
    simp only [splitC] at h
    split at h
    · rename_i hx
      injection h with _ hs
      exact absurd hs (splitC_ne_nil _ _)
    · rename_i hx
      cases hs : splitC c xs with
      | nil => exact absurd hs (splitC_ne_nil _ _)
      | cons y ys =>
        rw [hs] at h
        simp only [List.cons.injEq] at h
        obtain ⟨rfl, rfl⟩ := h
        obtain ⟨h1, h2⟩ := splitC_single hs
        subst h1
        exact ⟨rfl, by simpa using ⟨fun h => hx h.symm, h2⟩⟩

/-- A peripheral refers to another one by one name. -/
theorem refers_peripheral {d : SDevice} {x b : Pos} {p : SPeripheral} (hp : DeclAt d x (.periph p)) (h : Refers d x b) :
    ∃ q path, DeclAt d b (.periph q) ∧ p.derivedFrom = some path ∧ '.' ∉ path ∧ InstanceName q.name path := by
  have hk := refers_kind h
  obtain ⟨hp', hdf, -, hsc, hpn, hw⟩ := h
  rename_i s p' path parts
  rw [← pathNames_split hpn] at hw
  rw [declAt_unique hp' hp] at hdf
  obtain ⟨p1, pb, h1, hb, h3⟩ := id hk
  have hbl := sameKind_level hk hp hb
  obtain ⟨q, rfl⟩ : ∃ q, pb = .periph q := by
    cases pb <;> first | exact ⟨_, rfl⟩ | cases hbl
  rcases walk_deeper hw with ⟨-, rfl, n, hn, pc, hpc, hnm⟩ | ⟨ps, pt, hps, hpt, hd⟩
  · rw [declAt_unique hpc hb] at hnm
    obtain ⟨rfl, h7⟩ := splitC_single hn
    exact ⟨q, _, hb, hdf, h7, hnm⟩
  · exfalso
    rw [declAt_unique hpt hb] at hd
    have hs0 : ps.level = .device := by
      rcases hd with hd | ⟨-, hd⟩
      · revert hd
        cases ps.level <;> simp [kindRank, Parsed.level]
      · cases hd
    have hs : s = [] := device_pos hps hs0
    subst hs
    cases hsc with
    | peripheral h =>
      obtain ⟨k, _, h, -⟩ := h
      simp at h
    | sibling _ h =>
      obtain ⟨pa, pc, -, hpc, hd⟩ := hasChild_deeper h
      rw [declAt_unique hpc hps, hs0] at hd
      simp [kindRank] at hd
    | derived _ h =>
      obtain ⟨h5, h6, -⟩ := h
      rw [declAt_unique h5 hps] at h6
      cases ps <;> first | cases h6 | cases hs0

end Svd
