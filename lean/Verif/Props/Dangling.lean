import Verif.Props.Escape
import Verif.Props.Validate
import Verif.Props.Derive
import Verif.Spec.Dangling
/-
C31, completely: which descriptions raise `KeyError`.
-/
namespace Svd
open Spec

section
variable {d : SDevice} {ord : List Nat → List Nat} {fuel : Nat} {dev : Device} {ws : List Warn}

theorem defect_key {ps : List IPeripheral} : Defect d ps .keyError ↔ Dangling d ps := by
  constructor
  · rintro (h | ⟨p, hp, e, ys, hx, h⟩)
    · rcases h with ⟨_, _, _, _, h⟩ | ⟨_, _, _, _, _, _, h⟩ | ⟨p, hp, a, h1, h2, -, h3⟩
      · cases h
      · cases h
      · exact Or.inl ⟨p, hp, a, h1, h2, h3⟩
    · rcases h with (⟨_, _, _, _, _, _, h⟩ | ⟨c, ch, a, h1, h2, h3, -, h4⟩) | ⟨x, hx, h⟩
      · cases h
      · exact Or.inr ⟨p, hp, e, ys, hx, c, ch, a, h1, h2, h3, h4⟩
      · rcases h with ⟨h, _⟩ | ⟨r, fs, _, _, ⟨h, _⟩ | h⟩
        · cases h
        · cases h
        · exact h.elim
  · rintro (⟨p, hp, a, h1, h2, h3⟩ | ⟨p, hp, e, ys, hx, c, ch, a, h1, h2, h3, h4⟩)
    · exact Or.inl (Or.inr (Or.inr ⟨p, hp, a, h1, h2, rfl, h3⟩))
    · exact Or.inr ⟨p, hp, e, ys, hx, Or.inl (Or.inr ⟨c, ch, a, h1, h2, h3, rfl, h4⟩)⟩

/-- The resolver raises no `KeyError`. -/
theorem resolve_no_key (hord : ∀ l, (ord l).Perm l) : resolvePeripherals ord fuel d ≠ .err .keyError := fun h =>
  (ksat_resolvePeripherals hord fuel).err h

/-- C31, exactly: `KeyError` is raised for a dangling alternate only, and a description with a dangling alternate is never
accepted. -/
theorem C31_exact (hord : ∀ l, (ord l).Perm l) :
    (processDevice ord fuel d = .err .keyError → ∃ ps w, resolvePeripherals ord fuel d = .ok ps w ∧ Dangling d ps) ∧
    ∀ ps w, resolvePeripherals ord fuel d = .ok ps w → Dangling d ps → ¬ ∃ dev ws, processDevice ord fuel d = .ok dev ws := by
  constructor
  · intro h
    rcases C55_failure_explained h with ⟨e', he⟩ | ⟨ps, w, h1, h2⟩
    · exfalso
      unfold processDevice at h
      rw [he] at h
      have h1 := resolve_no_key (fuel := fuel) (d := d) hord
      rw [he] at h1
      have h2 : wrapResolve (.err e' : M (List IPeripheral)) = .err .keyError := by
        rcases M.bind_eq_err.1 h with h | ⟨_, _, h3, _⟩
        · exact h
        · cases e' <;> simp [wrapResolve] at h3
      cases e' <;> simp [wrapResolve] at h2
      exact h1 rfl
    · exact ⟨ps, w, h1, defect_key.1 h2⟩
  · intro ps w h1 h2 h3
    exact (C55_refused_iff_defect h1).1.1 h3 _ (defect_key.2 h2)

theorem nearest_mem {α β : Type} {get : α → Option β} : ∀ {l : List α} {b : β}, nearest get l = some b → ∃ a ∈ l, get a = some b
  | [], _, h => by cases h
  | x :: xs, b, h => by
    unfold nearest at h
    obtain ⟨a, ha, hb⟩ := List.exists_of_findSome?_eq_some h
    exact ⟨a, ha, hb⟩

theorem derivChain_decl {α : Type} {decl : α → Prop} {name : α → Str} {df : α → Option Str} {l : List α}
    (h : DerivChain decl name df l) : ∀ a ∈ l, decl a := by
  induction h with
  | root h1 _ => intro a ha; rw [List.mem_singleton.1 ha]; exact h1
  | step h1 _ _ _ ih =>
    intro a ha
    rcases List.mem_cons.1 ha with rfl | ha
    · exact h1
    · exact ih a ha

theorem examined_ok {W : Warn → Prop} {e e' : Props} {xs ys : List IRC} (h : Examined e xs e' ys) (ho : ∀ x ∈ xs, OkRC d W x) :
    ∀ y ∈ ys, OkRC d W y := by
  induction h with
  | here => exact ho
  | inside h1 _ _ ih =>
    refine ih ?_
    have := ho _ h1
    cases this with
    | clu _ h _ => exact h

/-- C31: without `alternatePeripheral` and `alternateCluster` there is no `KeyError`: some declared peripheral or cluster names an
alternate that none of the resolved ones bears. -/
theorem C31_blamed (hord : ∀ l, (ord l).Perm l) (h : processDevice ord fuel d = .err .keyError) :
    ∃ ps w a, resolvePeripherals ord fuel d = .ok ps w ∧
      ((∃ s, Declared d (.periph s) ∧ s.alternatePeripheral = some a ∧
          ∀ q ∈ ps, KeptPeripheral (deviceLevel d) q → q.hd.name ≠ a) ∨
       ∃ s, Declared d (.clu s) ∧ s.alternateCluster = some a) := by
  obtain ⟨ps, w, h1, h2⟩ := (C31_exact hord).1 h
  have hok := (resolvePeripherals_ok h1).1
  rcases h2 with ⟨p, hp, a, -, h3, h4⟩ | ⟨p, hp, e, ys, hx, c, ch, a, h3, -, h4, -⟩
  · refine ⟨ps, w, a, h1, Or.inl ?_⟩
    obtain ⟨⟨ch, hm⟩, -⟩ := hok p hp
    obtain ⟨l, r0, s, -, hf, he⟩ := madeS_periph hm
    have h5 : nearest (·.alternatePeripheral) l = some a := by
      rw [← hf.alternatePeripheral, ← h3, he]
    obtain ⟨s, hs, h6⟩ := nearest_mem h5
    exact ⟨s, derivChain_decl hf.chain s hs, h6, h4⟩
  · refine ⟨ps, w, a, h1, Or.inr ?_⟩
    have := examined_ok hx (hok p hp).2.1 _ h3
    cases this with
    | clu hm _ _ =>
      obtain ⟨l, c0, s', -, hf, he⟩ := madeS_clu hm
      have h5 : nearest (·.alternateCluster) l = some a := by
        rw [← hf.alternateCluster, ← h4, he]
      obtain ⟨s, hs, h6⟩ := nearest_mem h5
      exact ⟨s, derivChain_decl hf.chain s hs, h6⟩

end
end Svd
