import Verif.Lemmas.FinStep
import Verif.Lemmas.ResolveSat
/-
Resolving a device without derivedFrom.
-/
namespace Svd
open Graph Spec M

theorem rounds_mono {ord : List Nat → List Nat} : ∀ {f : Nat} {g g' : Graph} {prev : List Nat} {w : List Warn}, rounds ord f g prev = .ok g' w →
    rounds ord (f + 1) g prev = .ok g' w := by
  intro f
  induction f with
  | zero => intro g g' prev w h; simp [rounds, M.throw] at h
  | succ f ih =>
    intro g g' prev w h
    rw [rounds] at h ⊢
    rw [M.bind_eq_ok] at h ⊢
    obtain ⟨g1, w1, w2, h1, h2, h3⟩ := h
    refine ⟨g1, w1, w2, h1, ?_, h3⟩
    simp only at h2 ⊢
    split at h2
    · rename_i hn; rw [if_pos hn]; exact h2
    · rename_i hn
      rw [if_neg hn]
      split at h2
      · rename_i hn2; rw [if_pos hn2]; exact h2
      · rename_i hn2
        rw [if_neg hn2]
        rw [M.bind_eq_ok] at h2 ⊢
        obtain ⟨g2, w3, w4, h4, h5, h6⟩ := h2
        exact ⟨g2, w3, w4, h4, ih h5, h6⟩

theorem rounds_mono' {ord : List Nat → List Nat} {f k : Nat} {g g' : Graph} {prev : List Nat} {w : List Warn} (h : rounds ord f g prev = .ok g' w) :
    rounds ord (f + k) g prev = .ok g' w := by
  induction k with
  | zero => exact h
  | succ k ih => exact rounds_mono ih

/-- Every outcome of the main loop but running out of fuel is kept when there is more fuel. -/
theorem rounds_succ {ord : List Nat → List Nat} : ∀ {f : Nat} {g : Graph} {prev : List Nat}, rounds ord f g prev ≠ .err .outOfFuel →
    rounds ord (f + 1) g prev = rounds ord f g prev := by
  intro f
  induction f with
  | zero => intro g prev h; exact absurd rfl h
  | succ f ih =>
    intro g prev h
    rw [rounds] at h ⊢
    rw [rounds]
    cases h1 : resolvePlaceholders g g.placeholders with
    | err e => rfl
    | ok g1 w1 =>
      rw [h1] at h
      simp only [M.bind] at h ⊢
      by_cases hn : sortedProcessable g1 = []
      · rw [if_pos hn, if_pos hn]
      rw [if_neg hn] at h
      rw [if_neg hn, if_neg hn]
      by_cases hl : sortedProcessable g1 = prev
      · rw [if_pos hl, if_pos hl]
      rw [if_neg hl] at h
      rw [if_neg hl, if_neg hl]
      cases h2 : processNodes ord g1 (sortedProcessable g1) with
      | err e => rfl
      | ok g2 w2 =>
        rw [h2] at h
        simp only [] at h ⊢
        rw [ih]
        intro hc
        rw [hc] at h
        exact h rfl

theorem rounds_stable {ord : List Nat → List Nat} {f : Nat} {g : Graph} {prev : List Nat} (h : rounds ord f g prev ≠ .err .outOfFuel) (k : Nat) :
    rounds ord (f + k) g prev = rounds ord f g prev := by
  induction k with
  | zero => rfl
  | succ k ih =>
    rw [← ih]
    exact rounds_succ (f := f + k) (fun hc => h (ih.symm.trans hc))

theorem stepsM_ok : ∀ {l : List (Nat × Parsed)} {w : List Warn}, stepsM l = .ok () w → ∀ x ∈ l, ∃ v, stepM x.2 = .ok () v
  | [], _, _, x, hx => by cases hx
  | y :: l, w, h, x, hx => by
    simp only [stepsM, M.bind_eq_ok] at h
    obtain ⟨u, w1, w2, h1, h2, -⟩ := h
    rcases List.mem_cons.1 hx with rfl | hx
    · exact ⟨w1, h1⟩
    · exact stepsM_ok h2 x hx

theorem stepM_exp {p : Parsed} {v : List Warn} (h : stepM p = .ok () v) (he : p.isEnum = false) : ∃ y w, expandM p = .ok y w := by
  unfold stepM at h
  rw [he] at h
  simp only [Bool.false_eq_true, if_false, M.bind_eq_ok] at h
  obtain ⟨y, w1, w2, h1, -⟩ := h
  exact ⟨y, w1, h1⟩

theorem final_of_shape {L : List (Nat × Parsed)} {g g' : Graph} {org : Nat → Nat} {k : Nat} (hf : Flat L g) {w : List Warn}
    (hs : stepsM (L.drop 1) = .ok () w) (h : Shape L k org g') (hk : k + 1 = L.length) : Final L org g' := by
  refine ⟨by have : L.length - 1 = k := by omega
             rw [this]; exact h, hf.ok, ?_⟩
  intro i x hi hx he
  obtain ⟨v, hv⟩ := stepsM_ok hs x (by
    rw [List.mem_iff_getElem?]
    exact ⟨i - 1, by rw [List.getElem?_drop, show 1 + (i - 1) = i by omega]; exact hx⟩)
  exact stepM_exp hv he

/-- The resolved peripherals of a device without derivedFrom are the declared ones. -/
theorem resolve_built {ord : List Nat → List Nat} {fuel : Nat} {d : SDevice} {ps : List IPeripheral} {ws : List Warn} (hu : Underived d)
    (h : resolvePeripherals ord fuel d = .ok ps ws) : DeviceBuilt d ps := by
  obtain ⟨g0, g, s, w1, w2, w3, h1, h2, -, h4, h5, -⟩ := resolvePeripherals_split h
  obtain ⟨L, g1, ks, h6, h7, h8, h9⟩ := initial_flat hu
  rw [h1] at h6
  cases h6
  have h10 := rounds_mono' (k := 2) h2
  rcases flat_rounds ord h7 fuel with ⟨e, -, h11⟩ | ⟨w, g', org, k, h11, h12, h13, h14⟩
  · rw [h10] at h11; cases h11
  · rw [h10] at h12
    cases h12
    exact (final_of_shape h7 h11 h13 h14).built h4 h5 h8 h9

/-- Processing a device without derivedFrom: the declared elements, then inheritance and validation. -/
theorem process_built {ord : List Nat → List Nat} {fuel : Nat} {d : SDevice} {dev : Device} {ws : List Warn} (hu : Underived d)
    (h : processDevice ord fuel d = .ok dev ws) : ∃ ps w, DeviceBuilt d ps ∧ validateAndFinalize (inheritDevice ⟨deviceHead d.hd, ps⟩) = .ok dev w := by
  obtain ⟨ps, w1, w2, h1, h2, -⟩ := processDevice_ok.1 h
  exact ⟨ps, w2, resolve_built hu h1, h2⟩

theorem nf_stepM (p : Parsed) : NSat (stepM p) := by
  unfold stepM
  split
  · exact sat_pure _
  · refine sat_bind ?_ fun _ => sat_pure _
    unfold expandM
    refine sat_bind (rsat_extractDimOf _ _) fun x => sat_bind (rsat_createAll _ _ _ _ _) fun xs => ?_
    split
    · exact sat_throw trivial
    · exact sat_pure _

theorem nf_stepsM : ∀ l : List (Nat × Parsed), NSat (stepsM l)
  | [] => sat_pure _
  | _ :: l => sat_bind (nf_stepM _) fun _ => nf_stepsM l

/-- At most two rounds are needed without derivedFrom, and the loop check does not fire. -/
theorem underived_rounds (ord : List Nat → List Nat) {d : SDevice} (hu : Underived d) (f : Nat) :
    ∃ g, initialization d = .ok g [] ∧ rounds ord (f + 2) g [] = rounds ord 2 g [] ∧ rounds ord 2 g [] ≠ .err .outOfFuel ∧
      rounds ord 2 g [] ≠ .err .loop := by
  obtain ⟨L, g1, ks, h6, h7, h8, h9⟩ := initial_flat hu
  refine ⟨g1, h6, ?_, ?_⟩
  · rcases flat_rounds ord h7 f with ⟨e, h1, h11⟩ | ⟨w, g', org, k, h1, h12, -⟩ <;>
      rcases flat_rounds ord h7 0 with ⟨e2, h3, h13⟩ | ⟨w2, g2, org2, k2, h3, h14, -⟩
    · rw [h1] at h3; cases h3; rw [h11, h13]
    · rw [h1] at h3; cases h3
    · rw [h1] at h3; cases h3
    · rw [h14]
      have := rounds_mono' (k := f) h14
      rw [show 0 + 2 + f = f + 2 by omega] at this
      exact this
  · rcases flat_rounds ord h7 0 with ⟨e, h1, h11⟩ | ⟨w, g', org, k, h1, h12, -⟩
    · rw [h11]
      have := ((nf_stepsM _).err h1).ne
      constructor
      · intro h; cases h; exact this.2 rfl
      · intro h; cases h; exact this.1 rfl
    · rw [h12]
      constructor <;> intro h <;> cases h
end Svd
