import Verif.Spec.Elements
/-
The content of elements as in `Spec/Elements.lean`, with the additional content of clusters as a parameter.
-/
namespace Svd
open Spec

mutual
/-- `RCOf` with `S` for the additional content of clusters. -/
inductive RCS (d : SDevice) (S : Pos → Pos → Prop) : Pos → IRC → Prop
  | reg {x l r fs} : Instance d x l (.reg r) → FieldsOf d l fs → RCS d S x (.reg r fs)
  | clu {x l h c ys} : Instance d x l h → ButSize h (.clu c) → (∀ y ∈ ys, PartS d S x l y) →
      (∀ z, InChain d l z → KeptS d S l ys z) → RCS d S x (.clu c ys)
/-- `PartOf` with `S`. -/
inductive PartS (d : SDevice) (S : Pos → Pos → Prop) : Pos → List Pos → IRC → Prop
  | intro {x l z y} : InChain d l z ∨ S x z → RCS d S z y → PartS d S x l y
/-- `KeptIn` with `S`. -/
inductive KeptS (d : SDevice) (S : Pos → Pos → Prop) : List Pos → List IRC → Pos → Prop
  | kept {l ys z hs} : StandsAt d z hs → (∀ h ∈ hs, FoundS d S ys z h) → KeptS d S l ys z
  | lost {l ys z w} : w ∈ l → Endless d w z → KeptS d S l ys z
/-- `FoundIn` with `S`. -/
inductive FoundS (d : SDevice) (S : Pos → Pos → Prop) : List IRC → Pos → Processed → Prop
  | intro {ys z h y} : y ∈ ys → ButSize h (headOf y) → RCS d S z y → FoundS d S ys z h
end

/-- `PeriphOf` with `S`. -/
structure PeriphS (d : SDevice) (S : Pos → Pos → Prop) (x : Pos) (q : IPeripheral) : Prop where
  ex : ∃ l h, Instance d x l h ∧ ButSize h (.periph q.hd) ∧
    (∀ y ∈ q.rcs, ∃ z, InChain d l z ∧ RCS d S z y) ∧
    ∀ z, InChain d l z → ∃ hs, StandsAt d z hs ∧ ∀ h ∈ hs, FoundS d S q.rcs z h

/-- `DeviceOf` with `S`. -/
structure DeviceS (d : SDevice) (S : Pos → Pos → Prop) (ps : List IPeripheral) : Prop where
  sub : ∀ q ∈ ps, ∃ x, OwnChild d [] x ∧ PeriphS d S x q
  all : ∀ x, OwnChild d [] x → ∃ hs, StandsAt d x hs ∧ ∀ h ∈ hs, ∃ q ∈ ps, ButSize h (.periph q.hd) ∧ PeriphS d S x q

section
variable {d : SDevice} {S : Pos → Pos → Prop} (hS : ∀ x y, S x y → Stray d x y)
include hS

mutual
theorem rcs_rcOf {x : Pos} {y : IRC} : RCS d S x y → RCOf d x y
  | .reg h1 h2 => .reg h1 h2
  | .clu h1 h2 h3 h4 => .clu h1 h2 (fun y hy => parts_partOf (h3 y hy)) (fun z hz => kepts_keptIn (h4 z hz))
theorem parts_partOf {x : Pos} {l : List Pos} {y : IRC} : PartS d S x l y → PartOf d x l y
  | .intro h1 h2 => .intro (h1.imp id (hS _ _)) (rcs_rcOf h2)
theorem kepts_keptIn {l : List Pos} {ys : List IRC} {z : Pos} : KeptS d S l ys z → KeptIn d l ys z
  | .kept h1 h2 => .kept h1 fun h hh => founds_foundIn (h2 h hh)
  | .lost h1 h2 => .lost h1 h2
theorem founds_foundIn {ys : List IRC} {z : Pos} {h : Processed} : FoundS d S ys z h → FoundIn d ys z h
  | .intro h1 h2 h3 => .intro h1 h2 (rcs_rcOf h3)
end

theorem periphs_periphOf {x : Pos} {q : IPeripheral} (h : PeriphS d S x q) : PeriphOf d x q := by
  obtain ⟨l, h0, h1, h2, h3, h4⟩ := h.ex
  refine ⟨l, h0, h1, h2, fun y hy => ?_, fun z hz => ?_⟩
  · obtain ⟨z, h5, h6⟩ := h3 y hy
    exact ⟨z, h5, rcs_rcOf hS h6⟩
  · obtain ⟨hs, h5, h6⟩ := h4 z hz
    exact ⟨hs, h5, fun h hh => founds_foundIn hS (h6 h hh)⟩

theorem devices_deviceOf {ps : List IPeripheral} (h : DeviceS d S ps) : DeviceOf d ps := by
  refine ⟨fun q hq => ?_, fun x hx => ?_⟩
  · obtain ⟨x, h1, h2⟩ := h.sub q hq
    exact ⟨x, h1, periphs_periphOf hS h2⟩
  · obtain ⟨hs, h1, h2⟩ := h.all x hx
    refine ⟨hs, h1, fun h' hh => ?_⟩
    obtain ⟨q, h3, h4, h5⟩ := h2 h' hh
    exact ⟨q, h3, h4, periphs_periphOf hS h5⟩

end

section
variable {d : SDevice} {S : Pos → Pos → Prop} (hS : ∀ x y, ¬ S x y) (hE : ∀ w z, ¬ Endless d w z)
include hS hE

mutual
theorem rcs_exact {x : Pos} {y : IRC} : RCS d S x y → RCExact d x y
  | .reg h1 h2 => .reg h1 h2
  | .clu h1 h2 h3 h4 => .clu h1 h2 (fun y hy => parts_exact (h3 y hy)) (fun z hz => kepts_exact (h4 z hz))
theorem parts_exact {x : Pos} {l : List Pos} {y : IRC} : PartS d S x l y → MemberExact d l y
  | .intro h1 h2 => .intro (h1.resolve_right (hS _ _)) (rcs_exact h2)
theorem kepts_exact {l : List Pos} {ys : List IRC} {z : Pos} : KeptS d S l ys z → KeptExact d ys z
  | .kept h1 h2 => .intro h1 fun h hh => founds_exact (h2 h hh)
  | .lost _ h2 => (hE _ _ h2).elim
theorem founds_exact {ys : List IRC} {z : Pos} {h : Processed} : FoundS d S ys z h → FoundExact d ys z h
  | .intro h1 h2 h3 => .intro h1 h2 (rcs_exact h3)
end

theorem devices_exact {ps : List IPeripheral} (h : DeviceS d S ps) : DeviceExact d ps := by
  have key : ∀ {x q}, PeriphS d S x q → PeriphExact d x q := by
    intro x q h
    obtain ⟨l, h0, h1, h2, h3, h4⟩ := h.ex
    refine ⟨l, h0, h1, h2, fun y hy => ?_, fun z hz => ?_⟩
    · obtain ⟨z, h5, h6⟩ := h3 y hy
      exact .intro h5 (rcs_exact hS hE h6)
    · obtain ⟨hs, h5, h6⟩ := h4 z hz
      exact .intro h5 fun h hh => founds_exact hS hE (h6 h hh)
  refine ⟨fun q hq => ?_, fun x hx => ?_⟩
  · obtain ⟨x, h1, h2⟩ := h.sub q hq
    exact ⟨x, h1, key h2⟩
  · obtain ⟨hs, h1, h2⟩ := h.all x hx
    refine ⟨hs, h1, fun h' hh => ?_⟩
    obtain ⟨q, h3, h4, h5⟩ := h2 h' hh
    exact ⟨q, h3, h4, key h5⟩

end

end Svd
