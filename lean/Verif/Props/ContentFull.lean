import Verif.Props.ContentDerived
import Verif.Props.Shared
import Verif.Lemmas.FullRes
/-
C53 and C19 with sizes and order: what the resolution makes of a description.
-/
namespace Svd
open Spec Graph M

section
variable {ord : List Nat → List Nat} {fuel : Nat} {d : SDevice} {dev : Device} {ws : List Warn}

/-- C53, C19: if the references can be followed, in one way only, and no base below the level of peripherals has a derived
element in it, the resolved device has exactly the declared content, in order of addresses, and every peripheral and cluster has
the size that its content gives it. -/
theorem C53_full_resolved (hord : ∀ l, (ord l).Perm l) (hf : Followable d) (hq : Quiet d) (hu : Unambiguous d) {ps : List IPeripheral}
    (h : resolvePeripherals ord fuel d = .ok ps ws) : DeviceFull d ps := resolve_full hord hf hq hu h

/-- C53, C19 for the processed device: what is missing of that content has been reported. -/
theorem C53_full (hord : ∀ l, (ord l).Perm l) (hf : Followable d) (hq : Quiet d) (hu : Unambiguous d)
    (h : processDevice ord fuel d = .ok dev ws) :
    ∃ ps raw, DeviceFull d ps ∧ TrimPeripherals ps raw (ws.filter SaysIgnored) ∧ dev.peripherals.Perm raw := by
  obtain ⟨ps, w1, raw, h1, h2, h3⟩ := C26_ignored_are_reported h
  exact ⟨ps, raw, C53_full_resolved hord hf hq hu h1, h2, h3⟩

end

/-- C53: the hypotheses are met by a description with derived clusters (`C53_followed_sample`). -/
theorem C53_full_sample : Followable Sample.copies ∧ Quiet Sample.copies ∧ Unambiguous Sample.copies ∧
    Sample.okAnd (processDevice id 20 Sample.copies) (fun dev ws => ws.isEmpty &&
      Sample.tree dev == s%"M(A(R)S)V(A(R)SX)W(A(R)SXY)M(A(R)S)V(A(R)SX)W(A(R)SXY)") = true :=
  ⟨C53_followed_sample.1, C53_followed_sample.2.1, unambiguous_of_check (by decide +kernel), C53_followed_sample.2.2⟩

end Svd
