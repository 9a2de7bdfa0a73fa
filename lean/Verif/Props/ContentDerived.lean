import Verif.Props.AcceptDerived
import Verif.Props.Content
/-
C53 without exceptions for descriptions with derived clusters.
-/
namespace Svd
open Spec Graph M

section
variable {ord : List Nat → List Nat} {fuel : Nat} {d : SDevice} {dev : Device} {ws : List Warn}

/-- C53: if the references can be followed (C46) and no base below the level of peripherals has a derived element in it, there
are no exceptions for derived clusters: the content is exactly what is declared in the chain. -/
theorem C53_followed_resolved (hord : ∀ l, (ord l).Perm l) (hf : Followable d) (hq : Quiet d) {ps : List IPeripheral}
    (h : resolvePeripherals ord fuel d = .ok ps ws) : DeviceExact d ps := by
  obtain ⟨g0, g, s, lab, w0, w1, w, F, -, h4, h5, h1, h2⟩ := resolve_lf' hord h
  obtain ⟨-, lab', T⟩ := tidy_rounds hord hf hq h1 h2
  have F' : LF d (Nested d) g lab := by
    refine ⟨F.inv, fun i c hd => ?_, F.lab, F.done, fun _ _ h => h, fun _ _ => nested_kind⟩
    exact absurd (T.edges _ hd) (de_not T.at_.lab hf.acyclic hd).1
  exact devices_exact (fun x y => not_nested hf.acyclic) (fun w z hE => not_endless hf.acyclic hE.1 (.one hE.2)) (F'.deviceS h4 h5)

/-- C53 for the processed device, without exceptions. -/
theorem C53_followed (hord : ∀ l, (ord l).Perm l) (hf : Followable d) (hq : Quiet d) (h : processDevice ord fuel d = .ok dev ws) :
    ∃ ps raw, DeviceExact d ps ∧ TrimPeripherals ps raw (ws.filter SaysIgnored) ∧ dev.peripherals.Perm raw := by
  obtain ⟨ps, w1, raw, h1, h2, h3⟩ := C26_ignored_are_reported h
  exact ⟨ps, raw, C53_followed_resolved hord hf hq h1, h2, h3⟩

end

namespace Sample

/-- Derived clusters: V from M, W from V, both with elements of their own; M has a cluster in it. -/
def copies : SDevice :=
  rdev [rper (s%"Q") 0x1000 (some (s%"P")) [],
    rper (s%"P") 0 none [
      .clu { name := s%"W", addressOffset := 128, derivedFrom := some (s%"V") } [rreg (s%"Y") 36],
      .clu { name := s%"V", addressOffset := 64, derivedFrom := some (s%"M") } [rreg (s%"X") 32],
      .clu { name := s%"M", addressOffset := 0 } [.clu { name := s%"A", addressOffset := 0 } [rreg (s%"R") 0], rreg (s%"S") 16]]]

end Sample

/-- C53: the hypotheses are met by a description with derived clusters, which is accepted. -/
theorem C53_followed_sample : Followable Sample.copies ∧ Quiet Sample.copies ∧
    Sample.okAnd (processDevice id 20 Sample.copies) (fun dev ws => ws.isEmpty &&
      Sample.tree dev == s%"M(A(R)S)V(A(R)SX)W(A(R)SXY)M(A(R)S)V(A(R)SX)W(A(R)SXY)") = true :=
  ⟨followable_of_check List.length (fun | [0] => 1 | [1, 0] => 2 | [1, 1] => 1 | _ => 0)
    (fun | [0] => ([1], []) | [1, 0] => ([1, 1], []) | [1, 1] => ([1, 2], []) | _ => ([], [])) (by decide +kernel),
    quiet_of_check (by decide +kernel), by decide +kernel⟩

end Svd
