import Verif.Lemmas.BuildNeed
import Verif.Props.Accept
/-
C56, exactly: which descriptions without `derivedFrom` are resolved.
-/
namespace Svd
open Spec

variable {ord : List Nat → List Nat} {d : SDevice}

/-- C56, exactly, for descriptions without `derivedFrom` and with no negative size: the description is resolved if and only if it
has a peripheral, its dim attributes are consistent, and each field has a position and enumerated values that fit it.  It is
accepted if and only if in addition the resolved description has none of the defects of C55. -/
theorem C56_exact (hu : Underived d) (hz : ∀ p, Declared d p → ∀ s, statedSize p = some s → 0 ≤ s) (f : Nat) :
    ((∃ ps ws, resolvePeripherals ord (f + 2) d = .ok ps ws) ↔ Buildable d) ∧
    ((∃ dev ws, processDevice ord (f + 2) d = .ok dev ws) ↔
      Buildable d ∧ ∃ ps ws, resolvePeripherals ord (f + 2) d = .ok ps ws ∧ ∀ e, ¬ Defect d ps e) := by
  have h1 : (∃ ps ws, resolvePeripherals ord (f + 2) d = .ok ps ws) ↔ Buildable d :=
    ⟨fun ⟨ps, ws, h⟩ => buildable_of hu h, fun h => resolve_total ord f hu (able_of hu hz h)⟩
  refine ⟨h1, ?_, ?_⟩
  · rintro ⟨dev, ws, h⟩
    obtain ⟨ps, w1, w2, h2, -, -⟩ := processDevice_ok.1 h
    exact ⟨h1.1 ⟨ps, w1, h2⟩, ps, w1, h2, (C55_refused_iff_defect h2).1.1 ⟨dev, ws, h⟩⟩
  · rintro ⟨-, ps, ws, h2, h3⟩
    exact (C55_refused_iff_defect h2).1.2 h3

/-- C56, refusal: a description that is not buildable is refused, whatever its sizes and with any number of rounds. -/
theorem C56_unbuildable (hu : Underived d) (fuel : Nat) (h : ¬ Buildable d) : ∃ e, processDevice ord fuel d = .err e := by
  cases hp : processDevice ord fuel d with
  | err e => exact ⟨e, rfl⟩
  | ok dev ws =>
    obtain ⟨ps, w1, w2, h2, -, -⟩ := processDevice_ok.1 hp
    exact absurd (buildable_of hu h2) h

/-- A description with unusual texts: a `dimIndex` with an underscore and a blank, a `bitRange` with text behind it, literals with a
sign and a repeated prefix, two defaults of one name. -/
def Sample.unusual : SDevice :=
  Sample.devOf [.reg { name := s%"R%s", addressOffset := 0, props := { size := some 32 }, dim := { dim := some 3, dimIndex := some (s%"9-1_1 "), dimIncrement := some 4 }, fields := [{ name := s%"F", bitRange := some (s%"[3:2]?"), containers := [{ values := [{ name := s%"A", value := some (s%"0b+1_0") }, { name := s%"B", value := some (s%"#0bx") }, { name := s%"D", isDefault := some true }, { name := s%"D", isDefault := some true }] }] }] }]

/-- Both sides of C56_exact are met by the sample device and by the one with unusual texts; the device without peripherals
is not buildable. -/
theorem C56_exact_sample : Buildable Sample.plain ∧ Underived Sample.plain ∧ Buildable Sample.unusual ∧ Underived Sample.unusual ∧
    ¬ Buildable { Sample.plain with peripherals := [] } := by
  have hd : Underived Sample.unusual := Sample.underived_of (by decide +kernel)
  refine ⟨C56_sample.1.buildable, plain_underived, ?_, hd, fun h => h.some rfl⟩
  have h : Sample.okAnd (processDevice id 10 Sample.unusual) (fun dev _ => (Sample.registers dev).map (fun r => r.name) == [s%"R9", s%"R10", s%"R11"]) = true := by
    decide +kernel
  obtain ⟨dev, ws, h1, -⟩ := Sample.okAnd_spec h
  obtain ⟨ps, w1, w2, h2, -, -⟩ := processDevice_ok.1 h1
  exact buildable_of hd h2

end Svd
