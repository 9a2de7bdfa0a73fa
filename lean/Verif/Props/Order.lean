import Verif.Props.Resolve
import Verif.Props.Exceptions
/-
Chains of derivedFrom references and the order of declaration: C46.
-/
namespace Svd
open Spec

namespace Sample

/-- The peripherals of a device in another order. -/
def reorder (l : List Nat) (d : SDevice) : SDevice := { d with peripherals := l.filterMap (d.peripherals[·]?) }

/-- All orders of three things. -/
def orders3 : List (List Nat) := [[0, 1, 2], [0, 2, 1], [1, 0, 2], [1, 2, 0], [2, 0, 1], [2, 1, 0]]

/-- C derived from B, B derived from A. -/
def chain3 : SDevice :=
  rdev [rper (s%"A") 0 none [rreg (s%"R") 0], rper (s%"B") 256 (some (s%"A")) [], rper (s%"C") 512 (some (s%"B")) []]

/-- A container of enumerated values. -/
def evc (n : Str) (df : Option Str) (vs : List SEnumValue) : SEnumContainer := { name := some n, derivedFrom := df, values := vs }

/-- A two bit field with one container. -/
def fldc (n : Str) (b : Int) (c : SEnumContainer) : SField :=
  { name := n, bitOffset := some b, bitWidth := some 2, containers := [c] }

/-- `E2` derived from `E1`, which is derived from `E0` of a peripheral that is itself derived from an element made by a
dim expansion. -/
def enumChain : SDevice :=
  rdev [
    { hd := { name := s%"T[%s]", baseAddress := 0, dim := { dim := some 2, dimIncrement := some 256 }
              addressBlocks := [{ offset := 0, size := 256, usage := .registers }] }
      rcs := [.reg { name := s%"R", addressOffset := 0
                     fields := [fldc (s%"F0") 0 (evc (s%"E0") none [{ name := s%"X", value := some (s%"1") }])] }] },
    rper (s%"B") 1024 (some (s%"T0")) [],
    rper (s%"A") 2048 none [.reg { name := s%"R", addressOffset := 0
                                   fields := [fldc (s%"F1") 0 (evc (s%"E1") (some (s%"B.R.F0.E0")) []),
                                              fldc (s%"F2") 4 (evc (s%"E2") (some (s%"A.R.F1.E1")) [])] }]]

end Sample

/-- A chain of peripherals resolves in every order of declaration. -/
theorem C46_sample : Sample.orders3.all (fun l => Sample.okAnd (processDevice id 10 (Sample.reorder l Sample.chain3))
    (fun dev _ => dev.peripherals.map (fun p => (p.name, p.registers.map (·.name))) ==
      [(s%"A", [s%"R"]), (s%"B", [s%"R"]), (s%"C", [s%"R"])])) = true := by decide +kernel

/-- C46 is false of the code for chains through elements made by a dim expansion: `D` derived from `B` derived from `T0`
fails in every order of declaration, with an undocumented exception, although every reference is fine. -/
theorem C46_through_dim : Sample.orders3.all (fun l =>
    decide (processDevice id 10 (Sample.reorder l chainThroughDim) = .err (.resolve 472))) = true := by decide +kernel

/-- C46 is false of the code: the order of declaration can decide between success and an exception. -/
theorem C46_order_matters :
    Sample.okAnd (processDevice id 10 (Sample.reorder [1, 0] derivedFromTemplate))
      (fun dev _ => dev.peripherals.map (·.name) == [s%"A0", s%"A1", s%"A2", s%"B"]) = true ∧
    processDevice id 10 (Sample.reorder [0, 1] derivedFromTemplate) = .err .attributeError := by
  refine ⟨?_, ?_⟩ <;> decide +kernel

/-- C46 is false of the code for containers of enumerated values: the chain `E2`, `E1`, `B.R.F0.E0` is resolved without
error or warning, but `E2` has lost the value. -/
theorem C46_enum_values_lost : Sample.okAnd (processDevice id 20 Sample.enumChain)
    (fun dev ws => ws == [] && (Sample.fields dev).map (fun f => (f.name, f.containers.map (fun c => c.values.map (·.name)))) ==
      [(s%"F0", [[s%"X"]]), (s%"F0", [[s%"X"]]), (s%"F0", [[s%"X"]]), (s%"F1", [[s%"X"]]), (s%"F2", [[]])]) = true := by
  decide +kernel

end Svd
