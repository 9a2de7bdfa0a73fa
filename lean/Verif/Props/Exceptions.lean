import Verif.Props.Warnings
/-
Descriptions for which exceptions escape from processing (C48, see Props/Escape.lean).
-/
namespace Svd
open Spec

/-- A peripheral with one register `R%s`, three of them, and the given dimIndex. -/
def dimIndexDevice (s : Str) : SDevice :=
  Sample.devOf [.reg { name := s%"R%s", addressOffset := 0, dim := { dim := some 3, dimIncrement := some 4, dimIndex := some s } }]

/-- `D` derived from `B`, which is derived from the element `T0` made by a dim expansion. -/
def chainThroughDim : SDevice :=
  { hd := { name := s%"DEV", addressUnitBits := 8, width := 32 }
    peripherals := [
      { hd := { name := s%"D", baseAddress := 12288, derivedFrom := some (s%"B") } },
      { hd := { name := s%"B", baseAddress := 8192, derivedFrom := some (s%"T0") } },
      { hd := { name := s%"T[%s]", baseAddress := 0, dim := { dim := some 2, dimIncrement := some 64 }
                addressBlocks := [{ offset := 0, size := 16, usage := .registers }] }
        rcs := [.reg { name := s%"R", addressOffset := 0 }] }] }

/-- A peripheral derived from a dim instance whose template has a derived register. -/
def derivedFromTemplate : SDevice :=
  { hd := { name := s%"DEV", addressUnitBits := 8, width := 32 }
    peripherals := [
      { hd := { name := s%"B", baseAddress := 8192, derivedFrom := some (s%"A0") } },
      { hd := { name := s%"A[%s]", baseAddress := 0, dim := { dim := some 3, dimIncrement := some 64 }
                addressBlocks := [{ offset := 0, size := 16, usage := .registers }] }
        rcs := [.reg { name := s%"R", addressOffset := 0 },
                .reg { name := s%"S", addressOffset := 4, derivedFrom := some (s%"R") }] }] }

/-- A description error that is reported as documented. -/
example : processDevice id 10 (dimIndexDevice (s%"0-1")) = .err (.process .dimIndexCount) := by decide +kernel

end Svd
