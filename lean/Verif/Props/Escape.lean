import Verif.Lemmas.EscapeFin
import Verif.Props.Exceptions
import Verif.Props.Resolve
/-
Which exceptions escape from processing: C48.
-/
namespace Svd
open Spec

/-- The exceptions that are no `ProcessException` and nevertheless leave `Process`: seven of the `raise ResolveException` lines of
resolver.py and graph_elements.py, and four exceptions of Python.  (`outOfFuel` is not an exception of the code: it marks a run of the model with too small a
bound on the number of rounds.) -/
inductive Undocumented : Exn → Prop
  /-- resolver.py:93: the device has no peripherals. -/
  | noPeripherals : Undocumented (.resolve 93)
  /-- graph_elements.py:97: an element is used before it is processed; resolver.py:303: two elements fit a derivedFrom path. -/
  | unprocessedElement : Undocumented (.resolve 97)
  | ambiguous : Undocumented (.resolve 303)
  /-- resolver.py:134, 472: the base of an element is missing or not processed. -/
  | noBase : Undocumented (.resolve 134)
  | unprocessedBase : Undocumented (.resolve 472)
  /-- resolver.py:345: an enumerated value container has something below it. -/
  | unknownLevel : Undocumented (.resolve 345)
  /-- resolver.py:425: no child has a size. -/
  | noSize : Undocumented (.resolve 425)
  | key : Undocumented .keyError
  | value : Undocumented .valueError
  | type : Undocumented .typeError
  | attribute : Undocumented .attributeError
  | fuel : Undocumented .outOfFuel

/-- C48, the part that holds: whatever the device, an exception of processing is a `ProcessException` or one of the
undocumented exceptions above.  In particular the four dedicated resolver exceptions (enumerated value containers, loops, cycles,
unprocessed nodes) always arrive as `ProcessException`, and the internal errors of the dependency graph (its class `ResolverGraphException`,
"adding this edge would make a cycle", "no edge between these nodes") and all other `ResolveException`s never occur.
Missing: the undocumented ones do occur, see `C48_undocumented`. -/
theorem C48_exceptions_partial {ord : List Nat → List Nat} (hord : ∀ l, (ord l).Perm l) {fuel : Nat} {d : SDevice} {e : Exn}
    (h : processDevice ord fuel d = .err e) : (∃ p, e = .process p) ∨ Undocumented e := by
  unfold processDevice at h
  rcases M.bind_eq_err.1 h with h | ⟨ps, w, -, h⟩
  · cases hr : resolvePeripherals ord fuel d with
    | ok ps w => rw [hr] at h; cases h
    | err x =>
      have h1 := (rsat_resolvePeripherals ord fuel d).err hr
      have h2 := (ksat_resolvePeripherals hord fuel).err hr
      rw [hr] at h
      cases x with
      | resolve l =>
        simp only [wrapResolve, M.err.injEq] at h
        subst h
        right
        unfold Kept at h2
        split at h2
        all_goals first | (rename_i heq; injection heq with heq; subst heq; constructor) | exact h2.elim | skip
        all_goals grind [Undocumented]
      | _ =>
        simp only [wrapResolve, M.err.injEq] at h
        subst h
        first
        | exact Or.inl ⟨_, rfl⟩
        | exact Or.inr (by constructor)
        | exact h1.elim
        | exact h2.elim
  · have := (fsat_finalize (deviceHead d.hd) ps).err h
    cases e with
    | process p => exact Or.inl ⟨p, rfl⟩
    | keyError => exact Or.inr .key
    | _ => exact this.elim

namespace Sample

/-- `B` is derived from an array element whose template has a register derived from nothing that exists. -/
def missingInTemplate : SDevice :=
  rdev [rper (s%"B") 8192 (some (s%"A0")) [],
    { hd := { name := s%"A[%s]", baseAddress := 0, dim := { dim := some 3, dimIncrement := some 64 }
              addressBlocks := [{ offset := 0, size := 16, usage := .registers }] }
      rcs := [rreg (s%"R") 0, rreg (s%"S") 4 (some (s%"X"))] }]

/-- A container with one value. -/
def oneValue (n : Str) (u : Usage) (df : Option Str) : SEnumContainer :=
  { name := some n, usage := u, derivedFrom := df, values := [{ name := s%"a", value := some (s%"0") }] }

/-- The field `G` is derived from the later field `F`, one container of which is derived from the other. -/
def derivedContainer : SDevice :=
  rdev [rper (s%"A") 0 none [.reg { name := s%"R", addressOffset := 0, fields := [
    { name := s%"G", bitOffset := some 8, bitWidth := some 2, derivedFrom := some (s%"F") },
    { name := s%"F", bitOffset := some 0, bitWidth := some 2, containers := [oneValue (s%"E1") .read none, oneValue (s%"E2") .write (some (s%"E1"))] }] }]]

/-- Two peripherals of one name and a reference to it; two registers of one name and a reference to it. -/
def twoA : SDevice := rdev [rper (s%"A") 0 none [rreg (s%"R") 0], rper (s%"A") 64 none [rreg (s%"R") 0], rper (s%"B") 128 (some (s%"A")) []]
def twoR : SDevice := rdev [rper (s%"A") 0 none [rreg (s%"R") 0, rreg (s%"R") 4, rreg (s%"S") 8 (some (s%"R"))]]

/-- A register of negative size. -/
def negativeSize : SDevice := rdev [rper (s%"A") 0 none [.reg { name := s%"R", addressOffset := 0, props := { size := some (-8) } }]]

end Sample
open Sample

/-- C48 as stated is false of the code: each of the exceptions of `Undocumented` leaves `Process` for errors (or no errors:
`chainThroughDim`, `derivedFromTemplate`, `derivedContainer`) in the description. -/
theorem C48_undocumented :
    processDevice id 10 (rdev []) = .err (.resolve 93) ∧
    processDevice id 10 twoA = .err (.resolve 97) ∧
    processDevice id 10 twoR = .err (.resolve 303) ∧
    processDevice id 10 missingInTemplate = .err (.resolve 134) ∧
    processDevice id 10 chainThroughDim = .err (.resolve 472) ∧
    processDevice id 10 derivedContainer = .err (.resolve 345) ∧
    processDevice id 10 negativeSize = .err (.resolve 425) ∧
    processDevice id 10 (dimIndexDevice (s%"0-2a")) = .err .valueError ∧
    processDevice id 10 (dimIndexDevice (s%"A-Cx")) = .err .typeError ∧
    processDevice id 10 derivedFromTemplate = .err .attributeError ∧
    processDevice id 10 (twoPeripherals 0 64 (some (s%"X"))) = .err .keyError := by
  refine ⟨?_, ?_, ?_, ?_, ?_, ?_, ?_, ?_, ?_, ?_, ?_⟩ <;> decide +kernel

end Svd
