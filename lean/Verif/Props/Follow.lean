import Verif.Lemmas.FolInit
import Verif.Lemmas.FolCheck
import Verif.Props.Order
/-
C46: references may point forward and through several steps.
-/
namespace Svd
open Graph Spec

/-- The exceptions by which the resolver gives up on a reference: unresolvable references in a round that changes nothing
(`wrapLoop`), references that depend on each other (`wrapCycle`), elements left over (`wrapUnprocessed`), a reference that names
nothing (resolver.py:134), that names an element of another kind (137), or whose target is not processed yet (472). -/
def Spec.GivesUp : Exn → Prop
  | .process .wrapLoop | .process .wrapCycle | .process .wrapUnprocessed => True
  | .resolve 134 | .resolve 137 | .resolve 472 => True
  | _ => False

theorem follow_resolve {ord : List Nat → List Nat} {fuel : Nat} {d : SDevice} (hord : ∀ l, (ord l).Perm l) (hf : Followable d) {x : Exn}
    (h : resolvePeripherals ord fuel d = .err x) : NErr x ∨ x = .outOfFuel := by
  unfold resolvePeripherals at h
  rw [M.bind_eq_err] at h
  rcases h with h | ⟨g, w, h1, h⟩
  · exact Or.inl ((rsat_initialization d).err h)
  obtain ⟨lab, hl, -⟩ := lab_initialization h1
  have P := phase_initial h1 ⟨inv_initialization h1, ac_initialization h1, hl⟩
  have F := follow_rounds hord hf (fuel := fuel) (prev := []) P (fun k hk => by cases hk)
  rw [M.bind_eq_err] at h
  rcases h with h | ⟨g', w', h2, h⟩
  · exact F.1 x h
  have hac := C42_acyclic (C42_rounds (.init h1) h2)
  rw [if_neg (by rw [F.2 g' w' h2]; simp), M.bind_eq_err] at h
  rcases h with h | ⟨s, _, _, h⟩
  · exact Or.inl ((nf_finalizeProcessing hac).err h)
  · split at h
    · cases h
      exact Or.inl trivial
    · simp [M.pure] at h

/-- C46: if the references of a description can be followed, the resolver does not give up on any of them, in whatever order
the elements are declared and however many steps a chain of references has.  (Missing: what is said to be false below, and the
exceptions for defects of the data or of the finalization.) -/
theorem C46_followed_partial {ord : List Nat → List Nat} {fuel : Nat} {d : SDevice} {e : Exn} (hord : ∀ l, (ord l).Perm l)
    (hf : Followable d) (h : processDevice ord fuel d = .err e) : ¬ GivesUp e := by
  unfold processDevice at h
  rw [M.bind_eq_err] at h
  rcases h with h | ⟨ps, w, h1, h⟩
  · cases hr : resolvePeripherals ord fuel d with
    | ok ps w => rw [hr] at h; cases h
    | err x =>
      have hx := follow_resolve hord hf hr
      rw [hr] at h
      intro hg
      unfold wrapResolve at h
      split at h
      · cases h
      · injection h with h
        subst h
        exact hg
      · rename_i h'
        injection h' with h'
        subst h'
        rcases hx with hx | hx
        · exact hx
        · cases hx
      · rename_i h'
        injection h' with h'
        subst h'
        rcases hx with hx | hx
        · exact hx
        · cases hx
      · rename_i h'
        injection h' with h'
        subst h'
        rcases hx with hx | hx
        · exact hx
        · cases hx
      · rename_i h'
        injection h' with h'
        injection h with h
        subst h h'
        rcases hx with hx | rfl
        · revert hx hg
          unfold NErr GivesUp
          grind
        · exact hg
  · intro hg
    have := (fsat_finalize _ _).err h
    revert this hg
    cases e with
    | process p => cases p <;> first | exact fun _ h => h | exact fun h _ => h
    | _ => first | exact fun _ h => h | exact fun h _ => h

/-- C46: and processing ends, with the same outcome for every sufficiently large number of rounds: a device, or an exception that is
not about a reference. -/
theorem C46_ends_partial {ord : List Nat → List Nat} {d : SDevice} (hord : ∀ l, (ord l).Perm l) (hf : Followable d) :
    ∃ N r, (∀ fuel, N ≤ fuel → processDevice ord fuel d = r) ∧ r ≠ .err .outOfFuel ∧ ∀ e, r = .err e → ¬ GivesUp e := by
  have hin : NoClusterInItself d := fun x _ _ hi => hf.acyclic x (precedes_inside hi)
  obtain ⟨N, r, h1, h2⟩ := C47_ends_partial hord hin
  refine ⟨N, r, h2, h1, fun e he => ?_⟩
  exact C46_followed_partial hord hf ((h2 N (Nat.le_refl _)).trans he)

namespace Sample

/-- The registers `R` and `S`, which is derived from `R`, in the given order; `R` has a derived field. -/
def withField (first : Bool) : List SRC :=
  let r : SRC := .reg { name := s%"R", addressOffset := 0, fields := [{ name := s%"G", bitOffset := some 8, derivedFrom := some (s%"F") }, { name := s%"F", bitOffset := some 0, bitWidth := some 2 }] }
  if first then [r, rreg (s%"S") 4 (some (s%"R"))] else [rreg (s%"S") 4 (some (s%"R")), r]

/-- References to elements declared later, in several steps, by simple names and by paths, at all levels. -/
def forward (first : Bool) : SDevice :=
  rdev [rper (s%"B") 0x1000 (some (s%"A")) [rreg (s%"X") 0x40 (some (s%"A.S"))],
    rper (s%"A") 0 none (withField first ++ [
      .clu { name := s%"M", addressOffset := 0x20, derivedFrom := some (s%"N") } [],
      .clu { name := s%"N", addressOffset := 0x30 } [rreg (s%"Q") 0]]),
    rper (s%"C") 0x2000 (some (s%"B")) []]

end Sample

/-- C46: the hypothesis is met by a description with forward references at all levels. -/
theorem C46_followable_sample : ∀ b, Followable (Sample.forward b)
  | true => followable_of_check List.length
      (fun | [0] => 1 | [2] => 2 | [0, 0] => 2 | [1, 1] => 1 | [1, 0, 0] => 1 | [1, 2] => 1 | _ => 0)
      (fun | [0] => ([1], []) | [2] => ([0], []) | [0, 0] => ([1], [1]) | [1, 1] => ([1, 0], []) | [1, 0, 0] => ([1, 0, 1], [])
           | [1, 2] => ([1, 3], []) | _ => ([], [])) (by decide +kernel)
  | false => followable_of_check List.length
      (fun | [0] => 1 | [2] => 2 | [0, 0] => 2 | [1, 0] => 1 | [1, 1, 0] => 1 | [1, 2] => 1 | _ => 0)
      (fun | [0] => ([1], []) | [2] => ([0], []) | [0, 0] => ([1], [0]) | [1, 0] => ([1, 1], []) | [1, 1, 0] => ([1, 1, 1], [])
           | [1, 2] => ([1, 3], []) | _ => ([], [])) (by decide +kernel)

/-- It is accepted, and the elements that are derived from `R` have its fields. -/
theorem C46_forward : Sample.okAnd (processDevice id 10 (Sample.forward true))
    (fun dev ws => ws == [] && dev.peripherals.map (fun p => (p.name, p.registers.map (fun r => (r.name, r.fields.map (·.name))))) ==
      [(s%"A", [(s%"R", [s%"F", s%"G"]), (s%"S", [s%"F", s%"G"]), (s%"Q", []), (s%"Q", [])]),
       (s%"B", [(s%"R", [s%"F", s%"G"]), (s%"S", [s%"F", s%"G"]), (s%"Q", []), (s%"Q", []), (s%"X", [s%"F", s%"G"])]),
       (s%"C", [(s%"R", [s%"F", s%"G"]), (s%"S", [s%"F", s%"G"]), (s%"Q", []), (s%"Q", []), (s%"X", [s%"F", s%"G"])])]) = true := by
  decide +kernel

/-- C46 is false of the code for bases with derived elements in them: the description that is accepted if `R` is declared before
the register derived from it is refused, with an undocumented exception, if it is declared after it. -/
theorem C46_derived_in_base : processDevice id 10 (Sample.forward false) = .err .attributeError := by decide +kernel

end Svd
