import Verif.Lemmas.FlatResolve
import Verif.Lemmas.Fuel
import Verif.Props.Sample
/-
C45: what the resolver makes of a device without derivedFrom; C47: termination.
-/
namespace Svd
open Spec

variable {ord : List Nat → List Nat} {fuel : Nat} {d : SDevice} {dev : Device} {ws : List Warn}

/-- C45: the peripherals resolved from a description without derivedFrom are those of the recursive construction
`DeviceBuilt` (which knows nothing of graphs), whatever the set order `ord`. -/
theorem C45_resolved {ps : List IPeripheral} (hu : Underived d) (h : resolvePeripherals ord fuel d = .ok ps ws) : DeviceBuilt d ps :=
  resolve_built hu h

/-- C45, for the whole of processing: the result is obtained from the recursive construction by inheritance of properties and
validation alone. -/
theorem C45_processed (hu : Underived d) (h : processDevice ord fuel d = .ok dev ws) :
    ∃ ps w, DeviceBuilt d ps ∧ validateAndFinalize (inheritDevice ⟨deviceHead d.hd, ps⟩) = .ok dev w :=
  process_built hu h

/-- C47: if processing does not end, it is the main loop of the resolver that does not end: building the graph, the final
traversal, inheritance and validation end. -/
theorem C47_only_main_loop (h : processDevice ord fuel d = .err .outOfFuel) :
    ∃ g w, initialization d = .ok g w ∧ rounds ord fuel g [] = .err .outOfFuel :=
  resolve_rounds (process_resolve_err.1 h) (fun h => h.ne.2 rfl) (by simp)

/-- C47 for descriptions without derivedFrom: two rounds are enough, so processing ends, with the same outcome whatever
number of rounds is allowed; the loop check does not fire.  Missing: descriptions with derivedFrom. -/
theorem C47_underived_partial (hu : Underived d) (f : Nat) :
    processDevice ord (f + 2) d = processDevice ord 2 d ∧ processDevice ord 2 d ≠ .err .outOfFuel ∧
    processDevice ord 2 d ≠ .err (.process .wrapLoop) := by
  obtain ⟨g, h1, h2, h3, h4⟩ := underived_rounds ord hu f
  refine ⟨?_, ?_, ?_⟩
  · unfold processDevice resolvePeripherals
    rw [h1]
    simp only [M.bind_ok_nil, h2]
  · intro h
    obtain ⟨g', w, h5, h6⟩ := resolve_rounds (process_resolve_err.1 h) (fun h => h.ne.2 rfl) (by simp)
    rw [h1] at h5; cases h5
    exact h3 h6
  · intro h
    obtain ⟨g', w, h5, h6⟩ := resolve_rounds (process_resolve_err.2 h) (fun h => h.ne.1 rfl) (by simp)
    rw [h1] at h5; cases h5
    exact h4 h6

/-- C47: whatever the description, an outcome (result or exception) reached within some number of rounds is the outcome for
every larger number. -/
theorem C47_more_rounds (h : processDevice ord fuel d ≠ .err .outOfFuel) (k : Nat) :
    processDevice ord (fuel + k) d = processDevice ord fuel d := by
  cases hi : initialization d with
  | err e =>
    unfold processDevice resolvePeripherals
    rw [hi]
    rfl
  | ok g w =>
    have hr : rounds ord fuel g [] ≠ .err .outOfFuel := by
      intro hc
      refine h ?_
      unfold processDevice resolvePeripherals
      rw [hi]
      simp only [M.bind, hc, wrapResolve]
    unfold processDevice resolvePeripherals
    rw [hi]
    simp only [M.bind]
    rw [rounds_stable hr k]

namespace Sample
/-- `dev` without its derived peripheral. -/
def plain : SDevice := { Sample.dev with peripherals := Sample.dev.peripherals.take 1 }

/-- The elements of a register. -/
def ofRegister (r : SRegister) : List Parsed :=
  .reg r :: r.fields.flatMap fun f => .field f :: f.containers.map .enum

mutual
/-- The elements of a register or cluster. -/
def ofSRC : SRC → List Parsed
  | .reg r => ofRegister r
  | .clu c ch => .clu c :: ofSRCs ch
/-- The elements of a list of registers and clusters. -/
def ofSRCs : List SRC → List Parsed
  | [] => []
  | x :: xs => ofSRC x ++ ofSRCs xs
end

/-- All declared elements of a device. -/
def declared (d : SDevice) : List Parsed := .device :: d.peripherals.flatMap fun p => .periph p.hd :: ofSRCs p.rcs

theorem ofSRCs_mem {xs : List SRC} {x : SRC} (h : x ∈ xs) {p : Parsed} (hp : p ∈ ofSRC x) : p ∈ ofSRCs xs := by
  induction xs with
  | nil => cases h
  | cons y ys ih =>
    rw [ofSRCs, List.mem_append]
    rcases List.mem_cons.1 h with rfl | h
    · exact .inl hp
    · exact .inr (ih h)

theorem below_mem {xs : List SRC} {x : SRC} (h : SBelow xs x) {p : Parsed} (hp : p ∈ ofSRC x) : p ∈ ofSRCs xs := by
  induction h with
  | here h => exact ofSRCs_mem h hp
  | inside h _ ih => exact ofSRCs_mem h (by rw [ofSRC]; exact List.mem_cons_of_mem _ (ih hp))

theorem declared_mem {d : SDevice} {p : Parsed} (h : Declared d p) : p ∈ declared d := by
  have key : ∀ (q : SPeriphT) (x : Parsed), q ∈ d.peripherals → x ∈ Parsed.periph q.hd :: ofSRCs q.rcs → x ∈ declared d := fun q x hq hx =>
    List.mem_cons_of_mem _ (List.mem_flatMap.2 ⟨q, hq, hx⟩)
  cases h with
  | device => exact List.mem_cons_self
  | periph h => exact key _ _ h List.mem_cons_self
  | clu h hb => exact key _ _ h (List.mem_cons_of_mem _ (below_mem hb (by rw [ofSRC]; exact List.mem_cons_self)))
  | reg h hb => exact key _ _ h (List.mem_cons_of_mem _ (below_mem hb (by rw [ofSRC, ofRegister]; exact List.mem_cons_self)))
  | field h hb hf =>
    refine key _ _ h (List.mem_cons_of_mem _ (below_mem hb ?_))
    rw [ofSRC, ofRegister]
    exact List.mem_cons_of_mem _ (List.mem_flatMap.2 ⟨_, hf, List.mem_cons_self⟩)
  | enum h hb hf he =>
    refine key _ _ h (List.mem_cons_of_mem _ (below_mem hb ?_))
    rw [ofSRC, ofRegister]
    exact List.mem_cons_of_mem _ (List.mem_flatMap.2 ⟨_, hf, List.mem_cons_of_mem _ (List.mem_map.2 ⟨_, he, rfl⟩)⟩)

theorem underived_of {d : SDevice} (h : (declared d).all (fun p => p.derivedFrom.isNone) = true) : Underived d := by
  intro p hp
  have := List.all_eq_true.1 h p (declared_mem hp)
  cases hd : p.derivedFrom with
  | none => rfl
  | some x => rw [hd] at this; cases this
end Sample

theorem plain_underived : Underived Sample.plain := Sample.underived_of (by decide +kernel)

/-- C45, C47: the hypotheses are met: a device with a cluster, a register list, fields and enumerated values. -/
theorem C45_sample : Underived Sample.plain ∧ Sample.okAnd (processDevice id 2 Sample.plain) (fun dev _ =>
    (Sample.registers dev).map (fun r => (r.name, r.addressOffset, r.props.size)) ==
      [(s%"CTRL", 0, 32), (s%"DATA0", 4, 32), (s%"DATA1", 8, 32), (s%"CFG", 4, 32)]) = true :=
  ⟨plain_underived, by decide +kernel⟩

end Svd
