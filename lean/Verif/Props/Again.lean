import Verif.Lemmas.AgainDev
import Verif.Props.Build
import Verif.Props.Xml
/-
C35: processing is idempotent through conversion.
-/
namespace Svd
open Spec

section
variable {ord : List Nat → List Nat} {fuel : Nat} {d : SDevice} {dev : Device} {ws : List Warn}

/-- C35: processing the converted form of a processed device gives that device again (with any order of nodes and with any fuel of at
least 2), provided that no name contains a dim marker, the values of each container have different names, and the size of each peripheral and
cluster is that of one of its members. -/
theorem C35_again (h : processDevice ord fuel d = .ok dev ws) (hr : Reprocessable dev) (ord' : List Nat → List Nat) (f : Nat) :
    ∃ ws', processDevice ord' (f + 2) (convDevice dev) = .ok dev ws' :=
  process_again h hr ord' f

/-- C35: the condition on sizes holds if no element was ignored with a warning. -/
theorem C35_sizes (h : processDevice ord fuel d = .ok dev ws) (hw : ∀ w ∈ ws, SaysIgnored w = false) :
    (∀ p ∈ dev.peripherals, ∃ x ∈ p.rcs, x.size = p.props.size) ∧ ∀ c ch, HasCluster dev c ch → ∃ x ∈ ch, x.size = c.props.size := by
  have hno : ¬ ∃ w ∈ ws, SaysIgnored w = true := by
    rintro ⟨w, h1, h2⟩
    rw [hw w h1] at h2
    cases h2
  exact ⟨fun p hp => (C19_peripheral h hp).2.resolve_right hno, fun c ch hc => (C19_cluster h hc).2.resolve_right hno⟩

/-- C35 for devices processed without ignored elements. -/
theorem C35_clean (h : processDevice ord fuel d = .ok dev ws) (hw : ∀ w ∈ ws, SaysIgnored w = false) (hs : dev.peripherals ≠ [])
    (hp : ∀ p ∈ dev.peripherals, ¬ Contains listMark p.name) (hc : ∀ c ch, HasCluster dev c ch → ¬ Contains listMark c.name)
    (hr : ∀ r, HasRegister dev r → ¬ Contains listMark r.name ∧ ∀ s, r.displayName = some s → ¬ Contains listMark s)
    (hf : ∀ f, HasField dev f → ¬ Contains listMark f.name ∧ ∀ c ∈ f.containers, (c.values.map (·.name)).Nodup)
    (ord' : List Nat → List Nat) (f : Nat) : ∃ ws', processDevice ord' (f + 2) (convDevice dev) = .ok dev ws' :=
  have hz := C35_sizes h hw
  C35_again h ⟨hs, fun p hm => ⟨hp p hm, hz.1 p hm⟩, fun c ch hm => ⟨hc c ch hm, hz.2 c ch hm⟩, hr, hf⟩ ord' f

/-- C35, C36: the same through a file: convert, write as XML, read, process. -/
theorem C35_through_xml (h : processDevice ord fuel d = .ok dev ws) (hr : Reprocessable dev) (hx : DeviceOK (convDevice dev))
    (fmt : Nat → Option Str) (ord' : List Nat → List Nat) (f : Nat) :
    ∃ ws', M.bind (serializeThenParse fmt (convDevice dev)) (processDevice ord' (f + 2)) = .ok dev ws' := by
  obtain ⟨w, hw⟩ := C35_again h hr ord' f
  exact bind_ex (C36_round_trip fmt hx) ⟨w, hw⟩

end

namespace Sample

def cluOf : RC → Option (ClusterHd × List RC)
  | .reg _ => none
  | .clu c ch => some (c, ch)

def below (d : Device) : List RC := d.peripherals.flatMap fun p => allRCs p.rcs

theorem mem_allRC_self (x : RC) : x ∈ allRC x := by cases x <;> simp [allRC]

theorem mem_allRCs {x : RC} : ∀ {xs : List RC} {y : RC}, y ∈ xs → x ∈ allRC y → x ∈ allRCs xs
  | z :: xs, y, h, hx => by
    rw [allRCs, List.mem_append]
    rcases List.mem_cons.1 h with rfl | h
    · exact Or.inl hx
    · exact Or.inr (mem_allRCs h hx)

theorem below_allRCs {xs : List RC} {x : RC} (h : Below xs x) : x ∈ allRCs xs := by
  induction h with
  | here h => exact mem_allRCs h (mem_allRC_self _)
  | inside h _ ih => exact mem_allRCs h (by rw [allRC]; exact List.mem_cons_of_mem _ ih)

/-- A test for `Reprocessable`. -/
def reprocessableB (d : Device) : Bool :=
  !d.peripherals.isEmpty &&
  d.peripherals.all (fun p => !hasSub listMark p.name && p.rcs.any fun x => x.size == p.props.size) &&
  (below d).all fun x => match x with
    | .clu c ch => !hasSub listMark c.name && ch.any fun x => x.size == c.props.size
    | .reg r => !hasSub listMark r.name && !dispHas listMark r.displayName &&
        r.fields.all fun f => !hasSub listMark f.name && f.containers.all fun c => decide (c.values.map (·.name)).Nodup

theorem reprocessable_of {d : Device} (h : reprocessableB d = true) : Reprocessable d := by
  simp only [reprocessableB, Bool.and_eq_true, List.all_eq_true] at h
  obtain ⟨⟨h1, h2⟩, h3⟩ := h
  have hm : ∀ x p, p ∈ d.peripherals → Below p.rcs x → x ∈ below d := fun x p hp hb => List.mem_flatMap.2 ⟨p, hp, below_allRCs hb⟩
  have hno : ∀ s, (!hasSub listMark s) = true → ¬ Contains listMark s := fun s hs => hasSub_false.1 (by simpa using hs)
  have hreg : ∀ r, HasRegister d r → _ := fun r hr => h3 (.reg r) (hm _ _ hr.choose_spec.1 hr.choose_spec.2)
  simp only [Bool.and_eq_true, List.all_eq_true] at hreg
  refine ⟨?_, ?_, ?_, ?_, ?_⟩
  · intro hc; rw [hc] at h1; cases h1
  · intro p hp
    obtain ⟨h4, h5⟩ := h2 p hp
    obtain ⟨x, hx, h6⟩ := List.any_eq_true.1 h5
    exact ⟨hno _ h4, x, hx, by simpa using h6⟩
  · rintro c ch ⟨p, hp, hb⟩
    have h4 := h3 _ (hm _ _ hp hb)
    simp only [Bool.and_eq_true] at h4
    obtain ⟨x, hx, h6⟩ := List.any_eq_true.1 h4.2
    exact ⟨hno _ h4.1, x, hx, by simpa using h6⟩
  · intro r hr
    obtain ⟨⟨h4, h5⟩, -⟩ := hreg r hr
    refine ⟨hno _ h4, ?_⟩
    intro s hs
    rw [hs] at h5
    exact hno s h5
  · rintro f ⟨r, hr, hf⟩
    obtain ⟨-, h6⟩ := hreg r hr
    obtain ⟨h7, h8⟩ := h6 f hf
    exact ⟨hno _ h7, fun c hc => by simpa using h8 c hc⟩

/-- C35: the conditions are met by a device with derived peripherals, a cluster, a register list, fields and enumerated values. -/
theorem C35_sample : okAnd (processDevice id 10 dev) (fun dev _ => reprocessableB dev && decide (dev.peripherals.length = 2)) = true := by
  decide +kernel

/-- Processing, conversion, processing. -/
def twice (d : SDevice) (p : Device → M Device → Bool) : Bool := okAnd (processDevice id 10 d) fun dev _ => p dev (processDevice id 10 (convDevice dev))

def odd : SRegister :=
  { name := s%"R%%s", addressOffset := 0, props := { size := some 32 }, dim := { dim := some 1, dimIndex := some (s%"s"), dimIncrement := some 4 } }

/-- C35 needs its conditions: a register list `R%%s` with the index `s` gives a register called `R%s`, whose conversion is rejected. -/
theorem C35_marker : twice (devOf [.reg odd])
    (fun dev x => (registers dev).any (fun r => r.name == s%"R%s") && errAnd x fun e => e == .process .dimNoneName) = true := by decide +kernel

/-- ... the size of an ignored register counts the first time only, ... -/
theorem C35_ignored : twice (devOf [.reg { name := s%"R", addressOffset := 0, props := { size := some 32 } }, .reg { name := s%"reserved", addressOffset := 8, props := { size := some 64 } }])
    (fun dev x => dev.peripherals.all (fun p => p.props.size == 64) && okAnd x fun dev' _ => dev'.peripherals.all fun p => p.props.size == 32) = true := by
  decide +kernel

/-- ... of two values with the same name (see C04) the second is lost, ... -/
theorem C35_clash : twice (devOfValues [{ name := s%"D_1", value := some (s%"0") }, { name := s%"D", isDefault := some true }])
    (fun dev x => (fields dev).any (fun f => f.containers.any fun c => c.values.length == 4) &&
      okAnd x fun dev' _ => (fields dev').any fun f => f.containers.any fun c => c.values.length == 3) = true := by decide +kernel

/-- ... and a device whose peripherals were all ignored is rejected. -/
theorem C35_empty : twice (devOf []) (fun dev x => dev.peripherals.isEmpty && errAnd x fun e => e == .resolve 93) = true := by decide +kernel

end Sample
end Svd
