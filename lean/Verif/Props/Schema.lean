import Verif.Lemmas.SchemaConv
import Verif.Model.Convert
import Verif.Props.Sample
import Verif.Props.EnumValues
/-
C71: the structure of written documents.
-/
namespace Svd
open Spec CM

/-- C71: The document written for a description has the structure of the schema exactly when the description gives no more and
no less than the schema asks for. -/
theorem C71_written (d : SDevice) : Structured (serDevice d).root ↔ Conforms d :=
  ⟨fits_device, structured_device⟩

theorem dimFits_empty : DimWhole {} := ⟨.inr ⟨rfl, rfl, rfl, rfl, rfl⟩, by intro a ha; cases ha⟩

theorem enumValueFits_conv (v : EnumValue) : ¬ EnumValueFits (convEnumValue v) := fun h => h.one rfl

theorem fieldFits_conv {f : Field} : FieldFits (convField f) ↔ FieldExpressible f := by
  constructor
  · intro h
    refine ⟨h.constraint, by simpa [convField] using h.two, fun c hc => ?_⟩
    cases hv : c.values with
    | nil => rfl
    | cons v vs =>
      exact absurd (h.values (convEnumContainer c) (List.mem_map_of_mem hc) (convEnumValue v)
        (List.mem_map_of_mem (by rw [hv]; exact List.mem_cons_self))) (enumValueFits_conv v)
  · intro h
    refine ⟨dimFits_empty, .inl ⟨rfl, rfl, (fun h => by cases h.1), rfl⟩, h.constraint, by simpa [convField] using h.two, ?_⟩
    intro c hc v hv
    obtain ⟨k, hk, rfl⟩ := List.mem_map.1 hc
    have : (convEnumContainer k).values = [] := by
      show k.values.map convEnumValue = []
      rw [h.values k hk]; rfl
    rw [this] at hv
    cases hv

theorem registerFits_conv {r : Register} : RegisterFits (convRegister r) ↔ RegisterExpressible r := by
  constructor
  · intro h
    exact ⟨h.alternate, h.constraint, fun f hf => fieldFits_conv.1 (h.fields _ (List.mem_map_of_mem hf))⟩
  · intro h
    refine ⟨dimFits_empty, h.alternate, h.constraint, fun f hf => ?_⟩
    obtain ⟨k, hk, rfl⟩ := List.mem_map.1 hf
    exact fieldFits_conv.2 (h.fields k hk)

mutual
/-- A register or a cluster with everything below; a cluster has a description. -/
def RCExpressible : RC → Prop
  | .reg r => RegisterExpressible r
  | .clu c ch => c.description.isSome ∧ RCsExpressible ch
/-- A list of registers and clusters. -/
def RCsExpressible : List RC → Prop
  | [] => True
  | x :: xs => RCExpressible x ∧ RCsExpressible xs
end

mutual
theorem rcFits_conv (x : RC) : RCFits (convRC x) ↔ RCExpressible x := by
  match x with
  | .reg r => exact registerFits_conv
  | .clu c ch =>
    show ClusterFits (convClusterHd c) ∧ RCsFit (convRCs ch) ↔ c.description.isSome ∧ RCsExpressible ch
    rw [rcsFit_conv ch]
    exact ⟨fun h => ⟨h.1.description, h.2⟩, fun h => ⟨⟨dimFits_empty, h.1⟩, h.2⟩⟩
theorem rcsFit_conv (xs : List RC) : RCsFit (convRCs xs) ↔ RCsExpressible xs := by
  match xs with
  | [] => exact Iff.rfl
  | y :: ys =>
    show RCFits (convRC y) ∧ RCsFit (convRCs ys) ↔ RCExpressible y ∧ RCsExpressible ys
    rw [rcFits_conv y, rcsFit_conv ys]
end

theorem rcsExpressible_below : ∀ {xs : List RC} {x : RC}, Below xs x → RCsExpressible xs → RCExpressible x
  | y :: ys, x, .here hm, h => by
    rcases List.mem_cons.1 hm with rfl | hm
    · exact h.1
    · exact rcsExpressible_below (.here hm) h.2
  | y :: ys, x, .inside hm hb, h => by
    rcases List.mem_cons.1 hm with rfl | hm
    · exact rcsExpressible_below hb h.1.2
    · exact rcsExpressible_below (.inside hm hb) h.2

mutual
theorem rcExpressible_of (x : RC) (h : ∀ y, Below [x] y → match y with
    | .reg r => RegisterExpressible r
    | .clu c _ => c.description.isSome = true) : RCExpressible x := by
  match x with
  | .reg r => exact h (.reg r) (.here (List.mem_singleton.2 rfl))
  | .clu c ch =>
    exact ⟨h (.clu c ch) (.here (List.mem_singleton.2 rfl)),
      rcsExpressible_of ch fun y hy => h y (.inside (List.mem_singleton.2 rfl) hy)⟩
theorem rcsExpressible_of (xs : List RC) (h : ∀ y, Below xs y → match y with
    | .reg r => RegisterExpressible r
    | .clu c _ => c.description.isSome = true) : RCsExpressible xs := by
  match xs with
  | [] => trivial
  | x :: xs =>
    refine ⟨rcExpressible_of x fun y hy => h y ?_, rcsExpressible_of xs fun y hy => h y ?_⟩
    · cases hy with
      | here hm => rw [List.mem_singleton.1 hm]; exact .here List.mem_cons_self
      | inside hm hb => exact .inside (List.mem_cons.2 (.inl (List.mem_singleton.1 hm))) hb
    · cases hy with
      | here hm => exact .here (List.mem_cons_of_mem _ hm)
      | inside hm hb => exact .inside (List.mem_cons_of_mem _ hm) hb
end

/-- C71: The conversion of a processed device is written in the structure of the schema exactly when the device is expressible:
in particular no field has any enumerated value, and every cluster has a description. -/
theorem C71_converted (d : Device) : Structured (serDevice (convDevice d)).root ↔ Expressible d := by
  rw [C71_written]
  constructor
  · intro h
    have hr : ∀ p ∈ d.peripherals, RCsExpressible p.rcs :=
      fun p hp => (rcsFit_conv _).1 (h.rcs (convPeripheral p) (List.mem_map_of_mem hp))
    refine ⟨fun he => h.nonempty (by simp [convDevice, he]), ?_, ?_⟩
    · rintro r ⟨p, hp, hb⟩
      exact rcsExpressible_below hb (hr p hp)
    · rintro c ch ⟨p, hp, hb⟩
      exact (rcsExpressible_below hb (hr p hp)).1
  · intro h
    refine ⟨fun he => h.nonempty (by simpa [convDevice] using he), fun q hq => ?_, fun q hq => ?_⟩
    · obtain ⟨p, hp, rfl⟩ := List.mem_map.1 hq
      exact dimFits_empty
    · obtain ⟨p, hp, rfl⟩ := List.mem_map.1 hq
      refine (rcsFit_conv _).2 (rcsExpressible_of _ fun y hy => ?_)
      cases y with
      | reg r => exact h.registers r ⟨p, hp, hy⟩
      | clu c ch => exact h.clusters c ch ⟨p, hp, hy⟩

/-- C71: As soon as one field of a processed device has an enumerated value, the document written for the conversion does not
have the structure of the schema. -/
theorem C71_enumerated_value {d : Device} {f : Field} {c : EnumContainer} (hf : HasField d f) (hc : c ∈ f.containers) (hv : c.values ≠ []) :
    ¬ Structured (serDevice (convDevice d)).root := by
  intro h
  obtain ⟨r, hr, hf⟩ := hf
  exact hv (((((C71_converted d).1 h).registers r hr).fields f hf).values c hc)

/-- C71: For a device that processing gives, no field has more than two enumeratedValues; so the document written for it has the
structure of the schema exactly when it has a peripheral, no enumerated value, a description for each cluster, no register with both
alternateGroup and alternateRegister, and only write constraints of exactly one kind. -/
theorem C71_processed {ord : List Nat → List Nat} {fuel : Nat} {d : SDevice} {dev : Device} {ws : List Warn} (h : processDevice ord fuel d = .ok dev ws) :
    Structured (serDevice (convDevice dev)).root ↔ dev.peripherals ≠ [] ∧
      (∀ r, HasRegister dev r → (r.alternateGroup = none ∨ r.alternateRegister = none) ∧ ∀ c ∈ r.writeConstraint, ConstraintFits c) ∧
      (∀ f, HasField dev f → (∀ c ∈ f.writeConstraint, ConstraintFits c) ∧ ∀ c ∈ f.containers, c.values = []) ∧
      ∀ c ch, HasCluster dev c ch → c.description.isSome := by
  rw [C71_converted]
  constructor
  · intro e
    refine ⟨e.nonempty, fun r hr => ⟨(e.registers r hr).alternate, (e.registers r hr).constraint⟩, ?_, e.clusters⟩
    rintro f ⟨r, hr, hf⟩
    exact ⟨((e.registers r hr).fields f hf).constraint, ((e.registers r hr).fields f hf).values⟩
  · rintro ⟨h1, h2, h3, h4⟩
    refine ⟨h1, fun r hr => ⟨(h2 r hr).1, (h2 r hr).2, fun f hf => ?_⟩, h4⟩
    exact ⟨(h3 f ⟨r, hr, hf⟩).1, (C06_read_and_write_view h ⟨r, hr, hf⟩).1, (h3 f ⟨r, hr, hf⟩).2⟩

/-- A description with dim lists, a cluster, all three position notations and enumerated values. -/
def orderly : SDevice :=
  { Sample.dev with
    peripherals := [
      { hd := { name := s%"A", baseAddress := 4096, addressBlocks := [{ offset := 0, size := 32, usage := .registers }], interrupts := [{ name := s%"I", value := 3 }] }
        rcs := [.reg Sample.ctrl, .reg Sample.data, .clu { name := s%"CH", description := some (s%"a channel"), addressOffset := 16 } [.reg { name := s%"CFG", addressOffset := 4, writeConstraint := some { writeAsRead := some true } }]] },
      { hd := { name := s%"B", baseAddress := 8192, derivedFrom := some (s%"A") } }] }

theorem orderly_fits : Conforms orderly := by
  have hv : ∀ v ∈ Sample.modeValues.values, EnumValueFits v := by
    intro v hv
    simp only [Sample.modeValues, List.mem_cons, List.not_mem_nil, or_false] at hv
    rcases hv with rfl | rfl | rfl <;> exact ⟨by simp [OneOf2]⟩
  have hf : ∀ f ∈ Sample.ctrl.fields, FieldFits f := by
    intro f hf
    simp only [Sample.ctrl, List.mem_cons, List.not_mem_nil, or_false] at hf
    rcases hf with rfl | rfl | rfl | rfl
    · exact ⟨dimFits_empty, by simp, by simp, by simp, by simp⟩
    · exact ⟨dimFits_empty, by simp, by simp, by simp, by simpa using hv⟩
    · exact ⟨dimFits_empty, by simp, by simp, by simp, by simp⟩
    · exact ⟨dimFits_empty, by simp, by simp, by simp, by simp⟩
  refine ⟨by simp [orderly], ?_, ?_⟩
  · intro p hp
    simp only [orderly, List.mem_cons, List.not_mem_nil, or_false] at hp
    rcases hp with rfl | rfl <;> exact dimFits_empty
  · intro p hp
    simp only [orderly, List.mem_cons, List.not_mem_nil, or_false] at hp
    rcases hp with rfl | rfl
    · refine ⟨⟨dimFits_empty, .inl rfl, (by intro c hc; cases hc), hf⟩, ⟨⟨.inl ⟨rfl, rfl⟩, by intro a ha; cases ha⟩, .inl rfl, (by intro c hc; cases hc), by intro f hf; cases hf⟩, ⟨⟨dimFits_empty, rfl⟩, ⟨dimFits_empty, .inl rfl, ?_, by intro f hf; cases hf⟩, trivial⟩, trivial⟩
      intro c hc
      cases hc
      exact .inl ⟨rfl, rfl, rfl⟩
    · trivial

/-- C71: Beside C71_written and C71_enumerated_value: a description that fits, so that the document written for it has the structure of
the schema, is processed without an error, and the document written for the result does not have it. -/
theorem C71_not_kept : Structured (serDevice orderly).root ∧ ∃ dev ws, processDevice id 10 orderly = .ok dev ws ∧
    ¬ Structured (serDevice (convDevice dev)).root := by
  refine ⟨(C71_written _).2 orderly_fits, ?_⟩
  obtain ⟨dev, ws, h, hp⟩ := Sample.okAnd_spec (x := processDevice id 10 orderly)
    (p := fun dev _ => (Sample.fields dev).any fun f => f.containers.any fun c => !c.values.isEmpty) (by decide +kernel)
  refine ⟨dev, ws, h, ?_⟩
  obtain ⟨f, hf, hp⟩ := List.any_eq_true.1 hp
  obtain ⟨c, hc, hp⟩ := List.any_eq_true.1 hp
  exact C71_enumerated_value (Sample.fields_has hf) hc (by cases hv : c.values <;> simp [hv] at hp ⊢)

mutual
/-- A test for the sample below. -/
def plainRC : RC → Bool
  | .reg r => r.alternateGroup.isNone && r.writeConstraint.isNone && r.fields.all fun f => f.writeConstraint.isNone && f.containers.isEmpty
  | .clu c ch => c.description.isSome && plainRCs ch
/-- The test for a list. -/
def plainRCs : List RC → Bool
  | [] => true
  | x :: xs => plainRC x && plainRCs xs
end

mutual
theorem rcExpressible_plain (x : RC) (h : plainRC x = true) : RCExpressible x := by
  match x with
  | .reg r =>
    simp only [plainRC, Bool.and_eq_true, Option.isNone_iff_eq_none, List.all_eq_true, List.isEmpty_iff] at h
    refine ⟨.inl h.1.1, by simp [h.1.2], fun f hf => ?_⟩
    have := h.2 f hf
    exact ⟨by simp [this.1], by simp [this.2], by simp [this.2]⟩
  | .clu c ch =>
    simp only [plainRC, Bool.and_eq_true] at h
    exact ⟨h.1, rcsExpressible_plain ch h.2⟩
theorem rcsExpressible_plain (xs : List RC) (h : plainRCs xs = true) : RCsExpressible xs := by
  match xs with
  | [] => trivial
  | x :: xs =>
    simp only [plainRCs, Bool.and_eq_true] at h
    exact ⟨rcExpressible_plain x h.1, rcsExpressible_plain xs h.2⟩
end

/-- The example above without enumerated values and constraints. -/
def simple : SDevice :=
  { orderly with
    peripherals := [
      { hd := { name := s%"A", baseAddress := 4096, addressBlocks := [{ offset := 0, size := 32, usage := .registers }] }
        rcs := [.reg { name := s%"R", addressOffset := 0, fields := [{ name := s%"F", bitRange := some (s%"[3:1]") }] }, .reg Sample.data,
          .clu { name := s%"CH", description := some (s%"a channel"), addressOffset := 16 } [.reg { name := s%"CFG", addressOffset := 4 }]] },
      { hd := { name := s%"B", baseAddress := 8192, derivedFrom := some (s%"A") } }] }

/-- C71: A case in which the document written for the result has the structure of the schema. -/
theorem C71_kept_sample : ∃ dev ws, processDevice id 10 simple = .ok dev ws ∧ (Sample.fields dev).length = 2 ∧
    Structured (serDevice (convDevice dev)).root := by
  obtain ⟨dev, ws, h, hp⟩ := Sample.okAnd_spec (x := processDevice id 10 simple)
    (p := fun dev _ => (Sample.fields dev).length == 2 && !dev.peripherals.isEmpty && dev.peripherals.all fun p => plainRCs p.rcs) (by decide +kernel)
  simp only [Bool.and_eq_true, beq_iff_eq, List.all_eq_true] at hp
  refine ⟨dev, ws, h, hp.1.1, (C71_converted dev).2 ⟨by rintro he; simp [he] at hp, ?_, ?_⟩⟩
  · rintro r ⟨p, hm, hb⟩
    exact rcsExpressible_below hb (rcsExpressible_plain _ (hp.2 p hm))
  · rintro c ch ⟨p, hm, hb⟩
    exact (rcsExpressible_below hb (rcsExpressible_plain _ (hp.2 p hm))).1

end Svd
