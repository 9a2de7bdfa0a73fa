import Verif.Lemmas.FinField
import Verif.Model.DecEq
/-
A concrete device used to show that the hypotheses of the theorems can be met: two peripherals (the second derived from
the first), a cluster, a dim list of registers, fields with enumerated values (don't-care bits and a default).
-/
namespace Svd.Sample

def modeValues : SEnumContainer :=
  { name := some (s%"MODE_EV")
    values := [{ name := s%"OFF", value := some (s%"0") }, { name := s%"ODD", value := some (s%"#1x1") },
               { name := s%"OTHER", isDefault := some true }] }

def ctrl : SRegister :=
  { name := s%"CTRL", addressOffset := 0, props := { size := some 32 }
    fields := [
      { name := s%"EN", bitOffset := some 0, bitWidth := some 1 },
      { name := s%"MODE", bitRange := some (s%"[3:1]"), containers := [modeValues] },
      { name := s%"STAT", lsb := some 8, msb := some 15, access := some .readOnly },
      { name := s%"CMD", lsb := some 8, msb := some 15, access := some .writeOnly }] }

def data : SRegister :=
  { name := s%"DATA%s", addressOffset := 4, dim := { dim := some 2, dimIncrement := some 4 } }

def chan : SRC :=
  .clu { name := s%"CH", addressOffset := 16 } [.reg { name := s%"CFG", addressOffset := 4, props := { access := some .readOnly } }]

def dev : SDevice :=
  { hd := { name := s%"DEV", addressUnitBits := 8, width := 32, props := { resetValue := some 5 } }
    peripherals := [
      { hd := { name := s%"A", baseAddress := 4096, addressBlocks := [{ offset := 0, size := 32, usage := .registers }]
                props := { protection := some .secure } }
        rcs := [.reg ctrl, .reg data, chan] },
      { hd := { name := s%"B", baseAddress := 8192, derivedFrom := some (s%"A") } }] }

/-- The call succeeds and its result and warnings pass the test `p`. -/
def okAnd {α : Type} (x : M α) (p : α → List Warn → Bool) : Bool :=
  match x with
  | .ok a ws => p a ws
  | .err _ => false

theorem okAnd_spec {α : Type} {x : M α} {p : α → List Warn → Bool} (h : okAnd x p = true) :
    ∃ a ws, x = .ok a ws ∧ p a ws = true := by
  cases x with
  | ok a ws => exact ⟨a, ws, rfl, h⟩
  | err e => cases h

/-- The call fails with an exception that passes the test `p`. -/
def errAnd {α : Type} (x : M α) (p : Exn → Bool) : Bool :=
  match x with
  | .ok _ _ => false
  | .err e => p e

theorem errAnd_spec {α : Type} {x : M α} {p : Exn → Bool} (h : errAnd x p = true) :
    ∃ e, x = .err e ∧ p e = true := by
  cases x with
  | ok a ws => cases h
  | err e => exact ⟨e, rfl, h⟩

mutual
/-- Everything in a tree. -/
def allRC : RC → List RC
  | .reg r => [.reg r]
  | .clu c ch => .clu c ch :: allRCs ch
/-- Everything in a list of trees. -/
def allRCs : List RC → List RC
  | [] => []
  | x :: xs => allRC x ++ allRCs xs
end

open Spec in
theorem Below_cons {x : RC} {xs : List RC} {y : RC} (h : Below xs y) : Below (x :: xs) y := by
  cases h with
  | here h => exact .here (by simp [h])
  | inside h1 h2 => exact .inside (List.mem_cons_of_mem _ h1) h2

mutual
theorem allRC_below (x y : RC) (h : y ∈ allRC x) (xs : List RC) (hx : x ∈ xs) : Spec.Below xs y := by
  match x with
  | .reg r =>
    simp only [allRC, List.mem_singleton] at h
    subst h; exact .here hx
  | .clu c ch =>
    simp only [allRC, List.mem_cons] at h
    rcases h with rfl | h
    · exact .here hx
    · exact .inside hx (allRCs_below ch y h)
theorem allRCs_below (xs : List RC) (y : RC) (h : y ∈ allRCs xs) : Spec.Below xs y := by
  match xs with
  | [] => simp [allRCs] at h
  | x :: xs =>
    simp only [allRCs, List.mem_append] at h
    rcases h with h | h
    · exact allRC_below x y h (x :: xs) (by simp)
    · exact Below_cons (allRCs_below xs y h)
end

def regOf : RC → Option Register
  | .reg r => some r
  | .clu _ _ => none

/-- All registers of a device. -/
def registers (d : Device) : List Register := d.peripherals.flatMap fun p => (allRCs p.rcs).filterMap regOf

theorem registers_has {d : Device} {r : Register} (h : r ∈ registers d) : Spec.HasRegister d r := by
  unfold registers at h
  obtain ⟨p, hp, h⟩ := List.mem_flatMap.1 h
  obtain ⟨x, hx, h⟩ := List.mem_filterMap.1 h
  cases x with
  | reg r' =>
    simp only [regOf, Option.some.injEq] at h
    subst h
    exact ⟨p, hp, allRCs_below _ _ hx⟩
  | clu _ _ => cases h

/-- All fields of a device. -/
def fields (d : Device) : List Field := (registers d).flatMap (·.fields)

theorem fields_has {d : Device} {f : Field} (h : f ∈ fields d) : Spec.HasField d f := by
  obtain ⟨r, hr, h⟩ := List.mem_flatMap.1 h
  exact ⟨r, registers_has hr, h⟩

/-- A device with one peripheral made of the given registers and clusters. -/
def devOf (rcs : List SRC) : SDevice :=
  { hd := { name := s%"DEV", addressUnitBits := 8, width := 32 }
    peripherals := [
      { hd := { name := s%"A", baseAddress := 4096, addressBlocks := [{ offset := 0, size := 256, usage := .registers }] }
        rcs := rcs }] }

/-- A device with one register with the given fields. -/
def devOfFields (fs : List SField) : SDevice :=
  devOf [.reg { name := s%"R", addressOffset := 0, props := { size := some 32 }, fields := fs }]

/-- A device with one two-bit field with the given enumerated values. -/
def devOfValues (vs : List SEnumValue) : SDevice :=
  devOfFields [{ name := s%"F", bitOffset := some 0, bitWidth := some 2, containers := [{ values := vs }] }]

/-- Some register of the processed device has the property `p`. -/
theorem exists_register {d : SDevice} (p : Register → Bool)
    (h : okAnd (processDevice id 10 d) (fun dev _ => (registers dev).any p) = true) :
    ∃ dev ws r, processDevice id 10 d = .ok dev ws ∧ Spec.HasRegister dev r ∧ p r = true := by
  obtain ⟨dev, ws, h1, h2⟩ := okAnd_spec h
  obtain ⟨f, hf, h3⟩ := List.any_eq_true.1 h2
  exact ⟨dev, ws, f, h1, registers_has hf, h3⟩

/-- Some field of the processed device has a container with the property `p`. -/
theorem exists_container {d : SDevice} (p : Field → EnumContainer → Bool)
    (h : okAnd (processDevice id 10 d) (fun dev _ => (fields dev).any fun f => f.containers.any (p f)) = true) :
    ∃ dev ws f c, processDevice id 10 d = .ok dev ws ∧ Spec.HasField dev f ∧ c ∈ f.containers ∧ p f c = true := by
  obtain ⟨dev, ws, h1, h2⟩ := okAnd_spec h
  obtain ⟨f, hf, h3⟩ := List.any_eq_true.1 h2
  obtain ⟨c, hc, h4⟩ := List.any_eq_true.1 h3
  exact ⟨dev, ws, f, c, h1, fields_has hf, hc, h4⟩

end Svd.Sample
