import Verif.Lemmas.ChangeHeap
import Verif.Props.Determined
/-
C64: attributes that carry no structure go through the processing unchanged, and moving all peripherals moves all addresses.
-/
namespace Svd
open Spec

/-- C64: processing a description in which the attributes without structure are rewritten and all peripherals are moved by
the same number of words gives what processing the original gives, rewritten and moved in the same way: the same
exception or the same warnings and the changed device. -/
theorem C64_change {c : Change} (hc : c.Fair) (ord : List Nat → List Nat) (fuel : Nat) (d : SDevice) :
    processDevice ord fuel (c.sdevice d) = c.outcome (processDevice ord fuel d) := by
  rw [chg_process hc]
  cases processDevice ord fuel d <;> rfl

/-- C64, for the model in which instances share objects. -/
theorem C64_objects {c : Change} (hc : c.Fair) (ord : List Nat → List Nat) (fuel : Nat) (d : SDevice) :
    processDeviceH ord fuel (c.sdevice d) = c.outcome (processDeviceH ord fuel d) := by
  rw [chg_processH hc]
  cases processDeviceH ord fuel d <;> rfl

/-! ### C11: only the notation of the positions changes -/

section
variable (pos : SField → Position)

theorem only_fprops (p : FProps) : ({ position := pos } : Change).fprops p = p := rfl

theorem only_cont (e : EnumContainer) : ({ position := pos } : Change).cont e = e := by
  have : ({ position := pos } : Change).value = id := by
    funext v
    simp [Change.value]
  simp [Change.cont, this]

theorem only_field (f : Field) : ({ position := pos } : Change).field f = f := by
  have : ({ position := pos } : Change).cont = id := funext (only_cont pos)
  simp [Change.field, this]

theorem only_reg (r : Register) : ({ position := pos } : Change).reg r = r := by
  have : ({ position := pos } : Change).field = id := funext (only_field pos)
  simp [Change.reg, this, only_fprops]

mutual
theorem only_rc (x : RC) : ({ position := pos } : Change).rc x = x := by
  match x with
  | .reg r => rw [Change.rc, only_reg]
  | .clu x ch =>
    rw [Change.rc, only_rcs ch]
    simp [Change.clu, only_fprops]
theorem only_rcs (xs : List RC) : ({ position := pos } : Change).rcs xs = xs := by
  match xs with
  | [] => rfl
  | x :: xs => rw [Change.rcs, only_rc x, only_rcs xs]
end

theorem only_periph (p : Peripheral) : ({ position := pos } : Change).periph p = p := by
  have h1 : ({ position := pos } : Change).reg = id := funext (only_reg pos)
  have h2 : ({ position := pos } : Change).block = id := rfl
  have h3 : ({ position := pos } : Change).intr = id := by
    funext i
    simp [Change.intr]
  simp [Change.periph, h1, h2, h3, only_rcs, only_fprops]

theorem only_device (d : Device) : ({ position := pos } : Change).device d = d := by
  have : ({ position := pos } : Change).periph = id := funext (only_periph pos)
  simp [Change.device, this, only_fprops]

end

/-- C11: rewriting, in any fields of a description, the position from one notation to another one for the same bits changes nothing
about the outcome: the same exception, or the same warnings and the same device. -/
theorem C11_anywhere {pos : SField → Position}
    (h : ∀ f, pos f = written f ∨ ∃ o w : Nat, 0 < w ∧ WritesBits f o w ∧ WritesBits (rewriteAt f (pos f)) o w)
    (ord : List Nat → List Nat) (fuel : Nat) (d : SDevice) :
    processDevice ord fuel (({ position := pos } : Change).sdevice d) = processDevice ord fuel d := by
  rw [C64_change (c := { position := pos }) ⟨rfl, rfl, rfl, rfl, rfl, h⟩]
  cases processDevice ord fuel d with
  | err e => rfl
  | ok dev ws =>
    show M.ok _ _ = _
    rw [only_device]

section
variable {c : Change}

mutual
theorem chg_mapRC (b : Int) (x : RC) : buildMapRC (b + c.move) (c.rc x) = (buildMapRC b x).map c.mapReg := by
  match x with
  | .reg r =>
    simp only [Change.rc, buildMapRC, buildMapRegister, List.map_cons, List.map_nil, Change.mapReg, Change.reg]
    rw [Int.add_right_comm]
  | .clu x ch =>
    simp only [Change.rc, buildMapRC]
    rw [← chg_mapRCs (b + x.addressOffset) ch, Int.add_right_comm]
    rfl
theorem chg_mapRCs (b : Int) (xs : List RC) : buildMapRCs (b + c.move) (c.rcs xs) = (buildMapRCs b xs).map c.mapReg := by
  match xs with
  | [] => rfl
  | x :: xs => simp only [Change.rcs, buildMapRCs, List.map_append, chg_mapRC b x, chg_mapRCs b xs]
end

theorem chg_allocated (b : Int) (bs : List AddressBlock) :
    allocatedRange (b + c.move) (bs.map c.block)
      = M.mapped (fun r : Int × Int => (r.1 + c.move, r.2 + c.move)) (allocatedRange b bs) := by
  have h := sortBy_map (le := fun a b : AddressBlock => decide (a.offset ≤ b.offset))
    (le' := fun a b : AddressBlock => decide (a.offset ≤ b.offset)) c.block (fun _ _ => rfl) bs
  simp only [allocatedRange, h, List.head?_map, List.getLast?_map]
  cases (sortBy (fun a b : AddressBlock => decide (a.offset ≤ b.offset)) bs).head? with
  | none => rfl
  | some f =>
    cases (sortBy (fun a b : AddressBlock => decide (a.offset ≤ b.offset)) bs).getLast? with
    | none => rfl
    | some l =>
      simp only [Option.map_some, M.mapped, M.pure, Change.block, M.ok.injEq, Prod.mk.injEq, and_true]
      omega

theorem chg_mapPeriph (p : Peripheral) :
    buildMapPeripheral (c.periph p) = M.mapped c.mapPeriph (buildMapPeripheral p) := by
  refine M.bind_mapped (chg_allocated p.baseAddress p.addressBlocks) fun r => ?_
  rw [mapped_pure]
  simp only [Change.mapPeriph, Change.periph, ← chg_mapRCs]

end

/-- C64: the map of a changed device is the changed map: the address and the range of every peripheral and the address of
every register move by the same distance, the attributes without structure are carried over, and the order stays. -/
theorem C64_map (c : Change) (dev : Device) : buildMap (c.device dev) = c.mapOutcome (buildMap dev) := by
  have h : buildMap (c.device dev) = M.mapped (List.map c.mapPeriph) (buildMap dev) := by
    refine M.bind_mapped (M.mapM_mapped c.periph c.mapPeriph chg_mapPeriph dev.peripherals) fun ps => ?_
    rw [mapped_pure, sortBy_map c.mapPeriph]
    intro a b
    have h : a.address + c.move ≤ b.address + c.move ↔ a.address ≤ b.address := by omega
    exact decide_eq_decide.2 h
  rw [h]
  cases buildMap dev <;> rfl

namespace Sample

/-- a position given by bitOffset and bitWidth, rewritten to lsb and msb -/
def toLsbMsb (f : SField) : Position :=
  match f.bitOffset, f.bitWidth, f.lsb, f.msb, f.bitRange with
  | some (.ofNat o), some (.ofNat (w + 1)), none, none, none => ⟨none, none, some o, some (o + w), none⟩
  | _, _, _, _, _ => written f

/-- a position given by bitOffset and bitWidth, rewritten to the bit range -/
def toRange (f : SField) : Position :=
  match f.bitOffset, f.bitWidth, f.lsb, f.msb, f.bitRange with
  | some (.ofNat o), some (.ofNat (w + 1)), none, none, none => ⟨none, none, none, none, some (rangeText (natStr (o + w)) (natStr o))⟩
  | _, _, _, _, _ => written f

theorem toLsbMsb_ok (f : SField) : toLsbMsb f = written f ∨ ∃ o w : Nat, 0 < w ∧ WritesBits f o w ∧ WritesBits (rewriteAt f (toLsbMsb f)) o w := by
  unfold toLsbMsb
  split
  · rename_i o w h1 h2 h3 h4 h5
    refine .inr ⟨o, w + 1, by omega, .inl ⟨h1, h2, h3, h4, h5⟩, .inr (.inl ⟨rfl, ?_, rfl, rfl, rfl⟩)⟩
    simp only [rewriteAt, Option.some.injEq]
    push_cast
    omega
  · exact .inl rfl

theorem toRange_ok (f : SField) : toRange f = written f ∨ ∃ o w : Nat, 0 < w ∧ WritesBits f o w ∧ WritesBits (rewriteAt f (toRange f)) o w := by
  unfold toRange
  split
  · rename_i o w h1 h2 h3 h4 h5
    have dec : ∀ n, Decimal (natStr n) := fun n => decimal_intro (natStr_ne_nil n) (natStr_digits n)
    refine .inr ⟨o, w + 1, by omega, .inl ⟨h1, h2, h3, h4, h5⟩, .inr (.inr ⟨_, _, dec _, dec _, ?_, ?_, rfl⟩)⟩
    · rw [decValue_natStr]; omega
    · rw [decValue_natStr]
  · exact .inl rfl

/-- a change of everything that may change -/
def rewrite : Change where
  move := 0x1000
  description := fun s => s ++ s
  version := List.reverse
  groupName := fun _ => s%"G"
  prepended := fun _ => s%"pre"
  appended := fun _ => s%"post"
  headerStruct := fun s => s ++ s%"_t"
  headerEnum := fun s => s ++ s%"_e"
  condition := fun _ => s%"0"
  interrupt := List.reverse
  reset := fun x => 2 * x
  mask := fun x => if x = 0xFFFFFFFF then x else x + 1
  protection := fun | .secure => .nonSecure | x => x
  modifiedWrite := fun | .modify => .modify | _ => .clear
  readAction := fun _ => .set
  position := toLsbMsb

/-- a description with texts and values that the change rewrites -/
def plainTexts : SDevice :=
  let d := choiceless
  { hd := { d.hd with description := s%"the device", props := { d.hd.props with resetValue := some 5 } }
    peripherals := d.peripherals ++ [{ hd := { name := s%"N", version := some (s%"12"), description := some (s%"d"), groupName := some (s%"g"), baseAddress := 0x4000, addressBlocks := [{ offset := 0, size := 0x40, usage := .registers }], interrupts := [{ name := s%"IRQ", value := 7 }], props := { protection := some .secure } }, rcs := [rreg (s%"R") 4] }] }

/-- the first addresses of the registers of a device -/
def addresses (dev : Device) : List Int := dev.peripherals.flatMap fun p => p.registers.map (·.baseAddress)

end Sample

/-- C64: the hypothesis is met by a change that moves the peripherals and rewrites texts and values; on a description
with derived elements and dim lists that is accepted, it has visible effects. -/
theorem C64_sample : Sample.rewrite.Fair ∧
    Sample.okAnd (processDevice id 20 Sample.plainTexts) (fun dev ws => ws.isEmpty &&
      decide (Sample.addresses dev = [0, 8, 16, 24, 48, 52, 64, 72, 80, 88, 112, 116, 4096, 4104, 4112, 4120, 4144, 4148,
        4160, 4168, 4176, 4184, 4208, 4212, 4288, 8192, 16388]) &&
      decide (dev.peripherals.map (fun p => (p.groupName, p.props.protection, p.props.resetValue)) =
        [(none, .any, 5), (none, .any, 5), (none, .any, 5), (some (s%"g"), .secure, 5)])) = true ∧
    Sample.okAnd (processDevice id 20 (Sample.rewrite.sdevice Sample.plainTexts)) (fun dev ws => ws.isEmpty &&
      decide (Sample.addresses dev = [4096, 4104, 4112, 4120, 4144, 4148, 4160, 4168, 4176, 4184, 4208, 4212, 8192, 8200,
        8208, 8216, 8240, 8244, 8256, 8264, 8272, 8280, 8304, 8308, 8384, 12288, 20484]) &&
      decide (dev.peripherals.map (fun p => (p.groupName, p.props.protection, p.props.resetValue)) =
        [(none, .any, 10), (none, .any, 10), (none, .any, 10), (some (s%"G"), .nonSecure, 10)])) = true :=
  ⟨⟨by decide, by decide, by decide, by decide, by decide, Sample.toLsbMsb_ok⟩, by decide +kernel, by decide +kernel⟩

/-- C64: a move by less than a word is not covered: it may add the warning about unaligned peripherals. -/
theorem C64_move_needed :
    Sample.okAnd (processDevice id 20 Sample.choiceless) (fun _ ws => ws.isEmpty) = true ∧
    Sample.okAnd (processDevice id 20 (({ move := 2 } : Change).sdevice Sample.choiceless)) (fun _ ws => ws.isEmpty) = false :=
  ⟨by decide +kernel, by decide +kernel⟩

/-- a register with a field list given by bitOffset and bitWidth, and a derived field -/
def Sample.twoFields : SDevice :=
  rdev [rper (s%"P") 0 none [.reg { name := s%"R", addressOffset := 0, props := { size := some 32 }, fields :=
    [{ name := s%"F%s", bitOffset := some 4, bitWidth := some 3, dim := { dim := some 2, dimIncrement := some 8 } },
     { name := s%"G", derivedFrom := some (s%"F%s"), bitOffset := some 20, bitWidth := some 2 }] }]]

/-- the positions of the fields of a device -/
def Sample.positions (dev : Device) : List (Str × Int × Int) :=
  dev.peripherals.flatMap fun p => p.registers.flatMap fun r => r.fields.map fun f => (f.name, f.msb, f.lsb)

/-- C11: the two changes of notation meet the hypothesis, change the description, and leave the accepted result alone. -/
theorem C11_anywhere_sample :
    Sample.okAnd (processDevice id 20 Sample.twoFields) (fun dev _ => Sample.positions dev == [(s%"F0", 6, 4), (s%"F1", 14, 12), (s%"G", 21, 20)]) = true ∧
    (({ position := Sample.toRange } : Change).sdevice Sample.twoFields ≠ Sample.twoFields) ∧
    Sample.okAnd (processDevice id 20 (({ position := Sample.toRange } : Change).sdevice Sample.twoFields))
      (fun dev _ => Sample.positions dev == [(s%"F0", 6, 4), (s%"F1", 14, 12), (s%"G", 21, 20)]) = true ∧
    processDevice id 20 (({ position := Sample.toRange } : Change).sdevice Sample.twoFields) = processDevice id 20 Sample.twoFields ∧
    processDevice id 20 (({ position := Sample.toLsbMsb } : Change).sdevice Sample.twoFields) = processDevice id 20 Sample.twoFields :=
  ⟨by decide +kernel, by decide +kernel, by decide +kernel, C11_anywhere Sample.toRange_ok _ _ _, C11_anywhere Sample.toLsbMsb_ok _ _ _⟩

end Svd
