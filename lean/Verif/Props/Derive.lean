import Verif.Lemmas.OriginInv
import Verif.Props.Fields
/-
Theorems on derived elements and inherited properties: C15, C16, C17, and the order of address blocks and interrupts
(C23).
-/
namespace Svd
open Spec

variable {ord : List Nat → List Nat} {fuel : Nat} {d : SDevice} {dev : Device} {ws : List Warn}

/-! ### C15: one derivation step -/

theorem ownElse_orIfNone {α : Type} (a b : Option α) : OwnElse a b (orIfNone a b) := by
  cases a <;> simp [OwnElse, orIfNone]

theorem propsOwnElse_merge (a b : Props) : PropsOwnElse a b (mergeProps a (some b)) :=
  ⟨ownElse_orIfNone _ _, ownElse_orIfNone _ _, ownElse_orIfNone _ _, ownElse_orIfNone _ _, ownElse_orIfNone _ _⟩

/-- C15 for peripherals: creating the peripheral declared as `p` from the base `b`. -/
theorem C15_peripheral (i : Nat) (name : Str) (p : SPeripheral) (b : IPeripheralHd) :
    let q := processPeripheral i name p (some b)
    q.name = name ∧ (i = 0 → q.baseAddress = p.baseAddress) ∧
    q.headerStructName = p.headerStructName ∧ q.interrupts.Perm p.interrupts ∧
    (p.addressBlocks = [] → q.addressBlocks = b.addressBlocks) ∧
    (p.addressBlocks ≠ [] → q.addressBlocks.Perm (p.addressBlocks.map blockOf)) ∧
    OwnElse p.version b.version q.version ∧ OwnElse p.description b.description q.description ∧
    OwnElse p.alternatePeripheral b.alternatePeripheral q.alternatePeripheral ∧
    OwnElse p.groupName b.groupName q.groupName ∧ OwnElse p.prependToName b.prependToName q.prependToName ∧
    OwnElse p.appendToName b.appendToName q.appendToName ∧
    OwnElse p.disableCondition b.disableCondition q.disableCondition ∧ PropsOwnElse p.props b.props q.props := by
  refine ⟨rfl, ?_, rfl, sortBy_perm _, ?_, ?_, ownElse_orIfNone _ _, ownElse_orIfNone _ _, ownElse_orIfNone _ _,
    ownElse_orIfNone _ _, ownElse_orIfNone _ _, ownElse_orIfNone _ _, ownElse_orIfNone _ _, propsOwnElse_merge _ _⟩
  · rintro rfl
    simp only [processPeripheral, atIndex]
    split <;> simp
  · intro h
    simp [processPeripheral, h, processAddressBlocks, sortBy]
  · intro h
    have hne : (processAddressBlocks p.addressBlocks).isEmpty = false := by
      rw [processAddressBlocks_isEmpty]; cases hh : p.addressBlocks <;> simp_all
    simp only [processPeripheral, hne]
    exact sortBy_perm _

/-- C15 for clusters. -/
theorem C15_cluster (i : Nat) (name : Str) (p : SCluster) (b : IClusterHd) :
    let q := processCluster i name p (some b)
    q.name = name ∧ (i = 0 → q.addressOffset = p.addressOffset) ∧
    OwnElse p.description b.description q.description ∧
    OwnElse p.alternateCluster b.alternateCluster q.alternateCluster ∧
    OwnElse p.headerStructName b.headerStructName q.headerStructName ∧ PropsOwnElse p.props b.props q.props := by
  refine ⟨rfl, ?_, ownElse_orIfNone _ _, ownElse_orIfNone _ _, ownElse_orIfNone _ _, propsOwnElse_merge _ _⟩
  rintro rfl
  simp only [processCluster, atIndex]
  split <;> simp

/-- C15 for registers. -/
theorem C15_register (i : Nat) (name : Str) (disp : Option Str) (p : SRegister) (b : IRegisterHd) :
    let q := processRegister i name disp p (some b)
    q.name = name ∧ (i = 0 → q.addressOffset = p.addressOffset) ∧
    OwnElse p.description b.description q.description ∧
    OwnElse p.alternateGroup b.alternateGroup q.alternateGroup ∧
    OwnElse p.alternateRegister b.alternateRegister q.alternateRegister ∧
    OwnElse p.dataType b.dataType q.dataType ∧
    OwnElse p.modifiedWriteValues (some b.modifiedWriteValues) (some q.modifiedWriteValues) ∧
    OwnElse p.writeConstraint b.writeConstraint q.writeConstraint ∧
    OwnElse p.readAction b.readAction q.readAction ∧ PropsOwnElse p.props b.props q.props := by
  refine ⟨rfl, ?_, ownElse_orIfNone _ _, ownElse_orIfNone _ _, ownElse_orIfNone _ _, ownElse_orIfNone _ _, ?_,
    ownElse_orIfNone _ _, ownElse_orIfNone _ _, propsOwnElse_merge _ _⟩
  · rintro rfl
    simp only [processRegister, atIndex]
    split <;> simp
  · cases h : p.modifiedWriteValues <;> simp [OwnElse, processRegister, h]

/-- C15 for fields: a field that is derived takes over the position only through the parts it does not give itself. -/
theorem C15_field {i : Nat} {name : Str} {p : SField} {b q : IFieldHd} {w : List Warn}
    (h : processField i name p (some b) = .ok q w) :
    q.name = name ∧
    OwnElse p.description b.description q.description ∧
    OwnElse p.modifiedWriteValues (some b.modifiedWriteValues) (some q.modifiedWriteValues) ∧
    OwnElse p.writeConstraint b.writeConstraint q.writeConstraint ∧
    OwnElse p.readAction b.readAction q.readAction ∧ OwnElse p.access b.access q.access ∧
    (i = 0 → p.bitRange = none → p.lsb = none → p.msb = none →
      OwnElse p.bitOffset (some b.lsb) (some q.lsb) ∧
      OwnElse p.bitWidth (some (b.msb - b.lsb + 1)) (some (q.msb - q.lsb + 1))) ∧
    (i = 0 → p.bitRange = none → p.lsb.isSome ∨ p.msb.isSome →
      OwnElse p.lsb (some b.lsb) (some q.lsb) ∧ OwnElse p.msb (some b.msb) (some q.msb)) := by
  obtain ⟨m, l, h1, rfl⟩ := processField_ok h
  refine ⟨rfl, ownElse_orIfNone _ _, ?_, ownElse_orIfNone _ _, ownElse_orIfNone _ _, ownElse_orIfNone _ _, ?_, ?_⟩
  · cases h : p.modifiedWriteValues <;> simp [OwnElse, fieldAt, h]
  · rintro rfl hb hl hm
    have e1 : (fieldAt 0 name p (some b) m l).lsb = l ∧ (fieldAt 0 name p (some b) m l).msb = m := by
      simp only [fieldAt, atIndex]; split <;> simp
    rw [e1.1, e1.2]
    cases ho : p.bitOffset <;> cases hw : p.bitWidth <;>
      simp [fieldMsbLsb, hb, hl, hm, ho, hw, orIfNone, M.bind_eq_ok] at h1 <;> simp [OwnElse] <;> omega
  · rintro rfl hb hs
    have e1 : (fieldAt 0 name p (some b) m l).lsb = l ∧ (fieldAt 0 name p (some b) m l).msb = m := by
      simp only [fieldAt, atIndex]; split <;> simp
    rw [e1.1, e1.2]
    cases ho : p.lsb <;> cases hw : p.msb <;>
      simp [fieldMsbLsb, hb, ho, hw, orIfNone, M.bind_eq_ok] at h1 hs <;> simp [OwnElse] <;> omega

/-- In the sample, `B` derives from `A`: own base address, inherited address blocks, inherited protection. -/
example : ∃ dev ws, processDevice id 10 Sample.dev = .ok dev ws ∧ ∃ p ∈ dev.peripherals,
    decide (p.name = s%"B" ∧ p.baseAddress = 8192 ∧ p.addressBlocks.length = 1 ∧ p.props.protection = .secure) = true := by
  obtain ⟨dev, ws, h1, h2⟩ := Sample.okAnd_spec (x := processDevice id 10 Sample.dev)
    (p := fun dev _ => dev.peripherals.any fun p =>
      decide (p.name = s%"B" ∧ p.baseAddress = 8192 ∧ p.addressBlocks.length = 1 ∧ p.props.protection = .secure))
    (by decide +kernel)
  exact ⟨dev, ws, h1, List.any_eq_true.1 h2⟩

/-! ### C16: chains -/

/-- C16 for peripherals: behind each processed peripheral there is a chain of declarations, each derived from the next,
such that every inheritable attribute is the one of the nearest declaration of the chain that gives it; interrupts,
header struct name and the position come from the first declaration alone. -/
theorem C16_peripheral (h : processDevice ord fuel d = .ok dev ws) {q : Peripheral} (hq : q ∈ dev.peripherals) :
    ∃ (p : SPeripheral) (bases : List SPeripheral), PeriphChain d (p :: bases) ∧
      Placed p.name p.dim.dimIncrement q.name (q.baseAddress - p.baseAddress) ∧
      q.headerStructName = p.headerStructName ∧ q.interrupts.Perm p.interrupts ∧
      q.addressBlocks.Perm ((nearest (fun x : SPeripheral => if x.addressBlocks = [] then none else some x.addressBlocks)
        (p :: bases)).getD [] |>.map blockOf) ∧
      q.version = nearest (·.version) (p :: bases) ∧ q.description = nearest (·.description) (p :: bases) ∧
      q.alternatePeripheral = nearest (·.alternatePeripheral) (p :: bases) ∧
      q.groupName = nearest (·.groupName) (p :: bases) ∧ q.prependToName = nearest (·.prependToName) (p :: bases) ∧
      q.appendToName = nearest (·.appendToName) (p :: bases) ∧
      q.disableCondition = nearest (·.disableCondition) (p :: bases) ∧
      PropsFrom q.props ((p :: bases).map (·.props) ++ [d.hd.props]) := by
  obtain ⟨l, r0, hf, e1, e2, e3, e4, e5, e6, e7, e8, e9, e10, e11, e12, hp⟩ := origin_periph h hq
  obtain ⟨p, bases, rfl⟩ := chain_decl hf.chain
  refine ⟨p, bases, hf.chain, ?_, ?_, ?_, ?_, e2.trans hf.version, e3.trans hf.description,
    e4.trans hf.alternatePeripheral, e5.trans hf.groupName, e6.trans hf.prependToName, e7.trans hf.appendToName,
    e9.trans hf.disableCondition, hp⟩
  · rw [e1, e10]; exact hf.placed _ _ rfl
  · rw [e8]; exact hf.headerStructName _ _ rfl
  · rw [e12, hf.interrupts _ _ rfl]; exact sortBy_perm _
  · rw [e11, hf.addressBlocks]
    generalize p :: bases = l
    induction l with
    | nil => exact .nil
    | cons x xs ih =>
      rw [nearest_cons, nearest_cons]
      cases hx : x.addressBlocks with
      | nil => simpa [orIfNone] using ih
      | cons b bs => 
        simp only [List.isEmpty_cons, orIfNone]
        exact sortBy_perm _

/-- C16 for clusters. -/
theorem C16_cluster (h : processDevice ord fuel d = .ok dev ws) {c : ClusterHd} {ch : List RC} (hc : HasCluster dev c ch) :
    ∃ (s : SCluster) (bases : List SCluster), ClusterChain d (s :: bases) ∧
      Placed s.name s.dim.dimIncrement c.name (c.addressOffset - s.addressOffset) ∧
      c.description = nearest (·.description) (s :: bases) ∧
      c.alternateCluster = nearest (·.alternateCluster) (s :: bases) ∧
      c.headerStructName = nearest (·.headerStructName) (s :: bases) := by
  obtain ⟨q, hq, hb⟩ := hc
  obtain ⟨cs, hpath⟩ := Below.path hb
  obtain ⟨lp, lcs, -, -, l, ic, hf, e1, e2, e3, e4, e5, -⟩ := origin_rc h hq hpath
  obtain ⟨s, bases, rfl⟩ := chain_decl hf.chain
  refine ⟨s, bases, hf.chain, ?_, e2.trans hf.description, e3.trans hf.alternateCluster, e4.trans hf.headerStructName⟩
  rw [e1, e5]; exact hf.placed _ _ rfl

/-- C16 for registers. -/
theorem C16_register (h : processDevice ord fuel d = .ok dev ws) {r : Register} (hr : HasRegister dev r) :
    ∃ (s : SRegister) (bases : List SRegister), RegisterChain d (s :: bases) ∧
      Placed s.name s.dim.dimIncrement r.name (r.addressOffset - s.addressOffset) ∧
      r.description = nearest (·.description) (s :: bases) ∧
      r.alternateGroup = nearest (·.alternateGroup) (s :: bases) ∧
      r.alternateRegister = nearest (·.alternateRegister) (s :: bases) ∧
      r.dataType = nearest (·.dataType) (s :: bases) ∧
      r.modifiedWriteValues = (nearest (·.modifiedWriteValues) (s :: bases)).getD .modify ∧
      r.writeConstraint = nearest (·.writeConstraint) (s :: bases) ∧
      r.readAction = nearest (·.readAction) (s :: bases) ∧
      ∀ n, nearest (·.props.size) (s :: bases) = some n → r.props.size = n := by
  obtain ⟨q, hq, hb⟩ := hr
  obtain ⟨cs, hpath⟩ := Below.path hb
  obtain ⟨lp, lcs, -, -, l, ir, hf, e1, -, e2, e3, e4, e5, e6, e7, e8, e9, -, e10⟩ := origin_rc h hq hpath
  obtain ⟨s, bases, rfl⟩ := chain_decl hf.chain
  refine ⟨s, bases, hf.chain, ?_, e2.trans hf.description, e3.trans hf.alternateGroup, e4.trans hf.alternateRegister,
    e6.trans hf.dataType, e7.trans hf.modifiedWriteValues, e8.trans hf.writeConstraint, e9.trans hf.readAction, ?_⟩
  · rw [e1, e5]; exact hf.placed _ _ rfl
  · exact fun n hn => e10 n (hf.size.trans hn)

/-- C16 for fields. -/
theorem C16_field (h : processDevice ord fuel d = .ok dev ws) {r : Register} (hr : HasRegister dev r) {f : Field}
    (hf : f ∈ r.fields) :
    ∃ (s : SField) (bases : List SField), FieldChain d (s :: bases) ∧ InstanceName s.name f.name ∧
      f.description = nearest (·.description) (s :: bases) ∧
      f.modifiedWriteValues = (nearest (·.modifiedWriteValues) (s :: bases)).getD .modify ∧
      f.readAction = nearest (·.readAction) (s :: bases) ∧
      f.access = (nearest (·.access) (s :: bases)).getD r.props.access ∧
      f.writeConstraint = nearest id [nearest (·.writeConstraint) (s :: bases), r.writeConstraint] := by
  obtain ⟨l, fi, hff, e1, e2, e3, e4, e5, e6, e7, e8⟩ := origin_field h hr hf
  obtain ⟨s, bases, rfl⟩ := chain_decl hff.chain
  obtain ⟨base, m, lo, w, -, hp, -⟩ := hff.placed _ _ rfl
  refine ⟨s, bases, hff.chain, e1 ▸ placed_instance hp, e2.trans hff.description, e5.trans hff.modifiedWriteValues,
    e7.trans hff.readAction, e8, ?_⟩
  rw [e6, hff.writeConstraint, nearest_cons, nearest_cons]
  cases r.writeConstraint <;> simp [orIfNone, nearest]


/-- A chain of three registers: `C` from `B` from `A`; each attribute comes from the nearest one that gives it. -/
example : ∃ dev ws r, processDevice id 10 (Sample.devOf
      [.reg { name := s%"A", addressOffset := 0, description := some (s%"a"), dataType := some .u8
              props := { size := some 8, resetValue := some 1 } },
       .reg { name := s%"B", addressOffset := 4, description := some (s%"b"), derivedFrom := some (s%"A") },
       .reg { name := s%"C", addressOffset := 8, derivedFrom := some (s%"B"), props := { resetValue := some 3 } }])
      = .ok dev ws ∧ HasRegister dev r ∧ decide (r.name = s%"C" ∧ r.description = some (s%"b") ∧
        r.dataType = some .u8 ∧ r.props.size = 8 ∧ r.props.resetValue = 3 ∧ r.addressOffset = 8) = true :=
  Sample.exists_register _ (by decide +kernel)

/-! ### C17: properties come from the nearest enclosing definition -/

/-- C17 for peripherals: the peripheral (along its derivation chain), else the device, else the default. -/
theorem C17_peripheral (h : processDevice ord fuel d = .ok dev ws) {q : Peripheral} (hq : q ∈ dev.peripherals) :
    ∃ lp, PeriphOrigin d q.name q.baseAddress lp ∧ PropsFrom q.props (lp.map (·.props) ++ [d.hd.props]) := by
  obtain ⟨l, r0, hf, e1, -, -, -, -, -, -, -, -, e10, -, -, hp⟩ := origin_periph h hq
  exact ⟨l, by rw [e1, e10]; exact hf.origin, hp⟩

/-- C17 for registers: the register (along its derivation chain), the enclosing clusters inside out, the peripheral, the
device, else the default. -/
theorem C17_register (h : processDevice ord fuel d = .ok dev ws) {q : Peripheral} (hq : q ∈ dev.peripherals)
    {cs : List ClusterHd} {r : Register} (hr : Path q.rcs cs (.reg r)) :
    ∃ lp lcs l, PeriphOrigin d q.name q.baseAddress lp ∧ ClusterOrigins d cs lcs ∧
      RegisterOrigin d r.name r.addressOffset l ∧ PropsFrom r.props (l.map (·.props) ++ surrounding d lp lcs) := by
  obtain ⟨lp, lcs, h1, h2, l, ir, hf, e1, -, -, -, -, e5, -, -, -, -, hp, -⟩ := origin_rc h hq hr
  exact ⟨lp, lcs, l, h1, h2, by rw [e1, e5]; exact hf.origin, hp⟩

/-- C17 for clusters. -/
theorem C17_cluster (h : processDevice ord fuel d = .ok dev ws) {q : Peripheral} (hq : q ∈ dev.peripherals)
    {cs : List ClusterHd} {c : ClusterHd} {ch : List RC} (hr : Path q.rcs cs (.clu c ch)) :
    ∃ lp lcs l, PeriphOrigin d q.name q.baseAddress lp ∧ ClusterOrigins d cs lcs ∧
      ClusterOrigin d c.name c.addressOffset l ∧ PropsFrom c.props (l.map (·.props) ++ surrounding d lp lcs) := by
  obtain ⟨lp, lcs, h1, h2, l, ic, hf, e1, -, -, -, e5, hp⟩ := origin_rc h hq hr
  exact ⟨lp, lcs, l, h1, h2, by rw [e1, e5]; exact hf.origin, hp⟩

/-- C17 for fields: the access type is the field's own (along its derivation chain), else the register's. -/
theorem C17_field (h : processDevice ord fuel d = .ok dev ws) {r : Register} (hr : HasRegister dev r) {f : Field}
    (hf : f ∈ r.fields) : ∃ l, FieldChain d l ∧ (∃ s t, l = s :: t ∧ InstanceName s.name f.name) ∧
      f.access = (nearest (·.access) l).getD r.props.access := by
  obtain ⟨s, bases, h1, h2, -, -, -, h3, -⟩ := C16_field h hr hf
  exact ⟨_, h1, ⟨_, _, rfl, h2⟩, h3⟩

/-- In the sample, `CFG` in cluster `CH` of `A` has its own access, the protection of the peripheral, the reset value of
the device and the default reset mask. -/
example : ∃ dev ws r, processDevice id 10 Sample.dev = .ok dev ws ∧ HasRegister dev r ∧
    decide (r.name = s%"CFG" ∧ r.props.access = .readOnly ∧ r.props.protection = .secure ∧ r.props.resetValue = 5 ∧
      r.props.resetMask = 0xFFFFFFFF) = true :=
  Sample.exists_register _ (by decide +kernel)

/-! ### C23: address blocks and interrupts -/

/-- C23: the address blocks of a processed peripheral are sorted by offset, its interrupts by value. -/
theorem C23_blocks_interrupts_sorted (h : processDevice ord fuel d = .ok dev ws) {q : Peripheral}
    (hq : q ∈ dev.peripherals) :
    SortedOn (·.offset) q.addressBlocks ∧ SortedOn (·.value) q.interrupts := by
  obtain ⟨l, r0, hf, -, -, -, -, -, -, -, -, -, -, e11, e12, -⟩ := origin_periph h hq
  obtain ⟨p, bases, rfl⟩ := chain_decl hf.chain
  constructor
  · rw [e11, hf.addressBlocks]
    generalize p :: bases = l
    induction l with
    | nil => exact .nil
    | cons x xs ih =>
      rw [nearest_cons]
      cases hx : x.addressBlocks with
      | nil => simpa [orIfNone] using ih
      | cons b bs =>
        simp only [List.isEmpty_cons, orIfNone]
        exact (sortBy_sorted ⟨fun a b => by simp; omega, fun a b c => by simp; omega⟩ _).imp fun h => by simpa using h
  · rw [e12, hf.interrupts _ _ rfl]
    exact (sortBy_sorted ⟨fun a b => by simp; omega, fun a b c => by simp; omega⟩ _).imp fun h => by simpa using h

/-! ### C11 in processed devices -/

/-- C11: each field of a processed device goes back to a declaration; if that declaration gives the position in one of
the three notations (or by a reversed bit range), the field has that width and, up to its place in a dim list, that
offset. -/
theorem C11_device_position (h : processDevice ord fuel d = .ok dev ws) {f : Field} (hf : HasField dev f) :
    ∃ (s : SField) (bases : List SField), FieldChain d (s :: bases) ∧
      ∀ o w : Nat, 0 < w →
        (ByOffset s o w ∨ ByLsbMsb s o (o + w - 1) ∨ ByRange s (o + w - 1) o ∨ ByRange s o (o + w - 1)) →
        f.bitWidth = w ∧ f.msb = f.lsb + w - 1 ∧ Placed s.name s.dim.dimIncrement f.name (f.bitOffset - o) := by
  obtain ⟨r, hr, hfr⟩ := hf
  obtain ⟨l, fi, hff, e1, -, e3, e4, -, -, -, -⟩ := origin_field h hr hfr
  obtain ⟨s, bases, rfl⟩ := chain_decl hff.chain
  obtain ⟨ha, hb, -⟩ := C11_attributes h ⟨r, hr, hfr⟩
  obtain ⟨base, m, lo, w0, hpos, hpl, hsh⟩ := hff.placed _ _ rfl
  refine ⟨s, bases, hff.chain, fun o w hw hn => ?_⟩
  have hv : m = (o : Int) + w - 1 ∧ lo = o := by
    rcases hn with hn | hn | hn | hn
    · have := (C11_notations_agree (p1 := s) (p2 := { name := [], lsb := some o, msb := some (o + w - 1) })
        hw hn ⟨rfl, rfl, rfl, rfl, rfl⟩ (byRange_text { name := [] } _ _)
        base none none).1
      rw [this] at hpos
      simp only [M.ok.injEq, Prod.mk.injEq] at hpos
      omega
    · have := (C11_notations_agree (p1 := { name := [], bitOffset := some o, bitWidth := some w }) (p2 := s)
        hw ⟨rfl, rfl, rfl, rfl, rfl⟩ hn (byRange_text { name := [] } _ _)
        none base none).2.1
      rw [this] at hpos
      simp only [M.ok.injEq, Prod.mk.injEq] at hpos
      omega
    · have := (C11_notations_agree (p1 := { name := [], bitOffset := some o, bitWidth := some w })
        (p2 := { name := [], lsb := some o, msb := some (o + w - 1) }) (p3 := s) hw ⟨rfl, rfl, rfl, rfl, rfl⟩
        ⟨rfl, rfl, rfl, rfl, rfl⟩ hn none none base).2.2
      rw [this] at hpos
      simp only [M.ok.injEq, Prod.mk.injEq] at hpos
      omega
    · by_cases h1 : w = 1
      · subst h1
        have := (C11_notations_agree (p1 := { name := [], bitOffset := some o, bitWidth := some (1 : Nat) })
          (p2 := { name := [], lsb := some o, msb := some (o + (1 : Nat) - 1) }) (p3 := s) (o := o) (w := 1) hw
          ⟨rfl, rfl, rfl, rfl, rfl⟩ ⟨rfl, rfl, rfl, rfl, rfl⟩ hn none none base).2.2
        rw [this] at hpos
        simp only [M.ok.injEq, Prod.mk.injEq] at hpos
        omega
      · obtain ⟨_, -, hr⟩ := C11_reversed_range (by omega) hn base
        rw [hr] at hpos
        simp only [M.ok.injEq, Prod.mk.injEq] at hpos
        omega
  rw [hb, ha, e3, e4, e1]
  refine ⟨by omega, by omega, ?_⟩
  rw [← hv.2]; exact hpl

/-- `MODE` of the sample is declared as `[3:1]`. -/
example : ∃ dev ws, processDevice id 10 Sample.dev = .ok dev ws ∧ ∃ f, HasField dev f ∧
    decide (f.name = s%"MODE" ∧ f.bitWidth = 3 ∧ f.bitOffset = 1) = true := by
  obtain ⟨dev, ws, h1, h2⟩ := Sample.okAnd_spec (x := processDevice id 10 Sample.dev)
    (p := fun dev _ => (Sample.fields dev).any fun f => decide (f.name = s%"MODE" ∧ f.bitWidth = 3 ∧ f.bitOffset = 1))
    (by decide +kernel)
  obtain ⟨f, hf, h3⟩ := List.any_eq_true.1 h2
  exact ⟨dev, ws, h1, f, Sample.fields_has hf, h3⟩

end Svd
