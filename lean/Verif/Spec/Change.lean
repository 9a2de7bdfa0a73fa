import Verif.Model.Pipeline
import Verif.Model.MapM
import Verif.Spec.Notation
/-
Independent specification for C64: changing attributes of a description that carry no structure.

A `Change` rewrites, everywhere in a description, the texts nobody interprets (descriptions, group names, …), the
values nobody computes with (reset values, protection, …), and moves all peripherals by the same distance.  The same
change can be made to a processed device.
-/
namespace Svd
namespace Spec

/-- The five elements that may give the position of a field. -/
structure Position where
  bitOffset : Option Int
  bitWidth : Option Int
  lsb : Option Int
  msb : Option Int
  bitRange : Option Str

/-- The position of a field as it is written. -/
def written (f : SField) : Position := ⟨f.bitOffset, f.bitWidth, f.lsb, f.msb, f.bitRange⟩

/-- The field with the position written otherwise. -/
def rewriteAt (f : SField) (p : Position) : SField :=
  { f with bitOffset := p.bitOffset, bitWidth := p.bitWidth, lsb := p.lsb, msb := p.msb, bitRange := p.bitRange }

/-- A uniform change of the attributes that carry no structure. -/
structure Change where
  /-- the distance by which the base address of every peripheral moves -/
  move : Int := 0
  /-- descriptions of any element -/
  description : Str → Str := id
  /-- peripheral: version -/
  version : Str → Str := id
  /-- peripheral: groupName -/
  groupName : Str → Str := id
  /-- peripheral: prependToName -/
  prepended : Str → Str := id
  /-- peripheral: appendToName -/
  appended : Str → Str := id
  /-- peripheral and cluster: headerStructName -/
  headerStruct : Str → Str := id
  /-- enumeratedValues: headerEnumName -/
  headerEnum : Str → Str := id
  /-- peripheral: disableCondition -/
  condition : Str → Str := id
  /-- interrupt: name -/
  interrupt : Str → Str := id
  /-- addressBlock: usage -/
  usage : EnumToken → EnumToken := id
  /-- resetValue -/
  reset : Int → Int := id
  /-- resetMask -/
  mask : Int → Int := id
  /-- protection -/
  protection : Protection → Protection := id
  /-- register: dataType -/
  dataType : DataType → DataType := id
  /-- register and field: modifiedWriteValues -/
  modifiedWrite : ModWrite → ModWrite := id
  /-- register and field: writeConstraint -/
  constraint : WriteConstraint → WriteConstraint := id
  /-- register and field: readAction -/
  readAction : ReadAction → ReadAction := id
  /-- field: the notation of the position, for each field at will -/
  position : SField → Position := written

/-- The change leaves alone what the processing fills in by itself: the default reset value, reset mask, protection and
modifiedWriteValues; it moves the peripherals by whole words; and it changes the position of a field at most from one of the
three notations to another one for the same bits. -/
structure Change.Fair (c : Change) : Prop where
  move : c.move % 4 = 0
  reset : c.reset 0 = 0
  mask : c.mask 0xFFFFFFFF = 0xFFFFFFFF
  protection : c.protection .any = .any
  modifiedWrite : c.modifiedWrite .modify = .modify
  position : ∀ f, c.position f = written f ∨ ∃ o w : Nat, 0 < w ∧ WritesBits f o w ∧ WritesBits (rewriteAt f (c.position f)) o w

namespace Change
variable (c : Change)

/-! ### on descriptions -/

/-- on a property group -/
def props (p : Props) : Props :=
  { p with protection := p.protection.map c.protection, resetValue := p.resetValue.map c.reset
           resetMask := p.resetMask.map c.mask }

/-- on an address block -/
def sblock (b : SAddressBlock) : SAddressBlock :=
  { b with usage := c.usage b.usage, protection := b.protection.map c.protection }

/-- on an interrupt -/
def intr (i : Interrupt) : Interrupt :=
  { i with name := c.interrupt i.name, description := i.description.map c.description }

/-- on an enumerated value -/
def svalue (v : SEnumValue) : SEnumValue := { v with description := v.description.map c.description }

/-- on an enumeratedValues container -/
def scont (e : SEnumContainer) : SEnumContainer :=
  { e with headerEnumName := e.headerEnumName.map c.headerEnum, values := e.values.map c.svalue }

/-- on a field -/
def sfield (f : SField) : SField :=
  { rewriteAt f (c.position f) with
    description := f.description.map c.description
    modifiedWriteValues := f.modifiedWriteValues.map c.modifiedWrite
    writeConstraint := f.writeConstraint.map c.constraint
    readAction := f.readAction.map c.readAction
    containers := f.containers.map c.scont }

/-- on a register -/
def sreg (r : SRegister) : SRegister :=
  { r with
    description := r.description.map c.description
    dataType := r.dataType.map c.dataType
    modifiedWriteValues := r.modifiedWriteValues.map c.modifiedWrite
    writeConstraint := r.writeConstraint.map c.constraint
    readAction := r.readAction.map c.readAction
    fields := r.fields.map c.sfield
    props := c.props r.props }

/-- on the attributes of a cluster -/
def sclu (x : SCluster) : SCluster :=
  { x with
    description := x.description.map c.description
    headerStructName := x.headerStructName.map c.headerStruct
    props := c.props x.props }

mutual
/-- on a register or cluster with its content -/
def src : SRC → SRC
  | .reg r => .reg (c.sreg r)
  | .clu x ch => .clu (c.sclu x) (srcs ch)
/-- on a list of registers and clusters -/
def srcs : List SRC → List SRC
  | [] => []
  | x :: xs => src x :: srcs xs
end

/-- on the attributes of a peripheral -/
def speriph (p : SPeripheral) : SPeripheral :=
  { p with
    version := p.version.map c.version
    description := p.description.map c.description
    groupName := p.groupName.map c.groupName
    prependToName := p.prependToName.map c.prepended
    appendToName := p.appendToName.map c.appended
    headerStructName := p.headerStructName.map c.headerStruct
    disableCondition := p.disableCondition.map c.condition
    baseAddress := p.baseAddress + c.move
    addressBlocks := p.addressBlocks.map c.sblock
    interrupts := p.interrupts.map c.intr
    props := c.props p.props }

/-- on a description of a device -/
def sdevice (d : SDevice) : SDevice :=
  { hd := { d.hd with description := c.description d.hd.description, props := c.props d.hd.props }
    peripherals := d.peripherals.map fun p => { hd := c.speriph p.hd, rcs := c.srcs p.rcs } }

/-! ### on processed devices -/

/-- on a complete property group -/
def fprops (p : FProps) : FProps :=
  { p with protection := c.protection p.protection, resetValue := c.reset p.resetValue
           resetMask := c.mask p.resetMask }

/-- on an address block -/
def block (b : AddressBlock) : AddressBlock :=
  { b with usage := c.usage b.usage, protection := c.protection b.protection }

/-- on an enumerated value -/
def value (v : EnumValue) : EnumValue := { v with description := v.description.map c.description }

/-- on a container of enumerated values -/
def cont (e : EnumContainer) : EnumContainer :=
  { e with headerEnumName := e.headerEnumName.map c.headerEnum, values := e.values.map c.value }

/-- on a field -/
def field (f : Field) : Field :=
  { f with
    description := f.description.map c.description
    modifiedWriteValues := c.modifiedWrite f.modifiedWriteValues
    writeConstraint := f.writeConstraint.map c.constraint
    readAction := f.readAction.map c.readAction
    containers := f.containers.map c.cont }

/-- on a register: its absolute address moves -/
def reg (r : Register) : Register :=
  { r with
    description := r.description.map c.description
    dataType := r.dataType.map c.dataType
    modifiedWriteValues := c.modifiedWrite r.modifiedWriteValues
    writeConstraint := r.writeConstraint.map c.constraint
    readAction := r.readAction.map c.readAction
    props := c.fprops r.props
    fields := r.fields.map c.field
    baseAddress := r.baseAddress + c.move }

/-- on the attributes of a cluster: its first and last address move -/
def clu (x : ClusterHd) : ClusterHd :=
  { x with
    description := x.description.map c.description
    headerStructName := x.headerStructName.map c.headerStruct
    props := c.fprops x.props
    baseAddress := x.baseAddress + c.move
    endAddress := x.endAddress + c.move }

mutual
/-- on a register or cluster with its content -/
def rc : RC → RC
  | .reg r => .reg (c.reg r)
  | .clu x ch => .clu (c.clu x) (rcs ch)
/-- on a list of registers and clusters -/
def rcs : List RC → List RC
  | [] => []
  | x :: xs => rc x :: rcs xs
end

/-- on a peripheral -/
def periph (p : Peripheral) : Peripheral :=
  { p with
    version := p.version.map c.version
    description := p.description.map c.description
    groupName := p.groupName.map c.groupName
    prependToName := p.prependToName.map c.prepended
    appendToName := p.appendToName.map c.appended
    headerStructName := p.headerStructName.map c.headerStruct
    disableCondition := p.disableCondition.map c.condition
    baseAddress := p.baseAddress + c.move
    addressBlocks := p.addressBlocks.map c.block
    interrupts := p.interrupts.map c.intr
    props := c.fprops p.props
    endAddress := p.endAddress + c.move
    endAddressEffective := p.endAddressEffective + c.move
    rcs := c.rcs p.rcs
    registers := p.registers.map c.reg }

/-- on a processed device -/
def device (d : Device) : Device :=
  { hd := { d.hd with description := c.description d.hd.description, props := c.fprops d.hd.props }
    peripherals := d.peripherals.map c.periph }

/-- on the outcome of the processing: the same exception, or the same warnings and the changed device -/
def outcome (x : M Device) : M Device :=
  match x with
  | .ok dev ws => .ok (c.device dev) ws
  | .err e => .err e

/-! ### on the memory map -/

/-- on an entry of the map for a register: its address moves -/
def mapReg (m : MapRegister) : MapRegister :=
  { m with
    description := m.description.map c.description
    props := c.fprops m.props
    address := m.address + c.move
    fields := m.fields.map c.field
    processed := c.reg m.processed }

/-- on an entry of the map for a peripheral: its address and both ends of its range move -/
def mapPeriph (m : MapPeripheral) : MapPeripheral :=
  { m with
    description := m.description.map c.description
    address := m.address + c.move
    allocatedRange := (m.allocatedRange.1 + c.move, m.allocatedRange.2 + c.move)
    registers := m.registers.map c.mapReg
    processed := c.periph m.processed }

/-- on the outcome of building the map -/
def mapOutcome (x : M (List MapPeripheral)) : M (List MapPeripheral) :=
  match x with
  | .ok ms ws => .ok (ms.map c.mapPeriph) ws
  | .err e => .err e

end Change
end Spec
end Svd
