import Verif.Spec.Misc
import Verif.Model.Parse
import Verif.Model.Proc
/-
Specification of the conversion of processed devices into SVD devices.
-/
namespace Svd.Spec

/-! ### devices without references and arrays -/

/-- An enumerated value container without derivedFrom. -/
def PlainContainer (c : SEnumContainer) : Prop := c.derivedFrom = none
/-- A field without derivedFrom and dim. -/
def PlainField (f : SField) : Prop := f.derivedFrom = none ∧ f.dim = {} ∧ ∀ c ∈ f.containers, PlainContainer c

mutual
/-- A register or cluster without derivedFrom and dim, at any depth. -/
def PlainRC : SRC → Prop
  | .reg r => r.derivedFrom = none ∧ r.dim = {} ∧ ∀ f ∈ r.fields, PlainField f
  | .clu c ch => c.derivedFrom = none ∧ c.dim = {} ∧ PlainRCs ch
/-- A list of registers and clusters without derivedFrom and dim. -/
def PlainRCs : List SRC → Prop
  | [] => True
  | x :: xs => PlainRC x ∧ PlainRCs xs
end

/-- A peripheral without derivedFrom and dim, at any depth. -/
def PlainPeripheral (p : SPeriphT) : Prop := p.hd.derivedFrom = none ∧ p.hd.dim = {} ∧ PlainRCs p.rcs
/-- A device without derivedFrom and dim, at any depth. -/
def PlainDevice (d : SDevice) : Prop := ∀ p ∈ d.peripherals, PlainPeripheral p

/-! ### the same content -/

/-- The SVD value has the same name and description and its value text denotes the same number. -/
structure SameValue (v : EnumValue) (s : SEnumValue) : Prop where
  name : s.name = v.name
  description : s.description = v.description
  value : ∃ t, s.value = some t ∧ toInt t = .ok v.value []
  isDefault : s.isDefault ≠ some true

structure SameContainer (c : EnumContainer) (s : SEnumContainer) : Prop where
  name : s.name = c.name
  header : s.headerEnumName = c.headerEnumName
  usage : s.usage = some c.usage
  values : Entrywise SameValue c.values s.values

structure SameField (f : Field) (s : SField) : Prop where
  name : s.name = f.name
  description : s.description = f.description
  lsb : s.lsb = some f.lsb
  msb : s.msb = some f.msb
  noOther : s.bitOffset = none ∧ s.bitWidth = none ∧ s.bitRange = none
  access : s.access = some f.access
  modified : s.modifiedWriteValues = some f.modifiedWriteValues
  constraint : s.writeConstraint = f.writeConstraint
  readAction : s.readAction = f.readAction
  containers : Entrywise SameContainer f.containers s.containers

structure SameProps (p : FProps) (s : Props) : Prop where
  size : s.size = some p.size
  access : s.access = some p.access
  protection : s.protection = some p.protection
  resetValue : s.resetValue = some p.resetValue
  resetMask : s.resetMask = some p.resetMask

structure SameRegister (r : Register) (s : SRegister) : Prop where
  name : s.name = r.name
  display : s.displayName = r.displayName
  description : s.description = r.description
  group : s.alternateGroup = r.alternateGroup
  alternate : s.alternateRegister = r.alternateRegister
  offset : s.addressOffset = r.addressOffset
  props : SameProps r.props s.props
  dataType : s.dataType = r.dataType
  modified : s.modifiedWriteValues = some r.modifiedWriteValues
  constraint : s.writeConstraint = r.writeConstraint
  readAction : s.readAction = r.readAction
  fields : Entrywise SameField r.fields s.fields

structure SameCluster (c : ClusterHd) (s : SCluster) : Prop where
  name : s.name = c.name
  description : s.description = c.description
  alternate : s.alternateCluster = c.alternateCluster
  header : s.headerStructName = c.headerStructName
  offset : s.addressOffset = c.addressOffset
  props : SameProps c.props s.props

mutual
/-- The same register, or the same cluster with the same contents in the same order. -/
inductive SameRC : RC → SRC → Prop
  | reg {r s} : SameRegister r s → SameRC (.reg r) (.reg s)
  | clu {c s ch ch'} : SameCluster c s → SameRCs ch ch' → SameRC (.clu c ch) (.clu s ch')
/-- The same registers and clusters in the same order. -/
inductive SameRCs : List RC → List SRC → Prop
  | nil : SameRCs [] []
  | cons {x y xs ys} : SameRC x y → SameRCs xs ys → SameRCs (x :: xs) (y :: ys)
end

structure SameBlock (b : AddressBlock) (s : SAddressBlock) : Prop where
  offset : s.offset = b.offset
  size : s.size = b.size
  usage : s.usage = b.usage
  protection : s.protection = some b.protection

structure SamePeripheral (p : Peripheral) (s : SPeriphT) : Prop where
  name : s.hd.name = p.name
  version : s.hd.version = p.version
  description : s.hd.description = p.description
  alternate : s.hd.alternatePeripheral = p.alternatePeripheral
  group : s.hd.groupName = p.groupName
  prepend : s.hd.prependToName = p.prependToName
  append : s.hd.appendToName = p.appendToName
  header : s.hd.headerStructName = p.headerStructName
  condition : s.hd.disableCondition = p.disableCondition
  base : s.hd.baseAddress = p.baseAddress
  props : SameProps p.props s.hd.props
  blocks : Entrywise SameBlock p.addressBlocks s.hd.addressBlocks
  interrupts : s.hd.interrupts = p.interrupts
  rcs : SameRCs p.rcs s.rcs

structure SameRegion (r : SauRegion) (s : SSauRegion) : Prop where
  enabled : s.enabled = some r.enabled
  name : s.name = r.name
  base : s.base = r.base
  limit : s.limit = r.limit
  access : s.access = r.access

structure SameSau (r : SauConfig) (s : SSauConfig) : Prop where
  enabled : s.enabled = some r.enabled
  protection : s.protectionWhenDisabled = some r.protectionWhenDisabled
  regions : Entrywise SameRegion r.regions s.regions

structure SameCpu (c : Cpu) (s : SCpu) : Prop where
  name : s.name = c.name
  revision : s.revision = c.revision
  endian : s.endian = c.endian
  mpu : s.mpuPresent = some c.mpuPresent
  fpu : s.fpuPresent = some c.fpuPresent
  fpuDp : s.fpuDp = some c.fpuDp
  dsp : s.dspPresent = some c.dspPresent
  icache : s.icachePresent = some c.icachePresent
  dcache : s.dcachePresent = some c.dcachePresent
  itcm : s.itcmPresent = some c.itcmPresent
  dtcm : s.dtcmPresent = some c.dtcmPresent
  vtor : s.vtorPresent = some c.vtorPresent
  nvic : s.nvicPrioBits = c.nvicPrioBits
  systick : s.vendorSystickConfig = c.vendorSystickConfig
  interrupts : s.deviceNumInterrupts = c.deviceNumInterrupts
  sauNum : s.sauNumRegions = c.sauNumRegions
  sau : OptRel SameSau c.sauConfig s.sauConfig

structure SameDevice (d : Device) (s : SDevice) : Prop where
  vendor : s.hd.vendor = d.hd.vendor
  vendorId : s.hd.vendorId = d.hd.vendorId
  name : s.hd.name = d.hd.name
  series : s.hd.series = d.hd.series
  version : s.hd.version = d.hd.version
  description : s.hd.description = d.hd.description
  license : s.hd.licenseText = d.hd.licenseText
  cpu : OptRel SameCpu d.hd.cpu s.hd.cpu
  system : s.hd.headerSystemFilename = d.hd.headerSystemFilename
  prefix_ : s.hd.headerDefinitionsPrefix = d.hd.headerDefinitionsPrefix
  unitBits : s.hd.addressUnitBits = d.hd.addressUnitBits
  width : s.hd.width = d.hd.width
  props : SameProps d.hd.props s.hd.props
  peripherals : Entrywise SamePeripheral d.peripherals s.peripherals

end Svd.Spec
