import Verif.Model.Svd
/-
The intermediate and processed models: /repo/src/svdsuite/model/process.py.
`parsed` back pointers are omitted.  Tree-shaped objects are split into a head (all attributes but the children) and
the children.
-/
namespace Svd

/-- model/process.py:47-54 `SauRegion`. -/
structure SauRegion where
  enabled : Bool
  name : Option Str
  base : Int
  limit : Int
  access : SauAccess
  deriving DecidableEq, Repr

/-- model/process.py:63-68 `SauRegionsConfig`. -/
structure SauConfig where
  enabled : Bool
  protectionWhenDisabled : Protection
  regions : List SauRegion
  deriving DecidableEq, Repr

/-- model/process.py:77-96 `CPU`. -/
structure Cpu where
  name : CPUName
  revision : Str
  endian : Endian
  mpuPresent : Bool
  fpuPresent : Bool
  fpuDp : Bool
  dspPresent : Bool
  icachePresent : Bool
  dcachePresent : Bool
  itcmPresent : Bool
  dtcmPresent : Bool
  vtorPresent : Bool
  nvicPrioBits : Int
  vendorSystickConfig : Bool
  deviceNumInterrupts : Option Int
  sauNumRegions : Option Int
  sauConfig : Option SauConfig
  deriving DecidableEq, Repr

/-- model/process.py:109-112 `IEnumeratedValue`. -/
structure IEnumValue where
  name : Str
  description : Option Str
  value : Option Int
  isDefault : Bool
  deriving DecidableEq, Repr

/-- model/process.py:115-117 `EnumeratedValue`. -/
structure EnumValue where
  name : Str
  description : Option Str
  value : Int
  deriving DecidableEq, Repr

/-- model/process.py:139-145 `AddressBlock`.  `protection` is always set by `_process_address_blocks`
(process.py:379), hence not optional here. -/
structure AddressBlock where
  offset : Int
  size : Int
  usage : EnumToken
  protection : Protection
  deriving DecidableEq, Repr

/-- model/process.py:187-189 `IEnumeratedValueContainer`. -/
structure IEnumContainer where
  name : Option Str
  headerEnumName : Option Str
  usage : Usage
  values : List IEnumValue
  deriving DecidableEq, Repr

/-- model/process.py:192-194 `EnumeratedValueContainer`. -/
structure EnumContainer where
  name : Option Str
  headerEnumName : Option Str
  usage : Usage
  values : List EnumValue
  deriving DecidableEq, Repr

/-- The `dim`, `dim_increment`, `dim_index` attributes of `IField`, `IRegister`, `ICluster`, `IPeripheral`
(model/process.py:231-233, 285-287, 350-352, 428-430). -/
structure IDim where
  dim : Option Int := none
  dimIncrement : Option Int := none
  dimIndex : Option Str := none
  deriving DecidableEq, Repr

/-- model/process.py:217-235 `IField`, without the containers. -/
structure IFieldHd where
  name : Str
  description : Option Str
  lsb : Int
  msb : Int
  modifiedWriteValues : ModWrite
  writeConstraint : Option WriteConstraint
  readAction : Option ReadAction
  dim : IDim
  access : Option Access
  deriving DecidableEq, Repr

/-- model/process.py:229-235 `IField`. -/
structure IField where
  hd : IFieldHd
  containers : List IEnumContainer
  deriving DecidableEq, Repr

/-- model/process.py:238-244 `Field`. -/
structure Field where
  name : Str
  description : Option Str
  lsb : Int
  msb : Int
  modifiedWriteValues : ModWrite
  writeConstraint : Option WriteConstraint
  readAction : Option ReadAction
  access : Access
  bitOffset : Int
  bitWidth : Int
  bitRange : Int × Int
  containers : List EnumContainer
  deriving DecidableEq, Repr

/-- model/process.py:268-293 `IRegister`, without the fields. -/
structure IRegisterHd where
  name : Str
  displayName : Option Str
  description : Option Str
  alternateGroup : Option Str
  alternateRegister : Option Str
  addressOffset : Int
  dataType : Option DataType
  modifiedWriteValues : ModWrite
  writeConstraint : Option WriteConstraint
  readAction : Option ReadAction
  dim : IDim
  props : Props
  deriving DecidableEq, Repr

/-- model/process.py:338-358 `ICluster`, without `registers_clusters`. -/
structure IClusterHd where
  name : Str
  description : Option Str
  alternateCluster : Option Str
  headerStructName : Option Str
  addressOffset : Int
  dim : IDim
  props : Props
  deriving DecidableEq, Repr

/-- `IRegister | ICluster`. -/
inductive IRC where
  | reg (r : IRegisterHd) (fields : List IField)
  | clu (c : IClusterHd) (children : List IRC)
  deriving Repr

/-- model/process.py:409-436 `IPeripheral`, without `registers_clusters`. -/
structure IPeripheralHd where
  name : Str
  version : Option Str
  description : Option Str
  alternatePeripheral : Option Str
  groupName : Option Str
  prependToName : Option Str
  appendToName : Option Str
  headerStructName : Option Str
  disableCondition : Option Str
  baseAddress : Int
  addressBlocks : List AddressBlock
  interrupts : List Interrupt
  dim : IDim
  props : Props
  deriving DecidableEq, Repr

/-- `IPeripheral`. -/
structure IPeripheral where
  hd : IPeripheralHd
  rcs : List IRC
  deriving Repr

/-- The fully specified property group of processed elements (model/process.py:34-44 `reg_prop_validator`). -/
structure FProps where
  size : Int
  access : Access
  protection : Protection
  resetValue : Int
  resetMask : Int
  deriving DecidableEq, Repr

/-- model/process.py:296-304 `Register`. -/
structure Register where
  name : Str
  displayName : Option Str
  description : Option Str
  alternateGroup : Option Str
  alternateRegister : Option Str
  addressOffset : Int
  dataType : Option DataType
  modifiedWriteValues : ModWrite
  writeConstraint : Option WriteConstraint
  readAction : Option ReadAction
  props : FProps
  fields : List Field
  baseAddress : Int
  deriving DecidableEq, Repr

/-- model/process.py:361-371 `Cluster`, without `registers_clusters`. -/
structure ClusterHd where
  name : Str
  description : Option Str
  alternateCluster : Option Str
  headerStructName : Option Str
  addressOffset : Int
  props : FProps
  baseAddress : Int
  endAddress : Int
  clusterSize : Int
  deriving DecidableEq, Repr

/-- `Register | Cluster`. -/
inductive RC where
  | reg (r : Register)
  | clu (c : ClusterHd) (children : List RC)
  deriving Repr

/-- model/process.py:439-451 `Peripheral`. -/
structure Peripheral where
  name : Str
  version : Option Str
  description : Option Str
  alternatePeripheral : Option Str
  groupName : Option Str
  prependToName : Option Str
  appendToName : Option Str
  headerStructName : Option Str
  disableCondition : Option Str
  baseAddress : Int
  addressBlocks : List AddressBlock
  interrupts : List Interrupt
  props : FProps
  endAddress : Int
  endAddressEffective : Int
  peripheralSize : Int
  peripheralSizeEffective : Int
  rcs : List RC
  registers : List Register
  deriving Repr

/-- model/process.py:493-512 `DeviceBase`. -/
structure DeviceHd where
  props : FProps
  vendor : Option Str
  vendorId : Option Str
  name : Str
  series : Option Str
  version : Str
  description : Str
  licenseText : Option Str
  cpu : Option Cpu
  headerSystemFilename : Option Str
  headerDefinitionsPrefix : Option Str
  addressUnitBits : Int
  width : Int
  deriving DecidableEq, Repr

/-- model/process.py:515-517 `IDevice`. -/
structure IDevice where
  hd : DeviceHd
  peripherals : List IPeripheral
  deriving Repr

/-- model/process.py:520-522 `Device`. -/
structure Device where
  hd : DeviceHd
  peripherals : List Peripheral
  deriving Repr

end Svd
