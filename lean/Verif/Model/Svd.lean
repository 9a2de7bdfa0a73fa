import Verif.Model.Types
/-
The parse model: /repo/src/svdsuite/model/parse.py.  `parent` back pointers are omitted.
-/
namespace Svd

/-- model/parse.py:17-24 `SVDSauRegion`. -/
structure SSauRegion where
  enabled : Option Bool := none
  name : Option Str := none
  base : Int
  limit : Int
  access : SauAccess
  deriving DecidableEq, Repr

/-- model/parse.py:27-32 `SVDSauRegionsConfig`. -/
structure SSauConfig where
  enabled : Option Bool := none
  protectionWhenDisabled : Option Protection := none
  regions : List SSauRegion := []
  deriving DecidableEq, Repr

/-- model/parse.py:35-54 `SVDCPU`. -/
structure SCpu where
  name : CPUName
  revision : Str
  endian : Endian
  mpuPresent : Option Bool := none
  fpuPresent : Option Bool := none
  fpuDp : Option Bool := none
  dspPresent : Option Bool := none
  icachePresent : Option Bool := none
  dcachePresent : Option Bool := none
  itcmPresent : Option Bool := none
  dtcmPresent : Option Bool := none
  vtorPresent : Option Bool := none
  nvicPrioBits : Int
  vendorSystickConfig : Bool
  deviceNumInterrupts : Option Int := none
  sauNumRegions : Option Int := none
  sauConfig : Option SSauConfig := none
  deriving DecidableEq, Repr

/-- model/parse.py:57-63 `SVDEnumeratedValue`. -/
structure SEnumValue where
  name : Str
  description : Option Str := none
  value : Option Str := none
  isDefault : Option Bool := none
  deriving DecidableEq, Repr

/-- model/parse.py:66-70 `SVDDimArrayIndex`. -/
structure SDimArrayIndex where
  headerEnumName : Option Str := none
  values : List SEnumValue
  deriving DecidableEq, Repr

/-- model/parse.py:73-79 `_SVDDimElementGroup`. -/
structure SDim where
  dim : Option Int := none
  dimIncrement : Option Int := none
  dimIndex : Option Str := none
  dimName : Option Str := none
  dimArrayIndex : Option SDimArrayIndex := none
  deriving DecidableEq, Repr

/-- model/parse.py:82-88 `_SVDRegisterPropertiesGroup` (also the five property attributes of `IRegister`, `ICluster`,
`IPeripheral`, model/process.py:284-293, 349-358, 427-436). -/
structure Props where
  size : Option Int := none
  access : Option Access := none
  protection : Option Protection := none
  resetValue : Option Int := none
  resetMask : Option Int := none
  deriving DecidableEq, Repr

/-- model/parse.py:91-97 `SVDAddressBlock`. -/
structure SAddressBlock where
  offset : Int
  size : Int
  usage : EnumToken
  protection : Option Protection := none
  deriving DecidableEq, Repr

/-- model/parse.py:100-105 `SVDInterrupt`; also model/process.py:154-159 `Interrupt` (same attributes). -/
structure Interrupt where
  name : Str
  description : Option Str := none
  value : Int
  deriving DecidableEq, Repr

/-- model/parse.py:108-113 `SVDWriteConstraint`; also model/process.py:165-170 `WriteConstraint` (same attributes). -/
structure WriteConstraint where
  writeAsRead : Option Bool := none
  useEnumeratedValues : Option Bool := none
  range : Option (Int × Int) := none
  deriving DecidableEq, Repr

/-- model/parse.py:116-123 `SVDEnumeratedValueContainer`. -/
structure SEnumContainer where
  name : Option Str := none
  headerEnumName : Option Str := none
  usage : Option Usage := none
  values : List SEnumValue
  derivedFrom : Option Str := none
  deriving DecidableEq, Repr

/-- model/parse.py:126-141 `SVDField`. -/
structure SField where
  name : Str
  description : Option Str := none
  bitOffset : Option Int := none
  bitWidth : Option Int := none
  lsb : Option Int := none
  msb : Option Int := none
  bitRange : Option Str := none
  access : Option Access := none
  modifiedWriteValues : Option ModWrite := none
  writeConstraint : Option WriteConstraint := none
  readAction : Option ReadAction := none
  containers : List SEnumContainer := []
  dim : SDim := {}
  derivedFrom : Option Str := none
  deriving DecidableEq, Repr

/-- model/parse.py:144-158 `SVDRegister`. -/
structure SRegister where
  name : Str
  displayName : Option Str := none
  description : Option Str := none
  alternateGroup : Option Str := none
  alternateRegister : Option Str := none
  addressOffset : Int
  dataType : Option DataType := none
  modifiedWriteValues : Option ModWrite := none
  writeConstraint : Option WriteConstraint := none
  readAction : Option ReadAction := none
  fields : List SField := []
  dim : SDim := {}
  props : Props := {}
  derivedFrom : Option Str := none
  deriving DecidableEq, Repr

/-- model/parse.py:161-170 `SVDCluster` without `registers_clusters` (kept in `SRC.clu`). -/
structure SCluster where
  name : Str
  description : Option Str := none
  alternateCluster : Option Str := none
  headerStructName : Option Str := none
  addressOffset : Int
  dim : SDim := {}
  props : Props := {}
  derivedFrom : Option Str := none
  deriving DecidableEq, Repr

/-- An entry of `registers_clusters`: `SVDRegister | SVDCluster`. -/
inductive SRC where
  | reg (r : SRegister)
  | clu (c : SCluster) (children : List SRC)
  deriving Repr

/-- model/parse.py:173-189 `SVDPeripheral` without `registers_clusters` (kept in `SPeriphT`). -/
structure SPeripheral where
  name : Str
  version : Option Str := none
  description : Option Str := none
  alternatePeripheral : Option Str := none
  groupName : Option Str := none
  prependToName : Option Str := none
  appendToName : Option Str := none
  headerStructName : Option Str := none
  disableCondition : Option Str := none
  baseAddress : Int
  addressBlocks : List SAddressBlock := []
  interrupts : List Interrupt := []
  dim : SDim := {}
  props : Props := {}
  derivedFrom : Option Str := none
  deriving DecidableEq, Repr

/-- `SVDPeripheral` with its `registers_clusters`. -/
structure SPeriphT where
  hd : SPeripheral
  rcs : List SRC := []
  deriving Repr

/-- model/parse.py:192-208 `SVDDevice` without `peripherals`. -/
structure SDeviceHd where
  xsNoNamespaceSchemaLocation : Str := []
  schemaVersion : Str := []
  vendor : Option Str := none
  vendorId : Option Str := none
  name : Str
  series : Option Str := none
  version : Str := []
  description : Str := []
  licenseText : Option Str := none
  cpu : Option SCpu := none
  headerSystemFilename : Option Str := none
  headerDefinitionsPrefix : Option Str := none
  addressUnitBits : Int
  width : Int
  props : Props := {}
  deriving DecidableEq, Repr

/-- `SVDDevice`. -/
structure SDevice where
  hd : SDeviceHd
  peripherals : List SPeriphT := []
  deriving Repr

end Svd
