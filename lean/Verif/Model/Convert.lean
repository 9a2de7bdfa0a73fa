import Verif.Model.Proc
/-
Conversion of a processed device into an SVD device: /repo/src/svdsuite/util/process_parse_model_convert.py.
`parent` pointers are omitted (DESIGN.md).
-/
namespace Svd

/-- process_parse_model_convert.py:35-43. -/
def convSauRegion (r : SauRegion) : SSauRegion :=
  { enabled := some r.enabled, name := r.name, base := r.base, limit := r.limit, access := r.access }

/-- process_parse_model_convert.py:46-59. -/
def convSauConfig (c : SauConfig) : SSauConfig :=
  { enabled := some c.enabled, protectionWhenDisabled := some c.protectionWhenDisabled,
    regions := c.regions.map convSauRegion }

/-- process_parse_model_convert.py:62-91. -/
def convCpu (c : Cpu) : SCpu :=
  { name := c.name, revision := c.revision, endian := c.endian, mpuPresent := some c.mpuPresent,
    fpuPresent := some c.fpuPresent, fpuDp := some c.fpuDp, dspPresent := some c.dspPresent,
    icachePresent := some c.icachePresent, dcachePresent := some c.dcachePresent,
    itcmPresent := some c.itcmPresent, dtcmPresent := some c.dtcmPresent, vtorPresent := some c.vtorPresent,
    nvicPrioBits := c.nvicPrioBits, vendorSystickConfig := c.vendorSystickConfig,
    deviceNumInterrupts := c.deviceNumInterrupts, sauNumRegions := c.sauNumRegions,
    sauConfig := c.sauConfig.map convSauConfig }

/-- process_parse_model_convert.py:94-101. -/
def convEnumValue (v : EnumValue) : SEnumValue :=
  { name := v.name, description := v.description, value := some (intStr v.value), isDefault := some false }

/-- process_parse_model_convert.py:119-126. -/
def convAddressBlock (b : AddressBlock) : SAddressBlock :=
  { offset := b.offset, size := b.size, usage := b.usage, protection := some b.protection }

/-- process_parse_model_convert.py:147-162. -/
def convEnumContainer (c : EnumContainer) : SEnumContainer :=
  { name := c.name, headerEnumName := c.headerEnumName, usage := some c.usage,
    values := c.values.map convEnumValue, derivedFrom := none }

/-- process_parse_model_convert.py:165-189 (138-144 copies the write constraint, same attributes). -/
def convField (f : Field) : SField :=
  { name := f.name, description := f.description, lsb := some f.lsb, msb := some f.msb, access := some f.access,
    modifiedWriteValues := some f.modifiedWriteValues, writeConstraint := f.writeConstraint,
    readAction := f.readAction, containers := f.containers.map convEnumContainer, derivedFrom := none }

/-- The five property arguments of the constructors, e.g. process_parse_model_convert.py:202-206. -/
def convProps (p : FProps) : Props :=
  { size := some p.size, access := some p.access, protection := some p.protection,
    resetValue := some p.resetValue, resetMask := some p.resetMask }

/-- process_parse_model_convert.py:192-221. -/
def convRegister (r : Register) : SRegister :=
  { name := r.name, displayName := r.displayName, description := r.description,
    alternateGroup := r.alternateGroup, alternateRegister := r.alternateRegister,
    addressOffset := r.addressOffset, props := convProps r.props, dataType := r.dataType,
    modifiedWriteValues := some r.modifiedWriteValues, writeConstraint := r.writeConstraint,
    readAction := r.readAction, fields := r.fields.map convField, derivedFrom := none }

/-- The `SVDCluster(...)` call process_parse_model_convert.py:236-250, without children. -/
def convClusterHd (c : ClusterHd) : SCluster :=
  { name := c.name, description := c.description, alternateCluster := c.alternateCluster,
    headerStructName := c.headerStructName, addressOffset := c.addressOffset, props := convProps c.props,
    derivedFrom := none }

mutual
/-- process_parse_model_convert.py:224-255 (recursion over `registers_clusters`). -/
def convRC : RC → SRC
  | .reg r => .reg (convRegister r)
  | .clu c cs => .clu (convClusterHd c) (convRCs cs)
/-- The loops process_parse_model_convert.py:226-234 and 263-271. -/
def convRCs : List RC → List SRC
  | [] => []
  | x :: xs => convRC x :: convRCs xs
end

/-- process_parse_model_convert.py:258-305. -/
def convPeripheral (p : Peripheral) : SPeriphT :=
  { hd := { name := p.name, version := p.version, description := p.description,
            alternatePeripheral := p.alternatePeripheral, groupName := p.groupName,
            prependToName := p.prependToName, appendToName := p.appendToName,
            headerStructName := p.headerStructName, disableCondition := p.disableCondition,
            baseAddress := p.baseAddress, props := convProps p.props,
            addressBlocks := p.addressBlocks.map convAddressBlock, interrupts := p.interrupts,
            derivedFrom := none },
    rcs := convRCs p.rcs }

/-- process_parse_model_convert.py:308-340. -/
def convDevice (d : Device) : SDevice :=
  { hd := { xsNoNamespaceSchemaLocation := s%"CMSIS-SVD.xsd", schemaVersion := s%"1.3", vendor := d.hd.vendor,
            vendorId := d.hd.vendorId, name := d.hd.name, series := d.hd.series, version := d.hd.version,
            description := d.hd.description, licenseText := d.hd.licenseText, cpu := d.hd.cpu.map convCpu,
            headerSystemFilename := d.hd.headerSystemFilename,
            headerDefinitionsPrefix := d.hd.headerDefinitionsPrefix,
            addressUnitBits := d.hd.addressUnitBits, width := d.hd.width, props := convProps d.hd.props },
    peripherals := d.peripherals.map convPeripheral }

end Svd
