import Verif.Model.Dim
/-
Creation of intermediate elements: /repo/src/svdsuite/process.py:136-464.
-/
namespace Svd

/-- process.py:178-192 `_process_sau_regions` (one region). -/
def processSauRegion (r : SSauRegion) : SauRegion :=
  { enabled := r.enabled.getD true, name := r.name, base := r.base, limit := r.limit, access := r.access }

/-- process.py:161-176 `_process_sau_regions_config` (argument not `None`). -/
def processSauConfig (c : SSauConfig) : SauConfig :=
  { enabled := c.enabled.getD true
    protectionWhenDisabled := c.protectionWhenDisabled.getD .secure
    regions := c.regions.map processSauRegion }

/-- process.py:136-159 `_process_cpu` (argument not `None`). -/
def processCpu (c : SCpu) : Cpu :=
  { name := if c.name = .CM0_PLUS then .CM0PLUS else c.name
    revision := c.revision
    endian := c.endian
    mpuPresent := c.mpuPresent.getD false
    fpuPresent := c.fpuPresent.getD false
    fpuDp := c.fpuDp.getD false
    dspPresent := c.dspPresent.getD false
    icachePresent := c.icachePresent.getD false
    dcachePresent := c.dcachePresent.getD false
    itcmPresent := c.itcmPresent.getD false
    dtcmPresent := c.dtcmPresent.getD false
    vtorPresent := c.vtorPresent.getD true
    nvicPrioBits := c.nvicPrioBits
    vendorSystickConfig := c.vendorSystickConfig
    deviceNumInterrupts := c.deviceNumInterrupts
    sauNumRegions := c.sauNumRegions
    sauConfig := c.sauConfig.map processSauConfig }

/-- The dim attributes of a derived element: process.py:197-199, 245-247, 283-285, 337-339. -/
def mergeDim (p : SDim) (b : Option IDim) : IDim :=
  { dim := orIfNone p.dim (b.bind (·.dim))
    dimIncrement := orIfNone p.dimIncrement (b.bind (·.dimIncrement))
    dimIndex := orIfNone p.dimIndex (b.bind (·.dimIndex)) }

/-- The property group of a derived element: process.py:201-205, 249-253, 287-291. -/
def mergeProps (p : Props) (b : Option Props) : Props :=
  { size := orIfNone p.size (b.bind (·.size))
    access := orIfNone p.access (b.bind (·.access))
    protection := orIfNone p.protection (b.bind (·.protection))
    resetValue := orIfNone p.resetValue (b.bind (·.resetValue))
    resetMask := orIfNone p.resetMask (b.bind (·.resetMask)) }

/-- `declared if dim_increment is None else declared + dim_increment * index`: process.py:215, 258-260, 296-298,
415-416. -/
def atIndex (declared : Int) (inc : Option Int) (index : Nat) : Int :=
  match inc with
  | none => declared
  | some k => declared + k * Int.ofNat index

/-- process.py:371-384 `_process_address_blocks`. -/
def processAddressBlocks (bs : List SAddressBlock) : List AddressBlock :=
  sortBy (fun a b => decide (a.offset ≤ b.offset))
    (bs.map fun b => { offset := b.offset, size := b.size, usage := b.usage, protection := b.protection.getD .any })

/-- process.py:386-398 `_process_interrupts`. -/
def processInterrupts (is : List Interrupt) : List Interrupt :=
  sortBy (fun a b => decide (a.value ≤ b.value)) is

/-- process.py:194-242 `_process_peripheral`. -/
def processPeripheral (index : Nat) (name : Str) (p : SPeripheral) (base : Option IPeripheralHd) : IPeripheralHd :=
  let dim := mergeDim p.dim (base.map (·.dim))
  let own := processAddressBlocks p.addressBlocks
  { name := name
    version := orIfNone p.version (base.bind (·.version))
    description := orIfNone p.description (base.bind (·.description))
    alternatePeripheral := orIfNone p.alternatePeripheral (base.bind (·.alternatePeripheral))
    groupName := orIfNone p.groupName (base.bind (·.groupName))
    prependToName := orIfNone p.prependToName (base.bind (·.prependToName))
    appendToName := orIfNone p.appendToName (base.bind (·.appendToName))
    headerStructName := p.headerStructName
    disableCondition := orIfNone p.disableCondition (base.bind (·.disableCondition))
    baseAddress := atIndex p.baseAddress dim.dimIncrement index
    addressBlocks := if own.isEmpty then (match base with | some b => b.addressBlocks | none => []) else own
    interrupts := processInterrupts p.interrupts
    dim := dim
    props := mergeProps p.props (base.map (·.props)) }

/-- process.py:244-278 `_process_cluster`. -/
def processCluster (index : Nat) (name : Str) (p : SCluster) (base : Option IClusterHd) : IClusterHd :=
  let dim := mergeDim p.dim (base.map (·.dim))
  { name := name
    description := orIfNone p.description (base.bind (·.description))
    alternateCluster := orIfNone p.alternateCluster (base.bind (·.alternateCluster))
    headerStructName := orIfNone p.headerStructName (base.bind (·.headerStructName))
    addressOffset := atIndex p.addressOffset dim.dimIncrement index
    dim := dim
    props := mergeProps p.props (base.map (·.props)) }

/-- process.py:280-334 `_process_register`.  `_process_write_constraint` (400-409) copies its argument. -/
def processRegister (index : Nat) (name : Str) (display : Option Str) (p : SRegister) (base : Option IRegisterHd) :
    IRegisterHd :=
  let dim := mergeDim p.dim (base.map (·.dim))
  { name := name
    displayName := display.map fun d =>
      if hasSub arrMark d then replaceAll arrMark (natStr index) d else d
    description := orIfNone p.description (base.bind (·.description))
    alternateGroup := orIfNone p.alternateGroup (base.bind (·.alternateGroup))
    alternateRegister := orIfNone p.alternateRegister (base.bind (·.alternateRegister))
    addressOffset := atIndex p.addressOffset dim.dimIncrement index
    dataType := orIfNone p.dataType (base.bind (·.dataType))
    modifiedWriteValues := match p.modifiedWriteValues with
      | some m => m
      | none => match base with
        | some b => b.modifiedWriteValues
        | none => .modify
    writeConstraint := orIfNone p.writeConstraint (base.bind (·.writeConstraint))
    readAction := orIfNone p.readAction (base.bind (·.readAction))
    dim := dim
    props := mergeProps p.props (base.map (·.props)) }

/-- `re.match(r"\[(\d+):(\d+)\]", s)` (process.py:441): the two groups. -/
def matchBitRange (s : Str) : Option (Str × Str) :=
  match s with
  | '[' :: t =>
    let a := t.takeWhile isDigitC
    match t.drop a.length with
    | ':' :: u =>
      let b := u.takeWhile isDigitC
      match u.drop b.length with
      | ']' :: _ => if a.isEmpty || b.isEmpty then none else some (a, b)
      | _ => none
    | _ => none
  | _ => none

/-- process.py:439-453: the position given by a bitRange, as `(msb, lsb)`. -/
def bitRangePos (r : Str) : M (Int × Int) :=
  match matchBitRange r with
  | none => M.throw (.process .invalidBitRange)
  | some (a, b) =>
    match pyInt 10 a, pyInt 10 b with
    | some m, some l =>
      if m < l then M.bind (M.warn (.bitRangeReversed r)) fun _ => M.pure (l, m)
      else M.pure (m, l)
    | _, _ => M.throw .valueError

/-- process.py:419-464 `_process_field_msb_lsb`; result `(msb, lsb)`.  `base` gives `lsb`, `msb` of the base field. -/
def fieldMsbLsb (p : SField) (base : Option IFieldHd) : M (Int × Int) :=
  let bitOffset := orIfNone p.bitOffset (base.map (·.lsb))
  let bitWidth := orIfNone p.bitWidth (base.map (fun b => b.msb - b.lsb + 1))
  let lsb := orIfNone p.lsb (base.map (·.lsb))
  let msb := orIfNone p.msb (base.map (·.msb))
  let s1 : Option (Int × Int) :=
    if p.bitOffset.isSome || p.bitWidth.isSome then
      match bitOffset, bitWidth with
      | some o, some w => some (o + w - 1, o)
      | _, _ => none
    else none
  let s2 : Option (Int × Int) :=
    if p.lsb.isSome || p.msb.isSome then
      match lsb, msb with
      | some l, some m => some (m, l)
      | _, _ => s1
    else s1
  M.bind (match p.bitRange with
    | some r => M.bind (bitRangePos r) fun x => M.pure (some x)
    | none => M.pure s2) fun s3 =>
  match s3 with
  | none => M.throw (.process .noFieldPosition)
  | some (m, l) =>
    M.bind (M.warnIf (decide (m < l)) (.msbLtLsb p.name)) fun _ => M.pure (m, l)

/-- process.py:336-369 `_process_field` with 411-417 `_process_field_msb_lsb_with_increment`. -/
def processField (index : Nat) (name : Str) (p : SField) (base : Option IFieldHd) : M IFieldHd :=
  let dim := mergeDim p.dim (base.map (·.dim))
  M.bind (fieldMsbLsb p base) fun (m, l) =>
  M.pure
    { name := name
      description := orIfNone p.description (base.bind (·.description))
      lsb := atIndex l dim.dimIncrement index
      msb := atIndex m dim.dimIncrement index
      modifiedWriteValues := match p.modifiedWriteValues with
        | some m => m
        | none => match base with
          | some b => b.modifiedWriteValues
          | none => .modify
      writeConstraint := orIfNone p.writeConstraint (base.bind (·.writeConstraint))
      readAction := orIfNone p.readAction (base.bind (·.readAction))
      dim := dim
      access := orIfNone p.access (base.bind (·.access)) }

end Svd
