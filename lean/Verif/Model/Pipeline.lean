import Verif.Model.Resolver
import Verif.Model.Inherit
import Verif.Model.Finalize
/-
The whole processing pipeline: /repo/src/svdsuite/process.py:80-134.
-/
namespace Svd

/-- process.py:97-106: the exceptions of the resolver that become a `ProcessException`. -/
def wrapResolve {α : Type} (x : M α) : M α :=
  match x with
  | .ok a ws => .ok a ws
  | .err .enumContainer => .err (.process .wrapEnumContainer)
  | .err .loop => .err (.process .wrapLoop)
  | .err .cycle => .err (.process .wrapCycle)
  | .err .unprocessed => .err (.process .wrapUnprocessed)
  | .err e => .err e

/-- process.py:91-95: the device level properties with their defaults. -/
def deviceProps (p : Props) : FProps :=
  { size := p.size.getD 32
    access := p.access.getD .readWrite
    protection := p.protection.getD .any
    resetValue := p.resetValue.getD 0
    resetMask := p.resetMask.getD 0xFFFFFFFF }

/-- process.py:108-128: the attributes of the intermediate device. -/
def deviceHead (d : SDeviceHd) : DeviceHd :=
  { props := deviceProps d.props
    vendor := d.vendor, vendorId := d.vendorId, name := d.name, series := d.series, version := d.version
    description := d.description, licenseText := d.licenseText, cpu := d.cpu.map processCpu
    headerSystemFilename := d.headerSystemFilename, headerDefinitionsPrefix := d.headerDefinitionsPrefix
    addressUnitBits := d.addressUnitBits, width := d.width }

/-- process.py:90-134 `_process_device`. -/
def processDevice (ord : List Nat → List Nat) (fuel : Nat) (d : SDevice) : M Device :=
  M.bind (wrapResolve (resolvePeripherals ord fuel d)) fun ps =>
  validateAndFinalize (inheritDevice { hd := deviceHead d.hd, peripherals := ps })

end Svd
