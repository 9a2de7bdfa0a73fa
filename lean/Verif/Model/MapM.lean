import Verif.Model.Proc
/-
The peripheral/register map: /repo/src/svdsuite/map.py and model/map.py.
-/
namespace Svd

/-- model/map.py `MapRegister`.  The attributes `size`, `access`, ..., `fields` are copies of those of the `processed`
register, which is kept. -/
structure MapRegister where
  name : Str
  displayName : Option Str
  description : Option Str
  props : FProps
  address : Int
  fields : List Field
  processed : Register
  deriving DecidableEq, Repr

/-- model/map.py `MapPeripheral`. -/
structure MapPeripheral where
  name : Str
  description : Option Str
  address : Int
  allocatedRange : Int × Int
  registers : List MapRegister
  processed : Peripheral
  deriving Repr

/-- map.py:49-66 `_build_map_register`. -/
def buildMapRegister (container : Int) (r : Register) : MapRegister :=
  { name := r.name, displayName := r.displayName, description := r.description, props := r.props,
    address := container + r.addressOffset, fields := r.fields, processed := r }

mutual
/-- One iteration of the loops map.py:33-37 and 72-76. -/
def buildMapRC (container : Int) : RC → List MapRegister
  | .reg r => [buildMapRegister container r]
  | .clu c cs => buildMapRCs (container + c.addressOffset) cs
/-- map.py:33-37, 68-78 `_build_map_cluster`. -/
def buildMapRCs (container : Int) : List RC → List MapRegister
  | [] => []
  | x :: xs => buildMapRC container x ++ buildMapRCs container xs
end

/-- map.py:80-89 `_get_allocated_range`. -/
def allocatedRange (start : Int) (blocks : List AddressBlock) : M (Int × Int) :=
  let bs := sortBy (fun a b => decide (a.offset ≤ b.offset)) blocks
  match bs.head?, bs.getLast? with
  | some f, some l => M.pure (start + f.offset, start + l.offset + l.size - 1)
  | _, _ => M.throw .valueError

/-- map.py:31-47 `_build_map_peripheral`. -/
def buildMapPeripheral (p : Peripheral) : M MapPeripheral :=
  M.bind (allocatedRange p.baseAddress p.addressBlocks) fun r =>
    M.pure { name := p.name, description := p.description, address := p.baseAddress, allocatedRange := r,
             registers := buildMapRCs p.baseAddress p.rcs, processed := p }

/-- map.py:22-29 `_build_map`. -/
def buildMap (d : Device) : M (List MapPeripheral) :=
  M.bind (M.mapM buildMapPeripheral d.peripherals) fun ps =>
    M.pure (sortBy (fun a b => decide (a.address ≤ b.address)) ps)

end Svd
