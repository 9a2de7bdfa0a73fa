import Verif.Model.Dim
/-
Top-down property inheritance: /repo/src/svdsuite/process.py:506-563 (`_InheritProperties`).
In-place updates become functions returning the updated value.
-/
namespace Svd

/-- process.py:534-538 (and 509-513): own value, else the enclosing one. -/
def inheritProps (own encl : Props) : Props :=
  { size := orIfNone own.size encl.size
    access := orIfNone own.access encl.access
    protection := orIfNone own.protection encl.protection
    resetValue := orIfNone own.resetValue encl.resetValue
    resetMask := orIfNone own.resetMask encl.resetMask }

/-- process.py:558-563 `_inherit_properties_fields` (one field). -/
def inheritField (access : Option Access) (wc : Option WriteConstraint) (f : IField) : IField :=
  { f with hd := { f.hd with access := orIfNone f.hd.access access
                             writeConstraint := orIfNone f.hd.writeConstraint wc } }

mutual
/-- process.py:533-556: loop body of `_inherit_properties_registers_clusters`. -/
def inheritRC (encl : Props) : IRC → IRC
  | .reg r fs =>
      let p := inheritProps r.props encl
      .reg { r with props := p } (fs.map (inheritField p.access r.writeConstraint))
  | .clu c ch =>
      let p := inheritProps c.props encl
      .clu { c with props := p } (inheritRCs p ch)
/-- process.py:524-556 `_inherit_properties_registers_clusters`. -/
def inheritRCs (encl : Props) : List IRC → List IRC
  | [] => []
  | x :: xs => inheritRC encl x :: inheritRCs encl xs
end

/-- The property group of a device (never `None`, process.py:91-95) as an enclosing group. -/
def FProps.toProps (p : FProps) : Props :=
  { size := some p.size, access := some p.access, protection := some p.protection
    resetValue := some p.resetValue, resetMask := some p.resetMask }

/-- process.py:508-522: one peripheral. -/
def inheritPeripheral (dev : Props) (p : IPeripheral) : IPeripheral :=
  let ps := inheritProps p.hd.props dev
  { hd := { p.hd with props := ps }, rcs := inheritRCs ps p.rcs }

/-- process.py:507-522 `inherit_properties`. -/
def inheritDevice (d : IDevice) : IDevice :=
  { d with peripherals := d.peripherals.map (inheritPeripheral d.hd.props.toProps) }

end Svd
