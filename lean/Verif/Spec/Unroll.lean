import Verif.Spec.Build
import Verif.Model.Resolver
/-
The same description with some of its dim elements written out by hand (C66).
-/
namespace Svd.Spec

/-- The dim attributes of the declaration `p` are in force and consistent, `pls` are the elements it stands for, and there is
no marker left in their names. -/
structure Expands (p : Parsed) (pls : List Place) : Prop where
  places : Places (nameOfDecl p) (displayOf p) (dimOf p) true pls
  fine : ¬ BadDim p
  plain : ∀ pl ∈ pls, ¬ Contains listMark pl.name ∧ ∀ t, pl.display = some t → ¬ Contains listMark t

/-- A peripheral, cluster, register or field declared on its own at one of the places. -/
def onePeriph (p : SPeripheral) (pl : Place) : SPeripheral := { p with name := pl.name, baseAddress := p.baseAddress + pl.shift, dim := {} }
def oneClu (c : SCluster) (pl : Place) : SCluster := { c with name := pl.name, addressOffset := c.addressOffset + pl.shift, dim := {} }
def oneReg (r : SRegister) (pl : Place) : SRegister :=
  { r with name := pl.name, displayName := pl.display, addressOffset := r.addressOffset + pl.shift, dim := {} }
/-- The bits `m` and `l` are the highest and lowest bit of the declared field. -/
def oneField (f : SField) (m l : Int) (pl : Place) : SField :=
  { f with name := pl.name, lsb := some (l + pl.shift), msb := some (m + pl.shift), bitOffset := none, bitWidth := none, bitRange := none, dim := {} }

/-- A declared field, left as it is or written out. -/
def WrittenField (f : SField) (fs : List SField) : Prop :=
  fs = [f] ∨ ∃ pls m l, Expands (.field f) pls ∧ BitsOf f none m l ∧ fs = pls.map (oneField f m l)

mutual
/-- A declared register or cluster, left as it is or written out; the same for what it contains. -/
def WrittenRC : SRC → List SRC → Prop
  | .reg r, ys => ∃ gs, Entrywise WrittenField r.fields gs ∧
      (ys = [.reg { r with fields := gs.flatten }] ∨
       ∃ pls, Expands (.reg r) pls ∧ ys = pls.map fun pl => .reg (oneReg { r with fields := gs.flatten } pl))
  | .clu c ch, ys => ∃ zs, WrittenRCs ch zs ∧
      (ys = [.clu c zs] ∨ ∃ pls, Expands (.clu c) pls ∧ ys = pls.map fun pl => .clu (oneClu c pl) zs)
/-- The same for a list of registers and clusters. -/
def WrittenRCs : List SRC → List SRC → Prop
  | [], ys => ys = []
  | x :: xs, ys => ∃ a b, ys = a ++ b ∧ WrittenRC x a ∧ WrittenRCs xs b
end

/-- A declared peripheral, left as it is or written out; the same for what it contains. -/
def WrittenPeriph (p : SPeriphT) (ps : List SPeriphT) : Prop := ∃ zs, WrittenRCs p.rcs zs ∧
  (ps = [{ p with rcs := zs }] ∨ ∃ pls, Expands (.periph p.hd) pls ∧ ps = pls.map fun pl => { hd := onePeriph p.hd pl, rcs := zs })

/-- The same description with some (or all) of the dim elements written out. -/
def Unrolled (d d' : SDevice) : Prop := ∃ bs, Entrywise WrittenPeriph d.peripherals bs ∧ d' = { d with peripherals := bs.flatten }

/-- The warnings that depend on how the bits of a field are written. -/
def PositionWarning : Warn → Prop
  | .bitRangeReversed _ | .msbLtLsb _ => True
  | _ => False

end Svd.Spec
