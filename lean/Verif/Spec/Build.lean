import Verif.Spec.Dim
import Verif.Spec.DimText
import Verif.Spec.Misc
import Verif.Spec.Layout
import Verif.Spec.Derive
import Verif.Model.Enum
/-
The elements that a device description without derivedFrom stands for, defined by recursion over the description; independent
of the resolver graph.
-/
namespace Svd.Spec

/-- One of the elements a declaration stands for: its number, its name, its display name, its distance from the declared
position. -/
structure Place where
  index : Nat
  name : Str
  display : Option Str
  shift : Int

/-- The elements a declaration with this name, display name and dim attributes stands for (`true` = dim is in force). -/
inductive Places (name : Str) (display : Option Str) (dim : SDim) : Bool → List Place → Prop
  /-- Without marker in the name the declaration stands for itself. -/
  | single : ¬ Contains listMark name → Places name display dim false [⟨0, name, display, 0⟩]
  /-- With a marker it stands for `dim` elements, one for each index, `dimIncrement` apart. -/
  | expanded {n : Int} {mark : Str} {idx : List Str} : dim.dim = some n → 1 ≤ n → MarkerOf name mark → (idx.length : Int) = n →
      IndicesOf name n dim.dimIndex idx →
      Places name display dim true (idx.mapIdx fun i s =>
        ⟨i, fill mark s name, display.map (fill mark s), dim.dimIncrement.getD 0 * i⟩)

/-- The display name of a declared element (registers only). -/
def displayOf : Parsed → Option Str
  | .reg r => r.displayName
  | _ => none

/-- The dim attributes kept by an element: none if it is a product of dim. -/
def keptDim (expanded : Bool) (d : SDim) : IDim := if expanded then {} else ⟨d.dim, d.dimIncrement, d.dimIndex⟩

/-- An array marker left in a display name is replaced by the number of the element. -/
def finishDisplay (i : Nat) (s : Str) : Str := fillArray (natText i) s

/-- `l` is `src` in ascending order of the key; entries with the same key keep their order. -/
structure StableSort {α : Type} (key : α → Int) (src l : List α) : Prop where
  perm : l.Perm src
  sorted : SortedOn key l
  stable : ∀ k, l.filter (fun x => key x == k) = src.filter (fun x => key x == k)

/-- The element at a place has the attributes of the declaration. -/
inductive HeadAt (expanded : Bool) : Parsed → Place → Processed → Prop
  | periph {p pl bs is} : StableSort (·.offset) (p.addressBlocks.map blockOf) bs → StableSort (·.value) p.interrupts is →
      HeadAt expanded (.periph p) pl (.periph
        { name := pl.name, version := p.version, description := p.description, alternatePeripheral := p.alternatePeripheral
          groupName := p.groupName, prependToName := p.prependToName, appendToName := p.appendToName
          headerStructName := p.headerStructName, disableCondition := p.disableCondition
          baseAddress := p.baseAddress + pl.shift, addressBlocks := bs, interrupts := is
          dim := keptDim expanded p.dim, props := p.props })
  | clu {c pl} : HeadAt expanded (.clu c) pl (.clu
        { name := pl.name, description := c.description, alternateCluster := c.alternateCluster
          headerStructName := c.headerStructName, addressOffset := c.addressOffset + pl.shift
          dim := keptDim expanded c.dim, props := c.props })
  | reg {r pl} : HeadAt expanded (.reg r) pl (.reg
        { name := pl.name, displayName := pl.display.map (finishDisplay pl.index), description := r.description
          alternateGroup := r.alternateGroup, alternateRegister := r.alternateRegister
          addressOffset := r.addressOffset + pl.shift, dataType := r.dataType
          modifiedWriteValues := r.modifiedWriteValues.getD .modify, writeConstraint := r.writeConstraint
          readAction := r.readAction, dim := keptDim expanded r.dim, props := r.props })
  | field {f pl m l} : BitsOf f none m l →
      HeadAt expanded (.field f) pl (.field
        { name := pl.name, description := f.description, lsb := l + pl.shift, msb := m + pl.shift
          modifiedWriteValues := f.modifiedWriteValues.getD .modify, writeConstraint := f.writeConstraint
          readAction := f.readAction, dim := keptDim expanded f.dim, access := f.access })

/-- The elements a declaration stands for. -/
def StandsFor (p : Parsed) (hs : List Processed) : Prop :=
  ∃ ex pls, Places (nameOfDecl p) (displayOf p) (dimOf p) ex pls ∧ Entrywise (HeadAt ex p) pls hs

/-! ### sizes -/

/-- A size that is no multiple of 8 counts as 0. -/
def usable (s : Int) : Int := if s % 8 = 0 then s else 0

mutual
/-- The size with which a register or cluster counts, where `encl` is the size in force around it: its own size, or the one
around it; a cluster with content counts with the largest size of its content. -/
def countRC (encl : Int) : SRC → Int
  | .reg r => (r.props.size.map usable).getD encl
  | .clu c ch => if ch.isEmpty then (c.props.size.map usable).getD encl else usable (contentSize (c.props.size.getD encl) ch)
/-- The largest size of the content (at least `-1`). -/
def contentSize (encl : Int) : List SRC → Int
  | [] => -1
  | x :: xs => max (countRC encl x) (contentSize encl xs)
end

/-- The size of an element with the given content: its declared size if it has no content. -/
def sizeWith (declared : Option Int) (encl : Int) (content : List SRC) : Option Int :=
  if content.isEmpty then declared else some (contentSize (declared.getD encl) content)

/-! ### content -/

/-- In ascending order of the key `(position, name)`. -/
def SortedBy {α : Type} (key : α → Int × Str) (l : List α) : Prop := l.Pairwise fun a b => AddrNameLe (key a) (key b)

def ircKey : IRC → Int × Str
  | .reg r _ => (r.addressOffset, r.name)
  | .clu c _ => (c.addressOffset, c.name)
def fieldKey (f : IField) : Int × Str := (f.hd.lsb, f.hd.name)
def periphKey (p : IPeripheral) : Int × Str := (p.hd.baseAddress, p.hd.name)

/-- A declared register or cluster without its content. -/
def declOf : SRC → Parsed
  | .reg r => .reg r
  | .clu c _ => .clu c

/-- The enumerated value containers of a field at these bits; at most two, then one for reading and one for writing
(`createContainer`: see C01-C05). -/
structure ContainersBuilt (cs : List SEnumContainer) (lsb msb : Int) (ks : List IEnumContainer) : Prop where
  each : ∃ cs', cs'.Perm cs ∧ Entrywise (fun c k => ∃ w, createContainer c lsb msb = .ok k w) cs' ks
  usages : (ks.map (·.usage)).Nodup
  two : ks.length ≤ 2
  both : ks.length = 2 → ∀ k ∈ ks, k.usage = .read ∨ k.usage = .write

/-- A field element built for the declared field `f` at the head `h`. -/
def FieldBuilt (f : SField) (h : Processed) (x : IField) : Prop :=
  h = .field x.hd ∧ ContainersBuilt f.containers x.hd.lsb x.hd.msb x.containers

/-- The field elements built for a list of declared fields, in declaration order. -/
inductive FieldsBuilt : List SField → List IField → Prop
  | nil : FieldsBuilt [] []
  | cons {f fs hs xs ys} : StandsFor (.field f) hs → Entrywise (FieldBuilt f) hs xs → FieldsBuilt fs ys →
      FieldsBuilt (f :: fs) (xs ++ ys)

mutual
/-- The register or cluster element built for a declared one at the head `h`. -/
def RCBuilt (encl : Int) : SRC → Processed → IRC → Prop
  | .reg r, h, x => ∃ hd fs fs', h = .reg hd ∧ x = .reg hd fs ∧ FieldsBuilt r.fields fs' ∧ fs'.Perm fs ∧ SortedBy fieldKey fs
  | .clu c ch, h, x => ∃ hd ys ys', h = .clu hd ∧
      x = .clu { hd with props := { hd.props with size := sizeWith c.props.size encl ch } } ys ∧
      RCsBuilt (c.props.size.getD encl) ch ys' ∧ ys'.Perm ys ∧ SortedBy ircKey ys
/-- The register and cluster elements built for a list of declared ones, in declaration order. -/
def RCsBuilt (encl : Int) : List SRC → List IRC → Prop
  | [], ys => ys = []
  | x :: xs, ys => ∃ hs a b, StandsFor (declOf x) hs ∧
      Entrywise (RCBuilt encl x) hs a ∧ RCsBuilt encl xs b ∧ ys = a ++ b
end

/-- The peripheral element built for a declared peripheral at the head `h`. -/
def PeriphBuilt (p : SPeriphT) (h : Processed) (x : IPeripheral) : Prop :=
  ∃ hd ys', h = .periph hd ∧ x.hd = { hd with props := { hd.props with size := sizeWith p.hd.props.size 32 p.rcs } } ∧
    RCsBuilt (p.hd.props.size.getD 32) p.rcs ys' ∧ ys'.Perm x.rcs ∧ SortedBy ircKey x.rcs

/-- The peripheral elements built for a list of declared ones, in declaration order. -/
inductive PeriphsBuilt : List SPeriphT → List IPeripheral → Prop
  | nil : PeriphsBuilt [] []
  | cons {p ps hs xs ys} : StandsFor (.periph p.hd) hs → Entrywise (PeriphBuilt p) hs xs → PeriphsBuilt ps ys →
      PeriphsBuilt (p :: ps) (xs ++ ys)

/-- The peripherals of a device description without derivedFrom. -/
def DeviceBuilt (d : SDevice) (ps : List IPeripheral) : Prop :=
  ∃ ps', PeriphsBuilt d.peripherals ps' ∧ ps'.Perm ps ∧ SortedBy periphKey ps

end Svd.Spec
