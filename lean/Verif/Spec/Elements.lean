import Verif.Spec.Content
/-
The elements of the resolved device and their content, for any use of `derivedFrom`.
-/
namespace Svd.Spec

/-! ### attributes -/

def dimOver (own : SDim) (base : IDim) : SDim :=
  { own with dim := own.dim.or base.dim, dimIncrement := own.dimIncrement.or base.dimIncrement, dimIndex := own.dimIndex.or base.dimIndex }

def propsOver (own base : Props) : Props :=
  { size := own.size.or base.size, access := own.access.or base.access, protection := own.protection.or base.protection
    resetValue := own.resetValue.or base.resetValue, resetMask := own.resetMask.or base.resetMask }

/-- An address block written as a declaration. -/
def asDeclared (b : AddressBlock) : SAddressBlock :=
  { offset := b.offset, size := b.size, usage := b.usage, protection := some b.protection }

/-- One half of a position that is given in part is taken from the base; nothing is taken if none is given. -/
def half (own other : Option Int) (base : Int) : Option Int := if own.isNone && other.isNone then none else own.or (some base)

/-- The declaration `p`, completed by what it does not say itself and the element `b` says from which it is derived.  Name,
position, interrupts and the header struct name of a peripheral are not taken from the base. -/
def completed : Parsed → Processed → Parsed
  | .periph p, .periph b => .periph
      { p with
        version := p.version.or b.version, description := p.description.or b.description
        alternatePeripheral := p.alternatePeripheral.or b.alternatePeripheral, groupName := p.groupName.or b.groupName
        prependToName := p.prependToName.or b.prependToName, appendToName := p.appendToName.or b.appendToName
        disableCondition := p.disableCondition.or b.disableCondition
        addressBlocks := if p.addressBlocks = [] then b.addressBlocks.map asDeclared else p.addressBlocks
        dim := dimOver p.dim b.dim, props := propsOver p.props b.props }
  | .clu c, .clu b => .clu
      { c with
        description := c.description.or b.description, alternateCluster := c.alternateCluster.or b.alternateCluster
        headerStructName := c.headerStructName.or b.headerStructName
        dim := dimOver c.dim b.dim, props := propsOver c.props b.props }
  | .reg r, .reg b => .reg
      { r with
        displayName := r.displayName.or b.displayName, description := r.description.or b.description
        alternateGroup := r.alternateGroup.or b.alternateGroup, alternateRegister := r.alternateRegister.or b.alternateRegister
        dataType := r.dataType.or b.dataType, modifiedWriteValues := r.modifiedWriteValues.or (some b.modifiedWriteValues)
        writeConstraint := r.writeConstraint.or b.writeConstraint, readAction := r.readAction.or b.readAction
        dim := dimOver r.dim b.dim, props := propsOver r.props b.props }
  | .field f, .field b => .field
      { f with
        description := f.description.or b.description
        bitOffset := half f.bitOffset f.bitWidth b.lsb, bitWidth := half f.bitWidth f.bitOffset (b.msb - b.lsb + 1)
        lsb := half f.lsb f.msb b.lsb, msb := half f.msb f.lsb b.msb
        access := f.access.or b.access, modifiedWriteValues := f.modifiedWriteValues.or (some b.modifiedWriteValues)
        writeConstraint := f.writeConstraint.or b.writeConstraint, readAction := f.readAction.or b.readAction
        dim := dimOver f.dim b.dim }
  | p, _ => p

/-- What a dim declaration says for an element derived from all of it (addressed by the name with the marker): the attributes
of its first element, with the declared name and the dim attributes. -/
def Pattern (p : Parsed) (h : Processed) : Prop :=
  ∃ pl pls, Places (nameOfDecl p) (displayOf p) (dimOf p) true (pl :: pls) ∧ HeadAt false p { pl with name := nameOfDecl p } h

/-- The name of an element. -/
def nameOf : Processed → Str
  | .periph p => p.name
  | .clu c => c.name
  | .reg r => r.name
  | .field f => f.name

/-- `h` is an element, without its content, declared at `x` (or the pattern of the elements declared there); `l` is its
derivation chain. -/
inductive ElementOf (d : SDevice) : Pos → List Pos → Processed → Prop
  | own {x p hs h} : DeclAt d x p → p.derivedFrom = none → StandsFor p hs → h ∈ hs ∨ Pattern p h → ElementOf d x [x] h
  | derived {x p path z l b hs h} : DeclAt d x p → p.derivedFrom = some path → Refers d x z → ElementOf d z l b →
      nameOf b = lastName path → StandsFor (completed p b) hs → h ∈ hs ∨ Pattern (completed p b) h → ElementOf d x (x :: l) h

/-- The elements, without their content, that the declaration at `y` with the derivation chain `l` stands for. -/
inductive StandsAlong (d : SDevice) : Pos → List Pos → List Processed → Prop
  | own {y p hs} : DeclAt d y p → p.derivedFrom = none → StandsFor p hs → StandsAlong d y [y] hs
  | derived {y p path z l b hs} : DeclAt d y p → p.derivedFrom = some path → Refers d y z → ElementOf d z l b →
      nameOf b = lastName path → StandsFor (completed p b) hs → StandsAlong d y (y :: l) hs

/-- The elements, without their content, that the declaration at `y` stands for. -/
def StandsAt (d : SDevice) (y : Pos) (hs : List Processed) : Prop := ∃ l, StandsAlong d y l hs

/-- `h` is one of the elements, without its content, that the declaration at `x` with the derivation chain `l` stands for
(not the pattern of a dim declaration). -/
def Instance (d : SDevice) (x : Pos) (l : List Pos) (h : Processed) : Prop := ∃ hs, StandsAlong d x l hs ∧ h ∈ hs

/-! ### content -/

/-- The same element, apart from its size. -/
inductive ButSize : Processed → Processed → Prop
  | periph {h s} : ButSize (.periph h) (.periph { h with props := { h.props with size := s } })
  | clu {h s} : ButSize (.clu h) (.clu { h with props := { h.props with size := s } })
  | reg {h} : ButSize (.reg h) (.reg h)
  | field {h} : ButSize (.field h) (.field h)

/-- The containers of a field with the chain `l` at these bits: one for each declared in the chain. -/
structure ContainersOf (d : SDevice) (l : List Pos) (lsb msb : Int) (ks : List IEnumContainer) : Prop where
  sub : ∀ k ∈ ks, ∃ y c w, InChain d l y ∧ Takes d y c ∧ createContainer c lsb msb = .ok k w
  all : ∀ y, InChain d l y → ∃ k ∈ ks, ∃ c w, Takes d y c ∧ createContainer c lsb msb = .ok k w
  usages : (ks.map (·.usage)).Nodup
  two : ks.length ≤ 2
  both : ks.length = 2 → ∀ k ∈ ks, k.usage = .read ∨ k.usage = .write

/-- A field declared at `x`. -/
def FieldOf (d : SDevice) (x : Pos) (f : IField) : Prop :=
  ∃ l, Instance d x l (.field f.hd) ∧ ContainersOf d l f.hd.lsb f.hd.msb f.containers

/-- The fields of a register with the chain `l`: those declared in the chain. -/
structure FieldsOf (d : SDevice) (l : List Pos) (fs : List IField) : Prop where
  sub : ∀ f ∈ fs, ∃ y, InChain d l y ∧ FieldOf d y f
  all : ∀ y, InChain d l y → ∃ hs, StandsAt d y hs ∧ ∀ h ∈ hs, ∃ f ∈ fs, h = .field f.hd ∧ FieldOf d y f

/-- A register or cluster without its content. -/
def headOf : IRC → Processed
  | .reg r _ => .reg r
  | .clu c _ => .clu c

/-- `z` is derived from `w`, which has `z`: its content would have no end. -/
def Endless (d : SDevice) (w z : Pos) : Prop := Refers d z w ∧ HasChild d w z

/-- An exception for clusters in clusters: what an element may contain in addition. -/
def Stray (d : SDevice) (x y : Pos) : Prop := Nested d x y ∨ Refers d y x

mutual
/-- A register or cluster declared at `x`.  Its content is what is declared in its chain. -/
inductive RCOf (d : SDevice) : Pos → IRC → Prop
  | reg {x l r fs} : Instance d x l (.reg r) → FieldsOf d l fs → RCOf d x (.reg r fs)
  | clu {x l h c ys} : Instance d x l h → ButSize h (.clu c) → (∀ y ∈ ys, PartOf d x l y) →
      (∀ z, InChain d l z → KeptIn d l ys z) → RCOf d x (.clu c ys)
/-- `y` belongs to the cluster at `x` with the chain `l`. -/
inductive PartOf (d : SDevice) : Pos → List Pos → IRC → Prop
  | intro {x l z y} : InChain d l z ∨ Stray d x z → RCOf d z y → PartOf d x l y
/-- What is declared at `z` is there; missing can be a cluster that would contain itself. -/
inductive KeptIn (d : SDevice) : List Pos → List IRC → Pos → Prop
  | kept {l ys z hs} : StandsAt d z hs → (∀ h ∈ hs, FoundIn d ys z h) → KeptIn d l ys z
  | lost {l ys z w} : w ∈ l → Endless d w z → KeptIn d l ys z
/-- The element `h` declared at `z` is among `ys`. -/
inductive FoundIn (d : SDevice) : List IRC → Pos → Processed → Prop
  | intro {ys z h y} : y ∈ ys → ButSize h (headOf y) → RCOf d z y → FoundIn d ys z h
end

/-- A peripheral declared at `x`. -/
structure PeriphOf (d : SDevice) (x : Pos) (q : IPeripheral) : Prop where
  ex : ∃ l h, Instance d x l h ∧ ButSize h (.periph q.hd) ∧
    (∀ y ∈ q.rcs, ∃ z, InChain d l z ∧ RCOf d z y) ∧
    ∀ z, InChain d l z → ∃ hs, StandsAt d z hs ∧ ∀ h ∈ hs, FoundIn d q.rcs z h

/-- The peripherals of the device. -/
structure DeviceOf (d : SDevice) (ps : List IPeripheral) : Prop where
  sub : ∀ q ∈ ps, ∃ x, OwnChild d [] x ∧ PeriphOf d x q
  all : ∀ x, OwnChild d [] x → ∃ hs, StandsAt d x hs ∧ ∀ h ∈ hs, ∃ q ∈ ps, ButSize h (.periph q.hd) ∧ PeriphOf d x q

end Svd.Spec

namespace Svd.Spec

/-- No cluster is derived from another one. -/
def NoDerivedCluster (d : SDevice) : Prop := ∀ x c, DeclAt d x (.clu c) → c.derivedFrom = none

mutual
/-- As `RCOf`, without exceptions: the content is exactly what is declared in the chain. -/
inductive RCExact (d : SDevice) : Pos → IRC → Prop
  | reg {x l r fs} : Instance d x l (.reg r) → FieldsOf d l fs → RCExact d x (.reg r fs)
  | clu {x l h c ys} : Instance d x l h → ButSize h (.clu c) → (∀ y ∈ ys, MemberExact d l y) →
      (∀ z, InChain d l z → KeptExact d ys z) → RCExact d x (.clu c ys)
/-- `y` is declared in the chain `l`. -/
inductive MemberExact (d : SDevice) : List Pos → IRC → Prop
  | intro {l z y} : InChain d l z → RCExact d z y → MemberExact d l y
/-- What is declared at `z` is among `ys`. -/
inductive KeptExact (d : SDevice) : List IRC → Pos → Prop
  | intro {ys z hs} : StandsAt d z hs → (∀ h ∈ hs, FoundExact d ys z h) → KeptExact d ys z
/-- The element `h` declared at `z` is among `ys`. -/
inductive FoundExact (d : SDevice) : List IRC → Pos → Processed → Prop
  | intro {ys z h y} : y ∈ ys → ButSize h (headOf y) → RCExact d z y → FoundExact d ys z h
end

/-- A peripheral declared at `x`, with exactly what is declared in its chain. -/
def PeriphExact (d : SDevice) (x : Pos) (q : IPeripheral) : Prop :=
  ∃ l h, Instance d x l h ∧ ButSize h (.periph q.hd) ∧ (∀ y ∈ q.rcs, MemberExact d l y) ∧
    ∀ z, InChain d l z → KeptExact d q.rcs z

/-- The peripherals of the device, with exactly what is declared. -/
structure DeviceExact (d : SDevice) (ps : List IPeripheral) : Prop where
  sub : ∀ q ∈ ps, ∃ x, OwnChild d [] x ∧ PeriphExact d x q
  all : ∀ x, OwnChild d [] x → ∃ hs, StandsAt d x hs ∧ ∀ h ∈ hs, ∃ q ∈ ps, ButSize h (.periph q.hd) ∧ PeriphExact d x q

/-- A peripheral, the one it is derived from (called exactly as given, by one name), and so on, up to an underived one. -/
inductive NamedChain (d : SDevice) : List SPeripheral → Prop
  | root {p} : Declared d (.periph p) → p.derivedFrom = none → NamedChain d [p]
  | step {p q l path} : Declared d (.periph p) → p.derivedFrom = some path → '.' ∉ path → InstanceName q.name path →
      NamedChain d (q :: l) → NamedChain d (p :: q :: l)

end Svd.Spec

namespace Svd.Spec

/-- No cluster lies inside itself, by way of what is declared in it and what it has from the cluster it is derived from. -/
def NoClusterInItself (d : SDevice) : Prop := ∀ x c, DeclAt d x (.clu c) → ¬ Inside d x x

end Svd.Spec
