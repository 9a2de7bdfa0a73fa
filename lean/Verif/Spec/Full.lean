import Verif.Spec.Elements
/-
The content of a resolved device with sizes and order, for any use of `derivedFrom` that can be followed.
-/
namespace Svd.Spec

/-- The size given at a resolved register or cluster. -/
def givenSize : IRC → Option Int
  | .reg r _ => r.props.size
  | .clu c _ => c.props.size

/-- The size with which a resolved register or cluster counts, where `encl` is the size in force around it. -/
def countsAs (encl : Int) (y : IRC) : Int := ((givenSize y).map usable).getD encl

/-- The size of a peripheral or cluster that states the size `own` and contains `ys`, where `encl` is the size in force around
it: the largest size of its content, or the stated one if it has no content. -/
structure SizedBy (own : Option Int) (encl : Int) (ys : List IRC) (s : Option Int) : Prop where
  empty : ys = [] → s = own
  largest : ys ≠ [] → ∃ m, s = some m ∧ (∀ y ∈ ys, countsAs (own.getD encl) y ≤ m) ∧ ∃ y ∈ ys, countsAs (own.getD encl) y = m

mutual
/-- A register or cluster declared at `x`, with what is declared in its chain as content, in order, and with its size, where
`encl` is the size in force around it. -/
inductive RCFull (d : SDevice) : Int → Pos → IRC → Prop
  | reg {encl x l r fs} : Instance d x l (.reg r) → FieldsOf d l fs → SortedBy fieldKey fs → RCFull d encl x (.reg r fs)
  | clu {encl x l h s ys} : Instance d x l (.clu h) → (∀ y ∈ ys, MemberFull d (h.props.size.getD encl) l y) →
      (∀ z, InChain d l z → KeptFull d (h.props.size.getD encl) ys z) → SortedBy ircKey ys → SizedBy h.props.size encl ys s →
      RCFull d encl x (.clu { h with props := { h.props with size := s } } ys)
/-- `y` is declared in the chain `l`. -/
inductive MemberFull (d : SDevice) : Int → List Pos → IRC → Prop
  | intro {encl l z y} : InChain d l z → RCFull d encl z y → MemberFull d encl l y
/-- What is declared at `z` is among `ys`. -/
inductive KeptFull (d : SDevice) : Int → List IRC → Pos → Prop
  | intro {encl ys z hs} : StandsAt d z hs → (∀ h ∈ hs, FoundFull d encl ys z h) → KeptFull d encl ys z
/-- The element `h` declared at `z` is among `ys`. -/
inductive FoundFull (d : SDevice) : Int → List IRC → Pos → Processed → Prop
  | intro {encl ys z h y} : y ∈ ys → ButSize h (headOf y) → RCFull d encl z y → FoundFull d encl ys z h
end

/-- A peripheral declared at `x`; 32 bits is the size in force around it. -/
def PeriphFull (d : SDevice) (x : Pos) (q : IPeripheral) : Prop :=
  ∃ l h s, Instance d x l (.periph h) ∧ q.hd = { h with props := { h.props with size := s } } ∧
    (∀ y ∈ q.rcs, MemberFull d (h.props.size.getD 32) l y) ∧ (∀ z, InChain d l z → KeptFull d (h.props.size.getD 32) q.rcs z) ∧
    SortedBy ircKey q.rcs ∧ SizedBy h.props.size 32 q.rcs s

/-- The peripherals of the device. -/
structure DeviceFull (d : SDevice) (ps : List IPeripheral) : Prop where
  sub : ∀ q ∈ ps, ∃ x, OwnChild d [] x ∧ PeriphFull d x q
  all : ∀ x, OwnChild d [] x → ∃ hs, StandsAt d x hs ∧ ∀ h ∈ hs, ∃ q ∈ ps, ButSize h (.periph q.hd) ∧ PeriphFull d x q
  sorted : SortedBy periphKey ps

end Svd.Spec
