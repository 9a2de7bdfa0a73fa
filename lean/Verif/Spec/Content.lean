import Verif.Spec.Build
import Verif.Spec.Resolve
/-
Which declared elements an element of the resolved device contains, for any use of `derivedFrom`: the declarations are
identified by their position in the description, `derivedFrom` is a relation between positions, and the content of an
element is what is declared inside the elements of its derivation chain.
-/
namespace Svd

/-- The declared elements as a uniform tree. -/
inductive DTree
  | node (p : Parsed) (kids : List DTree)

def ofEnum (c : SEnumContainer) : DTree := .node (.enum c) []
def ofField (f : SField) : DTree := .node (.field f) (f.containers.map ofEnum)

mutual
def ofRC : SRC → DTree
  | .clu c ch => .node (.clu c) (ofRCs ch)
  | .reg r => .node (.reg r) (r.fields.map ofField)
def ofRCs : List SRC → List DTree
  | [] => []
  | x :: xs => ofRC x :: ofRCs xs
end

def ofPeriph (p : SPeriphT) : DTree := .node (.periph p.hd) (ofRCs p.rcs)

namespace Spec

/-- The position of a declaration: which peripheral, which of the elements declared in it, and so on. -/
abbrev Pos := List Nat

/-- The subtree at a position. -/
def treeAt : DTree → Pos → Option DTree
  | t, [] => some t
  | .node _ ts, k :: ks => (ts[k]?).bind fun t => treeAt t ks

/-- The declarations of a device as one tree. -/
def declTree (d : SDevice) : DTree := .node .device (d.peripherals.map ofPeriph)

/-- `p` is declared at the position `x` (the device itself at the empty position). -/
def DeclAt (d : SDevice) (x : Pos) (p : Parsed) : Prop := ∃ ts, treeAt (declTree d) x = some (.node p ts)

/-- `y` is declared directly inside `x`. -/
def OwnChild (d : SDevice) (x y : Pos) : Prop := ∃ k p, y = x ++ [k] ∧ DeclAt d y p

/-- Peripheral, cluster, register, field or enumeratedValues. -/
def kindOf : Parsed → Level
  | .device => .device
  | .periph _ => .peripheral
  | .clu _ => .cluster
  | .reg _ => .register
  | .field _ => .field
  | .enum _ => .enumcont

/-- Both positions hold declarations of the same kind. -/
def SameKind (d : SDevice) (x y : Pos) : Prop := ∃ p q, DeclAt d x p ∧ DeclAt d y q ∧ kindOf p = kindOf q

/-- A declared element can be addressed by its name; a dim element also by the names of the elements it stands for. -/
def NameFor : Parsed → Str → Prop
  | .enum c, n => c.name = some n
  | .device, n => n = s%"Device"
  | p, n => InstanceName (nameOfDecl p) n

/-- The element declared at `x` can be addressed as `n`. -/
def Called (d : SDevice) (x : Pos) (n : Str) : Prop := ∃ p, DeclAt d x p ∧ NameFor p n

mutual
/-- The element declared at `x` is derived from the one declared at `b`: `b` is of the same kind and its names, read from
an element in scope downwards, are the path given as `derivedFrom`. -/
inductive Refers (d : SDevice) : Pos → Pos → Prop
  | intro {x b s p path parts} : DeclAt d x p → p.derivedFrom = some path → SameKind d x b → InScope d x s →
      PathNames path parts → Walk d s parts b → Refers d x b
/-- A path can start at a peripheral, or at a neighbour of `x` in an element that has `x`.  (A neighbour may also be an
element derived from that element.) -/
inductive InScope (d : SDevice) : Pos → Pos → Prop
  | peripheral {x s} : OwnChild d [] s → InScope d x s
  | sibling {x q s} : HasChild d q x → HasChild d q s → InScope d x s
  | derived {x q s} : HasChild d q x → Refers d s q → InScope d x s
/-- From `x`, which is called as the first name, down through elements called as the further names. -/
inductive Walk (d : SDevice) : Pos → List Str → Pos → Prop
  | last {x n} : Called d x n → Walk d x [n] x
  | down {x y n ns t} : Called d x n → HasChild d x y → Walk d y ns t → Walk d x (n :: ns) t
/-- An element has what is declared in it and what the element has from which it is derived. -/
inductive HasChild (d : SDevice) : Pos → Pos → Prop
  | own {x y} : OwnChild d x y → HasChild d x y
  | inherited {x b y} : Refers d x b → HasChild d b y → HasChild d x y
  | nested {x y} : Nested d x y → HasChild d x y
/-- The exception: an element derived from an element `b` in which it lies is taken over by the elements derived from `b`
as if it were declared directly in `b`. -/
inductive Nested (d : SDevice) : Pos → Pos → Prop
  | here {x b y} : Refers d x b → Refers d y b → Inside d b y → Nested d x y
  | inherited {x b y} : Refers d x b → Nested d b y → Nested d x y
/-- `y` lies in `x`, directly or indirectly. -/
inductive Inside (d : SDevice) : Pos → Pos → Prop
  | one {x y} : HasChild d x y → Inside d x y
  | more {x y z} : HasChild d x y → Inside d y z → Inside d x z
end

/-- The derivation chain of `x`: `x`, the element it is derived from, and so on, up to an underived one. -/
inductive Chain (d : SDevice) : Pos → List Pos → Prop
  | root {x p} : DeclAt d x p → p.derivedFrom = none → Chain d x [x]
  | step {x b l} : Refers d x b → Chain d b l → Chain d x (x :: l)

/-- `y` is declared directly inside one of the elements of the chain. -/
def InChain (d : SDevice) (l : List Pos) (y : Pos) : Prop := ∃ z ∈ l, OwnChild d z y

/-- The `enumeratedValues` declaration that counts for the one at `x`: its own, or, if it is derived, the one of its base. -/
inductive Takes (d : SDevice) : Pos → SEnumContainer → Prop
  | own {x c} : DeclAt d x (.enum c) → c.derivedFrom = none → Takes d x c
  | base {x b c} : Refers d x b → Takes d b c → Takes d x c
  /-- The exception: a base that is itself derived and has not been completed yet is taken as it is declared. -/
  | unfinished {x b c} : Refers d x b → DeclAt d b (.enum c) → c.derivedFrom ≠ none → Takes d x c

end Spec
end Svd
