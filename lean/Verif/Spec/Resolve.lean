import Verif.Model.Resolver
/-
Vocabulary for statements about the resolver graph: connections, cycles, the states the resolver passes through, and
what a `derivedFrom` path denotes.
-/
namespace Svd.Spec

/-- A directed path of at least one edge. -/
inductive Conn (es : List Edge) : Nat → Nat → Prop
  | edge {e} : e ∈ es → Conn es e.src e.dst
  | step {e b} : e ∈ es → Conn es e.dst b → Conn es e.src b

/-- No directed cycle. -/
def Acyclic (es : List Edge) : Prop := ∀ i, ¬ Conn es i i

/-- The states of the resolver graph: after the initialisation, after each placeholder resolution and after each
processed node. -/
inductive ResolverState (ord : List Nat → List Nat) (d : SDevice) : Graph → Prop
  | init {g ws} : initialization d = .ok g ws → ResolverState ord d g
  | placeholder {g g' ph ws} : ResolverState ord d g → resolvePlaceholder g ph = .ok g' ws → ResolverState ord d g'
  | node {g g' i ws} : ResolverState ord d g → processNode ord g i = .ok g' ws → ResolverState ord d g'

/-- `c` is a child element of `p`. -/
def ChildOf (g : Graph) (p c : Nat) : Prop :=
  ∃ e ∈ g.edges, e.src = p ∧ e.dst = c ∧ (e.ty = .childU ∨ e.ty = .childR) ∧ ∃ x, g.elem? c = some x

/-- The element at `i` has the name `n`. -/
def Named (g : Graph) (i : Nat) (n : Str) : Prop := ∃ e, g.elem? i = some e ∧ e.name = some n

/-- Going down from `i`, which is called as the first name, through children called as the further names, one arrives
at `t`; the element `self` is nowhere on the way. -/
inductive NameWalk (g : Graph) (self : Nat) : Nat → List Str → Nat → Prop
  | last {i n} : i ≠ self → Named g i n → NameWalk g self i [n] i
  | down {i n c ns t} : i ≠ self → Named g i n → ChildOf g i c → NameWalk g self c ns t → NameWalk g self i (n :: ns) t

end Svd.Spec

namespace Svd.Spec

/-- The names of a path joined by dots. -/
def dotted : List Str → Str
  | [] => []
  | [p] => p
  | p :: q :: ps => p ++ '.' :: dotted (q :: ps)

/-- `parts` are the names of the dotted path. -/
def PathNames (path : Str) (parts : List Str) : Prop :=
  parts ≠ [] ∧ (∀ p ∈ parts, '.' ∉ p) ∧ path = dotted parts

/-- `e` is an edge from an element to its child element `i`. -/
def ParentEdge (g : Graph) (i : Nat) (e : Edge) : Prop :=
  e.dst = i ∧ (e.ty = .childU ∨ e.ty = .childR) ∧ ∃ x, g.elem? e.src = some x

/-- The parent whose edge to `i` was added last (edges are listed newest first). -/
def NewestParent (g : Graph) (i p : Nat) : Prop :=
  ∃ pre e post, g.edges = pre ++ e :: post ∧ ParentEdge g i e ∧ e.src = p ∧ ∀ x ∈ pre, ¬ ParentEdge g i x

/-- The elements `c` other than `i` that are connected from the parent of `i`. -/
def SiblingOf (g : Graph) (i c : Nat) : Prop :=
  c ≠ i ∧ (∃ x, g.elem? c = some x) ∧ ∃ p, NewestParent g i p ∧ ∃ e ∈ g.edges, e.src = p ∧ e.dst = c

/-- The element at `t` is of the given kind. -/
def OfKind (g : Graph) (t : Nat) (lvl : Level) : Prop := ∃ e, g.elem? t = some e ∧ e.level = lvl

/-- `t` is denoted by the names, starting from one of the elements in `scope`. -/
def Candidate (g : Graph) (self : Nat) (lvl : Level) (parts : List Str) (scope : Nat → Prop) (t : Nat) : Prop :=
  OfKind g t lvl ∧ ∃ n, scope n ∧ NameWalk g self n parts t

end Svd.Spec
