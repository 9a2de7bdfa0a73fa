import Verif.Model.Resolver
/-
What a dotted `derivedFrom` path denotes, relative to a list of candidate nodes of the element graph.
-/
namespace Svd.Spec
open Graph

/-- Following the names `parts` from one of the nodes `ns` downwards leads to node `m`; the node `ex` (the deriving
element itself) is never visited. -/
inductive NamedPath (g : Graph) (ex : Nat) : List Nat → List Str → Nat → Prop
  | last {ns n part} : n ∈ ns → n ≠ ex → g.nameOf n = some part → NamedPath g ex ns [part] n
  | step {ns n part q parts m} : n ∈ ns → n ≠ ex → g.nameOf n = some part →
      NamedPath g ex (g.elementChildren n) (q :: parts) m → NamedPath g ex ns (part :: q :: parts) m

end Svd.Spec
