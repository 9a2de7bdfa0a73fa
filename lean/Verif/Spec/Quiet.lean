import Verif.Spec.Follow
/-
Descriptions in which a derived element, unless it is a peripheral, is derived from something in which nothing else is derived.
-/
namespace Svd.Spec

/-- What a register, cluster, field or enumerated-values container is derived from has no derived elements in it. -/
def Quiet (d : SDevice) : Prop :=
  ∀ x p b y q, DeclAt d x p → kindOf p ≠ .peripheral → Refers d x b → Inside d b y → DeclAt d y q → q.derivedFrom = none

end Svd.Spec
