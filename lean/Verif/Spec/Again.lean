import Verif.Spec.Tree
import Verif.Spec.Dim
import Verif.Model.Finalize
/-
Processed devices whose conversion can be processed again with the same result.
-/
namespace Svd.Spec

/-- No name looks like a dim template, a device has peripherals, the values of a container have different names, and the size of each
peripheral and cluster is the one of a register or cluster in it. -/
structure Reprocessable (dev : Device) : Prop where
  some : dev.peripherals ≠ []
  periphs : ∀ p ∈ dev.peripherals, ¬ Contains listMark p.name ∧ ∃ x ∈ p.rcs, x.size = p.props.size
  clusters : ∀ c ch, HasCluster dev c ch → ¬ Contains listMark c.name ∧ ∃ x ∈ ch, x.size = c.props.size
  registers : ∀ r, HasRegister dev r → ¬ Contains listMark r.name ∧ ∀ s, r.displayName = Option.some s → ¬ Contains listMark s
  fields : ∀ f, HasField dev f → ¬ Contains listMark f.name ∧ ∀ c ∈ f.containers, (c.values.map (·.name)).Nodup

end Svd.Spec
