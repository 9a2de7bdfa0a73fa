import Verif.Spec.Validate
/-
Alternates that do not exist (C31).
-/
namespace Svd.Spec

/-- Among the resolved peripherals, one names an `alternatePeripheral` that none of them bears; or a cluster names an
`alternateCluster` that none of the clusters beside it bears.  (Elements that are dropped, for example because they are empty,
do not count.) -/
def Dangling (d : SDevice) (ps : List IPeripheral) : Prop :=
  (∃ p ∈ ps, ∃ a, KeptPeripheral (deviceLevel d) p ∧ p.hd.alternatePeripheral = some a ∧
    ∀ q ∈ ps, KeptPeripheral (deviceLevel d) q → q.hd.name ≠ a) ∨
  ∃ p ∈ ps, ∃ e ys, Examined (over p.hd.props (deviceLevel d)) p.rcs e ys ∧
    ∃ c ch a, .clu c ch ∈ ys ∧ Kept e (.clu c ch) ∧ c.alternateCluster = some a ∧
      ∀ c' ch', .clu c' ch' ∈ ys → Kept e (.clu c' ch') → c'.name ≠ a

end Svd.Spec
