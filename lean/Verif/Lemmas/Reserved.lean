import Verif.Spec.Enum
import Verif.Lemmas.Text
/- The name `reserved`. -/
namespace Svd
open Spec

theorem reserved_iff {n : Str} : Reserved n ↔ lower n = s%"reserved" := by
  unfold Reserved
  rw [lowerText_eq]

theorem not_reserved {n : Str} : ¬ Reserved n ↔ lower n ≠ s%"reserved" := not_congr reserved_iff

end Svd
