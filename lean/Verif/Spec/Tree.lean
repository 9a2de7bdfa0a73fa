import Verif.Model.Proc
/-
Occurrence of elements in processed and intermediate trees, independent of the processing functions.
-/
namespace Svd.Spec

/-- `x` is one of the elements `xs`, or lies inside a cluster of `xs`, at any depth. -/
inductive Below : List RC → RC → Prop
  | here {xs x} : x ∈ xs → Below xs x
  | inside {xs c ch x} : RC.clu c ch ∈ xs → Below ch x → Below xs x

/-- The same for intermediate trees. -/
inductive IBelow : List IRC → IRC → Prop
  | here {xs x} : x ∈ xs → IBelow xs x
  | inside {xs c ch x} : IRC.clu c ch ∈ xs → IBelow ch x → IBelow xs x

/-- `x` lies at the end of the path of clusters `cs` (outermost first) starting in `xs`. -/
inductive Path : List RC → List ClusterHd → RC → Prop
  | here {xs x} : x ∈ xs → Path xs [] x
  | inside {xs c ch cs x} : RC.clu c ch ∈ xs → Path ch cs x → Path xs (c :: cs) x

/-- The same for intermediate trees. -/
inductive IPath : List IRC → List IClusterHd → IRC → Prop
  | here {xs x} : x ∈ xs → IPath xs [] x
  | inside {xs c ch cs x} : IRC.clu c ch ∈ xs → IPath ch cs x → IPath xs (c :: cs) x

/-- `r` is a register of the peripheral, at any cluster depth. -/
def RegisterOf (p : Peripheral) (r : Register) : Prop := Below p.rcs (.reg r)

/-- `r` is a register of the device. -/
def HasRegister (d : Device) (r : Register) : Prop := ∃ p ∈ d.peripherals, RegisterOf p r

/-- `c` (with children `ch`) is a cluster of the device. -/
def HasCluster (d : Device) (c : ClusterHd) (ch : List RC) : Prop := ∃ p ∈ d.peripherals, Below p.rcs (.clu c ch)

/-- `f` is a field of the device. -/
def HasField (d : Device) (f : Field) : Prop := ∃ r, HasRegister d r ∧ f ∈ r.fields

/-- The children lists of a device: the contents of each peripheral and of each cluster. -/
def IsScope (d : Device) (xs : List RC) : Prop :=
  (∃ p ∈ d.peripherals, xs = p.rcs) ∨ ∃ c, HasCluster d c xs

end Svd.Spec
