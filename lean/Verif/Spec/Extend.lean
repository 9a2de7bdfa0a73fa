import Verif.Spec.Reorder
/-
A description with further peripherals (C65).
-/
namespace Svd.Spec

/-- `d'` declares everything that `d` declares and the peripherals `more`, in any order. -/
def Adds (d : SDevice) (more : List SPeriphT) (d' : SDevice) : Prop := Reordered { d with peripherals := d.peripherals ++ more } d'

end Svd.Spec
