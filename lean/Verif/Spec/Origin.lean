import Verif.Model.Graph
/-
Which elements a device declares, and which intermediate elements can be made from declared ones.
-/
namespace Svd.Spec

/-- `x` is declared among `xs` or inside a declared cluster of `xs`. -/
inductive SBelow : List SRC → SRC → Prop
  | here {xs x} : x ∈ xs → SBelow xs x
  | inside {xs c ch x} : SRC.clu c ch ∈ xs → SBelow ch x → SBelow xs x

/-- The elements declared in a device (the device itself included). -/
inductive Declared (d : SDevice) : Parsed → Prop
  | device : Declared d .device
  | periph {p} : p ∈ d.peripherals → Declared d (.periph p.hd)
  | clu {p c ch} : p ∈ d.peripherals → SBelow p.rcs (.clu c ch) → Declared d (.clu c)
  | reg {p r} : p ∈ d.peripherals → SBelow p.rcs (.reg r) → Declared d (.reg r)
  | field {p r f} : p ∈ d.peripherals → SBelow p.rcs (.reg r) → f ∈ r.fields → Declared d (.field f)
  | enum {p r f e} : p ∈ d.peripherals → SBelow p.rcs (.reg r) → f ∈ r.fields → e ∈ f.containers →
      Declared d (.enum e)

/-- `c` is an `enumeratedValues` container declared in the device. -/
def DeclaredContainer (d : SDevice) (c : SEnumContainer) : Prop := Declared d (.enum c)

/-- No element of the device is derived. -/
def Underived (d : SDevice) : Prop := ∀ p, Declared d p → p.derivedFrom = none

end Svd.Spec
