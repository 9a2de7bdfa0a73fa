import Verif.Model.Svd
import Verif.Spec.Misc
/-
The same description with its elements declared in another order (C62).
-/
namespace Svd.Spec

/-- The entries of `xs`, possibly changed by `R`, in some order. -/
def Reorder {α : Type} (R : α → α → Prop) (xs ys : List α) : Prop := ∃ zs, Entrywise R xs zs ∧ zs.Perm ys

/-- The same field, with its enumeratedValues in another order. -/
def ShuffledField (f f' : SField) : Prop := ∃ cs, f.containers.Perm cs ∧ f' = { f with containers := cs }

mutual
/-- The same register or cluster, with its content in another order. -/
def ShuffledRC : SRC → SRC → Prop
  | .reg r, y => ∃ fs, y = .reg { r with fields := fs } ∧ Reorder ShuffledField r.fields fs
  | .clu c ch, y => ∃ zs ys, y = .clu c ys ∧ ShuffledRCs ch zs ∧ zs.Perm ys
/-- The same registers and clusters one by one. -/
def ShuffledRCs : List SRC → List SRC → Prop
  | [], ys => ys = []
  | x :: xs, ys => ∃ z zs, ys = z :: zs ∧ ShuffledRC x z ∧ ShuffledRCs xs zs
end

/-- The same peripheral, with its content in another order. -/
def ShuffledPeriph (p p' : SPeriphT) : Prop := ∃ zs ys, p' = { p with rcs := ys } ∧ ShuffledRCs p.rcs zs ∧ zs.Perm ys

/-- The same description, with its peripherals, their registers, clusters, fields and `enumeratedValues` declared in another
order (the entries of an `enumeratedValues` keep their order). -/
def Reordered (d d' : SDevice) : Prop := ∃ ps, d' = { d with peripherals := ps } ∧ Reorder ShuffledPeriph d.peripherals ps

end Svd.Spec
