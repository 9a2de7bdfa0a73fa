import Verif.Spec.Resolvable
import Verif.Spec.Container
/-
What the resolution of a description remarks on (C61): the warnings about dim attributes, bit positions and enumerated values.
-/
namespace Svd.Spec

/-- What is remarked on the declaration of a peripheral, cluster, register or field (completed by what it is derived from). -/
inductive DeclNote : Parsed → Warn → Prop
  /-- There is a `dim`, but no marker in the name: it is ignored. -/
  | ignoredDim {p} : (dimOf p).dim ≠ none → ¬ Contains listMark (nameOfDecl p) → DeclNote p (.dimWithoutMarker (nameOfDecl p))
  /-- The numbers of a bit range are in the wrong order: they are swapped. -/
  | swapped {f x y rest} : f.bitRange = some (rangeText x y ++ rest) → Decimal x → Decimal y → decValue x < decValue y →
      DeclNote (.field f) (.bitRangeReversed (rangeText x y ++ rest))
  /-- The highest bit is below the lowest one. -/
  | crossed {f m l} : BitsOf f none m l → m < l → DeclNote (.field f) (.msbLtLsb f.name)

/-- What is remarked on a value `v`, of which `ks` are those kept before it. -/
inductive ValueNote (ks : List IEnumValue) (v : IEnumValue) : Warn → Prop
  /-- The name is taken: the value is dropped. -/
  | name {u} : u ∈ ks → u.name = v.name → ValueNote ks v (.enumDuplicateName v.name)
  /-- The number is taken (not by a default value): the value is dropped. -/
  | number {u x} : (∀ u ∈ ks, u.name ≠ v.name) → u ∈ ks → u.isDefault = false → u.value = some x → v.value = some x →
      ValueNote ks v (.enumDuplicateValue v.name (some x))
  /-- A default value has a number: the number is dropped. -/
  | default {x} : ks.any (repeats · v) = false → v.isDefault = true → v.value = some x → ValueNote ks v (.enumDefaultHasValue v.name x)

/-- What is remarked on the entries of a container. -/
inductive EntriesNote (es : List SEnumValue) : Warn → Prop
  /-- An entry called `reserved` is dropped. -/
  | reserved {e} : e ∈ es → Reserved e.name → EntriesNote es .enumReserved
  | value {a v b w} : Offers es (a ++ v :: b) → ValueNote (keep [] a) v w → EntriesNote es w

/-- The warnings given when the dim attributes, derivations and enumerated values of a description are resolved. -/
def ResolutionWarning : Warn → Prop
  | .dimWithoutMarker _ | .bitRangeReversed _ | .msbLtLsb _ | .enumReserved | .enumDuplicateName _ | .enumDuplicateValue _ _
  | .enumDefaultHasValue _ _ => True
  | _ => False

/-- There is a reason for the warning in the description. -/
inductive NotedIn (d : SDevice) : Warn → Prop
  | decl {x q w} : Complete d x q → DeclNote q w → NotedIn d w
  | entries {y c w} : Takes d y c → EntriesNote c.values w → NotedIn d w

end Svd.Spec
