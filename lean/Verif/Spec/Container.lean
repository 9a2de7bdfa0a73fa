import Verif.Spec.EnumLit
import Verif.Spec.Enum
/-
What a container of enumerated values stands for, entry by entry, for every declaration.
-/
namespace Svd.Spec

/-- The name of the value `v` of an entry called `name` with the literal `lit`. -/
def NamedBy (name lit : Str) (v : Int) (n : Str) : Prop := (Wild lit → n = name ++ '_' :: intText v) ∧ (¬ Wild lit → n = name)

/-- The values offered by the entries of a container, in order of declaration: nothing by an entry called `reserved`, one
value without a number by an entry without literal, and otherwise one for each integer the literal is read as. All
literals have to be readable. -/
inductive Offers : List SEnumValue → List IEnumValue → Prop
  | nil : Offers [] []
  | reserved {e es os} : Reserved e.name → (∀ lit, e.value = some lit → lit ≠ [] → ∃ vs, Reads lit vs) → Offers es os → Offers (e :: es) os
  | blank {e es os} : ¬ Reserved e.name → e.value = none ∨ e.value = some [] → Offers es os →
      Offers (e :: es) (⟨e.name, e.description, none, e.isDefault.getD false⟩ :: os)
  | lit {e es os lit vs xs} : ¬ Reserved e.name → e.value = some lit → lit ≠ [] → Reads lit vs →
      Entrywise (fun v o => NamedBy e.name lit v o.name ∧ o.description = e.description ∧ o.value = some v ∧
        o.isDefault = e.isDefault.getD false) vs xs →
      Offers es os → Offers (e :: es) (xs ++ os)

/-- `v` repeats the name of `u`, or its number (the number of a default value does not count). -/
def repeats (u v : IEnumValue) : Bool := u.name == v.name || (!u.isDefault && v.value.isSome && u.value == v.value)

/-- The values that do not repeat one kept before. -/
def keep (prev : List IEnumValue) : List IEnumValue → List IEnumValue
  | [] => []
  | v :: vs => if prev.any (repeats · v) then keep prev vs else v :: keep (prev ++ [v]) vs

/-- The entries of a container are acceptable for a field of width `w`: the literals are readable, at most one of the values
that are kept is a default, and a default needs a field of non-negative width. -/
def Acceptable (es : List SEnumValue) (w : Int) : Prop :=
  ∃ os, Offers es os ∧ ((keep [] os).filter (·.isDefault)).length ≤ 1 ∧ ((∃ o ∈ keep [] os, o.isDefault = true) → 0 ≤ w)

/-- The value `v` of a processed container for a field of width `w`, made from the values `ks` that are kept: one of them
that is not a default, or the default for a number that none of them has. -/
def ValueOf (ks : List IEnumValue) (w : Int) (v : EnumValue) : Prop :=
  0 ≤ v.value ∧ 0 ≤ w ∧ v.value < 2 ^ w.toNat ∧
    ((⟨v.name, v.description, some v.value, false⟩ : IEnumValue) ∈ ks ∨
     ∃ o ∈ ks, o.isDefault = true ∧ v.name = o.name ++ '_' :: intText v.value ∧ v.description = o.description ∧
       ∀ u ∈ ks, u.isDefault = false → u.value ≠ some v.value)

/-- The values of a processed container for a field of width `w`: all those that the entries stand for, in ascending order. -/
def ValuesOf (es : List SEnumValue) (w : Int) (vs : List EnumValue) : Prop :=
  ∃ os, Offers es os ∧ Ascending (vs.map (·.value)) ∧ (∀ v, v ∈ vs ↔ ValueOf (keep [] os) w v) ∧
    (∀ o ∈ keep [] os, o.isDefault = false → o.value ≠ none) ∧
    ((keep [] os).filter (·.isDefault)).length ≤ 1

end Svd.Spec
