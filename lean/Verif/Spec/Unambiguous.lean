import Verif.Spec.Content
/-
Descriptions in which every `derivedFrom` can be read in one way only.
-/
namespace Svd.Spec

/-- No `derivedFrom` can be read as leading to two different declarations. -/
def Unambiguous (d : SDevice) : Prop := ∀ x b b', Refers d x b → Refers d x b' → b = b'

end Svd.Spec
