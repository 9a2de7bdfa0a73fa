import Verif.Spec.Schema
import Verif.Spec.Rewrite
import Verif.Spec.Origin
/-
A condition on a document that is read and written again.
-/
namespace Svd.Spec

/-- Every element that cannot have child elements has a text. -/
def Texts (e : XElem) : Prop := ∀ x, Within e x → models.lookup x.tag = none → x.text ≠ none

end Svd.Spec
