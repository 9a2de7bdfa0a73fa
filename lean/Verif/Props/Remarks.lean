import Verif.Lemmas.Remarks
import Verif.Props.Says
/-
C58: the parser's warnings, exactly.
-/
namespace Svd
open Spec

/-- C58: if a document is read, the warnings are exactly those about its elements: repeated elements, white space that was cut off,
unknown access types, interrupts without a value, a missing description and a missing location of the schema. -/
theorem C58_warnings {doc : XDoc} {d : SDevice} {ws : List Warn} (h : parseDevice doc = .ok d ws) (w : Warn) :
    w ∈ ws ↔ SchemaRemark doc w ∨ Remark .device doc.root w := notes_device doc w d ws h

/-- C58: a document is read without a warning exactly if nothing is remarkable about it. -/
theorem C58_silent {doc : XDoc} {d : SDevice} {ws : List Warn} (h : parseDevice doc = .ok d ws) :
    ws = [] ↔ ∀ w, ¬ (SchemaRemark doc w ∨ Remark .device doc.root w) := by
  simp only [← C58_warnings h, List.eq_nil_iff_forall_not_mem]

/-- The document of the example: no description, a field with an unknown access type and a padded name given twice, and an
interrupt without a value. -/
def Sample.remarkable : XDoc := Sample.doc [Sample.periphs (s%"P") [
    Sample.el (s%"interrupt") [Sample.lf (s%"name") (s%"I")],
    Sample.el (s%"registers") [Sample.el (s%"register")
      [Sample.lf (s%"name") (s%"R"), Sample.lf (s%"addressOffset") (s%"0"), Sample.el (s%"fields") [Sample.el (s%"field")
        [Sample.lf (s%"name") (s%"F"), Sample.lf (s%"name") (s%" G "), Sample.lf (s%"access") (s%"always")]]]]]]

/-- All kinds of remarks occur. -/
theorem C58_sample : ∃ d ws, parseDevice Sample.remarkable = .ok d ws ∧
    ws = [.noSchemaLocation, .noDescription, .interruptNoValue (s%"I"), .multipleElements (s%"name"), .stripped (s%"name"),
      .unknownAccess (s%"always")] := by
  have h : Sample.okAnd (parseDevice Sample.remarkable) (fun _ ws => decide (ws = [.noSchemaLocation, .noDescription,
    .interruptNoValue (s%"I"), .multipleElements (s%"name"), .stripped (s%"name"), .unknownAccess (s%"always")])) = true := by decide +kernel
  generalize parseDevice Sample.remarkable = m at h
  cases m with
  | ok d ws => exact ⟨d, ws, rfl, of_decide_eq_true h⟩
  | err e => simp [Sample.okAnd] at h

end Svd
