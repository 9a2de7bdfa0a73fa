import Verif.Lemmas.Rewrite
import Verif.Props.Says
import Verif.Model.Pipeline
/-
C70: a document that is read, written and read again says the same, except for half positions of fields.
-/
namespace Svd
open Spec

theorem map_eq_self {α : Type} {f : α → α} {xs : List α} (h : xs.map f = xs) : ∀ x ∈ xs, f x = x := by
  induction xs with
  | nil => intro x hx; cases hx
  | cons y ys ih =>
    rw [List.map_cons, List.cons.injEq] at h
    intro x hx
    rcases List.mem_cons.1 hx with rfl | hx
    · exact h.1
    · exact ih h.2 x hx

theorem ifBoth_self {a b : Option Int} (h : ifBoth a b = a) (h' : ifBoth b a = b) : a.isSome = b.isSome := by
  cases a <;> cases b <;> simp_all [ifBoth]

theorem wholeField_self {f : SField} (h : wholeField f = f) : WholeField f :=
  ⟨ifBoth_self (congrArg SField.bitOffset h) (congrArg SField.bitWidth h), ifBoth_self (congrArg SField.lsb h) (congrArg SField.msb h)⟩

theorem wholeRCs_mem {xs : List SRC} (h : wholeRCs xs = xs) {x : SRC} (hx : x ∈ xs) : wholeRC x = x := by
  induction xs with
  | nil => cases hx
  | cons y ys ih =>
    rw [wholeRCs, List.cons.injEq] at h
    rcases List.mem_cons.1 hx with rfl | hx
    · exact h.1
    · exact ih h.2 hx

theorem wholeRCs_self {xs : List SRC} {x : SRC} (hb : SBelow xs x) : wholeRCs xs = xs → wholeRC x = x := by
  induction hb with
  | here hx => exact fun h => wholeRCs_mem h hx
  | inside hm _ ih =>
    intro h
    have := wholeRCs_mem h hm
    rw [wholeRC, SRC.clu.injEq] at this
    exact ih this.2

/-- Nothing of the fields is left out exactly if none has half a position. -/
theorem whole_iff (d : SDevice) : whole d = d ↔ ∀ f, Declared d (.field f) → WholeField f := by
  refine ⟨fun h f hf => ?_, whole_eq⟩
  have hp := map_eq_self (congrArg SDevice.peripherals h)
  cases hf with
  | field h1 h2 h3 =>
    have e1 := wholeRCs_self h2 (congrArg SPeriphT.rcs (hp _ h1))
    rw [wholeRC, SRC.reg.injEq] at e1
    exact wholeField_self (map_eq_self (congrArg SRegister.fields e1) _ h3)

/-- C70: a document is read, the device is written and read again.  If no value of the document is blank and there is a peripheral,
the second reading succeeds and gives the same device, except that half positions of fields are gone. -/
theorem C70_rewritten (fmt : Nat → Option Str) {doc : XDoc} {d : SDevice} {ws : List Warn} (h : parseDevice doc = .ok d ws)
    (hf : Filled doc.root) (hp : d.peripherals ≠ []) :
    serializeThenParse fmt d = .ok (whole d) (if d.hd.description = [] then [.noDescription] else []) := by
  have ok := ok_device hf ((C57_reads doc d).1 ⟨ws, h⟩) hp
  have := C36_round_trip fmt ok
  unfold serializeThenParse at this ⊢
  rw [serDevice_whole] at this
  exact this

/-- C70: it gives exactly the same device if and only if no field has half a position. -/
theorem C70_same (fmt : Nat → Option Str) {doc : XDoc} {d : SDevice} {ws : List Warn} (h : parseDevice doc = .ok d ws)
    (hf : Filled doc.root) (hp : d.peripherals ≠ []) :
    (∃ w, serializeThenParse fmt d = .ok d w) ↔ ∀ f, Declared d (.field f) → WholeField f := by
  rw [C70_rewritten fmt h hf hp, ← whole_iff]
  constructor
  · rintro ⟨w, h⟩
    exact (M.ok.inj h).1
  · intro h
    exact ⟨_, by rw [h]⟩

/-- C70: what has been written once is not changed by reading and writing it again, with any formatting: the documents are equal. -/
theorem C70_stable (fmt fmt' : Nat → Option Str) {doc : XDoc} {d d' d'' : SDevice} {ws ws' ws'' : List Warn} (h : parseDevice doc = .ok d ws)
    (hf : Filled doc.root) (hp : d.peripherals ≠ []) (h' : serializeThenParse fmt d = .ok d' ws')
    (h'' : serializeThenParse fmt' d' = .ok d'' ws'') : d'' = d' ∧ serDevice d' = serDevice d := by
  rw [C70_rewritten fmt h hf hp] at h'
  cases h'
  have ok := ok_device hf ((C57_reads doc d).1 ⟨ws, h⟩) hp
  rw [C36_round_trip fmt' ok] at h''
  cases h''
  exact ⟨rfl, serDevice_whole d⟩

/-- C70: if no field has half a position, then processing gives after writing and reading what it gives before: the same device or
the same exception. -/
theorem C70_processed (fmt : Nat → Option Str) (ord : List Nat → List Nat) (fuel : Nat) {doc : XDoc} {d : SDevice} {ws : List Warn}
    (h : parseDevice doc = .ok d ws) (hf : Filled doc.root) (hp : d.peripherals ≠ []) (hw : ∀ f, Declared d (.field f) → WholeField f) :
    (∀ dev, (∃ w, M.bind (serializeThenParse fmt d) (processDevice ord fuel) = .ok dev w) ↔ ∃ w, processDevice ord fuel d = .ok dev w) ∧
    ∀ e, M.bind (serializeThenParse fmt d) (processDevice ord fuel) = .err e ↔ processDevice ord fuel d = .err e := by
  rw [C70_rewritten fmt h hf hp, (whole_iff d).2 hw]
  simp only [M.bind]
  cases processDevice ord fuel d with
  | ok a w => exact ⟨fun dev => by simp, fun e => by simp⟩
  | err x => exact ⟨fun dev => by simp, fun e => by simp⟩

/-! ### samples -/

mutual
/-- `Filled`, computed. -/
def filledB : XElem → Bool
  | .mk tag text _ ch => (!(valueTags.contains tag) || text.all fun s => trim s != []) && (!(rawTags.contains tag) || text.all fun s => s != []) && filledAllB ch
def filledAllB : List XElem → Bool
  | [] => true
  | x :: xs => filledB x && filledAllB xs
end

theorem filledAllB_mem {xs : List XElem} (h : filledAllB xs = true) : ∀ x ∈ xs, filledB x = true := by
  induction xs with
  | nil => intro x hx; cases hx
  | cons y ys ih =>
    rw [filledAllB, Bool.and_eq_true] at h
    intro x hx
    rcases List.mem_cons.1 hx with rfl | hx
    · exact h.1
    · exact ih h.2 x hx

theorem filled_of {e : XElem} (h : filledB e = true) : Filled e := by
  intro x hx
  induction hx with
  | self =>
    rename_i e
    rcases e with ⟨tag, text, attrs, ch⟩
    simp only [filledB, Bool.and_eq_true, Bool.or_eq_true, Bool.not_eq_true', List.contains_eq_mem, decide_eq_false_iff_not,
      Option.all_eq_true, bne_iff_ne] at h
    refine ⟨fun ht s hs => ?_, fun ht s hs => ?_⟩
    · exact (h.1.1.resolve_left (not_not_intro ht)) s hs
    · exact (h.1.2.resolve_left (not_not_intro ht)) s hs
  | child hc _ ih =>
    rename_i e c x _
    rcases e with ⟨tag, text, attrs, ch⟩
    rw [filledB, Bool.and_eq_true] at h
    exact ih (filledAllB_mem h.2 _ hc)

/-- A document with blanks around values and the given `field` elements. -/
def Sample.docOf (fields : List XElem) : XDoc :=
  { nsmap := [], root := .mk (s%"device") (some (s%" ")) [(s%"schemaVersion", s%" 1.3")] [leaf (s%"name") (s%" D "), leaf (s%"version") (s%"1"),
      leaf (s%"addressUnitBits") (s%"8"), leaf (s%"width") (s%"32"),
      .mk (s%"peripherals") none [] [.mk (s%"peripheral") none [] [leaf (s%"name") (s%"P"), leaf (s%"baseAddress") (s%"0"), leaf (s%"size") (s%"32"),
        .mk (s%"addressBlock") none [] [leaf (s%"offset") (s%"0"), leaf (s%"size") (s%"64"), leaf (s%"usage") (s%"registers")],
        .mk (s%"registers") none [] [.mk (s%"register") none [] [leaf (s%"name") (s%"R"), leaf (s%"addressOffset") (s%"0"),
          .mk (s%"fields") none [] fields]]]]] }

/-- The field `F` with the bits 4 to 7. -/
def Sample.fieldF : XElem := .mk (s%"field") none [] [leaf (s%"name") (s%"F"), leaf (s%"bitOffset") (s%"4"), leaf (s%"bitWidth") (s%"4"), leaf (s%"access") (s%"write-only")]
/-- `G`, derived from `F`, with `bitOffset` and `bitWidth`. -/
def Sample.wholeG : XElem := .mk (s%"field") none [(s%"derivedFrom", s%"F")] [leaf (s%"name") (s%"G"), leaf (s%"bitOffset") (s%"8"), leaf (s%"bitWidth") (s%"4")]
/-- `G`, derived from `F`, with a new `bitOffset` and the width of `F`. -/
def Sample.halfG : XElem := .mk (s%"field") none [(s%"derivedFrom", s%"F")] [leaf (s%"name") (s%"G"), leaf (s%"bitOffset") (s%"8")]
/-- `G`, derived from `F`, with `bitOffset` and `bitWidth`, and a new `lsb`, which counts. -/
def Sample.otherG : XElem :=
  .mk (s%"field") none [(s%"derivedFrom", s%"F")] [leaf (s%"name") (s%"G"), leaf (s%"bitOffset") (s%"8"), leaf (s%"bitWidth") (s%"4"), leaf (s%"lsb") (s%"2"), leaf (s%"access") (s%"read-only")]

/-- The fields of the processed document, with the lowest and the highest bit. -/
def Sample.bitsOf (m : M Device) : Option (List (Str × Int × Int)) :=
  match m with
  | .ok d _ => some (d.peripherals.flatMap fun p => p.rcs.flatMap fun x => match x with | .reg r => r.fields.map fun (f : Field) => (f.name, f.lsb, f.msb) | .clu _ _ => [])
  | .err _ => none

/-- The document is read and processed. -/
def Sample.once (doc : XDoc) : M Device := M.bind (parseDevice doc) (processDevice id 10)
/-- The document is read, written, read again and processed. -/
def Sample.again (doc : XDoc) : M Device := M.bind (parseDevice doc) fun d => M.bind (serializeThenParse (fun _ => none) d) (processDevice id 10)

/-- The conditions of C70 are met by documents with and without half positions, which are read. -/
theorem C70_sample : (∀ g ∈ [Sample.wholeG, Sample.halfG, Sample.otherG], Filled (Sample.docOf [Sample.fieldF, g]).root) ∧
    Sample.okAnd (parseDevice (Sample.docOf [Sample.fieldF, Sample.wholeG])) (fun d _ => !d.peripherals.isEmpty && decide (whole d = d)) = true ∧
    Sample.okAnd (parseDevice (Sample.docOf [Sample.fieldF, Sample.halfG])) (fun d _ => !d.peripherals.isEmpty && decide (whole d ≠ d)) = true := by
  refine ⟨?_, by decide +kernel, by decide +kernel⟩
  intro g hg
  apply filled_of
  revert g
  decide +kernel

/-- C70: a whole position survives, ... -/
theorem C70_survives : Sample.bitsOf (Sample.once (Sample.docOf [Sample.fieldF, Sample.wholeG])) = some [(s%"F", 4, 7), (s%"G", 8, 11)] ∧
    Sample.bitsOf (Sample.again (Sample.docOf [Sample.fieldF, Sample.wholeG])) = some [(s%"F", 4, 7), (s%"G", 8, 11)] := by decide +kernel

/-- ... but a derived field that only gives a new `bitOffset` is accepted before writing and refused after it, ... -/
theorem C70_refused : Sample.bitsOf (Sample.once (Sample.docOf [Sample.fieldF, Sample.halfG])) = some [(s%"F", 4, 7), (s%"G", 8, 11)] ∧
    Sample.bitsOf (Sample.again (Sample.docOf [Sample.fieldF, Sample.halfG])) = none := by decide +kernel

/-- ... and one with two positions is silently moved. -/
theorem C70_moved : Sample.bitsOf (Sample.once (Sample.docOf [Sample.fieldF, Sample.otherG])) = some [(s%"G", 2, 7), (s%"F", 4, 7)] ∧
    Sample.bitsOf (Sample.again (Sample.docOf [Sample.fieldF, Sample.otherG])) = some [(s%"F", 4, 7), (s%"G", 8, 11)] := by decide +kernel

end Svd
