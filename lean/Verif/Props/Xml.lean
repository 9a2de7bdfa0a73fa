import Verif.Lemmas.RoundTrip
import Verif.Lemmas.XmlReads
import Verif.Props.Sample
/-
The parser and the serializer: C36 (round trip), C37 (integers), C38 (tokens), C39 (repeated and missing elements),
C40 (white space).
-/
namespace Svd
open Spec

/-! ### C36 -/

/-- C36: what the serializer writes is read back as an equal device, whatever the pretty printer puts between the
elements; the only warning is the one about a missing description, if the description is empty. -/
theorem C36_round_trip (fmt : Nat → Option Str) {d : SDevice} (h : DeviceOK d) :
    serializeThenParse fmt d = .ok d (if d.hd.description = [] then [.noDescription] else []) := parseDevice_rt h

/-- Different devices are written differently. -/
theorem C36_injective {d d' : SDevice} (h : DeviceOK d) (h' : DeviceOK d') (he : serDevice d = serDevice d') : d = d' := by
  have h1 := C36_round_trip (fun _ => none) h
  have h2 := C36_round_trip (fun _ => none) h'
  unfold serializeThenParse at h1 h2
  rw [he, h2] at h1
  exact (M.ok.inj h1).1.symm

namespace Sample

instance (s : Str) : Decidable (Tidy s) := inferInstanceAs (Decidable (_ ∧ _))

/-- The sample with a version. -/
def xdev : SDevice := { dev with hd := { dev.hd with version := s%"1.0" } }

/-- The sample has tidy texts (it has derivedFrom, dim, fields, enumerated values, an address block, a cluster). -/
theorem xdev_ok : DeviceOK xdev where
  location := by decide
  schema := by decide
  vendor := (fun _ h => nomatch h)
  vendorId := (fun _ h => nomatch h)
  name := by decide
  series := (fun _ h => nomatch h)
  version := by decide
  license := (fun _ h => nomatch h)
  cpu := (fun _ h => nomatch h)
  system := (fun _ h => nomatch h)
  prefix_ := (fun _ h => nomatch h)
  peripherals := by
    have hd : ∀ a b, DimOK { dim := a, dimIncrement := b } := fun a b =>
      ⟨(fun s h => nomatch h), (fun s h => nomatch h), (fun s h => nomatch h)⟩
    have hf : ∀ f ∈ ctrl.fields, FieldOK f := by
      intro f hf
      simp only [ctrl, List.mem_cons, List.not_mem_nil, or_false] at hf
      have hc : ContainerOK modeValues :=
        { name := (by rintro s ⟨⟩; decide)
          header := (fun _ h => nomatch h)
          values := by
            intro v hv
            simp only [modeValues, List.mem_cons, List.not_mem_nil, or_false] at hv
            rcases hv with rfl | rfl | rfl
            · exact ⟨by decide, (fun _ h => nomatch h), (by rintro s ⟨⟩; decide)⟩
            · exact ⟨by decide, (fun _ h => nomatch h), (by rintro s ⟨⟩; decide)⟩
            · exact ⟨by decide, (fun _ h => nomatch h), (fun _ h => nomatch h)⟩
          derived := (fun _ h => nomatch h) }
      rcases hf with rfl | rfl | rfl | rfl
      · exact ⟨by decide, (fun _ h => nomatch h), rfl, rfl, (fun _ h => nomatch h), (fun _ h => nomatch h), hd _ _, (fun _ h => nomatch h)⟩
      · exact ⟨by decide, (fun _ h => nomatch h), rfl, rfl, (by rintro s ⟨⟩; decide),
          (by intro c hcc; rw [List.mem_singleton] at hcc; subst hcc; exact hc), hd _ _, (fun _ h => nomatch h)⟩
      · exact ⟨by decide, (fun _ h => nomatch h), rfl, rfl, (fun _ h => nomatch h), (fun _ h => nomatch h), hd _ _, (fun _ h => nomatch h)⟩
      · exact ⟨by decide, (fun _ h => nomatch h), rfl, rfl, (fun _ h => nomatch h), (fun _ h => nomatch h), hd _ _, (fun _ h => nomatch h)⟩
    have hctrl : RegisterOK ctrl := ⟨by decide, (fun _ h => nomatch h), (fun _ h => nomatch h), (fun _ h => nomatch h),
      (fun _ h => nomatch h), hf, hd _ _, (fun _ h => nomatch h)⟩
    have hdata : RegisterOK data := ⟨by decide, (fun _ h => nomatch h), (fun _ h => nomatch h), (fun _ h => nomatch h),
      (fun _ h => nomatch h), (fun _ h => nomatch h), hd _ _, (fun _ h => nomatch h)⟩
    have hchan : RCOK chan := by
      refine ⟨⟨by decide, (fun _ h => nomatch h), (fun _ h => nomatch h), (fun _ h => nomatch h), hd _ _, (fun _ h => nomatch h)⟩, ?_, trivial⟩
      exact ⟨by decide, (fun _ h => nomatch h), (fun _ h => nomatch h), (fun _ h => nomatch h),
        (fun _ h => nomatch h), (fun _ h => nomatch h), hd _ _, (fun _ h => nomatch h)⟩
    intro p hp
    simp only [xdev, dev, List.mem_cons, List.not_mem_nil, or_false] at hp
    rcases hp with rfl | rfl
    · exact ⟨by decide, (fun _ h => nomatch h), (fun _ h => nomatch h), (fun _ h => nomatch h), (fun _ h => nomatch h),
        (fun _ h => nomatch h), (fun _ h => nomatch h), (fun _ h => nomatch h), (fun _ h => nomatch h), (fun _ h => nomatch h),
        hd _ _, (fun _ h => nomatch h), hctrl, hdata, hchan, trivial⟩
    · exact ⟨by decide, (fun _ h => nomatch h), (fun _ h => nomatch h), (fun _ h => nomatch h), (fun _ h => nomatch h),
        (fun _ h => nomatch h), (fun _ h => nomatch h), (fun _ h => nomatch h), (fun _ h => nomatch h), (fun _ h => nomatch h),
        hd _ _, (by rintro s ⟨⟩; decide), trivial⟩
  nonempty := List.cons_ne_nil _ _

/-- A device with one register with one field. -/
def oneField (f : SField) : SDevice :=
  { hd := { name := s%"D", version := s%"1", addressUnitBits := 8, width := 32 }
    peripherals := [{ hd := { name := s%"P", baseAddress := 0 }, rcs := [.reg { name := s%"R", addressOffset := 0, fields := [f] }] }] }

/-- The fields of a device with one register. -/
def fieldsOf (d : SDevice) : List SField :=
  d.peripherals.flatMap fun p => p.rcs.flatMap fun x => match x with | .reg r => r.fields | .clu _ _ => []

/-- Every condition of C36 is needed: a field with a `bitOffset` but no `bitWidth` loses it, ... -/
theorem C36_incomplete_position : okAnd (serializeThenParse (fun _ => none) (oneField { name := s%"F", bitOffset := some 3 }))
    (fun d _ => (fieldsOf d).any fun f => f.bitOffset.isNone) = true := by decide +kernel
/-- ... a name loses white space around it, ... -/
theorem C36_blanks : okAnd (serializeThenParse (fun _ => none) (oneField { name := s%" F", bitOffset := some 3 }))
    (fun d _ => (fieldsOf d).any fun f => f.name == s%"F") = true := by decide +kernel
/-- ... an empty description becomes `None`, ... -/
theorem C36_empty_text : okAnd (serializeThenParse (fun _ => none) (oneField { name := s%"F", description := some [] }))
    (fun d _ => (fieldsOf d).any fun f => f.description.isNone) = true := by decide +kernel
/-- ... an empty name cannot be read back, ... -/
theorem C36_empty_name : errAnd (serializeThenParse (fun _ => none) (oneField { name := [] })) (fun e => e == .parser) = true := by
  decide +kernel
/-- ... and neither can a device without peripherals. -/
theorem C36_no_peripherals : errAnd (serializeThenParse (fun _ => none)
    { hd := { name := s%"D", version := s%"1", addressUnitBits := 8, width := 32 }, peripherals := [] }) (fun e => e == .parser) = true := by
  decide +kernel

end Sample

/-! ### C37 -/

/-- C37: every integer the serializer writes, in decimal or in hexadecimal, is read back as that integer. -/
theorem C37_written (i : Int) : toInt (intStr i) = .ok i [] ∧ toInt (hexStr i) = .ok i [] := ⟨toInt_intStr i, toInt_hexStr i⟩

/-- C37: a text without `_` (and not mixing `#` with `x`) is read as the integer `i` exactly if it is an integer literal that
denotes `i`. -/
theorem C37_literals {v : Str} (hu : '_' ∉ v) (hx : '#' ∈ v → 'x' ∉ v ∧ 'X' ∉ v) (i : Int) : toInt v = .ok i [] ↔ IntLit v i :=
  toInt_iff hu hx i

/-- C37: a text that is no integer literal raises. -/
theorem C37_raises {v : Str} (hu : '_' ∉ v) (hx : '#' ∈ v → 'x' ∉ v ∧ 'X' ∉ v) (h : ¬ ∃ i, IntLit v i) :
    toInt v = .err .notImplemented := by
  rcases toInt_cases v with ⟨i, hi⟩ | h'
  · exact absurd ⟨i, (toInt_iff hu hx i).1 hi⟩ h
  · exact h'

/-- C37: a text denotes at most one integer. -/
theorem C37_unambiguous {v : Str} (hu : '_' ∉ v) (hx : '#' ∈ v → 'x' ∉ v ∧ 'X' ∉ v) {i j : Int} (h1 : IntLit v i) (h2 : IntLit v j) :
    i = j := by
  have a := (toInt_iff hu hx i).2 h1
  rw [(toInt_iff hu hx j).2 h2] at a
  exact (M.ok.inj a).1.symm

/-- The literal `#101` denotes 5. -/
theorem C37_binary_sample : IntLit (s%" #101") 5 :=
  IntLit.pos (a := [' ']) (b := []) (by intro c hc; rw [List.mem_singleton] at hc; subst hc; decide) (by intro c hc; cases hc)
    (UnsignedLit.bin (pre := ['#']) (s := s%"101") (by simp [BinPrefix]) (by decide) (by intro c hc; simp only [List.mem_cons, List.not_mem_nil, or_false] at hc; rcases hc with rfl | rfl | rfl <;> simp [IsBin]))

/-- Outside of the condition other texts are accepted too: `#` is replaced by `0b` everywhere, so `0x#1` is read as
`0x0b1`, that is 177, and `1_0` is read as 10. -/
theorem C37_odd_literals : Sample.okAnd (toInt (s%"0x#1")) (fun i _ => decide (i = 177)) = true ∧
    Sample.okAnd (toInt (s%"1_0")) (fun i _ => decide (i = 10)) = true := by decide +kernel

/-! ### C38 -/

/-- C38: every member of every token type is written as a non-empty text without surrounding blanks, which is read back as
that member, without a warning. -/
theorem C38_tokens :
    (∀ a : Endian, Tidy a.val ∧ fromVal Endian.all Endian.val a.val = .ok a []) ∧
    (∀ a : Protection, Tidy a.val ∧ fromVal Protection.all Protection.val a.val = .ok a []) ∧
    (∀ a : SauAccess, Tidy a.val ∧ fromVal SauAccess.all SauAccess.val a.val = .ok a []) ∧
    (∀ a : EnumToken, Tidy a.val ∧ fromVal EnumToken.all EnumToken.val a.val = .ok a []) ∧
    (∀ a : DataType, Tidy a.val ∧ fromVal DataType.all DataType.val a.val = .ok a []) ∧
    (∀ a : ModWrite, Tidy a.val ∧ fromVal ModWrite.all ModWrite.val a.val = .ok a []) ∧
    (∀ a : ReadAction, Tidy a.val ∧ fromVal ReadAction.all ReadAction.val a.val = .ok a []) ∧
    (∀ a : Usage, Tidy a.val ∧ fromVal Usage.all Usage.val a.val = .ok a []) ∧
    (∀ a : CPUName, Tidy a.val ∧ CPUName.fromStr a.val = .ok a []) ∧
    (∀ a : Access, Tidy a.val ∧ Access.fromStr a.val = .ok (some a) []) ∧
    (∀ b : Bool, Tidy (boolStr b) ∧ toBool (boolStr b) = .ok b []) :=
  ⟨reads_endian, reads_protection, reads_sauAccess, reads_enumToken, reads_dataType, reads_modWrite, reads_readAction, reads_usage,
   reads_cpuName, fun a => ⟨access_clean a, access_reads a⟩, reads_bool⟩

/-- C38: the vocabulary of the CMSIS-SVD schema is read as the members of that meaning. -/
theorem C38_vocabulary :
    (∀ p ∈ [(s%"little", Endian.little), (s%"big", .big), (s%"selectable", .selectable), (s%"other", .other)],
      fromVal Endian.all Endian.val p.1 = .ok p.2 []) ∧
    (∀ p ∈ [(s%"s", Protection.secure), (s%"n", .nonSecure), (s%"p", .privileged)],
      fromVal Protection.all Protection.val p.1 = .ok p.2 []) ∧
    (∀ p ∈ [(s%"c", SauAccess.nonSecureCallable), (s%"n", .nonSecure)], fromVal SauAccess.all SauAccess.val p.1 = .ok p.2 []) ∧
    (∀ p ∈ [(s%"registers", EnumToken.registers), (s%"buffer", .buffer), (s%"reserved", .reserved)],
      fromVal EnumToken.all EnumToken.val p.1 = .ok p.2 []) ∧
    (∀ p ∈ [(s%"uint8_t", DataType.u8), (s%"uint16_t", .u16), (s%"uint32_t", .u32), (s%"uint64_t", .u64), (s%"int8_t", .i8),
        (s%"int16_t", .i16), (s%"int32_t", .i32), (s%"int64_t", .i64), (s%"uint8_t *", .u8p), (s%"uint16_t *", .u16p),
        (s%"uint32_t *", .u32p), (s%"uint64_t *", .u64p), (s%"int8_t *", .i8p), (s%"int16_t *", .i16p), (s%"int32_t *", .i32p),
        (s%"int64_t *", .i64p)], fromVal DataType.all DataType.val p.1 = .ok p.2 []) ∧
    (∀ p ∈ [(s%"oneToClear", ModWrite.oneToClear), (s%"oneToSet", .oneToSet), (s%"oneToToggle", .oneToToggle),
        (s%"zeroToClear", .zeroToClear), (s%"zeroToSet", .zeroToSet), (s%"zeroToToggle", .zeroToToggle), (s%"clear", .clear),
        (s%"set", .set), (s%"modify", .modify)], fromVal ModWrite.all ModWrite.val p.1 = .ok p.2 []) ∧
    (∀ p ∈ [(s%"clear", ReadAction.clear), (s%"set", .set), (s%"modify", .modify), (s%"modifyExternal", .modifyExternal)],
      fromVal ReadAction.all ReadAction.val p.1 = .ok p.2 []) ∧
    (∀ p ∈ [(s%"read", Usage.read), (s%"write", .write), (s%"read-write", .readWrite)], fromVal Usage.all Usage.val p.1 = .ok p.2 []) ∧
    (∀ p ∈ [(s%"read-only", Access.readOnly), (s%"write-only", .writeOnly), (s%"read-write", .readWrite), (s%"writeOnce", .writeOnce),
        (s%"read-writeOnce", .readWriteOnce)], Access.fromStr p.1 = .ok (some p.2) []) ∧
    (∀ p ∈ [(s%"CM0", CPUName.CM0), (s%"CM0PLUS", .CM0PLUS), (s%"CM0+", .CM0_PLUS), (s%"CM1", .CM1), (s%"CM3", .CM3), (s%"CM4", .CM4),
        (s%"CM7", .CM7), (s%"CM23", .CM23), (s%"CM33", .CM33), (s%"CM35P", .CM35P), (s%"CM52", .CM52), (s%"CM55", .CM55), (s%"CM85", .CM85),
        (s%"SC000", .SC000), (s%"SC300", .SC300), (s%"ARMV8MML", .ARMV8MML), (s%"ARMV8MBL", .ARMV8MBL), (s%"ARMV81MML", .ARMV81MML),
        (s%"CA5", .CA5), (s%"CA7", .CA7), (s%"CA8", .CA8), (s%"CA9", .CA9), (s%"CA15", .CA15), (s%"CA17", .CA17), (s%"CA53", .CA53),
        (s%"CA57", .CA57), (s%"CA72", .CA72), (s%"SMC1", .SMC1), (s%"other", .OTHER)], CPUName.fromStr p.1 = .ok p.2 []) := by
  decide +kernel

/-- C38, for the token types that are read by value: only the text of a member is accepted, and any other text raises. -/
theorem C38_only_tokens {α : Type} (all : List α) (val : α → Str) (s : Str) :
    (∃ a ∈ all, fromVal all val s = .ok a [] ∧ val a = s) ∨ (fromVal all val s = .err .notImplemented ∧ ∀ a ∈ all, val a ≠ s) := by
  unfold fromVal
  cases h : all.find? (fun a => decide (val a = s)) with
  | some a => exact Or.inl ⟨a, List.mem_of_find?_eq_some h, rfl, by simpa using List.find?_some h⟩
  | none => exact Or.inr ⟨rfl, fun a ha he => by simpa [he] using List.find?_eq_none.1 h a ha⟩

/-- C38: an access text is read without regard to case; `read` and `write` stand for read-only and write-only; anything else
gives no access and a warning (never an exception). -/
theorem C38_access (s : Str) :
    (∃ a : Access, Access.fromStr s = .ok (some a) [] ∧
      (lowerText a.val = lowerText s ∨ (lowerText s = s%"write" ∧ a = .writeOnly) ∨ (lowerText s = s%"read" ∧ a = .readOnly))) ∨
    (Access.fromStr s = .ok none [.unknownAccess s] ∧ ∀ a ∈ Access.all, lowerText a.val ≠ lowerText s) := by
  rw [lowerText_eq]
  unfold Access.fromStr
  cases h : Access.all.find? (fun a => decide (lower a.val = lower s)) with
  | some a => exact Or.inl ⟨a, rfl, Or.inl (by simpa using List.find?_some h)⟩
  | none =>
    simp only []
    by_cases h1 : lower s = s%"write"
    · rw [if_pos h1]; exact Or.inl ⟨_, rfl, Or.inr (Or.inl ⟨h1, rfl⟩)⟩
    · rw [if_neg h1]
      by_cases h2 : lower s = s%"read"
      · rw [if_pos h2]; exact Or.inl ⟨_, rfl, Or.inr (Or.inr ⟨h2, rfl⟩)⟩
      · rw [if_neg h2]
        exact Or.inr ⟨rfl, fun a ha he => by simpa [he] using List.find?_eq_none.1 h a ha⟩

/-- C38: a boolean is read as true from `true` in any case or `1`, as false from `false` in any case or `0`, and any other text
raises. -/
theorem C38_bool (s : Str) :
    (toBool s = .ok true [] ↔ lowerText s = s%"true" ∨ s = s%"1") ∧ (toBool s = .ok false [] ↔ lowerText s = s%"false" ∨ s = s%"0") ∧
    (toBool s = .err .notImplemented ↔ ¬ (lowerText s = s%"true" ∨ s = s%"1" ∨ lowerText s = s%"false" ∨ s = s%"0")) := by
  rw [lowerText_eq]
  have n1 : lower (s%"1") ≠ s%"false" := by decide
  have n2 : lower (s%"1") ≠ s%"true" := by decide
  have n3 : lower (s%"0") ≠ s%"false" := by decide
  have n4 : lower (s%"0") ≠ s%"true" := by decide
  have n5 : s%"0" ≠ s%"1" := by decide
  have n6 : s%"true" ≠ s%"false" := by decide
  unfold toBool
  by_cases h1 : lower s = s%"true"
  · have : s ≠ s%"0" := fun he => n4 (he ▸ h1)
    simp_all [M.pure]
  · by_cases h2 : lower s = s%"false"
    · have : s ≠ s%"1" := fun he => n1 (he ▸ h2)
      simp_all [M.pure]
    · by_cases h3 : s = s%"1"
      · have : s ≠ s%"0" := fun he => n5 (he ▸ h3)
        simp_all [M.pure]
      · by_cases h4 : s = s%"0"
        · simp_all [M.pure]
        · simp_all [M.pure, M.throw]

/-! ### C39 -/

/-- C39: where a value element occurs several times (each with a text), leaving out all but the last occurrence changes
nothing in the result but the warnings about it. -/
theorem C39_last_wins (ns : List (Str × Str)) {root : XElem} (h : TextedDup root) :
    SameResult isMultiple (parseDevice ⟨ns, root⟩) (parseDevice ⟨ns, lastOnly root⟩) := (view_lastOnly h).parseDevice

/-- C39: wherever in the document a value element that is read occurs more than once, a warning says so. -/
theorem C39_duplicates_reported {doc : XDoc} {d : SDevice} {ws : List Warn} (h : parseDevice doc = .ok d ws) {k : Kind} {e : XElem}
    (hr : ReadsElem doc k e) {t : Str} (ht : t ∈ mandatoryTexts k ++ optionalTexts k) (hl : 1 < (e.findall t).length) :
    .multipleElements t ∈ ws :=
  ensures_device (mono_dup e t) hr (texts_dup ht) d ws h hl

/-- C39: if the document is read, every mandatory child of every element that was read is there and its last occurrence has
a text. -/
theorem C39_mandatory {doc : XDoc} {d : SDevice} {ws : List Warn} (h : parseDevice doc = .ok d ws) {k : Kind} {e : XElem}
    (hr : ReadsElem doc k e) {t : Str} (ht : t ∈ mandatoryTexts k) : ∃ x, (e.findall t).getLast? = some x ∧ x.text ≠ none :=
  ensures_device (mono_present e t) hr (texts_present ht) d ws h

/-- C39, one element: its optional value is `None` if it is absent or empty; a mandatory one raises then. -/
theorem C39_absent {e : XElem} {t : Str} (h : ∀ x ∈ e.findall t, x.text = none) (hl : (e.findall t).length ≤ 1) (b : Bool) :
    elementText t e b true = .ok none [] ∧ elementText t e b false = .err .parser := by
  unfold elementText
  generalize e.findall t = l at h hl
  match l with
  | [] => exact ⟨rfl, rfl⟩
  | [x] =>
    have := h x (List.mem_singleton.2 rfl)
    constructor <;> simp only [lastText, this] <;> rfl
  | _ :: _ :: _ => simp at hl

/-- C39, one element: the value is the text of the last occurrence, stripped if it is a value. -/
theorem C39_value {e x : XElem} {t s : Str} (h : (e.findall t).getLast? = some x) (hs : ∀ y ∈ e.findall t, y.text ≠ none)
    (hx : x.text = some s) (b o : Bool) :
    ∃ ws, elementText t e b o = .ok (some (if b then trim s else s)) ws ∧
      ∀ w, w ∈ ws ↔ (w = .multipleElements t ∧ 1 < (e.findall t).length) ∨ (w = .stripped t ∧ b = true ∧ trim s ≠ s) := by
  rw [trim_eq]
  have last : ∀ y : XElem, y.text = some s → ∃ ws, lastText t b o y = .ok (some (if b then strip s else s)) ws ∧
      ∀ w, w ∈ ws ↔ (w = .stripped t ∧ b = true ∧ strip s ≠ s) := by
    intro y hy
    unfold lastText
    simp only [hy]
    cases b with
    | false => exact ⟨[], rfl, by simp⟩
    | true =>
      by_cases he : strip s = s
      · exact ⟨[], by simp [he, M.warnIf, M.bind, M.pure], by simp [he]⟩
      · refine ⟨[.stripped t], by simp [Ne.symm he, M.warnIf, M.bind, M.pure, M.warn], by simp [he]⟩
  unfold elementText
  generalize e.findall t = l at h hs
  match l with
  | [] => cases h
  | [y] =>
    obtain rfl : y = x := by simpa using h
    obtain ⟨ws, h1, h2⟩ := last y hx
    exact ⟨ws, h1, by simpa using h2⟩
  | y :: z :: l =>
    have hn : ¬ ((y :: z :: l).any fun x => x.text.isNone) = true := by
      rw [List.any_eq_true]
      rintro ⟨u, hu, hn⟩
      exact hs u hu (Option.isNone_iff_eq_none.1 hn)
    simp only [if_neg hn]
    have hx' : (z :: l).getLastD y = x := by
      rw [List.getLast?_cons, Option.some.injEq, ← List.getLastD_eq_getLast?] at h
      exact h
    rw [hx']
    obtain ⟨ws, h1, h2⟩ := last x hx
    refine ⟨.multipleElements t :: ws, by rw [h1]; rfl, fun w => ?_⟩
    rw [List.mem_cons, h2]
    simp

namespace Sample

/-- A leaf element. -/
def lf (t s : Str) : XElem := .mk t (some s) [] []
/-- An element with children. -/
def el (t : Str) (ch : List XElem) : XElem := .mk t none [] ch

/-- A document with a given list of further children of the device. -/
def doc (more : List XElem) : XDoc :=
  { nsmap := []
    root := .mk (s%"device") none [(s%"schemaVersion", s%"1.3")]
      ([lf (s%"name") (s%"D"), lf (s%"version") (s%"1"), lf (s%"addressUnitBits") (s%"8"), lf (s%"width") (s%"32")] ++ more) }

/-- A `peripherals` element with one peripheral. -/
def periphs (n : Str) (more : List XElem) : XElem :=
  el (s%"peripherals") [el (s%"peripheral") ([lf (s%"name") n, lf (s%"baseAddress") (s%"0x10")] ++ more)]

/-- The hypotheses of the C39 theorems can be met: two sizes in a register, the last one counts. -/
theorem C39_sample : okAnd (parseDevice (doc [periphs (s%"P") [el (s%"registers") [el (s%"register")
      [lf (s%"name") (s%"R"), lf (s%"addressOffset") (s%"4"), lf (s%"size") (s%"8"), lf (s%"size") (s%" 16")]]]]))
    (fun d ws => (ws.contains (.multipleElements (s%"size")) && ws.contains (.stripped (s%"size"))) &&
      d.peripherals.all fun p => p.rcs.all fun x => match x with | .reg r => r.props.size == some 16 | .clu _ _ => false) = true := by
  decide +kernel

/-- C39 fails for elements with children: of several `peripherals` elements the *first* one counts, without a warning
about it (likewise `cpu`, `writeConstraint`, `dimArrayIndex`, `sauRegionsConfig`, `range`). -/
theorem C39_first_wins_for_groups : okAnd (parseDevice (doc [periphs (s%"P") [], periphs (s%"Q") []]))
    (fun d ws => (d.peripherals.map fun p => p.hd.name) == [s%"P"] && !ws.any Spec.isMultiple) = true := by decide +kernel

/-- C39: a repeated value element without text makes the parser raise `TypeError` instead of `ParserException`. -/
theorem C39_type_error : errAnd (parseDevice (doc [el (s%"vendor") [], lf (s%"vendor") (s%"V"), periphs (s%"P") []]))
    (fun e => e == .typeError) = true := by decide +kernel

end Sample

/-! ### C40 -/

/-- C40: documents that differ only in white space around values (and between elements) give the same result: the same
device and the same warnings apart from those about stripped texts, or the same exception. -/
theorem C40_whitespace (ns : List (Str × Str)) {root root' : XElem} (h : SameUpToBlanks root root') :
    SameResult isStripped (parseDevice ⟨ns, root⟩) (parseDevice ⟨ns, root'⟩) := (view_of_blanks h).parseDevice

/-- C40 needs that the text does not become empty: an empty element is an absent value, a blank one an empty value. -/
theorem C40_blank_only : Sample.okAnd (parseDevice (Sample.doc [Sample.lf (s%"vendor") (s%" "), Sample.periphs (s%"P") []]))
      (fun d _ => d.hd.vendor == some []) = true ∧
    Sample.okAnd (parseDevice (Sample.doc [Sample.el (s%"vendor") [], Sample.periphs (s%"P") []]))
      (fun d _ => d.hd.vendor == none) = true := by decide +kernel

/-- The hypothesis of C40 can be met by different documents. -/
theorem C40_sample : SameUpToBlanks (Sample.el (s%"device") [Sample.lf (s%"name") (s%" D")])
    (.mk (s%"device") (some (s%"  ")) [] [Sample.lf (s%"name") (s%"D ")]) := by
  refine .mk (fun h => absurd h (by decide)) (fun h => absurd h (by decide)) rfl rfl (.cons (.mk (fun h => absurd h (by decide)) (fun _ => Or.inr ⟨_, _, rfl, rfl, by decide⟩) rfl rfl .nil) .nil)

end Svd
