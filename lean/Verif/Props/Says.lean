import Verif.Lemmas.Says
import Verif.Props.Xml
/-
C57: the parser reads exactly what the document says; C37 for every text.
-/
namespace Svd
open Spec

/-- C57: parsing succeeds with `d` exactly if the document says `d`. -/
theorem C57_reads (doc : XDoc) (d : SDevice) : (∃ ws, parseDevice doc = .ok d ws) ↔ SaysDevice doc d := gives_parseDevice doc d

/-- C57: a document says at most one thing. -/
theorem C57_unambiguous {doc : XDoc} {d d' : SDevice} (h : SaysDevice doc d) (h' : SaysDevice doc d') : d = d' := by
  obtain ⟨ws, h⟩ := (C57_reads doc d).2 h
  obtain ⟨ws', h'⟩ := (C57_reads doc d').2 h'
  rw [h] at h'
  cases h'
  rfl

/-- C57: what the serializer writes for a device, the document says, with the elements of the format. -/
theorem C57_written (fmt : Nat → Option Str) {d : SDevice} (h : DeviceOK d) :
    SaysDevice { nsmap := (serDevice d).nsmap, root := reread fmt 0 (serDevice d).root } d :=
  (C57_reads _ d).1 ⟨_, C36_round_trip fmt h⟩

/-! ### refused documents -/

/-- The errors of the parser. -/
def ParseErr {α : Type} (m : M α) : Prop := ∀ e, m = .err e → e = .parser ∨ e = .notImplemented ∨ e = .typeError

section
variable {α β : Type}

theorem parseErr_pure {a : α} : ParseErr (M.pure a) := fun e h => by simp [M.pure] at h
theorem parseErr_throw {e : Exn} (h : e = .parser ∨ e = .notImplemented ∨ e = .typeError) : ParseErr (M.throw e : M α) := fun e' h' => by
  simp [M.throw] at h'; exact h' ▸ h
theorem parseErr_warn {w : Warn} : ParseErr (M.warn w) := fun e h => by simp [M.warn] at h
theorem parseErr_warnIf {b : Bool} {w : Warn} : ParseErr (M.warnIf b w) := fun e h => by
  exact (M.warnIf_ne_err.1 h).elim
theorem parseErr_bind {m : M α} {f : α → M β} (h1 : ParseErr m) (h2 : ∀ a, ParseErr (f a)) : ParseErr (M.bind m f) := fun e h => by
  rcases M.bind_eq_err.1 h with h | ⟨a, _, _, h⟩
  · exact h1 e h
  · exact h2 a e h
theorem parseErr_bind' {m : M α} {f : α → M β} (h1 : ParseErr m) (h2 : ∀ a, ParseErr (f a)) : ParseErr (m >>= f) := parseErr_bind h1 h2
theorem parseErr_ofOption {o : Option α} {e : Exn} (h : e = .parser ∨ e = .notImplemented ∨ e = .typeError) : ParseErr (M.ofOption o e) := by
  cases o
  · exact parseErr_throw h
  · exact parseErr_pure
theorem parseErr_mapM {f : α → M β} (h : ∀ x, ParseErr (f x)) : ∀ l : List α, ParseErr (M.mapM f l)
  | [] => parseErr_pure
  | x :: xs => parseErr_bind (h x) fun _ => parseErr_bind (parseErr_mapM h xs) fun _ => parseErr_pure
theorem parseErr_optM {f : Str → M α} (h : ∀ s, ParseErr (f s)) (o : Option Str) : ParseErr (optM f o) := by
  cases o
  · exact parseErr_pure
  · exact parseErr_bind (h _) fun _ => parseErr_pure
end

theorem parseErr_toBool (s : Str) : ParseErr (toBool s) := by
  unfold toBool
  repeat' split
  all_goals first | exact parseErr_pure | exact parseErr_throw (by simp)
theorem parseErr_toInt (s : Str) : ParseErr (toInt s) := fun e h => by
  rcases toInt_cases s with ⟨j, hj⟩ | hj
  · rw [hj] at h; cases h
  · rw [hj] at h; cases h; simp
theorem parseErr_fromVal {α : Type} {all : List α} {val : α → Str} (s : Str) : ParseErr (fromVal all val s) := parseErr_ofOption (by simp)
theorem parseErr_cpuName (s : Str) : ParseErr (CPUName.fromStr s) := by
  unfold CPUName.fromStr
  repeat' split
  all_goals first | exact parseErr_pure | exact parseErr_throw (by simp)
theorem parseErr_access (s : Str) : ParseErr (Access.fromStr s) := by
  unfold Access.fromStr
  repeat' split
  all_goals first | exact parseErr_pure | exact parseErr_bind parseErr_warn fun _ => parseErr_pure
theorem parseErr_optAccess (o : Option Str) : ParseErr (optAccess o) := by
  cases o
  · exact parseErr_pure
  · exact parseErr_access _
theorem parseErr_lastText {t : Str} {b o : Bool} {x : XElem} : ParseErr (lastText t b o x) := by
  unfold lastText
  repeat' split
  all_goals first | exact parseErr_pure | exact parseErr_throw (by simp) | exact parseErr_bind parseErr_warnIf fun _ => parseErr_pure
theorem parseErr_elementText {t : Str} {b o : Bool} {x : XElem} : ParseErr (elementText t x b o) := by
  unfold elementText
  repeat' split
  all_goals first | exact parseErr_pure | exact parseErr_throw (by simp) | exact parseErr_lastText | exact parseErr_bind parseErr_warn fun _ => parseErr_lastText
theorem parseErr_reqText {t : Str} {x : XElem} : ParseErr (reqText t x) := parseErr_bind parseErr_elementText fun _ => parseErr_ofOption (by simp)
theorem parseErr_optText {t : Str} {x : XElem} : ParseErr (optText t x) := parseErr_elementText
theorem parseErr_rawText {t : Str} {x : XElem} : ParseErr (rawText t x) := parseErr_elementText
theorem parseErr_optAttr {t : Str} {x : XElem} : ParseErr (optAttr t x) := by
  unfold optAttr
  split
  · exact parseErr_pure
  · exact parseErr_bind parseErr_warnIf fun _ => parseErr_pure
theorem parseErr_reqAttr {t : Str} {x : XElem} : ParseErr (reqAttr t x) := parseErr_bind parseErr_optAttr fun _ => parseErr_ofOption (by simp)
theorem parseErr_reqInt {t : Str} {x : XElem} : ParseErr (reqInt t x) := parseErr_bind parseErr_reqText parseErr_toInt
theorem parseErr_optInt {t : Str} {x : XElem} : ParseErr (optInt t x) := parseErr_bind parseErr_optText (parseErr_optM parseErr_toInt)
theorem parseErr_optBool {t : Str} {x : XElem} : ParseErr (optBool t x) := parseErr_bind parseErr_optText (parseErr_optM parseErr_toBool)
theorem parseErr_optAttrBool {t : Str} {x : XElem} : ParseErr (optAttrBool t x) := parseErr_bind parseErr_optAttr (parseErr_optM parseErr_toBool)

/-- One step through a `do` block of the parser. -/
macro "parse_err" : tactic => `(tactic| repeat' first
  | exact parseErr_pure | exact parseErr_reqText | exact parseErr_optText | exact parseErr_rawText | exact parseErr_optAttr
  | exact parseErr_reqAttr | exact parseErr_reqInt | exact parseErr_optInt | exact parseErr_optBool | exact parseErr_optAttrBool
  | exact parseErr_optAccess _ | exact parseErr_fromVal _ | exact parseErr_cpuName _ | exact parseErr_toBool _ | exact parseErr_warn
  | exact parseErr_throw (by simp)
  | with_reducible refine parseErr_optM (fun _ => ?_) _ | with_reducible refine parseErr_mapM (fun _ => ?_) _
  | with_reducible refine parseErr_bind ?_ (fun _ => ?_) | with_reducible refine parseErr_bind' ?_ (fun _ => ?_))

theorem parseErr_props (e : XElem) : ParseErr (parseProps e) := by unfold parseProps; parse_err
theorem parseErr_enumValue (e : XElem) : ParseErr (parseEnumValue e) := by unfold parseEnumValue; parse_err
theorem parseErr_enumValues (e : XElem) : ParseErr (parseEnumValues e) := parseErr_mapM parseErr_enumValue _
theorem parseErr_dimArray (e : XElem) : ParseErr (parseDimArrayIndex e) := by
  unfold parseDimArrayIndex
  split
  · parse_err
  · parse_err
    exact parseErr_enumValues _
theorem parseErr_dim (e : XElem) : ParseErr (parseDim e) := by
  unfold parseDim
  parse_err
  exact parseErr_dimArray e
theorem parseErr_constraint (e : XElem) : ParseErr (parseWriteConstraint e) := by
  unfold parseWriteConstraint
  split
  · parse_err
  · parse_err
    split <;> parse_err
theorem parseErr_container (e : XElem) : ParseErr (parseEnumContainer e) := by
  unfold parseEnumContainer
  parse_err
  exact parseErr_enumValues e
theorem parseErr_field (e : XElem) : ParseErr (parseField e) := by
  unfold parseField
  parse_err
  · exact parseErr_constraint e
  · exact parseErr_container _
  · exact parseErr_dim e
theorem parseErr_register (e : XElem) : ParseErr (parseRegister e) := by
  unfold parseRegister
  parse_err
  · exact parseErr_constraint e
  · exact parseErr_mapM parseErr_field _
  · exact parseErr_dim e
  · exact parseErr_props e
mutual
theorem parseErr_RC : ∀ e : XElem, ParseErr (parseRC e)
  | .mk tag text attrs children => by
    unfold parseRC
    split
    · exact parseErr_bind (parseErr_register _) fun _ => parseErr_pure
    · split
      · parse_err
        · exact parseErr_RCs children
        · exact parseErr_dim _
        · exact parseErr_props _
      · exact parseErr_pure
theorem parseErr_RCs : ∀ l : List XElem, ParseErr (parseRCs l)
  | [] => by unfold parseRCs; exact parseErr_pure
  | e :: l => by
    unfold parseRCs
    exact parseErr_bind (parseErr_RC e) fun _ => parseErr_bind (parseErr_RCs l) fun _ => parseErr_pure
end
theorem parseErr_block (e : XElem) : ParseErr (parseAddressBlock e) := by unfold parseAddressBlock; parse_err
theorem parseErr_interrupt (e : XElem) : ParseErr (parseInterrupt e) := by
  unfold parseInterrupt
  parse_err
  unfold interruptValue
  split
  · parse_err
  · parse_err
theorem parseErr_peripheral (e : XElem) : ParseErr (parsePeripheral e) := by
  unfold parsePeripheral
  parse_err
  · exact parseErr_block _
  · exact parseErr_interrupt _
  · exact parseErr_RCs _
  · exact parseErr_dim _
  · exact parseErr_props _
theorem parseErr_peripherals (e : XElem) : ParseErr (parsePeripherals e) := by
  unfold parsePeripherals
  split
  · parse_err
  · exact parseErr_mapM parseErr_peripheral _
theorem parseErr_sauConfig (e : XElem) : ParseErr (parseSauConfig e) := by
  unfold parseSauConfig parseSauRegion
  split <;> parse_err
theorem parseErr_cpu (e : XElem) : ParseErr (parseCpu e) := by
  unfold parseCpu
  split
  · parse_err
  · parse_err
    exact parseErr_sauConfig _
theorem parseErr_location (d : XDoc) : ParseErr (parseSchemaLocation d) := by
  unfold parseSchemaLocation
  simp only
  split
  · parse_err
  · split
    · parse_err
    · parse_err
theorem parseErr_device (d : XDoc) : ParseErr (parseDevice d) := by
  unfold parseDevice
  parse_err
  · exact parseErr_location d
  · unfold parseDeviceDescription
    parse_err
    split <;> parse_err
  · exact parseErr_cpu _
  · exact parseErr_props _
  · exact parseErr_peripherals _

/-- C57: a document that says nothing is refused, with a parser error, an unsupported value, or (a repeated element without
text) a type error. -/
theorem C57_refused (doc : XDoc) : (¬ ∃ d, SaysDevice doc d) ↔
    (parseDevice doc = .err .parser ∨ parseDevice doc = .err .notImplemented ∨ parseDevice doc = .err .typeError) := by
  constructor
  · intro h
    cases hp : parseDevice doc with
    | ok d ws => exact absurd ⟨d, (C57_reads doc d).1 ⟨ws, hp⟩⟩ h
    | err e =>
      rcases parseErr_device doc e hp with rfl | rfl | rfl
      · exact Or.inl rfl
      · exact Or.inr (Or.inl rfl)
      · exact Or.inr (Or.inr rfl)
  · rintro h ⟨d, hd⟩
    obtain ⟨ws, hw⟩ := (C57_reads doc d).2 hd
    rw [hw] at h
    rcases h with h | h | h <;> cases h

/-- A document that says something: a register with a hexadecimal offset and a field. -/
theorem C57_sample : ∃ d, SaysDevice (Sample.doc [Sample.periphs (s%"P") [Sample.el (s%"registers") [Sample.el (s%"register")
      [Sample.lf (s%"name") (s%"R"), Sample.lf (s%"addressOffset") (s%"0x1_0"), Sample.el (s%"fields") [Sample.el (s%"field")
        [Sample.lf (s%"name") (s%"F"), Sample.lf (s%"lsb") (s%"1"), Sample.lf (s%"msb") (s%"#11"), Sample.lf (s%"access") (s%"Read")]]]]]]) d ∧
    (d.peripherals.all fun p => p.rcs.all fun x => match x with
      | .reg r => r.addressOffset == 16 && r.fields.map (fun f => (f.lsb, f.msb, f.access)) == [(some 1, some 3, some .readOnly)]
      | .clu _ _ => false) = true := by
  have h : Sample.okAnd (parseDevice (Sample.doc [Sample.periphs (s%"P") [Sample.el (s%"registers") [Sample.el (s%"register")
      [Sample.lf (s%"name") (s%"R"), Sample.lf (s%"addressOffset") (s%"0x1_0"), Sample.el (s%"fields") [Sample.el (s%"field")
        [Sample.lf (s%"name") (s%"F"), Sample.lf (s%"lsb") (s%"1"), Sample.lf (s%"msb") (s%"#11"), Sample.lf (s%"access") (s%"Read")]]]]]]))
      (fun d _ => d.peripherals.all fun p => p.rcs.all fun x => match x with
        | .reg r => r.addressOffset == 16 && r.fields.map (fun f => (f.lsb, f.msb, f.access)) == [(some 1, some 3, some .readOnly)]
        | .clu _ _ => false) = true := by decide +kernel
  generalize Sample.doc _ = doc at h ⊢
  cases hp : parseDevice doc with
  | ok d ws => rw [hp] at h; exact ⟨d, (C57_reads _ d).1 ⟨ws, hp⟩, h⟩
  | err e => rw [hp] at h; cases h

/-! ### integers -/

/-- C37, for every text: the integers read are exactly the ones the text is a literal for. -/
theorem C37_every_text (v : Str) (i : Int) : toInt v = .ok i [] ↔ IntText v i := toInt_text v i

/-- C37: a text is a literal for at most one integer, and otherwise it is refused. -/
theorem C37_refused (v : Str) : toInt v = .err .notImplemented ↔ ¬ ∃ i, IntText v i := by
  constructor
  · rintro h ⟨i, hi⟩
    rw [(toInt_text v i).2 hi] at h; cases h
  · intro h
    rcases toInt_cases v with ⟨j, hj⟩ | hj
    · exact absurd ⟨j, (toInt_text v j).1 hj⟩ h
    · exact hj

end Svd
