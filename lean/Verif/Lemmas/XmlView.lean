import Verif.Spec.Xml
import Verif.Lemmas.RoundTrip
/-
Two documents the parser cannot tell apart (up to some warnings).
-/
namespace Svd
open Spec

variable {P : Warn → Bool}

theorem Spec.SameResult.refl {α : Type} (x : M α) : SameResult P x x := by
  cases x with
  | ok a w => exact .ok rfl
  | err e => exact .err

theorem Spec.SameResult.bind {α β : Type} {x y : M α} {f g : α → M β} (h : SameResult P x y) (hf : ∀ a, SameResult P (f a) (g a)) :
    SameResult P (M.bind x f) (M.bind y g) := by
  cases h with
  | err => exact .err
  | @ok a w v hw =>
    unfold M.bind
    simp only []
    have := hf a
    generalize f a = p at this ⊢
    generalize g a = q at this ⊢
    cases this with
    | err => exact .err
    | ok h' => exact .ok (by simp only [List.filter_append, hw, h'])

/-- Pointwise related lists. -/
inductive Rel2 {α : Type} (R : α → α → Prop) : List α → List α → Prop
  | nil : Rel2 R [] []
  | cons {x y xs ys} : R x y → Rel2 R xs ys → Rel2 R (x :: xs) (y :: ys)

theorem Rel2.mapM {α β : Type} {R : α → α → Prop} {xs ys : List α} (h : Rel2 R xs ys) {f : α → M β}
    (hf : ∀ x y, x ∈ xs → R x y → SameResult P (f x) (f y)) : SameResult P (M.mapM f xs) (M.mapM f ys) := by
  induction h with
  | nil => exact .refl _
  | cons h1 h2 ih =>
    simp only [M.mapM]
    exact (hf _ _ (List.mem_cons_self ..) h1).bind fun _ => (ih fun x y hx => hf x y (List.mem_cons_of_mem _ hx)).bind fun _ => .refl _

theorem Rel2.append {α : Type} {R : α → α → Prop} {a b c d : List α} (h : Rel2 R a b) (h2 : Rel2 R c d) : Rel2 R (a ++ c) (b ++ d) := by
  induction h with
  | nil => exact h2
  | cons h1 _ ih => exact .cons h1 ih

theorem Rel2.flatMap {α : Type} {R S : α → α → Prop} {xs ys : List α} (h : Rel2 R xs ys) {f : α → List α}
    (hf : ∀ x y, R x y → Rel2 S (f x) (f y)) : Rel2 S (xs.flatMap f) (ys.flatMap f) := by
  induction h with
  | nil => exact .nil
  | cons h1 _ ih =>
    simp only [List.flatMap_cons]
    exact (hf _ _ h1).append ih

/-- A register or a cluster element. -/
def isRC (e : XElem) : Bool := decide (e.tag = s%"register") || decide (e.tag = s%"cluster")

/-- The parser sees the same in both elements, up to warnings of kind `P`. -/
inductive View (P : Warn → Bool) : XElem → XElem → Prop
  | mk {e e' : XElem} : e.tag = e'.tag →
      (∀ t ∈ valueTags, ∀ o, SameResult P (elementText t e true o) (elementText t e' true o)) →
      (∀ t ∈ rawTags, ∀ o, SameResult P (elementText t e false o) (elementText t e' false o)) →
      (∀ a, SameResult P (optAttr a e) (optAttr a e')) →
      (∀ t, t ∉ valueTags → t ∉ rawTags → Rel2 (View P) (e.findall t) (e'.findall t)) →
      Rel2 (View P) (e.children.filter isRC) (e'.children.filter isRC) → View P e e'


section view
variable {e e' : XElem}

theorem View.optText (h : View P e e') {t : Str} (ht : t ∈ valueTags) : SameResult P (optText t e) (optText t e') := by
  cases h with | mk _ h1 _ _ _ _ => exact h1 t ht _
theorem View.reqText (h : View P e e') {t : Str} (ht : t ∈ valueTags) : SameResult P (reqText t e) (reqText t e') := by
  cases h with | mk _ h1 _ _ _ _ => exact (h1 t ht _).bind fun _ => .refl _
theorem View.rawText (h : View P e e') {t : Str} (ht : t ∈ rawTags) : SameResult P (rawText t e) (rawText t e') := by
  cases h with | mk _ _ h1 _ _ _ => exact h1 t ht _
theorem View.optAttr (h : View P e e') (t : Str) : SameResult P (optAttr t e) (optAttr t e') := by
  cases h with | mk _ _ _ h1 _ _ => exact h1 t
theorem View.reqAttr (h : View P e e') (t : Str) : SameResult P (reqAttr t e) (reqAttr t e') := (h.optAttr t).bind fun _ => .refl _
theorem View.reqInt (h : View P e e') {t : Str} (ht : t ∈ valueTags) : SameResult P (reqInt t e) (reqInt t e') :=
  (h.reqText ht).bind fun _ => .refl _
theorem View.optInt (h : View P e e') {t : Str} (ht : t ∈ valueTags) : SameResult P (optInt t e) (optInt t e') :=
  (h.optText ht).bind fun _ => .refl _
theorem View.optBool (h : View P e e') {t : Str} (ht : t ∈ valueTags) : SameResult P (optBool t e) (optBool t e') :=
  (h.optText ht).bind fun _ => .refl _
theorem View.optAttrBool (h : View P e e') (t : Str) : SameResult P (optAttrBool t e) (optAttrBool t e') :=
  (h.optAttr t).bind fun _ => .refl _
theorem View.findall (h : View P e e') {t : Str} (h1 : t ∉ valueTags) (h2 : t ∉ rawTags) : Rel2 (View P) (e.findall t) (e'.findall t) := by
  cases h with | mk _ _ _ _ h3 _ => exact h3 t h1 h2

theorem View.find (h : View P e e') {t : Str} (h1 : t ∉ valueTags) (h2 : t ∉ rawTags) :
    (e.find t = none ∧ e'.find t = none) ∨ ∃ x y, e.find t = some x ∧ e'.find t = some y ∧ View P x y := by
  have := h.findall h1 h2
  unfold XElem.find
  generalize e.findall t = a at this ⊢
  generalize e'.findall t = b at this ⊢
  cases this with
  | nil => exact .inl ⟨rfl, rfl⟩
  | cons h _ => exact .inr ⟨_, _, rfl, rfl, h⟩

/-- One step of a congruence proof. -/
macro "vstep" h:ident : tactic => `(tactic| first
  | exact Spec.SameResult.refl _
  | exact View.optText $h (by decide)
  | exact View.reqText $h (by decide)
  | exact View.rawText $h (by decide)
  | exact View.reqInt $h (by decide)
  | exact View.optInt $h (by decide)
  | exact View.optBool $h (by decide)
  | exact View.optAttr $h _
  | exact View.optAttrBool $h _
  | refine Spec.SameResult.bind ?_ (fun _ => ?_))

theorem View.parseProps (h : View P e e') : SameResult P (parseProps e) (parseProps e') := by
  unfold Svd.parseProps
  repeat vstep h

theorem View.parseSauRegion (h : View P e e') : SameResult P (parseSauRegion e) (parseSauRegion e') := by
  unfold Svd.parseSauRegion
  repeat vstep h

theorem View.parseSauConfig (h : View P e e') : SameResult P (parseSauConfig e) (parseSauConfig e') := by
  unfold Svd.parseSauConfig
  rcases h.find (t := s%"sauRegionsConfig") (by decide) (by decide) with ⟨h1, h2⟩ | ⟨x, y, h1, h2, hv⟩
  · rw [h1, h2]; exact .refl _
  · rw [h1, h2]
    refine Spec.SameResult.bind (by vstep hv) fun _ => ?_
    refine Spec.SameResult.bind (by vstep hv) fun _ => ?_
    refine Spec.SameResult.bind ((hv.findall (by decide) (by decide)).mapM fun x y _ h => h.parseSauRegion) fun _ => ?_
    exact .refl _

theorem View.parseCpu (h : View P e e') : SameResult P (parseCpu e) (parseCpu e') := by
  unfold Svd.parseCpu
  rcases h.find (t := s%"cpu") (by decide) (by decide) with ⟨h1, h2⟩ | ⟨x, y, h1, h2, hv⟩
  · rw [h1, h2]; exact .refl _
  · rw [h1, h2]
    simp only []
    have hs := hv.parseSauConfig
    repeat (first | exact hs | vstep hv)

theorem View.parseEnumValue (h : View P e e') : SameResult P (parseEnumValue e) (parseEnumValue e') := by
  unfold Svd.parseEnumValue
  repeat vstep h

theorem View.parseEnumValues (h : View P e e') : SameResult P (parseEnumValues e) (parseEnumValues e') :=
  (h.findall (by decide) (by decide)).mapM fun _ _ _ h => h.parseEnumValue

theorem View.parseDimArrayIndex (h : View P e e') : SameResult P (parseDimArrayIndex e) (parseDimArrayIndex e') := by
  unfold Svd.parseDimArrayIndex
  rcases h.find (t := s%"dimArrayIndex") (by decide) (by decide) with ⟨h1, h2⟩ | ⟨x, y, h1, h2, hv⟩
  · rw [h1, h2]; exact .refl _
  · rw [h1, h2]
    simp only []
    have hs := hv.parseEnumValues
    repeat (first | exact hs | vstep hv)

theorem View.parseDim (h : View P e e') : SameResult P (parseDim e) (parseDim e') := by
  unfold Svd.parseDim
  have hs := h.parseDimArrayIndex
  repeat (first | exact hs | vstep h)

theorem View.parseAddressBlock (h : View P e e') : SameResult P (parseAddressBlock e) (parseAddressBlock e') := by
  unfold Svd.parseAddressBlock
  repeat vstep h

theorem View.interruptValue (h : View P e e') (n : Str) : SameResult P (interruptValue n e) (interruptValue n e') := by
  unfold Svd.interruptValue
  have := h.reqInt (t := s%"value") (by decide)
  generalize Svd.reqInt (s%"value") e = a at this ⊢
  generalize Svd.reqInt (s%"value") e' = b at this ⊢
  cases this with
  | ok h => exact .ok h
  | err => exact .refl _

theorem View.parseInterrupt (h : View P e e') : SameResult P (parseInterrupt e) (parseInterrupt e') := by
  unfold Svd.parseInterrupt
  have hs := h.interruptValue
  repeat (first | exact hs _ | vstep h)

theorem View.parseWriteConstraint (h : View P e e') : SameResult P (parseWriteConstraint e) (parseWriteConstraint e') := by
  unfold Svd.parseWriteConstraint
  rcases h.find (t := s%"writeConstraint") (by decide) (by decide) with ⟨h1, h2⟩ | ⟨x, y, h1, h2, hv⟩
  · rw [h1, h2]; exact .refl _
  · rw [h1, h2]
    simp only []
    refine Spec.SameResult.bind (by vstep hv) fun _ => ?_
    refine Spec.SameResult.bind (by vstep hv) fun _ => ?_
    refine Spec.SameResult.bind ?_ fun _ => .refl _
    rcases hv.find (t := s%"range") (by decide) (by decide) with ⟨h3, h4⟩ | ⟨u, v, h3, h4, hu⟩
    · rw [h3, h4]; exact .refl _
    · rw [h3, h4]
      simp only []
      repeat vstep hu

theorem View.parseEnumContainer (h : View P e e') : SameResult P (parseEnumContainer e) (parseEnumContainer e') := by
  unfold Svd.parseEnumContainer
  have hs := h.parseEnumValues
  repeat (first | exact hs | vstep h)

theorem View.parseField (h : View P e e') : SameResult P (parseField e) (parseField e') := by
  unfold Svd.parseField
  have h1 := h.parseWriteConstraint
  have h2 := h.parseDim
  have h3 : SameResult P (M.mapM Svd.parseEnumContainer (e.findall (s%"enumeratedValues"))) (M.mapM Svd.parseEnumContainer (e'.findall (s%"enumeratedValues"))) :=
    (h.findall (by decide) (by decide)).mapM fun _ _ _ h => h.parseEnumContainer
  repeat (first | exact h1 | exact h2 | exact h3 | vstep h)

theorem View.parseFields (h : View P e e') : SameResult P (parseFields e) (parseFields e') := by
  unfold Svd.parseFields
  refine Rel2.mapM (R := View P) ?_ fun _ _ _ h => h.parseField
  exact (h.findall (by decide) (by decide)).flatMap fun x y hx => hx.findall (by decide) (by decide)

theorem View.parseRegister (h : View P e e') : SameResult P (parseRegister e) (parseRegister e') := by
  unfold Svd.parseRegister
  have h1 := h.parseWriteConstraint
  have h2 := h.parseDim
  have h3 := h.parseFields
  have h4 := h.parseProps
  repeat (first | exact h1 | exact h2 | exact h3 | exact h4 | vstep h)

theorem parseRCs_filter (l : List XElem) : parseRCs l = parseRCs (l.filter isRC) := by
  induction l with
  | nil => rfl
  | cons x l ih =>
    by_cases hx : isRC x = true
    · rw [List.filter_cons_of_pos hx, parseRCs, parseRCs, ih]
    · rw [List.filter_cons_of_neg hx, ← ih]
      have : x.tag ≠ s%"register" ∧ x.tag ≠ s%"cluster" := by
        unfold isRC at hx; simp at hx; simpa using hx
      have := parseRCs_skip (a := [x]) (by simpa using this) l
      simpa using this

theorem Rel2.parseRCs {xs ys : List XElem} (h : Rel2 (View P) xs ys) (hf : ∀ x y, x ∈ xs → View P x y → SameResult P (parseRC x) (parseRC y)) :
    SameResult P (parseRCs xs) (parseRCs ys) := by
  induction h with
  | nil => exact .refl _
  | cons h1 h2 ih =>
    rw [Svd.parseRCs, Svd.parseRCs]
    exact (hf _ _ (List.mem_cons_self ..) h1).bind fun _ => (ih fun x y hx => hf x y (List.mem_cons_of_mem _ hx)).bind fun _ => .refl _

theorem View.parseRC_aux (n : Nat) : ∀ {e e' : XElem}, sizeOf e < n → View P e e' → SameResult P (parseRC e) (parseRC e') := by
  induction n with
  | zero => intro e e' h; omega
  | succ n ih =>
    intro e e' hn h
    have htag : e.tag = e'.tag := by cases h with | mk h _ _ _ _ _ => exact h
    have hrc : SameResult P (Svd.parseRCs e.children) (Svd.parseRCs e'.children) := by
      rw [parseRCs_filter e.children, parseRCs_filter e'.children]
      cases h with
      | mk _ _ _ _ _ h2 =>
        refine h2.parseRCs fun x y hx hv => ih ?_ hv
        have hx := (List.mem_filter.1 hx).1
        cases e with
        | mk t tx a ch =>
          simp only [XElem.children] at hx
          have := List.sizeOf_lt_of_mem hx
          simp only [XElem.mk.sizeOf_spec] at hn
          omega
    have h2 := h.parseDim
    have h3 := h.parseRegister
    have h4 := h.parseProps
    cases e with
    | mk t tx a ch =>
      cases e' with
      | mk t' tx' a' ch' =>
        simp only [XElem.tag] at htag
        subst htag
        simp only [XElem.children] at hrc
        rw [parseRC, parseRC]
        split
        · exact h3.bind fun _ => .refl _
        · split
          · repeat (first | exact h2 | exact hrc | exact h4 | vstep h)
          · exact .refl _

theorem View.parseRC (h : View P e e') : SameResult P (parseRC e) (parseRC e') := View.parseRC_aux _ (Nat.lt_succ_self _) h

theorem View.parseRCs (h : View P e e') : SameResult P (parseRCs e.children) (parseRCs e'.children) := by
  rw [parseRCs_filter e.children, parseRCs_filter e'.children]
  cases h with
  | mk _ _ _ _ _ h2 => exact h2.parseRCs fun x y _ hv => hv.parseRC

theorem View.parsePeripheral (h : View P e e') : SameResult P (parsePeripheral e) (parsePeripheral e') := by
  unfold Svd.parsePeripheral
  have h2 := h.parseDim
  have h4 := h.parseProps
  have h5 : SameResult P (M.mapM Svd.parseAddressBlock (e.findall (s%"addressBlock"))) (M.mapM Svd.parseAddressBlock (e'.findall (s%"addressBlock"))) :=
    (h.findall (by decide) (by decide)).mapM fun _ _ _ h => h.parseAddressBlock
  have h6 : SameResult P (M.mapM Svd.parseInterrupt (e.findall (s%"interrupt"))) (M.mapM Svd.parseInterrupt (e'.findall (s%"interrupt"))) :=
    (h.findall (by decide) (by decide)).mapM fun _ _ _ h => h.parseInterrupt
  have h7 : SameResult P (M.mapM (fun x => Svd.parseRCs x.children) (e.findall (s%"registers"))) (M.mapM (fun x => Svd.parseRCs x.children) (e'.findall (s%"registers"))) :=
    (h.findall (by decide) (by decide)).mapM fun _ _ _ h => h.parseRCs
  repeat (first | exact h2 | exact h4 | exact h5 | exact h6 | exact h7 | vstep h)

theorem View.parsePeripherals (h : View P e e') : SameResult P (parsePeripherals e) (parsePeripherals e') := by
  unfold Svd.parsePeripherals
  rcases h.find (t := s%"peripherals") (by decide) (by decide) with ⟨h1, h2⟩ | ⟨x, y, h1, h2, hv⟩
  · rw [h1, h2]; exact .refl _
  · rw [h1, h2]
    exact (hv.findall (by decide) (by decide)).mapM fun _ _ _ h => h.parsePeripheral

theorem View.parseDevice {ns : List (Str × Str)} (h : View P e e') :
    SameResult P (parseDevice ⟨ns, e⟩) (parseDevice ⟨ns, e'⟩) := by
  unfold Svd.parseDevice
  have h1 : SameResult P (parseSchemaLocation ⟨ns, e⟩) (parseSchemaLocation ⟨ns, e'⟩) := by
    unfold parseSchemaLocation
    simp only []
    generalize List.lookup _ ns = k
    cases k with
    | none => exact .refl _
    | some uri =>
      simp only []
      have := h.reqAttr (('{' :: uri) ++ ('}' :: s%"noNamespaceSchemaLocation"))
      generalize Svd.reqAttr (('{' :: uri) ++ ('}' :: s%"noNamespaceSchemaLocation")) e = a at this ⊢
      generalize Svd.reqAttr (('{' :: uri) ++ ('}' :: s%"noNamespaceSchemaLocation")) e' = b at this ⊢
      cases this with
      | ok h => exact .ok h
      | err => exact .refl _
  have h2 : SameResult P (parseDeviceDescription e) (parseDeviceDescription e') :=
    (h.rawText (by decide)).bind fun _ => .refl _
  have h3 := h.parseCpu
  have h4 := h.parseProps
  have h5 := h.parsePeripherals
  have h6 := h.reqAttr
  simp only []
  repeat (first | exact h1 | exact h2 | exact h3 | exact h4 | exact h5 | exact h6 _ | vstep h)

end view

/-! ### white space -/

theorem Rel2.imp {α : Type} {R S : α → α → Prop} {xs ys : List α} (h : Rel2 R xs ys) (hf : ∀ x y, x ∈ xs → R x y → S x y) : Rel2 S xs ys := by
  induction h with
  | nil => exact .nil
  | cons h1 _ ih => exact .cons (hf _ _ (List.mem_cons_self ..) h1) (ih fun x y hx => hf x y (List.mem_cons_of_mem _ hx))

theorem Rel2.filter {α : Type} {R : α → α → Prop} {xs ys : List α} (h : Rel2 R xs ys) {p : α → Bool} (hp : ∀ x y, R x y → p x = p y) :
    Rel2 R (xs.filter p) (ys.filter p) := by
  induction h with
  | nil => exact .nil
  | @cons x y xs ys h1 _ ih =>
    by_cases hx : p x = true
    · rw [List.filter_cons_of_pos hx, List.filter_cons_of_pos (by rw [← hp _ _ h1]; exact hx)]
      exact .cons h1 ih
    · rw [List.filter_cons_of_neg hx, List.filter_cons_of_neg (by rw [← hp _ _ h1]; exact hx)]
      exact ih

theorem Spec.SameListUpToBlanks.rel2 : ∀ {xs ys : List XElem}, SameListUpToBlanks xs ys → Rel2 SameUpToBlanks xs ys
  | [], [], _ => .nil
  | _ :: _, _ :: _, .cons h1 h2 => .cons h1 (SameListUpToBlanks.rel2 h2)

theorem Spec.SameUpToBlanks.tag_eq {x y : XElem} (h : SameUpToBlanks x y) : x.tag = y.tag := by cases h; rfl
theorem Spec.SameUpToBlanks.children {x y : XElem} (h : SameUpToBlanks x y) : Rel2 SameUpToBlanks x.children y.children := by
  cases h with | mk _ _ _ _ h => exact SameListUpToBlanks.rel2 h

/-- Texts the parser does not distinguish. -/
def SameText (b : Bool) (x y : Option Str) : Prop :=
  x = y ∨ (b = true ∧ ∃ s s', x = some s ∧ y = some s' ∧ strip s = strip s')

theorem Spec.SameUpToBlanks.text {x y : XElem} (h : SameUpToBlanks x y) (hr : x.tag ∈ rawTags ∨ x.tag ∈ valueTags) :
    SameText (decide (x.tag ∈ valueTags)) x.text y.text := by
  cases h with
  | mk h1 h2 =>
    simp only [XElem.tag, XElem.text] at hr ⊢
    rcases hr with hr | hr
    · exact .inl (h1 hr)
    · rcases h2 hr with h | h
      · exact .inl h
      · exact .inr ⟨decide_eq_true hr, by rw [trim_eq] at h; exact h⟩

theorem lastText_blanks {b opt : Bool} {x y : XElem} (h : SameText b x.text y.text) (t : Str) :
    SameResult isStripped (lastText t b opt x) (lastText t b opt y) := by
  unfold lastText
  rcases h with h | ⟨hb, s, s', h1, h2, h3⟩
  · rw [h]; exact .refl _
  · rw [h1, h2]
    subst hb
    simp only [Bool.not_true, Bool.false_eq_true, if_false]
    rw [h3]
    simp only [M.warnIf]
    split <;> split <;> simp only [M.bind, M.warn, M.pure] <;> exact .ok (by simp [isStripped])

theorem Rel2.last {α : Type} {R : α → α → Prop} {x y : α} {xs ys : List α} (h1 : R x y) (h : Rel2 R xs ys) : R (xs.getLastD x) (ys.getLastD y) := by
  induction h generalizing x y with
  | nil => exact h1
  | cons h2 _ ih => rw [List.getLastD_cons, List.getLastD_cons]; exact ih h2

theorem Rel2.any {α : Type} {R : α → α → Prop} {xs ys : List α} (h : Rel2 R xs ys) {p : α → Bool} (hp : ∀ x y, R x y → p x = p y) : xs.any p = ys.any p := by
  induction h with
  | nil => rfl
  | cons h1 _ ih => simp only [List.any_cons, hp _ _ h1, ih]

theorem elementText_blanks {t : Str} {b opt : Bool} {x y : XElem}
    (h : Rel2 (fun u v => SameText b u.text v.text) (x.findall t) (y.findall t)) :
    SameResult isStripped (elementText t x b opt) (elementText t y b opt) := by
  have hp : ∀ u v : XElem, SameText b u.text v.text → u.text.isNone = v.text.isNone := by
    rintro u v (h | ⟨-, s, s', h1, h2, -⟩)
    · rw [h]
    · rw [h1, h2]; rfl
  unfold elementText
  generalize x.findall t = a at h ⊢
  generalize y.findall t = c at h ⊢
  cases h with
  | nil => exact .refl _
  | cons h1 h2 =>
    cases h2 with
    | nil => exact lastText_blanks h1 t
    | cons h3 h4 =>
      simp only []
      rw [Rel2.any (R := fun u v : XElem => SameText b u.text v.text) (.cons h1 (.cons h3 h4)) hp]
      split
      · exact .err
      · exact (SameResult.refl _).bind fun _ => lastText_blanks (Rel2.last (R := fun u v : XElem => SameText b u.text v.text) h1 (.cons h3 h4)) t

theorem optAttr_blanks {x y : XElem} (h : SameUpToBlanks x y) (k : Str) : SameResult isStripped (optAttr k x) (optAttr k y) := by
  have key : ∀ {a a' : List (Str × Str)}, a.map Prod.fst = a'.map Prod.fst → a.map (fun a => strip a.2) = a'.map (fun a => strip a.2) →
      (a.lookup k = none ∧ a'.lookup k = none) ∨ ∃ s s', a.lookup k = some s ∧ a'.lookup k = some s' ∧ strip s = strip s' := by
    intro a
    induction a with
    | nil => intro a' h1 h2; cases a' with
      | nil => exact .inl ⟨rfl, rfl⟩
      | cons _ _ => cases h1
    | cons p a ih =>
      intro a' h1 h2
      cases a' with
      | nil => cases h1
      | cons q a' =>
        obtain ⟨p1, p2⟩ := p
        obtain ⟨q1, q2⟩ := q
        simp only [List.map_cons, List.cons.injEq] at h1 h2
        obtain ⟨h1, h1'⟩ := h1
        obtain ⟨h2, h2'⟩ := h2
        subst h1
        simp only [List.lookup_cons]
        cases hk : (k == p1) with
        | true => exact .inr ⟨_, _, rfl, rfl, h2⟩
        | false => exact ih h1' h2'
  cases h with
  | mk _ _ h1 h2 _ =>
    unfold optAttr XElem.get
    simp only [XElem.attrs]
    rw [trim_eq] at h2
    rcases key h1 h2 with ⟨e1, e2⟩ | ⟨s, s', e1, e2, e3⟩
    · rw [e1, e2]; exact .refl _
    · rw [e1, e2]
      simp only []
      rw [e3]
      simp only [M.warnIf]
      split <;> split <;> simp only [M.bind, M.warn, M.pure] <;> exact .ok (by simp [isStripped])

theorem view_of_blanks_aux (n : Nat) : ∀ {e e' : XElem}, sizeOf e < n → SameUpToBlanks e e' → View isStripped e e' := by
  induction n with
  | zero => intro e e' h; omega
  | succ n ih =>
    intro e e' hn h
    have hc := h.children
    have hlt : ∀ x ∈ e.children, sizeOf x < n := by
      intro x hx
      cases e with
      | mk t tx a ch =>
        simp only [XElem.children] at hx
        have := List.sizeOf_lt_of_mem hx
        simp only [XElem.mk.sizeOf_spec] at hn
        omega
    have hfa : ∀ t, Rel2 SameUpToBlanks (e.findall t) (e'.findall t) := fun t =>
      hc.filter fun x y hxy => by rw [hxy.tag_eq]
    have hmem : ∀ {t x}, x ∈ e.findall t → x ∈ e.children ∧ x.tag = t := fun hx => by
      have := List.mem_filter.1 hx; simpa using this
    have raw_value : ∀ t ∈ rawTags, t ∉ valueTags := by decide
    refine .mk h.tag_eq ?_ ?_ (optAttr_blanks h) ?_ ?_
    · intro t ht o
      refine elementText_blanks ((hfa t).imp fun x y hx hxy => ?_)
      obtain ⟨-, rfl⟩ := hmem hx
      have := hxy.text (.inr ht)
      rwa [decide_eq_true ht] at this
    · intro t ht o
      refine elementText_blanks ((hfa t).imp fun x y hx hxy => ?_)
      obtain ⟨-, rfl⟩ := hmem hx
      have := hxy.text (.inl ht)
      rwa [decide_eq_false (raw_value _ ht)] at this
    · intro t _ _
      exact (hfa t).imp fun x y hx hxy => ih (hlt x (hmem hx).1) hxy
    · refine (hc.filter (p := isRC) fun x y hxy => by unfold isRC; rw [hxy.tag_eq]).imp fun x y hx hxy => ih (hlt x (List.mem_filter.1 hx).1) hxy

theorem view_of_blanks {e e' : XElem} (h : SameUpToBlanks e e') : View isStripped e e' := view_of_blanks_aux _ (Nat.lt_succ_self _) h

/-! ### repeated elements -/

theorem lastOnly_tag (e : XElem) : (lastOnly e).tag = e.tag := by cases e; simp [lastOnly, XElem.tag]
theorem lastOnly_text (e : XElem) : (lastOnly e).text = e.text := by cases e; simp [lastOnly, XElem.text]
theorem lastOnly_attrs (e : XElem) : (lastOnly e).attrs = e.attrs := by cases e; simp [lastOnly, XElem.attrs]
theorem lastOnly_children (e : XElem) : (lastOnly e).children = lastOnlyAll e.children := by cases e; simp [lastOnly, XElem.children]

/-- A value or a free text element. -/
def isText (t : Str) : Prop := t ∈ valueTags ∨ t ∈ rawTags

theorem lastOnlyAll_filter_other {p : XElem → Bool} (hp : ∀ e, p (lastOnly e) = p e) (hq : ∀ e, p e = true → ¬ isText e.tag) (l : List XElem) :
    (lastOnlyAll l).filter p = (l.filter p).map lastOnly := by
  induction l with
  | nil => simp [lastOnlyAll]
  | cons x l ih =>
    rw [lastOnlyAll]
    by_cases hx : p x = true
    · rw [if_neg (fun h => hq x hx h.1), List.filter_cons_of_pos (by rw [hp]; exact hx), List.filter_cons_of_pos hx, ih, List.map_cons]
    · split
      · rw [List.filter_cons_of_neg hx, ih]
      · rw [List.filter_cons_of_neg (by rw [hp]; exact hx), List.filter_cons_of_neg hx, ih]

theorem lastOnlyAll_filter_text {t : Str} (ht : isText t) (l : List XElem) :
    (lastOnlyAll l).filter (fun c => decide (c.tag = t)) = ((l.filter (fun c => decide (c.tag = t))).getLast?.map lastOnly).toList := by
  induction l with
  | nil => simp [lastOnlyAll]
  | cons x l ih =>
    rw [lastOnlyAll]
    by_cases hx : x.tag = t
    · have hpos : decide (x.tag = t) = true := by simpa using hx
      rw [List.filter_cons_of_pos (p := fun c : XElem => decide (c.tag = t)) hpos]
      by_cases hm : x.tag ∈ l.map XElem.tag
      · rw [if_pos ⟨by rw [hx]; exact ht, hm⟩, ih]
        have hne : l.filter (fun c => decide (c.tag = t)) ≠ [] := by
          obtain ⟨y, hy, hyx⟩ := List.mem_map.1 hm
          exact List.ne_nil_of_mem (List.mem_filter.2 ⟨hy, by simp [hyx, hx]⟩)
        rw [List.getLast?_cons]
        cases hl : (l.filter (fun c => decide (c.tag = t))).getLast? with
        | none => exact absurd (List.getLast?_eq_none_iff.1 hl) hne
        | some z => rfl
      · have he : l.filter (fun c => decide (c.tag = t)) = [] := by
          rw [List.filter_eq_nil_iff]
          intro y hy hyt
          exact hm (List.mem_map.2 ⟨y, hy, by rw [hx]; simpa using hyt⟩)
        rw [if_neg (fun h => hm h.2), List.filter_cons_of_pos (by rw [lastOnly_tag]; exact hpos), ih, he]
        rfl
    · have hneg : ¬ decide (x.tag = t) = true := by simpa using hx
      rw [List.filter_cons_of_neg (p := fun c : XElem => decide (c.tag = t)) hneg]
      split
      · exact ih
      · rw [List.filter_cons_of_neg (by rw [lastOnly_tag]; exact hneg), ih]

theorem lastText_lastOnly (t : Str) (b o : Bool) (e : XElem) : lastText t b o (lastOnly e) = lastText t b o e := by
  unfold lastText; rw [lastOnly_text]

theorem elementText_lastOnly {t : Str} (ht : isText t) {b o : Bool} {e : XElem}
    (hd : 1 < (e.findall t).length → ∀ c ∈ e.findall t, c.text ≠ none) :
    SameResult isMultiple (elementText t e b o) (elementText t (lastOnly e) b o) := by
  have h : (lastOnly e).findall t = ((e.findall t).getLast?.map lastOnly).toList := by
    unfold XElem.findall
    rw [lastOnly_children, lastOnlyAll_filter_text ht]
  unfold elementText
  rw [h]
  generalize e.findall t = l at hd
  match l with
  | [] => exact .refl _
  | [x] =>
    simp only [List.getLast?_singleton, Option.map_some, Option.toList_some, lastText_lastOnly]
    exact .refl _
  | x :: y :: l =>
    have hno : (x :: y :: l).any (fun x => x.text.isNone) = false := by
      rw [List.any_eq_false]
      intro c hc
      have := hd (by simp) c hc
      simpa using this
    rw [List.getLast?_cons]
    simp only [Option.map_some, Option.toList_some, hno, Bool.false_eq_true, if_false, lastText_lastOnly, List.getLastD_eq_getLast?]
    generalize lastText t b o _ = r
    cases r with
    | ok a w => exact .ok (by simp [isMultiple])
    | err e => exact .err

theorem textedDups_mem : ∀ {l : List XElem}, TextedDups l → ∀ x ∈ l, TextedDup x
  | x :: xs, h, y, hy => by
    simp only [TextedDups] at h
    rcases List.mem_cons.1 hy with rfl | hy
    · exact h.1
    · exact textedDups_mem h.2 y hy

theorem rel2_map {α : Type} {R : α → α → Prop} {f : α → α} (l : List α) (h : ∀ x ∈ l, R x (f x)) : Rel2 R l (l.map f) := by
  induction l with
  | nil => exact .nil
  | cons x l ih => exact .cons (h x (List.mem_cons_self ..)) (ih fun y hy => h y (List.mem_cons_of_mem _ hy))

theorem view_lastOnly_aux (n : Nat) : ∀ {e : XElem}, sizeOf e < n → TextedDup e → View isMultiple e (lastOnly e) := by
  induction n with
  | zero => intro e h; omega
  | succ n ih =>
    intro e hn h
    have hlt : ∀ x ∈ e.children, sizeOf x < n := by
      intro x hx
      cases e with
      | mk t tx a ch =>
        simp only [XElem.children] at hx
        have := List.sizeOf_lt_of_mem hx
        simp only [XElem.mk.sizeOf_spec] at hn
        omega
    have hd : TextedDups e.children ∧ ∀ t, isText t → 1 < (e.findall t).length → ∀ c ∈ e.findall t, c.text ≠ none := by
      cases e with
      | mk t tx a ch =>
        simp only [TextedDup] at h
        refine ⟨h.1, fun t ht hl c hc => ?_⟩
        have hc := List.mem_filter.1 hc
        exact h.2 t ht hl c hc.1 (by simpa using hc.2)
    have hv : ∀ x ∈ e.children, View isMultiple x (lastOnly x) := fun x hx => ih (hlt x hx) (textedDups_mem hd.1 x hx)
    refine .mk (lastOnly_tag e).symm ?_ ?_ ?_ ?_ ?_
    · intro t ht o
      exact elementText_lastOnly (.inl ht) (hd.2 t (.inl ht))
    · intro t ht o
      exact elementText_lastOnly (.inr ht) (hd.2 t (.inr ht))
    · intro a
      unfold optAttr XElem.get
      rw [lastOnly_attrs]; exact .refl _
    · intro t h1 h2
      have : (lastOnly e).findall t = (e.findall t).map lastOnly := by
        unfold XElem.findall
        rw [lastOnly_children]
        refine lastOnlyAll_filter_other (fun e => by rw [lastOnly_tag]) (fun e he => ?_) _
        have he : e.tag = t := by simpa using he
        rw [he]; exact fun h => h.elim h1 h2
      rw [this]
      exact rel2_map _ fun x hx => hv x (List.mem_filter.1 hx).1
    · rw [lastOnly_children, lastOnlyAll_filter_other (fun e => by unfold isRC; rw [lastOnly_tag])]
      · exact rel2_map _ fun x hx => hv x (List.mem_filter.1 hx).1
      · intro e he
        unfold isRC at he
        simp only [Bool.or_eq_true, decide_eq_true_eq] at he
        rcases he with he | he <;> rw [he] <;> unfold isText <;> decide

theorem view_lastOnly {e : XElem} (h : TextedDup e) : View isMultiple e (lastOnly e) := view_lastOnly_aux _ (Nat.lt_succ_self _) h

end Svd
