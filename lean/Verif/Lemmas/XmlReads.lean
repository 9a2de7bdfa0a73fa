import Verif.Spec.Xml
import Verif.Lemmas.XmlView
import Verif.Lemmas.XmlInt
/-
What a successful parse tells about the elements that were read.
-/
namespace Svd
open Spec

/-- If the computation succeeds, its warnings satisfy `P`. -/
def Ensures {α : Type} (x : M α) (P : List Warn → Prop) : Prop := ∀ a ws, x = .ok a ws → P ws
/-- More warnings do not hurt. -/
def Mono (P : List Warn → Prop) : Prop := ∀ w w', (∀ u ∈ w, u ∈ w') → P w → P w'

section
variable {α β : Type} {P : List Warn → Prop}

theorem Ensures.left (hm : Mono P) {x : M α} {f : α → M β} (h : Ensures x P) : Ensures (M.bind x f) P := by
  intro b ws hb
  obtain ⟨a, w1, w2, h1, -, rfl⟩ := M.bind_eq_ok.1 hb
  exact hm _ _ (fun u hu => List.mem_append_left _ hu) (h a w1 h1)

theorem Ensures.right (hm : Mono P) {x : M α} {f : α → M β} (h : ∀ a, Ensures (f a) P) : Ensures (M.bind x f) P := by
  intro b ws hb
  obtain ⟨a, w1, w2, -, h1, rfl⟩ := M.bind_eq_ok.1 hb
  exact hm _ _ (fun u hu => List.mem_append_right _ hu) (h a b w2 h1)

theorem Ensures.mapM (hm : Mono P) {f : α → M β} {l : List α} {x : α} (hx : x ∈ l) (h : Ensures (f x) P) : Ensures (M.mapM f l) P := by
  intro ys ws hl
  obtain ⟨y, -, w, hy, hw⟩ := (M.mapM_eq_ok.1 hl).mem_ws' hx
  exact hm _ _ hw (h y w hy)

/-- A text child that is read: repetitions are reported. -/
def DupReported (e : XElem) (t : Str) (ws : List Warn) : Prop := 1 < (e.findall t).length → Warn.multipleElements t ∈ ws
/-- A text child that is read: it is there, with a text. -/
def Present (e : XElem) (t : Str) (_ : List Warn) : Prop := ∃ x, (e.findall t).getLast? = some x ∧ x.text ≠ none

theorem mono_dup (e : XElem) (t : Str) : Mono (DupReported e t) := fun _ _ h hp hl => h _ (hp hl)
theorem mono_present (e : XElem) (t : Str) : Mono (Present e t) := fun _ _ _ hp => hp

theorem elementText_dup {e : XElem} {t : Str} {b o : Bool} : Ensures (elementText t e b o) (DupReported e t) := by
  intro a ws h hl
  unfold elementText at h
  generalize e.findall t = l at h hl
  match l with
  | [] => simp at hl
  | [x] => simp at hl
  | x :: y :: l =>
    simp only [] at h
    split at h
    · cases h
    · obtain ⟨_, w1, w2, h1, -, rfl⟩ := M.bind_eq_ok.1 h
      cases h1
      simp

theorem elementText_present {e : XElem} {t : Str} {b : Bool} : Ensures (elementText t e b false) (Present e t) := by
  intro a ws h
  have last : ∀ x, (∃ a w, lastText t b false x = .ok a w) → x.text ≠ none := by
    rintro x ⟨a, w, h⟩ he
    unfold lastText at h
    rw [he] at h
    cases h
  unfold elementText at h
  unfold Present
  generalize e.findall t = l at h ⊢
  match l with
  | [] => cases h
  | [x] => exact ⟨x, rfl, last x ⟨_, _, h⟩⟩
  | x :: y :: l =>
    simp only [] at h
    split at h
    · cases h
    · obtain ⟨_, w1, w2, -, h1, rfl⟩ := M.bind_eq_ok.1 h
      exact ⟨_, by rw [List.getLast?_cons, ← List.getLastD_eq_getLast?], last _ ⟨_, _, h1⟩⟩

theorem optText_dup {e : XElem} {t : Str} : Ensures (optText t e) (DupReported e t) := elementText_dup
theorem rawText_dup {e : XElem} {t : Str} : Ensures (rawText t e) (DupReported e t) := elementText_dup
theorem reqText_dup {e : XElem} {t : Str} : Ensures (reqText t e) (DupReported e t) := elementText_dup.left (mono_dup _ _)
theorem optInt_dup {e : XElem} {t : Str} : Ensures (optInt t e) (DupReported e t) := elementText_dup.left (mono_dup _ _)
theorem optBool_dup {e : XElem} {t : Str} : Ensures (optBool t e) (DupReported e t) := elementText_dup.left (mono_dup _ _)
theorem reqInt_dup {e : XElem} {t : Str} : Ensures (reqInt t e) (DupReported e t) := reqText_dup.left (mono_dup _ _)
theorem reqTok_dup {e : XElem} {t : Str} {g : Str → M α} : Ensures (M.bind (reqText t e) g) (DupReported e t) := reqText_dup.left (mono_dup _ _)
theorem reqText_present {e : XElem} {t : Str} : Ensures (reqText t e) (Present e t) := elementText_present.left (mono_present _ _)
theorem reqInt_present {e : XElem} {t : Str} : Ensures (reqInt t e) (Present e t) := reqText_present.left (mono_present _ _)
theorem reqTok_present {e : XElem} {t : Str} {g : Str → M α} : Ensures (M.bind (reqText t e) g) (Present e t) := reqText_present.left (mono_present _ _)

/-- Find the place where the text is read. -/
macro "duppass" : tactic => `(tactic| repeat (first
  | exact optText_dup | exact rawText_dup | exact reqText_dup | exact optInt_dup | exact optBool_dup | exact reqInt_dup | exact reqTok_dup
  | exact Ensures.left (mono_dup _ _) optText_dup | exact Ensures.left (mono_dup _ _) rawText_dup | exact Ensures.left (mono_dup _ _) reqText_dup
  | exact Ensures.left (mono_dup _ _) optInt_dup | exact Ensures.left (mono_dup _ _) optBool_dup | exact Ensures.left (mono_dup _ _) reqInt_dup
  | exact Ensures.left (mono_dup _ _) reqTok_dup
  | refine Ensures.right (mono_dup _ _) (fun _ => ?_)))

/-- Find the place where a given computation runs. -/
macro "findpass " hm:term ", " h:term : tactic => `(tactic| repeat (first
  | exact $h | exact Ensures.left $hm $h | refine Ensures.right $hm (fun _ => ?_)))

theorem parseProps_dup {e : XElem} {t : Str} (ht : t ∈ propTexts) : Ensures (parseProps e) (DupReported e t) := by
  unfold parseProps
  simp only [propTexts, List.mem_cons, List.not_mem_nil, or_false] at ht
  rcases ht with rfl | rfl | rfl | rfl | rfl <;> duppass

theorem parseDim_dup {e : XElem} {t : Str} (ht : t ∈ dimTexts) : Ensures (parseDim e) (DupReported e t) := by
  unfold parseDim
  simp only [dimTexts, List.mem_cons, List.not_mem_nil, or_false] at ht
  rcases ht with rfl | rfl | rfl | rfl <;> duppass

theorem interruptValue_dup {e : XElem} {n : Str} : Ensures (interruptValue n e) (DupReported e (s%"value")) := by
  intro a ws h
  have h0 := reqInt_dup (e := e) (t := s%"value")
  unfold interruptValue at h
  split at h
  · rename_i he
    intro hl
    exfalso
    rcases M.bind_eq_err.1 he with he | ⟨x, w, -, he⟩
    · rcases M.bind_eq_err.1 he with he | ⟨x, w, he', he⟩
      · unfold elementText at he
        generalize e.findall (s%"value") = l at he hl
        match l with
        | [] => simp at hl
        | [x] => simp at hl
        | x :: y :: l =>
          simp only [] at he
          split at he
          · cases he
          · rename_i hn
            rcases M.bind_eq_err.1 he with he | ⟨x, w, -, he⟩
            · cases he
            · unfold lastText at he
              split at he
              · rename_i hx
                apply hn
                rw [List.any_eq_true]
                refine ⟨_, ?_, by rw [hx]; rfl⟩
                rw [List.getLastD_eq_getLast?]
                cases hq : (y :: l).getLast? with
                | none => simp
                | some z => exact List.mem_cons_of_mem _ (List.mem_of_getLast? hq)
              · simp at he
                rcases M.bind_eq_err.1 he with he | ⟨x, w, -, he⟩
                · unfold M.warnIf at he; split at he <;> cases he
                · cases he
      · cases x with
        | some x => cases he
        | none =>
          obtain ⟨z, hz, hzt⟩ := elementText_present _ _ he'
          unfold elementText at he'
          generalize e.findall (s%"value") = l at he' hl hz
          match l with
          | [] => simp at hl
          | [x] => simp at hl
          | x :: y :: l =>
            simp only [] at he'
            split at he'
            · cases he'
            · obtain ⟨_, w1, w2, -, h1, rfl⟩ := M.bind_eq_ok.1 he'
              unfold lastText at h1
              split at h1
              · cases h1
              · simp only [Bool.not_true, Bool.false_eq_true, if_false] at h1
                obtain ⟨_, w1, w2, -, h2, -⟩ := M.bind_eq_ok.1 h1
                cases h2
    · rcases toInt_cases x with ⟨i, hi⟩ | hi <;> rw [hi] at he <;> cases he
  · exact h0 _ _ h

/-- What the computation that reads `e` as an element of kind `k` guarantees. -/
def EnsuresK (ns : List (Str × Str)) (k : Kind) (e : XElem) (P : List Warn → Prop) : Prop :=
  match k with
  | .device => Ensures (parseDevice ⟨ns, e⟩) P
  | .cpu => ∀ d : XElem, d.find (s%"cpu") = some e → Ensures (parseCpu d) P
  | .sauConfig => ∀ d : XElem, d.find (s%"sauRegionsConfig") = some e → Ensures (parseSauConfig d) P
  | .sauRegion => Ensures (parseSauRegion e) P
  | .peripheral => Ensures (parsePeripheral e) P
  | .addressBlock => Ensures (parseAddressBlock e) P
  | .interrupt => Ensures (parseInterrupt e) P
  | .cluster => e.tag = s%"cluster" → Ensures (parseRC e) P
  | .register => Ensures (parseRegister e) P
  | .field => Ensures (parseField e) P
  | .container => Ensures (parseEnumContainer e) P
  | .enumValue => Ensures (parseEnumValue e) P
  | .dimArrayIndex => ∀ d : XElem, d.find (s%"dimArrayIndex") = some e → Ensures (parseDimArrayIndex d) P
  | .writeConstraint => ∀ d : XElem, d.find (s%"writeConstraint") = some e → Ensures (parseWriteConstraint d) P
  | .range => ∀ d d' : XElem, d.find (s%"writeConstraint") = some d' → d'.find (s%"range") = some e → Ensures (parseWriteConstraint d) P

theorem mem_findall {e x : XElem} {t : Str} : x ∈ e.findall t ↔ x ∈ e.children ∧ x.tag = t := by
  simp [XElem.findall]

theorem ensures_RCs (hm : Mono P) {l : List XElem} {x : XElem} (hx : x ∈ l) (h : Ensures (parseRC x) P) : Ensures (parseRCs l) P := by
  induction l with
  | nil => cases hx
  | cons y l ih =>
    unfold parseRCs
    rcases List.mem_cons.1 hx with rfl | hx
    · exact h.left hm
    · exact Ensures.right hm fun _ => (ih hx).left hm

theorem ensures_RC_register (hm : Mono P) {x : XElem} (ht : x.tag = s%"register") (h : Ensures (parseRegister x) P) :
    Ensures (parseRC x) P := by
  obtain ⟨tag, text, attrs, ch⟩ := x
  cases ht
  unfold parseRC
  simp only [if_true]
  exact h.left hm

theorem ensures_child (hm : Mono P) {ns : List (Str × Str)} {k k' : Kind} {e e' : XElem} (hr : ReadsChild k e k' e')
    (h : EnsuresK ns k' e' P) : EnsuresK ns k e P := by
  have hdim : k' = .dimArrayIndex → e.find (s%"dimArrayIndex") = some e' → Ensures (parseDim e) P := by
    rintro rfl hf
    have := h _ hf
    unfold parseDim
    findpass hm, this
  have hRC : ∀ tag text attrs ch, e = .mk tag text attrs ch → Ensures (parseRCs ch) P → k = .cluster → EnsuresK ns k e P := by
    rintro tag text attrs ch rfl h rfl ht
    cases ht
    unfold parseRC
    have hn : ¬ (s%"cluster" : Str) = s%"register" := by decide
    simp only [if_neg hn, if_true]
    findpass hm, h
  cases hr with
  | cpu hf => unfold EnsuresK parseDevice; have := h _ hf; findpass hm, this
  | sauConfig hf =>
    intro d hd
    have := h _ hf
    unfold parseCpu
    rw [hd]
    simp only []
    findpass hm, this
  | sauRegion hf =>
    intro d hd
    have := Ensures.mapM hm hf h
    unfold parseSauConfig
    rw [hd]
    simp only []
    findpass hm, this
  | @peripheral e y x hf hx =>
    have : Ensures (parsePeripherals e) P := by
      unfold parsePeripherals
      rw [hf]
      exact Ensures.mapM hm hx h
    unfold EnsuresK parseDevice
    findpass hm, this
  | addressBlock hf => have := Ensures.mapM hm hf h; unfold EnsuresK parsePeripheral; findpass hm, this
  | interrupt hf => have := Ensures.mapM hm hf h; unfold EnsuresK parsePeripheral; findpass hm, this
  | @register e y x hy hx =>
    have h1 : Ensures (parseRCs y.children) P := ensures_RCs hm (mem_findall.1 hx).1 (ensures_RC_register hm (mem_findall.1 hx).2 h)
    have := Ensures.mapM (f := fun x : XElem => parseRCs x.children) hm hy h1
    unfold EnsuresK parsePeripheral
    findpass hm, this
  | @cluster e y x hy hx =>
    have h1 : Ensures (parseRCs y.children) P := ensures_RCs hm (mem_findall.1 hx).1 (h (mem_findall.1 hx).2)
    have := Ensures.mapM (f := fun x : XElem => parseRCs x.children) hm hy h1
    unfold EnsuresK parsePeripheral
    findpass hm, this
  | register' hx =>
    obtain ⟨tag, text, attrs, ch⟩ := e
    exact hRC _ _ _ _ rfl (ensures_RCs hm (mem_findall.1 hx).1 (ensures_RC_register hm (mem_findall.1 hx).2 h)) rfl
  | cluster' hx =>
    obtain ⟨tag, text, attrs, ch⟩ := e
    exact hRC _ _ _ _ rfl (ensures_RCs hm (mem_findall.1 hx).1 (h (mem_findall.1 hx).2)) rfl
  | @field e y x hy hx =>
    have : Ensures (parseFields e) P := Ensures.mapM hm (List.mem_flatMap.2 ⟨y, hy, hx⟩) h
    unfold EnsuresK parseRegister
    findpass hm, this
  | container hx => have := Ensures.mapM hm hx h; unfold EnsuresK parseField; findpass hm, this
  | enumValue hx =>
    have : Ensures (parseEnumValues e) P := Ensures.mapM hm hx h
    unfold EnsuresK parseEnumContainer
    findpass hm, this
  | enumValue' hx =>
    intro d hd
    have : Ensures (parseEnumValues e) P := Ensures.mapM hm hx h
    unfold parseDimArrayIndex
    rw [hd]
    simp only []
    findpass hm, this
  | constraint hk hf =>
    have := h _ hf
    rcases hk with rfl | rfl
    · unfold EnsuresK parseField; findpass hm, this
    · unfold EnsuresK parseRegister; findpass hm, this
  | range hf => intro d hd; exact h d _ hd hf
  | dimArray hk hf =>
    have := hdim rfl hf
    rcases hk with rfl | rfl | rfl | rfl
    · unfold EnsuresK parsePeripheral; findpass hm, this
    · intro ht
      obtain ⟨tag, text, attrs, ch⟩ := e
      cases ht
      unfold parseRC
      have hn : ¬ (s%"cluster" : Str) = s%"register" := by decide
      simp only [if_neg hn, if_true]
      findpass hm, this
    · unfold EnsuresK parseRegister; findpass hm, this
    · unfold EnsuresK parseField; findpass hm, this

theorem ensures_device (hm : Mono P) {d : XDoc} {k : Kind} {e : XElem} (hr : ReadsElem d k e)
    (h : EnsuresK d.nsmap k e P) : Ensures (parseDevice d) P := by
  induction hr with
  | root => exact h
  | child _ hc ih => exact ih (ensures_child hm hc h)

theorem deviceDescription_dup {e : XElem} : Ensures (parseDeviceDescription e) (DupReported e (s%"description")) := by
  unfold parseDeviceDescription
  exact rawText_dup.left (mono_dup _ _)

set_option maxHeartbeats 4000000 in
theorem texts_dup {ns : List (Str × Str)} {k : Kind} {e : XElem} {t : Str} (ht : t ∈ mandatoryTexts k ++ optionalTexts k) :
    EnsuresK ns k e (DupReported e t) := by
  have hp : t ∈ propTexts → Ensures (parseProps e) (DupReported e t) := parseProps_dup
  have hd : t ∈ dimTexts → Ensures (parseDim e) (DupReported e t) := parseDim_dup
  unfold mandatoryTexts optionalTexts at ht
  unfold EnsuresK
  cases k
  case device =>
    unfold parseDevice
    rcases List.mem_append.1 ht with ht | ht
    · simp only [List.mem_cons, List.not_mem_nil, or_false] at ht
      rcases ht with rfl | rfl | rfl | rfl <;> duppass
    · rcases List.mem_append.1 ht with ht | ht
      · simp only [List.mem_cons, List.not_mem_nil, or_false] at ht
        rcases ht with rfl | rfl | rfl | rfl | rfl | rfl | rfl
        case inr.inr.inr.inl => findpass (mono_dup _ _), deviceDescription_dup
        all_goals duppass
      · have := hp ht
        findpass (mono_dup _ _), this
  case cpu =>
    intro d hd
    unfold parseCpu
    rw [hd]
    simp only [List.mem_cons, List.mem_append, List.not_mem_nil, or_false, false_or] at ht ⊢
    rcases ht with (rfl | rfl | rfl | rfl | rfl) | rfl | rfl | rfl | rfl | rfl | rfl | rfl | rfl | rfl | rfl | rfl <;> duppass
  case sauConfig => simp at ht
  case sauRegion =>
    unfold parseSauRegion
    simp only [List.mem_cons, List.mem_append, List.not_mem_nil, or_false, false_or] at ht ⊢
    rcases ht with rfl | rfl | rfl <;> duppass
  case peripheral =>
    unfold parsePeripheral
    simp only [List.mem_cons, List.mem_append, List.not_mem_nil, or_false, false_or] at ht ⊢
    rcases ht with (rfl | rfl) | ((rfl | rfl | rfl | rfl | rfl | rfl | rfl | rfl) | ht) | ht
    case inr.inl.inr => have := hd ht; findpass (mono_dup _ _), this
    case inr.inr => have := hp ht; findpass (mono_dup _ _), this
    all_goals duppass
  case addressBlock =>
    unfold parseAddressBlock
    simp only [List.mem_cons, List.mem_append, List.not_mem_nil, or_false, false_or] at ht ⊢
    rcases ht with (rfl | rfl) | rfl | rfl <;> duppass
  case interrupt =>
    unfold parseInterrupt
    simp only [List.mem_cons, List.mem_append, List.not_mem_nil, or_false, false_or] at ht ⊢
    rcases ht with rfl | rfl | rfl
    · duppass
    · duppass
    · have := @interruptValue_dup e
      findpass (mono_dup _ _), this
  case cluster =>
    intro htag
    obtain ⟨tag, text, attrs, ch⟩ := e
    cases htag
    unfold parseRC
    have hn : ¬ (s%"cluster" : Str) = s%"register" := by decide
    simp only [if_neg hn, if_true]
    simp only [List.mem_cons, List.mem_append, List.not_mem_nil, or_false, false_or] at ht ⊢
    rcases ht with (rfl | rfl) | ((rfl | rfl | rfl) | ht) | ht
    case refl.inr.inl.inr => have := hd ht; findpass (mono_dup _ _), this
    case refl.inr.inr => have := hp ht; findpass (mono_dup _ _), this
    all_goals duppass
  case register =>
    unfold parseRegister
    simp only [List.mem_cons, List.mem_append, List.not_mem_nil, or_false, false_or] at ht ⊢
    rcases ht with (rfl | rfl) | ((rfl | rfl | rfl | rfl | rfl | rfl | rfl) | ht) | ht
    case inr.inl.inr => have := hd ht; findpass (mono_dup _ _), this
    case inr.inr => have := hp ht; findpass (mono_dup _ _), this
    all_goals duppass
  case field =>
    unfold parseField
    simp only [List.mem_cons, List.mem_append, List.not_mem_nil, or_false, false_or] at ht ⊢
    rcases ht with rfl | (rfl | rfl | rfl | rfl | rfl | rfl | rfl | rfl | rfl) | ht
    case inr.inr => have := hd ht; findpass (mono_dup _ _), this
    all_goals duppass
  case container =>
    unfold parseEnumContainer
    simp only [List.mem_cons, List.mem_append, List.not_mem_nil, or_false, false_or] at ht ⊢
    rcases ht with rfl | rfl | rfl <;> duppass
  case enumValue =>
    unfold parseEnumValue
    simp only [List.mem_cons, List.mem_append, List.not_mem_nil, or_false, false_or] at ht ⊢
    rcases ht with rfl | rfl | rfl | rfl <;> duppass
  case dimArrayIndex =>
    intro d hd
    unfold parseDimArrayIndex
    rw [hd]
    simp only [List.mem_cons, List.mem_append, List.not_mem_nil, or_false, false_or] at ht ⊢
    subst ht
    duppass
  case writeConstraint =>
    intro d hd
    unfold parseWriteConstraint
    rw [hd]
    simp only [List.mem_cons, List.mem_append, List.not_mem_nil, or_false, false_or] at ht ⊢
    rcases ht with rfl | rfl <;> duppass
  case range =>
    intro d d' hd hd'
    unfold parseWriteConstraint
    rw [hd]
    simp only [hd']
    simp only [List.mem_cons, List.mem_append, List.not_mem_nil, or_false, false_or] at ht ⊢
    refine Ensures.right (mono_dup _ _) (fun _ => Ensures.right (mono_dup _ _) (fun _ => Ensures.left (mono_dup _ _) ?_))
    rcases ht with rfl | rfl <;> duppass

/-- Find the place where the mandatory text is read. -/
macro "prespass" : tactic => `(tactic| repeat (first
  | exact reqText_present | exact reqInt_present | exact reqTok_present
  | exact Ensures.left (mono_present _ _) reqText_present
  | exact Ensures.left (mono_present _ _) reqInt_present
  | exact Ensures.left (mono_present _ _) reqTok_present
  | refine Ensures.right (mono_present _ _) (fun _ => ?_)))

set_option maxHeartbeats 4000000 in
theorem texts_present {ns : List (Str × Str)} {k : Kind} {e : XElem} {t : Str} (ht : t ∈ mandatoryTexts k) :
    EnsuresK ns k e (Present e t) := by
  unfold mandatoryTexts at ht
  unfold EnsuresK
  cases k
  case device =>
    unfold parseDevice
    simp only [List.mem_cons, List.not_mem_nil, or_false] at ht
    rcases ht with rfl | rfl | rfl | rfl <;> prespass
  case cpu =>
    intro d hd
    unfold parseCpu
    rw [hd]
    simp only [List.mem_cons, List.mem_append, List.not_mem_nil, or_false, false_or] at ht ⊢
    rcases ht with rfl | rfl | rfl | rfl | rfl <;> prespass
  case sauRegion =>
    unfold parseSauRegion
    simp only [List.mem_cons, List.mem_append, List.not_mem_nil, or_false, false_or] at ht ⊢
    rcases ht with rfl | rfl | rfl <;> prespass
  case peripheral =>
    unfold parsePeripheral
    simp only [List.mem_cons, List.mem_append, List.not_mem_nil, or_false, false_or] at ht ⊢
    rcases ht with rfl | rfl <;> prespass
  case addressBlock =>
    unfold parseAddressBlock
    simp only [List.mem_cons, List.mem_append, List.not_mem_nil, or_false, false_or] at ht ⊢
    rcases ht with rfl | rfl <;> prespass
  case interrupt =>
    unfold parseInterrupt
    simp only [List.mem_cons, List.mem_append, List.not_mem_nil, or_false, false_or] at ht ⊢
    subst ht; prespass
  case cluster =>
    intro htag
    obtain ⟨tag, text, attrs, ch⟩ := e
    cases htag
    unfold parseRC
    have hn : ¬ (s%"cluster" : Str) = s%"register" := by decide
    simp only [if_neg hn, if_true]
    simp only [List.mem_cons, List.mem_append, List.not_mem_nil, or_false, false_or] at ht ⊢
    rcases ht with rfl | rfl <;> prespass
  case register =>
    unfold parseRegister
    simp only [List.mem_cons, List.mem_append, List.not_mem_nil, or_false, false_or] at ht ⊢
    rcases ht with rfl | rfl <;> prespass
  case field =>
    unfold parseField
    simp only [List.mem_cons, List.mem_append, List.not_mem_nil, or_false, false_or] at ht ⊢
    subst ht; prespass
  case enumValue =>
    unfold parseEnumValue
    simp only [List.mem_cons, List.mem_append, List.not_mem_nil, or_false, false_or] at ht ⊢
    subst ht; prespass
  case range =>
    intro d d' hd hd'
    unfold parseWriteConstraint
    rw [hd]
    simp only [hd']
    simp only [List.mem_cons, List.mem_append, List.not_mem_nil, or_false, false_or] at ht ⊢
    refine Ensures.right (mono_present _ _) (fun _ => Ensures.right (mono_present _ _) (fun _ => Ensures.left (mono_present _ _) ?_))
    rcases ht with rfl | rfl <;> prespass
  all_goals simp at ht

end

end Svd
