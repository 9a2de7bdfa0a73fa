import Verif.Spec.Remarks
import Verif.Lemmas.Says
/-
The warnings of the parser.
-/
namespace Svd
open Spec

/-- If the computation succeeds, it warns of `w` exactly if `P`. -/
def Notes {α : Type} (m : M α) (w : Warn) (P : Prop) : Prop := ∀ a ws, m = .ok a ws → (w ∈ ws ↔ P)

section
variable {α β : Type} {w : Warn} {P Q : Prop}

theorem Notes.congr {m : M α} (h : Notes m w P) (hi : P ↔ Q) : Notes m w Q := fun a ws e => (h a ws e).trans hi
theorem notes_pure {a : α} : Notes (M.pure a) w False := fun b ws h => by
  simp only [M.pure_eq_ok] at h; rw [h.2]; simp
theorem notes_throw {e : Exn} : Notes (M.throw e : M α) w P := fun b ws h => by simp [M.throw] at h
theorem notes_warn {w' : Warn} : Notes (M.warn w') w (w = w') := fun b ws h => by
  simp only [M.warn, M.ok.injEq] at h; rw [← h.2]; simp
theorem notes_bind {m : M α} {f : α → M β} (h1 : Notes m w P) (h2 : ∀ a, Gives m a → Notes (f a) w Q) : Notes (M.bind m f) w (P ∨ Q) := by
  intro b ws h
  obtain ⟨a, w1, w2, e1, e2, rfl⟩ := M.bind_eq_ok.1 h
  rw [List.mem_append, h1 _ _ e1, h2 a ⟨_, e1⟩ _ _ e2]
theorem notes_bind' {m : M α} {f : α → M β} (h1 : Notes m w P) (h2 : ∀ a, Gives m a → Notes (f a) w Q) : Notes (m >>= f) w (P ∨ Q) :=
  notes_bind h1 h2
theorem notes_ofOption {o : Option α} {e : Exn} : Notes (M.ofOption o e) w False := by
  cases o
  · exact notes_throw
  · exact notes_pure
theorem notes_warnIf {p : Prop} [Decidable p] {w' : Warn} : Notes (M.warnIf (decide p) w') w (p ∧ w = w') := by
  intro a ws h
  by_cases hp : p
  · simp only [M.warnIf, hp, decide_true, if_true] at h
    simpa [hp] using notes_warn _ _ h
  · simp only [M.warnIf, hp, decide_false, Bool.false_eq_true, if_false] at h
    simpa [hp] using notes_pure _ _ h
theorem notes_mapM {f : α → M β} {P : α → Prop} (l : List α) (h : ∀ x ∈ l, Notes (f x) w (P x)) : Notes (M.mapM f l) w (∃ x ∈ l, P x) := by
  induction l with
  | nil => exact notes_pure.congr (by simp)
  | cons x xs ih =>
    refine (notes_bind (h x (by simp)) fun _ _ => notes_bind (ih fun y hy => h y (by simp [hy])) fun _ _ => notes_pure).congr ?_
    simp
theorem notes_optM {f : Str → M α} (h : ∀ s, Notes (f s) w False) (o : Option Str) : Notes (optM f o) w False := by
  cases o
  · exact notes_pure
  · exact (notes_bind (h _) fun _ _ => notes_pure).congr (by simp)
theorem notes_toInt (s : Str) : Notes (toInt s) w False := by
  intro a ws h
  rcases toInt_cases s with ⟨j, hj⟩ | hj
  · rw [hj] at h; cases h; simp
  · rw [hj] at h; cases h
theorem notes_toBool (s : Str) : Notes (toBool s) w False := by
  unfold toBool
  repeat' split
  all_goals first | exact notes_pure | exact notes_throw
theorem notes_fromVal {all : List α} {val : α → Str} (s : Str) : Notes (fromVal all val s) w False := notes_ofOption
theorem notes_cpuName (s : Str) : Notes (CPUName.fromStr s) w False := by
  unfold CPUName.fromStr
  repeat' split
  all_goals first | exact notes_pure | exact notes_throw
end

section
variable {w : Warn} {t : Str} {e : XElem}

/-- Repeated or padded. -/
def TextNote (e : XElem) (t : Str) (w : Warn) : Prop := Repeated e t w ∨ Padded e t w

theorem notes_lastText {b o : Bool} {x : XElem} :
    Notes (lastText t b o x) w (b = true ∧ ∃ s, x.text = some s ∧ s ≠ trim s ∧ w = .stripped t) := by
  unfold lastText
  cases hx : x.text with
  | none => cases o <;> first | exact notes_throw | exact notes_pure.congr (by simp)
  | some s =>
    cases b
    · exact notes_pure.congr (by simp)
    · refine (notes_bind notes_warnIf fun _ _ => notes_pure).congr ?_
      simp [trim_eq]

theorem notes_elementText {b o : Bool} : Notes (elementText t e b o) w (Repeated e t w ∨ (b = true ∧ Padded e t w)) := by
  unfold elementText
  have hk := kids_eq e t
  split
  · rename_i h
    rw [h] at hk
    have : ¬ Repeated e t w := by simp [Repeated, hk]
    have h2 : ¬ Padded e t w := by
      rintro ⟨s, hs, _⟩
      cases hs with
      | last h1 => rw [hk] at h1; simp at h1
    split
    · exact notes_pure.congr (by simp [this, h2])
    · exact notes_throw
  · rename_i x h
    rw [h] at hk
    refine notes_lastText.congr ?_
    have h1 : ∀ s, Text e t (some s) ↔ x.text = some s := by
      intro s
      constructor
      · intro hs
        cases hs with
        | @last l y _ h1 h2 h3 =>
          rw [hk] at h1
          cases l with
          | nil => simp at h1; rw [h1]; exact h3
          | cons z l => simp at h1
      · intro hs; exact .last (l := []) hk (by simp) hs
    simp [Repeated, hk, Padded, h1]
  · rename_i x xs hxs h
    rw [h] at hk
    have hne : xs ≠ [] := fun h' => hxs h'
    have hlast : xs.getLastD x = xs.getLast hne := by
      cases xs with
      | nil => exact absurd rfl hne
      | cons y ys => simp [List.getLastD]
    have hsplit : kids e t = (x :: xs.dropLast) ++ [xs.getLast hne] := by
      rw [hk, List.cons_append, List.dropLast_concat_getLast hne]
    have hlen : 2 ≤ (kids e t).length := by
      rw [hk]; cases xs with
      | nil => exact absurd rfl hne
      | cons y ys => simp
    split
    · exact notes_throw
    · rename_i hany
      have hany' : ∀ y ∈ kids e t, y.text ≠ none := by
        intro y hy hn
        apply hany
        rw [List.any_eq_true]
        exact ⟨y, by rw [← hk]; exact hy, by simp [hn]⟩
      refine (notes_bind notes_warn fun _ _ => notes_lastText).congr ?_
      rw [hlast]
      have h1 : ∀ s, Text e t (some s) ↔ (xs.getLast hne).text = some s := by
        intro s
        constructor
        · intro hs
          cases hs with
          | @last l y _ h1 h2 h3 =>
            rw [hsplit] at h1
            have := List.append_inj_right' h1 rfl
            simp at this
            rw [this]; exact h3
        · intro hs
          exact .last hsplit (fun y hy => hany' y (by rw [hsplit]; exact List.mem_append_left _ hy)) hs
      simp [Repeated, hlen, Padded, h1]

theorem notes_rawText : Notes (rawText t e) w (Repeated e t w) := notes_elementText.congr (by simp)
theorem notes_optText : Notes (optText t e) w (TextNote e t w) := notes_elementText.congr (by simp [TextNote])
theorem notes_reqText : Notes (reqText t e) w (TextNote e t w) :=
  (notes_bind notes_elementText fun _ _ => notes_ofOption).congr (by simp [TextNote])
theorem notes_optAttr : Notes (optAttr t e) w (PaddedAttr e t w) := by
  unfold optAttr PaddedAttr XElem.get
  cases h : e.attrs.lookup t with
  | none => exact notes_pure.congr (by simp)
  | some s =>
    refine (notes_bind notes_warnIf fun _ _ => notes_pure).congr ?_
    simp [trim_eq]
theorem notes_reqAttr : Notes (reqAttr t e) w (PaddedAttr e t w) :=
  (notes_bind notes_optAttr fun _ _ => notes_ofOption).congr (by simp)
theorem notes_reqInt : Notes (reqInt t e) w (TextNote e t w) :=
  (notes_bind notes_reqText fun _ _ => notes_toInt _).congr (by simp)
theorem notes_optInt : Notes (optInt t e) w (TextNote e t w) :=
  (notes_bind notes_optText fun _ _ => notes_optM notes_toInt _).congr (by simp)
theorem notes_optBool : Notes (optBool t e) w (TextNote e t w) :=
  (notes_bind notes_optText fun _ _ => notes_optM notes_toBool _).congr (by simp)
theorem notes_optAttrBool : Notes (optAttrBool t e) w (PaddedAttr e t w) :=
  (notes_bind notes_optAttr fun _ _ => notes_optM notes_toBool _).congr (by simp)

theorem notes_access (s : Str) : Notes (Access.fromStr s) w ((∀ a, (lowerText s, a) ∉ accessWords) ∧ w = .unknownAccess s) := by
  intro o ws h
  have hg := (gives_access s o).1 ⟨ws, h⟩
  unfold Access.fromStr at h
  rw [lowerText_eq]
  simp only [mem_accessWords]
  generalize lower s = v at *
  cases hf : Access.all.find? (fun a => decide (lower a.val = v)) with
  | some a =>
    have ha : lower a.val = v := by simpa using List.find?_some hf
    rw [hf] at h
    simp only [M.pure_eq_ok] at h
    rw [h.2]
    simp only [List.not_mem_nil, false_iff, not_and]
    intro hn
    exact absurd (Or.inl ha) (hn a)
  | none =>
    have hno : ∀ a : Access, lower a.val ≠ v := fun a ha => by
      have := List.find?_eq_none.1 hf a (by cases a <;> decide)
      simp [ha] at this
    rw [hf] at h
    simp only at h
    split at h
    · rename_i h1
      rw [M.pure_eq_ok] at h
      rw [h.2]
      simp only [List.not_mem_nil, false_iff, not_and]
      intro hn
      exact absurd (Or.inr (Or.inl ⟨h1, rfl⟩)) (hn .writeOnly)
    · rename_i h1
      split at h
      · rename_i h2
        rw [M.pure_eq_ok] at h
        rw [h.2]
        simp only [List.not_mem_nil, false_iff, not_and]
        intro hn
        exact absurd (Or.inr (Or.inr ⟨h2, rfl⟩)) (hn .readOnly)
      · rename_i h2
        rw [(notes_bind notes_warn fun _ _ => notes_pure) _ _ h]
        simp only [or_false]
        constructor
        · intro h; exact ⟨fun a ha => by
            rcases ha with ha | ha | ha
            · exact hno a ha
            · exact h1 ha.1
            · exact h2 ha.1, h⟩
        · exact And.right

theorem notes_optAccess {o : Option Str} (h : Gives (optText (s%"access") e) o) : Notes (optAccess o) w (OddAccess e w) := by
  rw [gives_optText] at h
  have huniq : ∀ s s', Text e (s%"access") s → Text e (s%"access") s' → s = s' := fun s s' h h' => by
    obtain ⟨w1, h1⟩ := gives_rawText.2 h
    obtain ⟨w2, h2⟩ := gives_rawText.2 h'
    rw [h1] at h2; cases h2; rfl
  unfold optAccess OddAccess
  cases h with
  | absent h =>
    refine notes_pure.congr ?_
    simp only [false_iff, not_exists, not_and]
    intro s hs
    cases huniq _ _ h hs
  | @given s _ h h' =>
    subst h'
    refine (notes_access _).congr ?_
    constructor
    · intro hw; exact ⟨s, h, hw⟩
    · rintro ⟨s', hs', hw⟩
      cases huniq _ _ h hs'
      exact hw
end

theorem remark_iff {k : ElemKind} {e : XElem} {w : Warn} : Remark k e w ↔
    Own k e w ∨ ∃ y ∈ parts k e, Remark y.1 y.2 w := by
  constructor
  · intro h
    cases h with
    | own h => exact Or.inl h
    | part h h' => exact Or.inr ⟨_, h, h'⟩
  · rintro (h | ⟨_, h, h'⟩)
    · exact .own h
    · exact .part h h'

theorem own_iff {k : ElemKind} {e : XElem} {w : Warn} : Own k e w ↔
    (∃ t ∈ texts k, TextNote e t w) ∨ (∃ t ∈ proses k, Repeated e t w) ∨ (∃ t ∈ attributes k, PaddedAttr e t w) ∨
    (accessible k = true ∧ OddAccess e w) ∨
    (k = .interrupt ∧ ∃ n, Value Eq e (s%"name") (some n) ∧ Text e (s%"value") none ∧ w = .interruptNoValue n) ∨
    (k = .device ∧ Text e (s%"description") none ∧ w = .noDescription) := by
  constructor
  · intro h
    cases h with
    | @repeated _ _ t _ h1 h2 =>
      rcases h1 with h1 | h1
      · exact Or.inl ⟨t, h1, Or.inl h2⟩
      · exact Or.inr (Or.inl ⟨t, h1, h2⟩)
    | @padded _ _ t _ h1 h2 => exact Or.inl ⟨t, h1, Or.inr h2⟩
    | @paddedAttr _ _ t _ h1 h2 => exact Or.inr (Or.inr (Or.inl ⟨t, h1, h2⟩))
    | access h1 h2 => exact Or.inr (Or.inr (Or.inr (Or.inl ⟨h1, h2⟩)))
    | interrupt h1 h2 => exact Or.inr (Or.inr (Or.inr (Or.inr (Or.inl ⟨rfl, _, h1, h2, rfl⟩))))
    | description h1 => exact Or.inr (Or.inr (Or.inr (Or.inr (Or.inr ⟨rfl, h1, rfl⟩))))
  · rintro (⟨t, h1, h2 | h2⟩ | ⟨t, h1, h2⟩ | ⟨t, h1, h2⟩ | ⟨h1, h2⟩ | ⟨rfl, n, h1, h2, rfl⟩ | ⟨rfl, h1, rfl⟩)
    · exact .repeated (Or.inl h1) h2
    · exact .padded h1 h2
    · exact .repeated (Or.inr h1) h2
    · exact .paddedAttr h1 h2
    · exact .access h1 h2
    · exact .interrupt h1 h2
    · exact .description h1

/-- Steps through a `do` block of the parser. -/
macro "notes" : tactic => `(tactic| repeat' first
  | exact notes_pure | exact notes_reqText | exact notes_optText | exact notes_rawText | exact notes_optAttr
  | exact notes_reqAttr | exact notes_reqInt | exact notes_optInt | exact notes_optBool | exact notes_optAttrBool
  | exact notes_optAccess (by assumption) | exact notes_optM notes_fromVal _ | exact notes_fromVal _ | exact notes_cpuName _ | exact notes_toBool _
  | (with_reducible apply notes_bind) | (with_reducible apply notes_bind') | (with_reducible intro _ _))

theorem ex_append {α : Type} {a b : List α} {p : α → Prop} : (∃ y ∈ a ++ b, p y) ↔ (∃ y ∈ a, p y) ∨ ∃ y ∈ b, p y := by
  simp only [List.mem_append, or_and_right, exists_or]
theorem ex_map {α β : Type} {l : List α} {f : α → β} {p : β → Prop} : (∃ y ∈ l.map f, p y) ↔ ∃ x ∈ l, p (f x) := by
  simp only [List.mem_map]
  constructor
  · rintro ⟨_, ⟨x, h1, rfl⟩, h2⟩; exact ⟨x, h1, h2⟩
  · rintro ⟨x, h1, h2⟩; exact ⟨_, ⟨x, h1, rfl⟩, h2⟩
theorem ex_flatMap {α β : Type} {l : List α} {f : α → List β} {p : β → Prop} : (∃ y ∈ l.flatMap f, p y) ↔ ∃ x ∈ l, ∃ y ∈ f x, p y := by
  simp only [List.mem_flatMap]
  constructor
  · rintro ⟨y, ⟨x, h1, h2⟩, h3⟩; exact ⟨x, h1, y, h2, h3⟩
  · rintro ⟨x, h1, y, h2, h3⟩; exact ⟨y, ⟨x, h1, h2⟩, h3⟩
theorem ex_cons {α : Type} {a : α} {l : List α} {p : α → Prop} : (∃ y ∈ a :: l, p y) ↔ p a ∨ ∃ y ∈ l, p y := by
  simp only [List.mem_cons, or_and_right, exists_or, exists_eq_left]
theorem ex_nil {α : Type} {p : α → Prop} : (∃ y ∈ ([] : List α), p y) ↔ False := by simp

/-- The remarks on an element, spelled out. -/
macro "remarks" : tactic => `(tactic| (
  try rw [remark_iff, own_iff]
  simp only [texts, proses, attributes, accessible, parts, dimEntries, propEntries, every, onlyFirst, inner, ex_append, ex_map, ex_flatMap, ex_cons,
    ex_nil, or_false, false_or, reduceCtorEq, false_and, true_and, Bool.false_eq_true, or_assoc]
  try grind only))

/-- To find what a `do` block warns of, and then compare. -/
macro "notes_then" : tactic => `(tactic| (apply Notes.congr; · notes))

theorem take_find {e : XElem} {t : Str} : (kids e t).take 1 = (e.find t).toList := by
  rw [kids_eq]
  unfold XElem.find
  cases e.findall t <;> simp

theorem notes_enumValue (e : XElem) (w : Warn) : Notes (parseEnumValue e) w (Remark .enumValue e w) := by
  unfold parseEnumValue
  notes_then
  remarks

theorem notes_enumValues (e : XElem) (w : Warn) :
    Notes (parseEnumValues e) w (∃ x ∈ kids e (s%"enumeratedValue"), Remark .enumValue x w) :=
  notes_mapM _ fun x _ => notes_enumValue x w

theorem notes_first {α : Type} {e : XElem} {t : Str} {w : Warn} {f : XElem → M (Option α)} {P : XElem → Prop} (h : ∀ x, Notes (f x) w (P x)) :
    Notes (match e.find t with | none => M.pure none | some x => f x) w (∃ x ∈ (kids e t).take 1, P x) := by
  rw [take_find]
  cases e.find t with
  | none => exact notes_pure.congr (by simp)
  | some x => exact (h x).congr (by simp)

theorem notes_dimArray (e : XElem) (w : Warn) :
    Notes (parseDimArrayIndex e) w (∃ x ∈ (kids e (s%"dimArrayIndex")).take 1, Remark .dimArray x w) := by
  unfold parseDimArrayIndex
  refine notes_first fun x => ?_
  apply Notes.congr
  · notes
    exact notes_enumValues _ _
  · remarks

theorem notes_dim (e : XElem) (w : Warn) : Notes (parseDim e) w ((∃ t ∈ dimEntries, TextNote e t w) ∨
    ∃ x ∈ (kids e (s%"dimArrayIndex")).take 1, Remark .dimArray x w) := by
  unfold parseDim
  apply Notes.congr
  · notes
    exact notes_dimArray _ _
  · remarks

theorem notes_props (e : XElem) (w : Warn) : Notes (parseProps e) w ((∃ t ∈ propEntries, TextNote e t w) ∨ OddAccess e w) := by
  unfold parseProps
  notes_then
  remarks

theorem notes_constraint (e : XElem) (w : Warn) :
    Notes (parseWriteConstraint e) w (∃ x ∈ (kids e (s%"writeConstraint")).take 1, Remark .constraint x w) := by
  unfold parseWriteConstraint
  refine notes_first fun x => ?_
  apply Notes.congr
  · notes
    refine notes_first (P := fun x => Remark .range x w) fun r => ?_
    notes_then
    remarks
  · remarks

theorem notes_container (e : XElem) (w : Warn) : Notes (parseEnumContainer e) w (Remark .container e w) := by
  unfold parseEnumContainer
  apply Notes.congr
  · notes
    exact notes_enumValues _ _
  · remarks

theorem notes_field (e : XElem) (w : Warn) : Notes (parseField e) w (Remark .field e w) := by
  unfold parseField
  apply Notes.congr
  · notes
    · exact notes_constraint _ _
    · exact notes_mapM _ fun x _ => notes_container x w
    · exact notes_dim _ _
  · rw [← kids_eq]
    remarks

theorem notes_fields (e : XElem) (w : Warn) :
    Notes (parseFields e) w (∃ x ∈ kids e (s%"fields"), ∃ y ∈ kids x (s%"field"), Remark .field y w) :=
  (notes_mapM _ fun x _ => notes_field x w).congr ex_flatMap

theorem notes_register (e : XElem) (w : Warn) : Notes (parseRegister e) w (Remark .register e w) := by
  unfold parseRegister
  apply Notes.congr
  · notes
    · exact notes_constraint _ _
    · exact notes_fields _ _
    · exact notes_dim _ _
    · exact notes_props _ _
  · remarks

/-- The remarks on a `register` or a `cluster`. -/
def RCNote (x : XElem) (w : Warn) : Prop := (x.tag = s%"register" ∧ Remark .register x w) ∨ (x.tag = s%"cluster" ∧ Remark .cluster x w)

theorem rcNotes {e : XElem} {w : Warn} : (∃ x ∈ e.children, RCNote x w) ↔ ∃ y ∈ inner e, Remark y.1 y.2 w := by
  unfold inner every
  simp only [ex_append, ex_map, kids, List.mem_filter, decide_eq_true_eq, RCNote]
  constructor
  · rintro ⟨x, h, ⟨h1, h2⟩ | ⟨h1, h2⟩⟩
    · exact Or.inl ⟨x, ⟨h, h1⟩, h2⟩
    · exact Or.inr ⟨x, ⟨h, h1⟩, h2⟩
  · rintro (⟨x, ⟨h, h1⟩, h2⟩ | ⟨x, ⟨h, h1⟩, h2⟩)
    · exact ⟨x, h, Or.inl ⟨h1, h2⟩⟩
    · exact ⟨x, h, Or.inr ⟨h1, h2⟩⟩

mutual
theorem notes_RC (w : Warn) : ∀ e : XElem, Notes (parseRC e) w (RCNote e w)
  | .mk tag text attrs children => by
    have hne : s%"cluster" ≠ s%"register" := by decide
    unfold parseRC RCNote
    by_cases h1 : tag = s%"register"
    · subst h1
      simp only [if_true]
      refine (notes_bind (notes_register _ w) fun _ _ => notes_pure).congr ?_
      simp only [XElem.tag, true_and, hne.symm, false_and, or_false]
    · by_cases h2 : tag = s%"cluster"
      · subst h2
        simp only [hne, if_true, if_false]
        have hrc : Notes (parseRCs children) w (∃ x ∈ (XElem.mk (s%"cluster") text attrs children).children, RCNote x w) := notes_RCs w children
        rw [rcNotes] at hrc
        apply Notes.congr
        · notes
          · exact hrc
          · exact notes_dim _ _
          · exact notes_props _ _
        · simp only [XElem.tag, hne, false_and, true_and, false_or]
          generalize XElem.mk (s%"cluster") text attrs children = e
          remarks
      · simp only [h1, h2, if_false, XElem.tag, false_and, or_false]
        exact notes_pure
theorem notes_RCs (w : Warn) : ∀ l : List XElem, Notes (parseRCs l) w (∃ x ∈ l, RCNote x w)
  | [] => by
    unfold parseRCs
    exact notes_pure.congr (by simp)
  | e :: l => by
    unfold parseRCs
    refine (notes_bind (notes_RC w e) fun _ _ => notes_bind (notes_RCs w l) fun _ _ => notes_pure).congr ?_
    rw [ex_cons, or_false]
end

theorem notes_block (e : XElem) (w : Warn) : Notes (parseAddressBlock e) w (Remark .block e w) := by
  unfold parseAddressBlock
  notes_then
  remarks

theorem notes_interruptValue {n : Str} {e : XElem} {w : Warn} (hn : Gives (reqText (s%"name") e) n) :
    Notes (interruptValue n e) w (TextNote e (s%"value") w ∨
      ∃ n, Value Eq e (s%"name") (some n) ∧ Text e (s%"value") none ∧ w = .interruptNoValue n) := by
  rw [gives_reqText] at hn
  have huniq : ∀ m, Value Eq e (s%"name") (some m) → m = n := fun m hm => by
    obtain ⟨w1, h1⟩ := gives_reqText.2 hm
    obtain ⟨w2, h2⟩ := gives_reqText.2 hn
    rw [h1] at h2; cases h2; rfl
  unfold interruptValue
  split
  · rename_i h
    have hv := reqInt_missing h
    have hno : ¬ TextNote e (s%"value") w := by
      cases hv with
      | absent hv =>
        rintro (⟨h1, _⟩ | ⟨s, h1, _⟩)
        · cases hv with
          | absent h' => rw [h'] at h1; simp at h1
          | empty h' _ => rw [h'] at h1; simp at h1
        · obtain ⟨_, h1⟩ := gives_rawText.2 h1
          obtain ⟨_, h2⟩ := gives_rawText.2 hv
          rw [h1] at h2; cases h2
    have ht : Text e (s%"value") none := by cases hv with | absent h => exact h
    refine (notes_bind notes_warn fun _ _ => notes_pure).congr ?_
    constructor
    · rintro (h | h)
      · exact Or.inr ⟨n, hn, ht, h⟩
      · exact h.elim
    · rintro (h | ⟨m, h1, _, h2⟩)
      · exact absurd h hno
      · rw [huniq m h1] at h2; exact Or.inl h2
  · rename_i h
    refine notes_reqInt.congr ?_
    constructor
    · exact Or.inl
    · rintro (h' | ⟨m, _, h1, _⟩)
      · exact h'
      · exact absurd (by unfold reqInt; rw [reqText_absent h1]; rfl) h

theorem notes_interrupt (e : XElem) (w : Warn) : Notes (parseInterrupt e) w (Remark .interrupt e w) := by
  unfold parseInterrupt
  apply Notes.congr
  · notes
    exact notes_interruptValue (by assumption)
  · remarks

theorem notes_peripheral (e : XElem) (w : Warn) : Notes (parsePeripheral e) w (Remark .peripheral e w) := by
  unfold parsePeripheral
  apply Notes.congr
  · notes
    · exact notes_mapM _ fun x _ => notes_block x w
    · exact notes_mapM _ fun x _ => notes_interrupt x w
    · exact notes_mapM _ fun x _ => notes_RCs w x.children
    · exact notes_dim _ _
    · exact notes_props _ _
  · simp only [rcNotes, ← kids_eq]
    remarks

theorem notes_region (e : XElem) (w : Warn) : Notes (parseSauRegion e) w (Remark .region e w) := by
  unfold parseSauRegion
  notes_then
  remarks

theorem notes_sau (e : XElem) (w : Warn) :
    Notes (parseSauConfig e) w (∃ x ∈ (kids e (s%"sauRegionsConfig")).take 1, Remark .sauConfig x w) := by
  unfold parseSauConfig
  refine notes_first fun x => ?_
  apply Notes.congr
  · notes
    exact notes_mapM _ fun x _ => notes_region x w
  · rw [← kids_eq]
    remarks

theorem notes_cpu (e : XElem) (w : Warn) : Notes (parseCpu e) w (∃ x ∈ (kids e (s%"cpu")).take 1, Remark .cpu x w) := by
  unfold parseCpu
  refine notes_first fun x => ?_
  apply Notes.congr
  · notes
    exact notes_sau _ _
  · remarks

theorem notes_peripherals (e : XElem) (w : Warn) : Notes (parsePeripherals e) w
    (∃ x ∈ (kids e (s%"peripherals")).take 1, ∃ y ∈ kids x (s%"peripheral"), Remark .peripheral y w) := by
  rw [take_find]
  unfold parsePeripherals
  cases e.find (s%"peripherals") with
  | none => exact notes_throw
  | some x => exact (notes_mapM _ fun x _ => notes_peripheral x w).congr (by simp [kids_eq])

theorem notes_schema (d : XDoc) (w : Warn) : Notes (parseSchemaLocation d) w (SchemaRemark d w) := by
  unfold parseSchemaLocation SchemaRemark
  have key : d.nsmap.lookup (if (d.nsmap.lookup (s%"xs")).isSome then s%"xs" else s%"xsi") =
      (d.nsmap.lookup (s%"xs")).or (d.nsmap.lookup (s%"xsi")) := by
    cases h : d.nsmap.lookup (s%"xs") <;> simp [h]
  simp only [key]
  cases (d.nsmap.lookup (s%"xs")).or (d.nsmap.lookup (s%"xsi")) with
  | none => exact (notes_bind notes_warn fun _ _ => notes_pure).congr (by simp)
  | some uri =>
    have ek : (('{' :: uri) ++ ('}' :: s%"noNamespaceSchemaLocation") : Str) = s%"{" ++ uri ++ s%"}noNamespaceSchemaLocation" := by simp
    simp only [ek]
    generalize s%"{" ++ uri ++ s%"}noNamespaceSchemaLocation" = k
    cases h : d.root.attrs.lookup k with
    | none =>
      have : reqAttr k d.root = .err .parser := by
        unfold reqAttr optAttr XElem.get; rw [h]; rfl
      rw [this]
      refine (notes_bind notes_warn fun _ _ => notes_pure).congr ?_
      simp [PaddedAttr, h]
    | some t =>
      have hr : ∃ ws, reqAttr k d.root = .ok (trim t) ws := gives_reqAttr.2 (.given h rfl)
      obtain ⟨ws, hr⟩ := hr
      have hn := notes_reqAttr (w := w) _ _ hr
      rw [hr]
      intro a ws' he
      simp only [M.ok.injEq] at he
      rw [← he.2, hn]
      simp

theorem notes_description (e : XElem) (w : Warn) : Notes (parseDeviceDescription e) w
    (Repeated e (s%"description") w ∨ (Text e (s%"description") none ∧ w = .noDescription)) := by
  unfold parseDeviceDescription
  refine notes_bind notes_rawText fun o ho => ?_
  rw [gives_rawText] at ho
  cases o with
  | some t =>
    refine notes_pure.congr ?_
    simp only [false_iff, not_and]
    intro h
    obtain ⟨_, h1⟩ := gives_rawText.2 h
    obtain ⟨_, h2⟩ := gives_rawText.2 ho
    rw [h1] at h2; cases h2
  | none => exact (notes_bind notes_warn fun _ _ => notes_pure).congr (by simp [ho])

theorem notes_device (d : XDoc) (w : Warn) : Notes (parseDevice d) w (SchemaRemark d w ∨ Remark .device d.root w) := by
  unfold parseDevice
  apply Notes.congr
  · notes
    · exact notes_schema _ _
    · exact notes_description _ _
    · exact notes_cpu _ _
    · exact notes_props _ _
    · exact notes_peripherals _ _
  · rw [remark_iff, own_iff]
    remarks
end Svd
