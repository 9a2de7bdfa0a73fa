import Verif.Lemmas.Schema
/-
Conversely: what a content model says about the tags it allows, and what this says about the description written.
-/
namespace Svd
open Spec CM

/-- The tag occurs in the content model. -/
def CM.mentions (t : Str) : CM → Bool
  | .nothing => false
  | .one u => t == u
  | .seq a b => mentions t a || mentions t b
  | .choice a b => mentions t a || mentions t b
  | .many a => mentions t a

/-- One of the tags is in all that the content model allows. -/
def CM.needs (ts : List Str) : CM → Bool
  | .nothing => false
  | .one u => ts.contains u
  | .seq a b => needs ts a || needs ts b
  | .choice a b => needs ts a && needs ts b
  | .many _ => false

/-- The two tags are never together. -/
def CM.excl (t u : Str) : CM → Bool
  | .nothing => true
  | .one v => !(t == v && u == v)
  | .seq a b => excl t u a && excl t u b && !(mentions t a && mentions u b) && !(mentions u a && mentions t b)
  | .choice a b => excl t u a && excl t u b
  | .many a => !(mentions t a && mentions u a)

/-- The first tag only comes with the second. -/
def CM.implies (t u : Str) : CM → Bool
  | .nothing => true
  | .one v => !(t == v) || u == v
  | .seq a b => (implies t u a || needs [u] b) && (implies t u b || needs [u] a)
  | .choice a b => implies t u a && implies t u b
  | .many a => implies t u a

/-- The tag comes at most so often. -/
def CM.upto (t : Str) : CM → Option Nat
  | .nothing => some 0
  | .one u => some (if t == u then 1 else 0)
  | .seq a b => match upto t a, upto t b with
    | some n, some m => some (n + m)
    | _, _ => none
  | .choice a b => match upto t a, upto t b with
    | some n, some m => some (max n m)
    | _, _ => none
  | .many a => if mentions t a then none else some 0

theorem mentions_of_mem {t : Str} {m : CM} {ts : List Str} (h : m.Allows ts) (ht : t ∈ ts) : CM.mentions t m = true := by
  induction h with
  | nothing => cases ht
  | one => simpa [CM.mentions] using ht
  | seq _ _ ih ih' =>
    rcases List.mem_append.1 ht with h | h
    · simp [CM.mentions, ih h]
    · simp [CM.mentions, ih' h]
  | left _ ih => simp [CM.mentions, ih ht]
  | right _ ih => simp [CM.mentions, ih ht]
  | stop => cases ht
  | more _ _ ih ih' =>
    rcases List.mem_append.1 ht with h | h
    · exact ih h
    · exact ih' h

theorem mem_of_needs {us : List Str} {m : CM} {ts : List Str} (h : m.Allows ts) (hn : CM.needs us m = true) : ∃ u ∈ us, u ∈ ts := by
  induction h with
  | nothing => cases hn
  | one => exact ⟨_, by simpa [CM.needs] using hn, List.mem_singleton.2 rfl⟩
  | seq _ _ ih ih' =>
    rcases Bool.or_eq_true _ _ ▸ hn with h | h
    · obtain ⟨u, h1, h2⟩ := ih h
      exact ⟨u, h1, List.mem_append_left _ h2⟩
    · obtain ⟨u, h1, h2⟩ := ih' h
      exact ⟨u, h1, List.mem_append_right _ h2⟩
  | left _ ih => exact ih (Bool.and_eq_true _ _ ▸ hn : _ ∧ _).1
  | right _ ih => exact ih (Bool.and_eq_true _ _ ▸ hn : _ ∧ _).2
  | stop => cases hn
  | more _ _ _ _ => cases hn

theorem not_both {t u : Str} {m : CM} {ts : List Str} (h : m.Allows ts) (hx : CM.excl t u m = true) : ¬ (t ∈ ts ∧ u ∈ ts) := by
  induction h with
  | nothing => rintro ⟨h, -⟩; cases h
  | one =>
    rintro ⟨h, h'⟩
    rw [List.mem_singleton] at h h'
    subst h; subst h'
    simp [CM.excl] at hx
  | seq ha hb ih ih' =>
    simp only [CM.excl, Bool.and_eq_true, Bool.not_eq_true', Bool.and_eq_false_iff] at hx
    obtain ⟨⟨⟨h1, h2⟩, h3⟩, h4⟩ := hx
    rintro ⟨h, h'⟩
    rcases List.mem_append.1 h with h | h <;> rcases List.mem_append.1 h' with h' | h'
    · exact ih h1 ⟨h, h'⟩
    · rcases h3 with h3 | h3
      · rw [mentions_of_mem ha h] at h3; cases h3
      · rw [mentions_of_mem hb h'] at h3; cases h3
    · rcases h4 with h4 | h4
      · rw [mentions_of_mem ha h'] at h4; cases h4
      · rw [mentions_of_mem hb h] at h4; cases h4
    · exact ih' h2 ⟨h, h'⟩
  | left _ ih => exact ih (Bool.and_eq_true _ _ ▸ hx : _ ∧ _).1
  | right _ ih => exact ih (Bool.and_eq_true _ _ ▸ hx : _ ∧ _).2
  | stop => rintro ⟨h, -⟩; cases h
  | more ha hb _ _ =>
    rintro ⟨h, h'⟩
    have h1 := mentions_of_mem (.more ha hb) h
    have h2 := mentions_of_mem (.more ha hb) h'
    simp only [CM.mentions] at h1 h2
    simp [CM.excl, h1, h2] at hx

theorem mem_of_implies {t u : Str} {m : CM} {ts : List Str} (h : m.Allows ts) (hx : CM.implies t u m = true) (ht : t ∈ ts) : u ∈ ts := by
  have need : ∀ {m : CM} {ts : List Str}, m.Allows ts → CM.needs [u] m = true → u ∈ ts := by
    intro m ts h hn
    obtain ⟨v, h1, h2⟩ := mem_of_needs h hn
    rwa [List.mem_singleton.1 h1] at h2
  induction h with
  | nothing => cases ht
  | one =>
    rw [List.mem_singleton] at ht
    subst ht
    simpa [CM.implies] using hx
  | seq ha hb ih ih' =>
    simp only [CM.implies, Bool.and_eq_true, Bool.or_eq_true] at hx
    rcases List.mem_append.1 ht with h | h
    · rcases hx.1 with h1 | h1
      · exact List.mem_append_left _ (ih h1 h)
      · exact List.mem_append_right _ (need hb h1)
    · rcases hx.2 with h1 | h1
      · exact List.mem_append_right _ (ih' h1 h)
      · exact List.mem_append_left _ (need ha h1)
  | left _ ih => exact ih (Bool.and_eq_true _ _ ▸ hx : _ ∧ _).1 ht
  | right _ ih => exact ih (Bool.and_eq_true _ _ ▸ hx : _ ∧ _).2 ht
  | stop => cases ht
  | more _ _ ih ih' =>
    rcases List.mem_append.1 ht with h | h
    · exact List.mem_append_left _ (ih hx h)
    · exact List.mem_append_right _ (ih' hx h)

theorem count_le {t : Str} {m : CM} {ts : List Str} (h : m.Allows ts) : ∀ {n : Nat}, CM.upto t m = some n → ts.count t ≤ n := by
  induction h with
  | nothing => intro n _; exact Nat.zero_le _
  | @one u =>
    intro n hn
    simp only [CM.upto, Option.some.injEq] at hn
    by_cases hu : t = u
    · subst hu; simp at hn ⊢; omega
    · rw [List.count_eq_zero.2 (by simpa using hu)]; exact Nat.zero_le _
  | seq _ _ ih ih' =>
    intro n hn
    simp only [CM.upto] at hn
    split at hn
    · cases hn
      rw [List.count_append]
      have := ih ‹_›
      have := ih' ‹_›
      omega
    · cases hn
  | left _ ih =>
    intro n hn
    simp only [CM.upto] at hn
    split at hn
    · cases hn
      have := ih ‹_›
      omega
    · cases hn
  | right _ ih =>
    intro n hn
    simp only [CM.upto] at hn
    split at hn
    · cases hn
      have := ih ‹_›
      omega
    · cases hn
  | stop => intro n _; exact Nat.zero_le _
  | more ha hb _ _ =>
    intro n hn
    rw [List.count_eq_zero.2]
    · exact Nat.zero_le _
    · intro ht
      have := mentions_of_mem (.more ha hb) ht
      simp only [CM.mentions] at this
      simp [CM.upto, this] at hn

/-! ### the elements -/

theorem structured_inv {tag : Str} {text : Option Str} {attrs : List (Str × Str)} {ch : List XElem} {m : CM} (hm : models.lookup tag = some m)
    (h : Structured (.mk tag text attrs ch)) : m.Allows (ch.map XElem.tag) ∧ ∀ x ∈ ch, Structured x := by
  obtain ⟨h, h'⟩ := h
  unfold Structure at h
  rw [hm] at h
  exact ⟨h, structuredAll_iff.1 h'⟩

theorem leaf_tag (t s : Str) : (leaf t s).tag = t := rfl

theorem mem_leafTag {x t s : Str} : x ∈ [leaf t s].map XElem.tag ↔ x = t := List.mem_singleton

theorem mem_optLeafTag {α : Type} {x t : Str} {f : α → Str} {o : Option α} : x ∈ (optLeaf t f o).map XElem.tag ↔ o.isSome ∧ x = t := by
  cases o with
  | none => simp [optLeaf]
  | some a => simp [optLeaf, leaf_tag]

theorem mem_optElemTag {α : Type} {x : Str} {f : α → XElem} {o : Option α} : x ∈ (optElem f o).map XElem.tag ↔ ∃ a ∈ o, x = (f a).tag := by
  cases o with
  | none => simp [optElem]
  | some a => simp [optElem]

theorem mem_mapTag {α : Type} {x : Str} {f : α → XElem} {xs : List α} : x ∈ (xs.map f).map XElem.tag ↔ ∃ a ∈ xs, (f a).tag = x := by
  simp

theorem mem_pairTag {x t u : Str} {a b : Option Int} : x ∈ (serPair t u a b).map XElem.tag ↔ (a.isSome ∧ b.isSome) ∧ (x = t ∨ x = u) := by
  unfold serPair
  split
  · simp [leaf_tag]
  · rename_i h
    cases a <;> cases b <;> simp at h ⊢

theorem fits_enumValue {v : SEnumValue} (h : Structured (serEnumValue v)) : EnumValueFits v := by
  obtain ⟨h, -⟩ := structured_inv rfl h
  have h1 := not_both (t := s%"value") (u := s%"isDefault") h rfl
  have h2 := mem_of_needs (us := [s%"value", s%"isDefault"]) h rfl
  simp only [List.map_append, List.mem_append, mem_leafTag, mem_optLeafTag, List.mem_cons, List.not_mem_nil, or_false, exists_eq_or_imp, exists_eq_left] at h1 h2
  refine ⟨?_⟩
  unfold OneOf2
  cases hv : v.value <;> cases hd : v.isDefault <;> simp [hv, hd] at h1 h2 ⊢

theorem fits_constraint {c : WriteConstraint} (h : Structured (serWriteConstraint c)) : ConstraintFits c := by
  obtain ⟨h, -⟩ := structured_inv rfl h
  have h1 := not_both (t := s%"writeAsRead") (u := s%"useEnumeratedValues") h rfl
  have h2 := not_both (t := s%"writeAsRead") (u := s%"range") h rfl
  have h3 := not_both (t := s%"useEnumeratedValues") (u := s%"range") h rfl
  have h4 := mem_of_needs (us := [s%"writeAsRead", s%"useEnumeratedValues", s%"range"]) h rfl
  simp only [List.map_append, List.mem_append, mem_optLeafTag, mem_optElemTag, List.mem_cons, List.not_mem_nil, or_false, exists_eq_or_imp, exists_eq_left] at h1 h2 h3 h4
  unfold ConstraintFits
  cases ha : c.writeAsRead <;> cases hb : c.useEnumeratedValues <;> cases hc : c.range <;> simp [ha, hb, hc, serRange, XElem.tag] at h1 h2 h3 h4 ⊢

theorem tag_enumValue (v : SEnumValue) : (serEnumValue v).tag = s%"enumeratedValue" := rfl
theorem tag_dimArray (v : SDimArrayIndex) : (serDimArrayIndex v).tag = s%"dimArrayIndex" := rfl
theorem tag_block (v : SAddressBlock) : (serAddressBlock v).tag = s%"addressBlock" := rfl
theorem tag_interrupt (v : Interrupt) : (serInterrupt v).tag = s%"interrupt" := rfl
theorem tag_constraint (v : WriteConstraint) : (serWriteConstraint v).tag = s%"writeConstraint" := rfl
theorem tag_container (v : SEnumContainer) : (serEnumContainer v).tag = s%"enumeratedValues" := rfl
theorem tag_field (v : SField) : (serField v).tag = s%"field" := rfl
theorem tag_cpu (v : SCpu) : (serCpu v).tag = s%"cpu" := rfl

theorem fits_container {c : SEnumContainer} (h : Structured (serEnumContainer c)) : ∀ v ∈ c.values, EnumValueFits v := by
  obtain ⟨-, h⟩ := structured_inv rfl h
  intro v hv
  exact fits_enumValue (h _ (List.mem_append_right _ (List.mem_map_of_mem hv)))

theorem fits_array {a : SDimArrayIndex} (h : Structured (serDimArrayIndex a)) : a.values ≠ [] ∧ ∀ v ∈ a.values, EnumValueFits v := by
  obtain ⟨h, h'⟩ := structured_inv rfl h
  refine ⟨?_, fun v hv => fits_enumValue (h' _ (List.mem_append_right _ (List.mem_map_of_mem hv)))⟩
  intro he
  have := mem_of_needs (us := [s%"enumeratedValue"]) h rfl
  simp only [he, List.map_append, List.mem_append, mem_optLeafTag, List.mem_cons, List.not_mem_nil, or_false, exists_eq_left, List.map_nil] at this
  simp at this

theorem fits_dim {d : SDim} {rest : List XElem} {m : CM} (h : m.Allows ((serDim d ++ rest).map XElem.tag))
    (hm : (CM.implies (s%"dim") (s%"dimIncrement") m && CM.implies (s%"dimIncrement") (s%"dim") m && CM.implies (s%"dimIndex") (s%"dim") m &&
      CM.implies (s%"dimName") (s%"dim") m && CM.implies (s%"dimArrayIndex") (s%"dim") m) = true)
    (h1 : s%"dim" ∉ rest.map XElem.tag) (h2 : s%"dimIncrement" ∉ rest.map XElem.tag) (hs : ∀ x ∈ serDim d, Structured x) : DimWhole d := by
  simp only [Bool.and_eq_true] at hm
  obtain ⟨⟨⟨⟨i1, i2⟩, i3⟩, i4⟩, i5⟩ := hm
  have j1 := mem_of_implies h i1
  have j2 := mem_of_implies h i2
  have j3 := mem_of_implies h i3
  have j4 := mem_of_implies h i4
  have j5 := mem_of_implies h i5
  rw [List.map_append] at j1 j2 j3 j4 j5
  simp only [List.mem_append, h1, h2, or_false] at j1 j2 j3 j4 j5
  simp only [serDim, List.map_append, List.mem_append, mem_optLeafTag, mem_optElemTag, tag_dimArray] at j1 j2 j3 j4 j5
  refine ⟨?_, ?_⟩
  · cases ha : d.dim <;> cases hb : d.dimIncrement <;> cases hc : d.dimIndex <;> cases hd : d.dimName <;> cases he : d.dimArrayIndex <;>
      simp [ha, hb, hc, hd, he] at j1 j2 j3 j4 j5 ⊢
  · intro a ha
    refine fits_array (hs _ ?_)
    unfold serDim
    rw [show d.dimArrayIndex = some a from ha]
    exact List.mem_append_right _ (List.mem_singleton.2 rfl)

theorem mem_propsTag {x : Str} {p : Props} (h : x ∈ (serProps p).map XElem.tag) :
    x = s%"size" ∨ x = s%"access" ∨ x = s%"protection" ∨ x = s%"resetValue" ∨ x = s%"resetMask" := by
  simp only [serProps, List.map_append, List.mem_append, mem_optLeafTag] at h
  rcases h with (((⟨-, h⟩ | ⟨-, h⟩) | ⟨-, h⟩) | ⟨-, h⟩) | ⟨-, h⟩ <;> simp [h]

theorem mem_fieldsTag {x : Str} {fs : List SField} : x ∈ (serFields fs).map XElem.tag ↔ fs ≠ [] ∧ x = s%"fields" := by
  cases fs with
  | nil => simp [serFields]
  | cons f fs => simp [serFields, XElem.tag]

theorem mem_dimTag {x : Str} {d : SDim} (h : x ∈ (serDim d).map XElem.tag) :
    x = s%"dim" ∨ x = s%"dimIncrement" ∨ x = s%"dimIndex" ∨ x = s%"dimName" ∨ x = s%"dimArrayIndex" := by
  simp only [serDim, List.map_append, List.mem_append, mem_optLeafTag, mem_optElemTag, tag_dimArray] at h
  rcases h with (((⟨-, h⟩ | ⟨-, h⟩) | ⟨-, h⟩) | ⟨-, h⟩) | ⟨_, -, h⟩ <;> simp [h]

theorem fits_field {f : SField} (h : Structured (serField f)) : FieldFits f := by
  obtain ⟨h, hs⟩ := structured_inv rfl h
  have hc : ∀ c ∈ f.containers, ∀ v ∈ c.values, EnumValueFits v :=
    fun c hc => fits_container (hs _ (List.mem_append_right _ (List.mem_map_of_mem hc)))
  have hw : ∀ c ∈ f.writeConstraint, ConstraintFits c := by
    intro c hc
    refine fits_constraint (hs _ ?_)
    rw [show f.writeConstraint = some c from hc]
    simp [optElem]
  have h2 : f.containers.length ≤ 2 := by
    have hcount := count_le (t := s%"enumeratedValues") (n := 2) h rfl
    rw [List.map_append, List.count_append] at hcount
    have : ((f.containers.map serEnumContainer).map XElem.tag).count (s%"enumeratedValues") = f.containers.length := by
      rw [List.map_map, show (XElem.tag ∘ serEnumContainer) = fun _ => s%"enumeratedValues" from rfl, List.map_const', List.count_replicate_self]
    omega
  have x1 := not_both (t := s%"lsb") (u := s%"bitOffset") h rfl
  have x2 := not_both (t := s%"lsb") (u := s%"bitRange") h rfl
  have x3 := not_both (t := s%"bitOffset") (u := s%"bitRange") h rfl
  have x4 := mem_of_needs (us := [s%"lsb", s%"bitOffset", s%"bitRange"]) h rfl
  simp only [List.append_assoc] at h hs
  refine ⟨?_, ?_, hw, h2, hc⟩
  · refine fits_dim h rfl ?_ ?_ (fun x hx => hs x (List.mem_append_left _ hx)) <;>
    · simp only [List.map_append, List.mem_append, mem_leafTag, mem_optLeafTag, mem_pairTag, mem_optElemTag, mem_mapTag, tag_constraint, tag_container]
      simp
  · have nd : ∀ t, t ∈ (serDim f.dim).map XElem.tag → t ≠ s%"lsb" ∧ t ≠ s%"bitOffset" ∧ t ≠ s%"bitRange" := by
      intro t ht
      rcases mem_dimTag ht with rfl | rfl | rfl | rfl | rfl <;> decide
    have n1 : s%"lsb" ∉ (serDim f.dim).map XElem.tag := fun h => (nd _ h).1 rfl
    have n2 : s%"bitOffset" ∉ (serDim f.dim).map XElem.tag := fun h => (nd _ h).2.1 rfl
    have n3 : s%"bitRange" ∉ (serDim f.dim).map XElem.tag := fun h => (nd _ h).2.2 rfl
    simp only [List.map_append, List.mem_append, n1, n2, n3, mem_leafTag, mem_optLeafTag, mem_pairTag, mem_optElemTag, mem_mapTag, tag_constraint, tag_container,
      List.mem_cons, List.not_mem_nil, or_false, exists_eq_or_imp, exists_eq_left] at x1 x2 x3 x4
    revert x1 x2 x3 x4
    generalize f.lsb = a
    generalize f.msb = b
    generalize f.bitOffset = c
    generalize f.bitWidth = d
    generalize f.bitRange = e
    clear n1 n2 n3 nd
    cases a <;> cases b <;> cases c <;> cases d <;> cases e <;> simp

theorem fits_register {r : SRegister} (h : Structured (serRegister r)) : RegisterFits r := by
  obtain ⟨h, hs⟩ := structured_inv rfl h
  have hw : ∀ c ∈ r.writeConstraint, ConstraintFits c := by
    intro c hc
    refine fits_constraint (hs _ ?_)
    rw [show r.writeConstraint = some c from hc]
    simp [optElem]
  have hf : ∀ f ∈ r.fields, FieldFits f := by
    intro f hf
    have hm : XElem.mk (s%"fields") none [] (r.fields.map serField) ∈ serFields r.fields := by
      cases hr : r.fields with
      | nil => rw [hr] at hf; cases hf
      | cons a as => exact List.mem_singleton.2 rfl
    exact fits_field ((structured_inv rfl (hs _ (List.mem_append_right _ hm))).2 _ (List.mem_map_of_mem hf))
  have x1 := not_both (t := s%"alternateGroup") (u := s%"alternateRegister") h rfl
  simp only [List.append_assoc] at h hs
  refine ⟨?_, ?_, hw, hf⟩
  · have np : ∀ t, t ∈ (serProps r.props).map XElem.tag → t ≠ s%"dim" ∧ t ≠ s%"dimIncrement" := by
      intro t ht
      rcases mem_propsTag ht with rfl | rfl | rfl | rfl | rfl <;> decide
    refine fits_dim h rfl ?_ ?_ (fun x hx => hs x (List.mem_append_left _ hx))
    · have this : s%"dim" ∉ (serProps r.props).map XElem.tag := fun h => (np (s%"dim") h).1 rfl
      simp only [List.map_append, List.mem_append, mem_leafTag, mem_optLeafTag, mem_optElemTag, mem_fieldsTag, tag_constraint, this]
      simp
    · have this : s%"dimIncrement" ∉ (serProps r.props).map XElem.tag := fun h => (np (s%"dimIncrement") h).2 rfl
      simp only [List.map_append, List.mem_append, mem_leafTag, mem_optLeafTag, mem_optElemTag, mem_fieldsTag, tag_constraint, this]
      simp
  · cases ha : r.alternateGroup with
    | none => exact .inl rfl
    | some a =>
      cases hb : r.alternateRegister with
      | none => exact .inr rfl
      | some b =>
        refine absurd ?_ x1
        rw [ha, hb]
        simp [optLeaf, leaf_tag]

theorem mem_rcsTag {x : Str} {xs : List SRC} (h : x ∈ (serRCs xs).map XElem.tag) : x = s%"register" ∨ x = s%"cluster" := by
  match xs with
  | [] => cases h
  | y :: ys =>
    rcases List.mem_cons.1 h with h | h
    · rw [h]; exact serRC_tag y
    · exact mem_rcsTag h

mutual
theorem fits_rc (x : SRC) (h : Structured (serRC x)) : RCFits x := by
  match x with
  | .reg r => exact fits_register h
  | .clu c ch =>
    unfold serRC at h
    obtain ⟨h, hs⟩ := structured_inv rfl h
    have x4 := mem_of_needs (us := [s%"description"]) h rfl
    simp only [List.append_assoc] at h hs x4
    have np : ∀ t, t ∈ (serProps c.props).map XElem.tag → t ≠ s%"dim" ∧ t ≠ s%"dimIncrement" ∧ t ≠ s%"description" := by
      intro t ht
      rcases mem_propsTag ht with rfl | rfl | rfl | rfl | rfl <;> decide
    have nr : ∀ t, t ∈ (serRCs ch).map XElem.tag → t ≠ s%"dim" ∧ t ≠ s%"dimIncrement" ∧ t ≠ s%"description" := by
      intro t ht
      rcases mem_rcsTag ht with rfl | rfl <;> decide
    have nd : s%"description" ∉ (serDim c.dim).map XElem.tag := by
      intro ht
      rcases mem_dimTag ht with h | h | h | h | h <;> exact absurd h (by decide)
    refine ⟨⟨?_, ?_⟩, fits_rcs ch fun x hx => hs x ?_⟩
    · refine fits_dim h rfl ?_ ?_ (fun x hx => hs x (List.mem_append_left _ hx))
      · have h1 : s%"dim" ∉ (serProps c.props).map XElem.tag := fun h => (np (s%"dim") h).1 rfl
        have h2 : s%"dim" ∉ (serRCs ch).map XElem.tag := fun h => (nr (s%"dim") h).1 rfl
        simp only [List.map_append, List.mem_append, mem_leafTag, mem_optLeafTag, h1, h2]
        simp
      · have h1 : s%"dimIncrement" ∉ (serProps c.props).map XElem.tag := fun h => (np (s%"dimIncrement") h).2.1 rfl
        have h2 : s%"dimIncrement" ∉ (serRCs ch).map XElem.tag := fun h => (nr (s%"dimIncrement") h).2.1 rfl
        simp only [List.map_append, List.mem_append, mem_leafTag, mem_optLeafTag, h1, h2]
        simp
    · have h1 : s%"description" ∉ (serProps c.props).map XElem.tag := fun h => (np (s%"description") h).2.2 rfl
      have h2 : s%"description" ∉ (serRCs ch).map XElem.tag := fun h => (nr (s%"description") h).2.2 rfl
      simp only [List.map_append, List.mem_append, mem_leafTag, mem_optLeafTag, h1, h2, nd, List.mem_cons, List.not_mem_nil, or_false, exists_eq_left] at x4
      simpa using x4
    · simp [hx]
theorem fits_rcs (xs : List SRC) (h : ∀ x ∈ serRCs xs, Structured x) : RCsFit xs := by
  match xs with
  | [] => trivial
  | y :: ys => exact ⟨fits_rc y (h _ List.mem_cons_self), fits_rcs ys fun x hx => h x (List.mem_cons_of_mem _ hx)⟩
end

theorem mem_registersTag {x : Str} {xs : List SRC} (h : x ∈ (serRegisters xs).map XElem.tag) : x = s%"registers" := by
  unfold serRegisters at h
  split at h
  · cases h
  · exact List.mem_singleton.1 h

theorem fits_peripheral {p : SPeriphT} (h : Structured (serPeripheral p)) : DimWhole p.hd.dim ∧ RCsFit p.rcs := by
  obtain ⟨h, hs⟩ := structured_inv rfl h
  have hr : RCsFit p.rcs := by
    cases hp : p.rcs with
    | nil => trivial
    | cons y ys =>
      have hm : XElem.mk (s%"registers") none [] (serRCs p.rcs) ∈ serRegisters p.rcs := by
        rw [hp]; exact List.mem_singleton.2 rfl
      rw [← hp]
      exact fits_rcs _ (structured_inv rfl (hs _ (List.mem_append_right _ hm))).2
  simp only [List.append_assoc] at h hs
  have np : ∀ t, t ∈ (serProps p.hd.props).map XElem.tag → t ≠ s%"dim" ∧ t ≠ s%"dimIncrement" := by
    intro t ht
    rcases mem_propsTag ht with rfl | rfl | rfl | rfl | rfl <;> decide
  have nr : ∀ t, t ∈ (serRegisters p.rcs).map XElem.tag → t ≠ s%"dim" ∧ t ≠ s%"dimIncrement" := by
    intro t ht
    rcases mem_registersTag ht with rfl
    decide
  refine ⟨fits_dim h rfl ?_ ?_ (fun x hx => hs x (List.mem_append_left _ hx)), hr⟩
  · have h1 : s%"dim" ∉ (serProps p.hd.props).map XElem.tag := fun h => (np (s%"dim") h).1 rfl
    have h2 : s%"dim" ∉ (serRegisters p.rcs).map XElem.tag := fun h => (nr (s%"dim") h).1 rfl
    simp only [List.map_append, List.mem_append, mem_leafTag, mem_optLeafTag, mem_mapTag, tag_block, tag_interrupt, h1, h2]
    simp
  · have h1 : s%"dimIncrement" ∉ (serProps p.hd.props).map XElem.tag := fun h => (np (s%"dimIncrement") h).2 rfl
    have h2 : s%"dimIncrement" ∉ (serRegisters p.rcs).map XElem.tag := fun h => (nr (s%"dimIncrement") h).2 rfl
    simp only [List.map_append, List.mem_append, mem_leafTag, mem_optLeafTag, mem_mapTag, tag_block, tag_interrupt, h1, h2]
    simp

theorem fits_device {d : SDevice} (h : Structured (serDevice d).root) : Conforms d := by
  unfold serDevice at h
  obtain ⟨h, hs⟩ := structured_inv rfl h
  have hn : d.peripherals ≠ [] := by
    intro he
    have x4 := mem_of_needs (us := [s%"peripherals"]) h rfl
    rw [he] at x4
    have np : s%"peripherals" ∉ (serProps d.hd.props).map XElem.tag := by
      intro ht
      rcases mem_propsTag ht with h | h | h | h | h <;> exact absurd h (by decide)
    simp only [List.map_append, List.mem_append, mem_leafTag, mem_optLeafTag, mem_optElemTag, tag_cpu, np, List.mem_cons, List.not_mem_nil, or_false, exists_eq_left,
      serPeripherals] at x4
    simp [leaf_tag] at x4
  have hp : ∀ p ∈ d.peripherals, Structured (serPeripheral p) := by
    intro p hp
    have hm : XElem.mk (s%"peripherals") none [] (d.peripherals.map serPeripheral) ∈ serPeripherals d.peripherals := by
      cases hd : d.peripherals with
      | nil => exact absurd hd hn
      | cons a as => exact List.mem_singleton.2 rfl
    exact (structured_inv rfl (hs _ (List.mem_append_right _ hm))).2 _ (List.mem_map_of_mem hp)
  exact ⟨hn, fun p h => (fits_peripheral (hp p h)).1, fun p h => (fits_peripheral (hp p h)).2⟩
end Svd
