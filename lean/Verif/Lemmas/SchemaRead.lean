import Verif.Lemmas.SchemaConv
import Verif.Spec.SchemaRead
import Verif.Spec.Says
/-
What is read from a document with the structure of the schema can be written in this structure.
-/
namespace Svd
open Spec CM

theorem structured_open {e : XElem} {t : Str} {m : CM} (ht : e.tag = t) (hm : models.lookup t = some m) (h : Structured e) :
    m.Allows (e.children.map XElem.tag) ∧ ∀ x ∈ e.children, Structured x := by
  cases e with
  | mk tag text attrs ch =>
    subst ht
    exact structured_inv hm h

/-- The two conditions together. -/
structure Fine (e : XElem) : Prop where
  structured : Structured e
  texts : Texts e

theorem Fine.child {e x : XElem} {t : Str} {m : CM} (h : Fine e) (ht : e.tag = t) (hm : models.lookup t = some m) (hx : x ∈ e.children) : Fine x :=
  ⟨(structured_open ht hm h.structured).2 x hx, fun y hy => h.texts y (.child hx hy)⟩

theorem mem_kids {e x : XElem} {t : Str} : x ∈ kids e t ↔ x ∈ e.children ∧ x.tag = t := by simp [kids]

theorem kids_nil {e : XElem} {t : Str} (h : kids e t = []) : t ∉ e.children.map XElem.tag := by
  intro ht
  obtain ⟨x, hx, rfl⟩ := List.mem_map.1 ht
  have := mem_kids.2 ⟨hx, rfl⟩
  rw [h] at this
  cases this

theorem kids_mem {e x : XElem} {t : Str} (h : x ∈ kids e t) : t ∈ e.children.map XElem.tag :=
  List.mem_map.2 ⟨x, (mem_kids.1 h).1, (mem_kids.1 h).2⟩

theorem text_isSome {e : XElem} {t : Str} {o : Option Str} (he : Fine e) (ht : (models.lookup t).isNone = true) (h : Text e t o) :
    o.isSome = true ↔ t ∈ e.children.map XElem.tag := by
  cases h with
  | absent h => simpa using kids_nil h
  | @empty x h hx =>
    have hk : x ∈ kids e t := by rw [h]; exact List.mem_singleton.2 rfl
    exact absurd hx (he.texts x (.child (mem_kids.1 hk).1 .self) (by rw [(mem_kids.1 hk).2]; exact Option.isNone_iff_eq_none.1 ht))
  | @last l x s h _ _ => exact ⟨fun _ => kids_mem (x := x) (by rw [h]; simp), fun _ => rfl⟩

theorem value_isSome {α : Type} {R : Str → α → Prop} {e : XElem} {t : Str} {o : Option α} (he : Fine e) (ht : (models.lookup t).isNone = true)
    (h : Value R e t o) : o.isSome = true ↔ t ∈ e.children.map XElem.tag := by
  cases h with
  | absent h => exact text_isSome he ht h
  | given h _ => exact text_isSome he ht h

theorem first_isSome {α : Type} {R : XElem → α → Prop} {e : XElem} {t : Str} {o : Option α} (h : First R e t o) :
    o.isSome = true ↔ t ∈ e.children.map XElem.tag := by
  cases h with
  | absent h => simpa using kids_nil h
  | @first x l a h _ => exact ⟨fun _ => kids_mem (x := x) (by rw [h]; simp), fun _ => rfl⟩

theorem first_some {α : Type} {R : XElem → α → Prop} {e : XElem} {t : Str} {a : α} (h : First R e t (some a)) : ∃ x ∈ kids e t, R x a := by
  cases h with
  | @first x l _ h hr => exact ⟨x, by rw [h]; simp, hr⟩

theorem entrywise_says {α β : Type} {R : α → β → Prop} {xs : List α} {ys : List β} (h : Entrywise R xs ys) {y : β} (hy : y ∈ ys) : ∃ x ∈ xs, R x y := by
  induction h with
  | nil => cases hy
  | cons hr _ ih =>
    rcases List.mem_cons.1 hy with rfl | hy
    · exact ⟨_, List.mem_cons_self, hr⟩
    · obtain ⟨x, hx, hr⟩ := ih hy
      exact ⟨x, List.mem_cons_of_mem _ hx, hr⟩

theorem entrywise_len {α β : Type} {R : α → β → Prop} {xs : List α} {ys : List β} (h : Entrywise R xs ys) : xs.length = ys.length := by
  induction h with
  | nil => rfl
  | cons _ _ ih => simp [ih]

theorem read_enumValue {e : XElem} {v : SEnumValue} (he : Fine e) (ht : e.tag = s%"enumeratedValue") (h : SaysEnumValue e v) : EnumValueFits v := by
  have ha := (structured_open ht rfl he.structured).1
  have h1 := not_both (t := s%"value") (u := s%"isDefault") ha rfl
  have h2 := mem_of_needs (us := [s%"value", s%"isDefault"]) ha rfl
  simp only [List.mem_cons, List.not_mem_nil, or_false, exists_eq_or_imp, exists_eq_left] at h2
  rw [← value_isSome he rfl h.value, ← value_isSome he rfl h.isDefault] at h1 h2
  refine ⟨?_⟩
  unfold OneOf2
  cases hv : v.value <;> cases hd : v.isDefault <;> simp [hv, hd] at h1 h2 ⊢

theorem read_constraint {e : XElem} {c : WriteConstraint} (he : Fine e) (ht : e.tag = s%"writeConstraint") (h : SaysConstraint e c) : ConstraintFits c := by
  have ha := (structured_open ht rfl he.structured).1
  have h1 := not_both (t := s%"writeAsRead") (u := s%"useEnumeratedValues") ha rfl
  have h2 := not_both (t := s%"writeAsRead") (u := s%"range") ha rfl
  have h3 := not_both (t := s%"useEnumeratedValues") (u := s%"range") ha rfl
  have h4 := mem_of_needs (us := [s%"writeAsRead", s%"useEnumeratedValues", s%"range"]) ha rfl
  simp only [List.mem_cons, List.not_mem_nil, or_false, exists_eq_or_imp, exists_eq_left] at h4
  rw [← value_isSome he rfl h.writeAsRead] at h1 h2 h4
  rw [← value_isSome he rfl h.useEnumeratedValues] at h1 h3 h4
  rw [← first_isSome h.range] at h2 h3 h4
  unfold ConstraintFits
  cases ha : c.writeAsRead <;> cases hb : c.useEnumeratedValues <;> cases hc : c.range <;> simp [ha, hb, hc] at h1 h2 h3 h4 ⊢

theorem read_values {e : XElem} {t : Str} {m : CM} {vs : List SEnumValue} (he : Fine e) (ht : e.tag = t) (hm : models.lookup t = some m)
    (h : Entrywise SaysEnumValue (kids e (s%"enumeratedValue")) vs) : ∀ v ∈ vs, EnumValueFits v := by
  intro v hv
  obtain ⟨x, hx, h⟩ := entrywise_says h hv
  exact read_enumValue (he.child ht hm (mem_kids.1 hx).1) (mem_kids.1 hx).2 h

theorem read_dim {e : XElem} {t : Str} {m : CM} {d : SDim} (he : Fine e) (ht : e.tag = t) (hl : models.lookup t = some m)
    (hm : (CM.implies (s%"dim") (s%"dimIncrement") m && CM.implies (s%"dimIncrement") (s%"dim") m && CM.implies (s%"dimIndex") (s%"dim") m &&
      CM.implies (s%"dimName") (s%"dim") m && CM.implies (s%"dimArrayIndex") (s%"dim") m) = true) (h : SaysDim e d) : DimWhole d := by
  have ha := (structured_open ht hl he.structured).1
  simp only [Bool.and_eq_true] at hm
  obtain ⟨⟨⟨⟨i1, i2⟩, i3⟩, i4⟩, i5⟩ := hm
  have j1 := mem_of_implies ha i1
  have j2 := mem_of_implies ha i2
  have j3 := mem_of_implies ha i3
  have j4 := mem_of_implies ha i4
  have j5 := mem_of_implies ha i5
  rw [← value_isSome he rfl h.dim] at j1 j2 j3 j4 j5
  rw [← value_isSome he rfl h.increment] at j1 j2
  rw [← value_isSome he rfl h.index] at j3
  rw [← value_isSome he rfl h.name] at j4
  rw [← first_isSome h.array] at j5
  refine ⟨?_, ?_⟩
  · cases ha : d.dim <;> cases hb : d.dimIncrement <;> cases hc : d.dimIndex <;> cases hd : d.dimName <;> cases he : d.dimArrayIndex <;>
      simp [ha, hb, hc, hd, he] at j1 j2 j3 j4 j5 ⊢
  · intro a ha'
    have hf := h.array
    rw [show d.dimArrayIndex = some a from ha'] at hf
    obtain ⟨x, hx, hs⟩ := first_some hf
    have hx' := he.child ht hl (mem_kids.1 hx).1
    have hn := mem_of_needs (us := [s%"enumeratedValue"]) (structured_open (mem_kids.1 hx).2 rfl hx'.structured).1 rfl
    simp only [List.mem_cons, List.not_mem_nil, or_false, exists_eq_left] at hn
    refine ⟨?_, read_values hx' (mem_kids.1 hx).2 rfl hs.values⟩
    intro hv
    have hlen := entrywise_len hs.values
    rw [hv] at hlen
    exact kids_nil (List.length_eq_zero_iff.1 hlen) hn

theorem count_kids {e : XElem} {t : Str} : (e.children.map XElem.tag).count t = (kids e t).length := by
  unfold kids
  rw [List.count_eq_countP, List.countP_map, List.countP_eq_length_filter]
  refine congrArg List.length (List.filter_congr fun x _ => ?_)
  show (x.tag == t) = decide (x.tag = t)
  by_cases h : x.tag = t
  · rw [beq_iff_eq.2 h, decide_eq_true h]
  · rw [beq_eq_false_iff_ne.2 h, decide_eq_false h]

theorem read_constraints {e : XElem} {t : Str} {m : CM} {o : Option WriteConstraint} (he : Fine e) (ht : e.tag = t) (hm : models.lookup t = some m)
    (h : First SaysConstraint e (s%"writeConstraint") o) : ∀ c ∈ o, ConstraintFits c := by
  intro c hc
  rw [show o = some c from hc] at h
  obtain ⟨x, hx, h⟩ := first_some h
  exact read_constraint (he.child ht hm (mem_kids.1 hx).1) (mem_kids.1 hx).2 h

/-- Exactly one of the three notations. -/
def OnePosition (f : SField) : Prop := (f.lsb.isSome ∧ f.msb.isSome ∧ ¬ (f.bitOffset.isSome ∧ f.bitWidth.isSome) ∧ f.bitRange = none) ∨
    (¬ (f.lsb.isSome ∧ f.msb.isSome) ∧ f.bitOffset.isSome ∧ f.bitWidth.isSome ∧ f.bitRange = none) ∨
    (¬ (f.lsb.isSome ∧ f.msb.isSome) ∧ ¬ (f.bitOffset.isSome ∧ f.bitWidth.isSome) ∧ f.bitRange.isSome)

theorem read_position {e : XElem} {f : SField} (he : Fine e) (ht : e.tag = s%"field") (h : SaysField e f) : OnePosition f ↔ WholeField f := by
  have ha := (structured_open ht rfl he.structured).1
  unfold OnePosition WholeField
  · have x1 := not_both (t := s%"lsb") (u := s%"bitOffset") ha rfl
    have x2 := not_both (t := s%"lsb") (u := s%"bitRange") ha rfl
    have x3 := not_both (t := s%"bitOffset") (u := s%"bitRange") ha rfl
    have x4 := mem_of_needs (us := [s%"lsb", s%"bitOffset", s%"bitRange"]) ha rfl
    have x5 := mem_of_implies (t := s%"lsb") (u := s%"msb") ha rfl
    have x6 := mem_of_implies (t := s%"msb") (u := s%"lsb") ha rfl
    have x7 := mem_of_implies (t := s%"bitWidth") (u := s%"bitOffset") ha rfl
    simp only [List.mem_cons, List.not_mem_nil, or_false, exists_eq_or_imp, exists_eq_left] at x4
    rw [← value_isSome he rfl h.lsb] at x1 x2 x4 x5 x6
    rw [← value_isSome he rfl h.bitOffset] at x1 x3 x4 x7
    rw [← value_isSome he rfl h.bitRange] at x2 x3 x4
    rw [← value_isSome he rfl h.msb] at x5 x6
    rw [← value_isSome he rfl h.bitWidth] at x7
    clear h ha
    revert x1 x2 x3 x4 x5 x6 x7
    generalize f.lsb = a
    generalize f.msb = b
    generalize f.bitOffset = c
    generalize f.bitWidth = d
    generalize f.bitRange = e
    cases a <;> cases b <;> cases c <;> cases d <;> cases e <;> simp

theorem read_field {e : XElem} {f : SField} (he : Fine e) (ht : e.tag = s%"field") (h : SaysField e f) (hw : WholeField f) : FieldFits f := by
  have ha := (structured_open ht rfl he.structured).1
  refine ⟨read_dim he ht rfl rfl h.dim, (read_position he ht h).2 hw, read_constraints he ht rfl h.writeConstraint, ?_, ?_⟩
  · have := count_le (t := s%"enumeratedValues") (n := 2) ha rfl
    rwa [count_kids, entrywise_len h.containers] at this
  · intro c hc
    obtain ⟨x, hx, h⟩ := entrywise_says h.containers hc
    exact read_values (he.child ht rfl (mem_kids.1 hx).1) (mem_kids.1 hx).2 rfl h.values

theorem read_register {e : XElem} {r : SRegister} (he : Fine e) (ht : e.tag = s%"register") (h : SaysRegister e r)
    (hw : ∀ f ∈ r.fields, WholeField f) : RegisterFits r := by
  have ha := (structured_open ht rfl he.structured).1
  refine ⟨read_dim he ht rfl rfl h.dim, ?_, read_constraints he ht rfl h.writeConstraint, ?_⟩
  · have x1 := not_both (t := s%"alternateGroup") (u := s%"alternateRegister") ha rfl
    rw [← value_isSome he rfl h.alternateGroup, ← value_isSome he rfl h.alternateRegister] at x1
    cases ha : r.alternateGroup <;> cases hb : r.alternateRegister <;> simp [ha, hb] at x1 ⊢
  · intro f hf
    obtain ⟨x, hx, h⟩ := entrywise_says h.fields hf
    obtain ⟨y, hy, hx⟩ := List.mem_flatMap.1 hx
    exact read_field ((he.child ht rfl (mem_kids.1 hy).1).child (mem_kids.1 hy).2 rfl (mem_kids.1 hx).1) (mem_kids.1 hx).2 h (hw f hf)

mutual
theorem read_rc {e : XElem} {x : SRC} (h : SaysRC e x) (he : Fine e)
    (hw : ∀ r f, SBelow [x] (.reg r) → f ∈ r.fields → WholeField f) : RCFits x := by
  match h with
  | .register ht h => exact read_register he ht h fun f hf => hw _ f (.here (List.mem_singleton.2 rfl)) hf
  | .cluster (c := c) ht hc hs =>
    have ha := (structured_open ht rfl he.structured).1
    refine ⟨⟨read_dim he ht rfl rfl hc.dim, ?_⟩, read_rcs hs (fun y hy => he.child ht rfl hy) fun r f hb hf => hw r f (.inside (List.mem_singleton.2 rfl) hb) hf⟩
    rw [text_isSome he rfl hc.description]
    have hn := mem_of_needs (us := [s%"description"]) ha rfl
    simpa only [List.mem_cons, List.not_mem_nil, or_false, exists_eq_left] using hn
theorem read_rcs {es : List XElem} {xs : List SRC} (h : SaysRCs es xs) (he : ∀ e ∈ es, Fine e)
    (hw : ∀ r f, SBelow xs (.reg r) → f ∈ r.fields → WholeField f) : RCsFit xs := by
  match h with
  | .nil => trivial
  | .cons h hs => 
    refine ⟨read_rc h (he _ List.mem_cons_self) fun r f hb hf => hw r f ?_ hf,
      read_rcs hs (fun y hy => he y (List.mem_cons_of_mem _ hy)) fun r f hb hf => hw r f ?_ hf⟩
    · cases hb with
      | here hm => rw [List.mem_singleton.1 hm]; exact .here List.mem_cons_self
      | inside hm hb => exact .inside (List.mem_cons.2 (.inl (List.mem_singleton.1 hm))) hb
    · cases hb with
      | here hm => exact .here (List.mem_cons_of_mem _ hm)
      | inside hm hb => exact .inside (List.mem_cons_of_mem _ hm) hb
  | .other _ _ hs => exact read_rcs hs (fun y hy => he y (List.mem_cons_of_mem _ hy)) hw
end

theorem says_mem : ∀ {es : List XElem} {xs : List SRC} {x : SRC}, SaysRCs es xs → x ∈ xs → ∃ e ∈ es, SaysRC e x
  | _, _, x, .nil, hx => by cases hx
  | _, _, x, .cons h hs, hx => by
    rcases List.mem_cons.1 hx with rfl | hx
    · exact ⟨_, List.mem_cons_self, h⟩
    · obtain ⟨e, he, h⟩ := says_mem hs hx
      exact ⟨e, List.mem_cons_of_mem _ he, h⟩
  | _, _, x, .other _ _ hs, hx => by
    obtain ⟨e, he, h⟩ := says_mem hs hx
    exact ⟨e, List.mem_cons_of_mem _ he, h⟩

theorem says_below {xs : List SRC} {x : SRC} (hb : SBelow xs x) : ∀ {es : List XElem}, SaysRCs es xs → (∀ e ∈ es, Fine e) → ∃ e, Fine e ∧ SaysRC e x := by
  induction hb with
  | here hx =>
    intro es hs he
    obtain ⟨e, hm, h⟩ := says_mem hs hx
    exact ⟨e, he e hm, h⟩
  | inside hm _ ih =>
    intro es hs he
    obtain ⟨e, hme, h⟩ := says_mem hs hm
    cases h with
    | cluster ht _ hs => exact ih hs fun y hy => (he e hme).child ht rfl hy

theorem rcsFit_mem {x : SRC} : ∀ {xs : List SRC}, RCsFit xs → x ∈ xs → RCFits x
  | y :: ys, h, hx => by
    rcases List.mem_cons.1 hx with rfl | hx
    · exact h.1
    · exact rcsFit_mem h.2 hx

theorem rcsFit_below {xs : List SRC} {x : SRC} (hb : SBelow xs x) : RCsFit xs → RCFits x := by
  induction hb with
  | here hx => exact fun h => rcsFit_mem h hx
  | inside hm _ ih => exact fun h => ih (rcsFit_mem h hm).2

theorem read_device {doc : XDoc} {d : SDevice} (he : Fine doc.root) (ht : doc.root.tag = s%"device") (h : SaysDevice doc d) :
    Conforms d ↔ ∀ f, Declared d (.field f) → WholeField f := by
  obtain ⟨x, hx, hp⟩ := first_some h.peripherals
  have hx' := he.child ht rfl (mem_kids.1 hx).1
  have hpe : ∀ p ∈ d.peripherals, ∃ y, Fine y ∧ y.tag = s%"peripheral" ∧ SaysPeripheral y p := by
    intro p hpm
    obtain ⟨y, hy, h⟩ := entrywise_says hp hpm
    exact ⟨y, hx'.child (mem_kids.1 hx).2 rfl (mem_kids.1 hy).1, (mem_kids.1 hy).2, h⟩
  have hrc : ∀ {y : XElem} {p : SPeriphT}, Fine y → y.tag = s%"peripheral" → ∀ e ∈ (kids y (s%"registers")).flatMap XElem.children, Fine e := by
    intro y p hy ht z hz
    obtain ⟨w, hw, hz⟩ := List.mem_flatMap.1 hz
    exact (hy.child ht rfl (mem_kids.1 hw).1).child (mem_kids.1 hw).2 rfl hz
  constructor
  · intro hc f hf
    cases hf with
    | @field p r _ h1 h2 h3 =>
      obtain ⟨y, hy, hty, hs⟩ := hpe p h1
      obtain ⟨e, he', hse⟩ := says_below h2 hs.rcs (hrc (p := p) hy hty)
      cases hse with
      | register htr hsr =>
        obtain ⟨z, hz, hsf⟩ := entrywise_says hsr.fields h3
        obtain ⟨w, hw, hz⟩ := List.mem_flatMap.1 hz
        have hfit : RegisterFits r := rcsFit_below h2 (hc.rcs p h1)
        exact (read_position ((he'.child htr rfl (mem_kids.1 hw).1).child (mem_kids.1 hw).2 rfl (mem_kids.1 hz).1) (mem_kids.1 hz).2 hsf).1
          (hfit.fields f h3).position
  · intro hw
    refine ⟨?_, fun p hpm => ?_, fun p hpm => ?_⟩
    · intro hn
      have hlen := entrywise_len hp
      rw [hn] at hlen
      have := mem_of_needs (us := [s%"peripheral"]) (structured_open (mem_kids.1 hx).2 rfl hx'.structured).1 rfl
      simp only [List.mem_cons, List.not_mem_nil, or_false, exists_eq_left] at this
      exact kids_nil (List.length_eq_zero_iff.1 hlen) this
    · obtain ⟨y, hy, ht, h⟩ := hpe p hpm
      exact read_dim hy ht rfl rfl h.dim
    · obtain ⟨y, hy, ht, h⟩ := hpe p hpm
      exact read_rcs h.rcs (hrc (p := p) hy ht) fun r f hb hf => hw f (.field hpm hb hf)

end Svd
