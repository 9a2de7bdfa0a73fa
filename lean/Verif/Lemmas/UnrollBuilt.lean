import Verif.Spec.Unroll
import Verif.Lemmas.ReorderBuilt
/- The elements that a description stands for, when some of its dim elements are written out. -/
namespace Svd
open Spec

theorem places_pos {n : Str} {disp : Option Str} {dm : SDim} {l : List Place} (h : Places n disp dm true l) : l ≠ [] := by
  cases h with
  | expanded h1 h2 h3 h4 h5 =>
    intro e
    have := congrArg List.length e
    simp only [List.length_mapIdx, List.length_nil] at this
    omega

theorem display_plain {o : Option Str} {i : Nat} (h : ∀ t, o = some t → ¬ Contains listMark t) : o.map (finishDisplay i) = o := by
  cases o with
  | none => rfl
  | some t =>
    have h1 : ¬ Contains arrayMark t := fun h2 => h t rfl (array_list h2)
    have h2 : hasSub arrayMark t = false := by
      cases h3 : hasSub arrayMark t with
      | false => rfl
      | true => exact absurd (hasSub_iff.1 h3) h1
    show some (fillArray _ t) = some t
    rw [fillArray_eq]
    exact congrArg some (replaceAll_absent h2)

theorem bits_oneField {f : SField} {m l : Int} {pl : Place} : BitsOf (oneField f m l pl) none (m + pl.shift) (l + pl.shift) :=
  .lsbMsb rfl (Or.inl (by simp [oneField])) rfl rfl

theorem stands_oneField {f : SField} {m l : Int} {pl : Place} {h : Processed} (hb : BitsOf f none m l) (hp : ¬ Contains listMark pl.name)
    (hh : HeadAt true (.field f) pl h) : StandsFor (.field (oneField f m l pl)) [h] := by
  refine ⟨false, _, .single (by exact hp), .cons ?_ .nil⟩
  cases hh with
  | field h1 =>
    obtain ⟨rfl, rfl⟩ := bits_unique hb h1
    have := HeadAt.field (expanded := false) (pl := ⟨0, pl.name, none, 0⟩) (bits_oneField (f := f) (m := m) (l := l) (pl := pl))
    simp only [Int.add_zero] at this
    exact this

theorem stands_oneReg {r : SRegister} {fs : List SField} {pl : Place} {h : Processed} (hp : ¬ Contains listMark pl.name ∧ ∀ t, pl.display = some t → ¬ Contains listMark t)
    (hh : HeadAt true (.reg r) pl h) : StandsFor (.reg (oneReg { r with fields := fs } pl)) [h] := by
  refine ⟨false, _, .single (by exact hp.1), .cons ?_ .nil⟩
  cases hh
  have := HeadAt.reg (expanded := false) (r := oneReg { r with fields := fs } pl) (pl := ⟨0, pl.name, pl.display, 0⟩)
  simp only [Int.add_zero, display_plain hp.2] at this
  rw [display_plain hp.2]
  exact this

theorem stands_oneClu {c : SCluster} {pl : Place} {h : Processed} (hp : ¬ Contains listMark pl.name)
    (hh : HeadAt true (.clu c) pl h) : StandsFor (.clu (oneClu c pl)) [h] := by
  refine ⟨false, _, .single (by exact hp), .cons ?_ .nil⟩
  cases hh
  have := HeadAt.clu (expanded := false) (c := oneClu c pl) (pl := ⟨0, pl.name, none, 0⟩)
  simp only [Int.add_zero] at this
  exact this

theorem stands_onePeriph {p : SPeripheral} {pl : Place} {h : Processed} (hp : ¬ Contains listMark pl.name)
    (hh : HeadAt true (.periph p) pl h) : StandsFor (.periph (onePeriph p pl)) [h] := by
  refine ⟨false, _, .single (by exact hp), .cons ?_ .nil⟩
  cases hh with
  | @periph _ _ bs is h1 h2 =>
    have := HeadAt.periph (expanded := false) (p := onePeriph p pl) (pl := ⟨0, pl.name, none, 0⟩) (bs := bs) (is := is) h1 h2
    simp only [Int.add_zero] at this
    exact this

/-- A list of elements, each of them declared on its own. -/
theorem written_blocks {α β : Type} {p : Parsed} {R : Processed → β → Prop} {B : α → List β → Prop} {S : β → β → Prop} {f : Place → α} {pls : List Place}
    {hs : List Processed} {b : List β} {cs : List (List β)} (h1 : Entrywise (HeadAt true p) pls hs) (h2 : Entrywise R hs b)
    (h3 : Entrywise B (pls.map f) cs) (hx : ∀ pl ∈ pls, ∀ h i c, HeadAt true p pl h → R h i → B (f pl) c → ∃ j, c = [j] ∧ S i j) :
    Entrywise S b cs.flatten := by
  induction h1 generalizing b cs with
  | nil => cases h2; cases h3; exact .nil
  | cons g1 _ ih =>
    cases h2 with
    | cons a1 a2 => cases h3 with
      | cons b1 b2 =>
        obtain ⟨j, rfl, h4⟩ := hx _ (by simp) _ _ _ g1 a1 b1
        exact .cons h4 (ih a2 b2 fun pl hpl => hx pl (by simp [hpl]))

theorem entrywise_glue {α β : Type} {R : α → β → Prop} {a b : List α} {x y : List β} (h1 : Entrywise R a x) (h2 : Entrywise R b y) :
    Entrywise R (a ++ b) (x ++ y) := by
  induction h1 with
  | nil => exact h2
  | cons h _ ih => exact .cons h ih

/-! ### lists of blocks -/

theorem fieldsBuilt_of_blocks {fs : List SField} {bs : List (List IField)} (h : Entrywise FieldBlock fs bs) : FieldsBuilt fs bs.flatten := by
  induction h with
  | nil => exact .nil
  | cons h1 _ ih =>
    obtain ⟨hs, h2, h3⟩ := h1
    exact .cons h2 h3 ih

theorem periphsBuilt_of_blocks {fs : List SPeriphT} {bs : List (List IPeripheral)} (h : Entrywise PeriphBlock fs bs) : PeriphsBuilt fs bs.flatten := by
  induction h with
  | nil => exact .nil
  | cons h1 _ ih =>
    obtain ⟨hs, h2, h3⟩ := h1
    exact .cons h2 h3 ih

theorem rcsBuilt_of_blocks {E : Int} {fs : List SRC} {bs : List (List IRC)} (h : Entrywise (RCBlock E) fs bs) : RCsBuilt E fs bs.flatten := by
  induction h with
  | nil => rw [RCsBuilt]; rfl
  | cons h1 _ ih =>
    obtain ⟨hs, h2, h3⟩ := h1
    rw [RCsBuilt]
    exact ⟨hs, _, _, h2, h3, ih, rfl⟩

theorem contentSize_append {E : Int} {a b : List SRC} : contentSize E (a ++ b) = max (contentSize E a) (contentSize E b) := by
  induction a with
  | nil =>
    have := contentSize_ge E b
    rw [List.nil_append, contentSize]
    omega
  | cons x a ih => rw [List.cons_append, contentSize, contentSize, ih]; omega

theorem copies_size {E n : Int} {f : Place → SRC} {pls : List Place} (hp : pls ≠ []) (hf : ∀ pl, countRC E (f pl) = n) : contentSize E (pls.map f) = max n (-1) := by
  induction pls with
  | nil => exact absurd rfl hp
  | cons x pls ih =>
    rw [List.map_cons, contentSize, hf]
    cases pls with
    | nil => rw [List.map_nil, contentSize]
    | cons y pls => rw [ih (by simp)]; omega

/-! ### fields -/

theorem fieldBuilt_same {f g : SField} (hc : g.containers = f.containers) {h : Processed} {i j : IField} (ha : FieldBuilt f h i) (hb : FieldBuilt g h j) : SameIF i j := by
  obtain ⟨a1, a2⟩ := ha
  obtain ⟨b1, b2⟩ := hb
  rw [a1] at b1
  injection b1 with b1
  rw [← b1, hc] at b2
  exact ⟨b1, conts_built_perm (.refl _) a2 b2, a2.usages⟩

theorem written_field {f : SField} {fs : List SField} (h : WrittenField f fs) {b : List IField} {cs : List (List IField)} (hb : FieldBlock f b)
    (hc : Entrywise FieldBlock fs cs) : Entrywise SameIF b cs.flatten := by
  obtain ⟨hs, h1, h2⟩ := hb
  rcases h with rfl | ⟨pls, m, l, h3, h4, rfl⟩
  · obtain ⟨c, rfl, hs', h3, h4⟩ := entrywise_single hc
    have := stands_unique h1 h3
    subst this
    simpa using same_entrywise h2 h4 fun _ _ _ => fieldBuilt_same rfl
  · obtain ⟨ex, pls', h5, h6⟩ := h1
    obtain ⟨rfl, rfl⟩ := places_unique h5 h3.places
    refine written_blocks h6 h2 hc ?_
    rintro pl hpl h i c a1 a2 ⟨hs', a3, a4⟩
    have := stands_unique (stands_oneField h4 (h3.plain pl hpl).1 a1) a3
    subst this
    obtain ⟨j, rfl, a5⟩ := entrywise_single a4
    exact ⟨j, rfl, fieldBuilt_same (g := oneField f m l pl) rfl a2 a5⟩

theorem written_fields {fs : List SField} {gs : List (List SField)} (h : Entrywise WrittenField fs gs) : ∀ {xs ys : List IField},
    FieldsBuilt fs xs → FieldsBuilt gs.flatten ys → Entrywise SameIF xs ys := by
  induction h with
  | nil => intro xs ys ha hb; cases ha; cases hb; exact .nil
  | @cons f g fs gs h1 _ ih =>
    intro xs ys ha hb
    cases ha with
    | @cons _ _ hs a b h2 h3 h4 =>
      obtain ⟨cs, h5, rfl⟩ := fieldsBuilt_blocks hb
      rw [List.flatten_cons] at h5
      obtain ⟨c1, c2, rfl, h6, h7⟩ := entrywise_append h5
      rw [List.flatten_append]
      refine entrywise_glue (written_field h1 ⟨hs, h2, h3⟩ h6) (ih h4 ?_)
      exact fieldsBuilt_of_blocks h7

/-! ### sizes -/

mutual
theorem written_count {E : Int} : ∀ {x : SRC} {ys : List SRC}, WrittenRC x ys → ys ≠ [] ∧ contentSize E ys = max (countRC E x) (-1)
  | .reg r, ys, h => by
    rw [WrittenRC] at h
    obtain ⟨gs, -, rfl | ⟨pls, h1, rfl⟩⟩ := h
    · refine ⟨by simp, ?_⟩
      rw [contentSize, contentSize, countRC, countRC]
    · refine ⟨by simpa using places_pos h1.places, ?_⟩
      exact copies_size (places_pos h1.places) fun pl => by rw [countRC, countRC]; rfl
  | .clu c ch, ys, h => by
    rw [WrittenRC] at h
    obtain ⟨zs, h0, h⟩ := h
    obtain ⟨h2, h3⟩ := written_content (E := c.props.size.getD E) h0
    rcases h with rfl | ⟨pls, h1, rfl⟩
    · refine ⟨by simp, ?_⟩
      rw [contentSize, contentSize, countRC, countRC, h2, h3]
    · refine ⟨by simpa using places_pos h1.places, ?_⟩
      exact copies_size (places_pos h1.places) fun pl => by rw [countRC, countRC, h2, h3]; rfl
theorem written_content {E : Int} : ∀ {xs ys : List SRC}, WrittenRCs xs ys → contentSize E xs = contentSize E ys ∧ xs.isEmpty = ys.isEmpty
  | [], ys, h => by
    rw [WrittenRCs] at h
    subst h
    exact ⟨rfl, rfl⟩
  | x :: xs, ys, h => by
    rw [WrittenRCs] at h
    obtain ⟨a, b, rfl, h1, h2⟩ := h
    obtain ⟨h3, h4⟩ := written_count (E := E) h1
    rw [contentSize, contentSize_append, h4, (written_content h2).1]
    have := contentSize_ge E b
    refine ⟨by omega, ?_⟩
    cases a with
    | nil => exact absurd rfl h3
    | cons => rfl
end

theorem written_size {o : Option Int} {E : Int} {xs ys : List SRC} (h : WrittenRCs xs ys) : sizeWith o E xs = sizeWith o E ys := by
  unfold sizeWith
  obtain ⟨h3, h4⟩ := written_content (E := o.getD E) h
  rw [h4, h3]

/-! ### registers, clusters, peripherals -/

mutual
theorem written_rc : ∀ {E : Int} {x : SRC} {ys : List SRC} {b : List IRC} {cs : List (List IRC)}, WrittenRC x ys → RCBlock E x b → Entrywise (RCBlock E) ys cs →
    Entrywise SameI b cs.flatten
  | E, .reg r, ys, b, cs, h, ⟨hs, h1, h2⟩, hc => by
    rw [WrittenRC] at h
    obtain ⟨gs, h3, h⟩ := h
    have core : ∀ {r' : SRegister} {h i j}, r'.fields = gs.flatten → RCBuilt E (.reg r) h i → RCBuilt E (.reg r') h j → SameI i j := by
      intro r' h i j hf ha hb
      rw [RCBuilt] at ha hb
      obtain ⟨hd, us, us', rfl, rfl, a1, a2, a3⟩ := ha
      obtain ⟨hd', ks, ks', e, rfl, b1, b2, b3⟩ := hb
      injection e with e
      subst e
      rw [hf] at b1
      rw [SameI]
      exact ⟨ks, rfl, Reorder.perm_left a2 (Reorder.perm ⟨_, written_fields h3 a1 b1, .refl _⟩ b2), a3, b3⟩
    rcases h with rfl | ⟨pls, h4, rfl⟩
    · obtain ⟨c, rfl, hs', h5, h6⟩ := entrywise_single hc
      have := stands_unique (stands_reg h1 gs.flatten) h5
      subst this
      simpa using same_entrywise h2 h6 fun _ _ _ => core rfl
    · obtain ⟨ex, pls', h5, h6⟩ := h1
      obtain ⟨rfl, rfl⟩ := places_unique h5 h4.places
      refine written_blocks h6 h2 hc ?_
      rintro pl hpl h i c a1 a2 ⟨hs', a3, a4⟩
      have := stands_unique (stands_oneReg (h4.plain pl hpl) a1) a3
      subst this
      obtain ⟨j, rfl, a5⟩ := entrywise_single a4
      exact ⟨j, rfl, core (r' := oneReg { r with fields := gs.flatten } pl) rfl a2 a5⟩
  | E, .clu c ch, ys, b, cs, h, ⟨hs, h1, h2⟩, hc => by
    rw [WrittenRC] at h
    obtain ⟨zs, h3, h⟩ := h
    have core : ∀ {c' : SCluster} {h i j}, c'.props = c.props → RCBuilt E (.clu c ch) h i → RCBuilt E (.clu c' zs) h j → SameI i j := by
      intro c' h i j hf ha hb
      rw [RCBuilt] at ha hb
      obtain ⟨hd, us, us', rfl, rfl, a1, a2, a3⟩ := ha
      obtain ⟨hd', ks, ks', e, rfl, b1, b2, b3⟩ := hb
      injection e with e
      subst e
      rw [hf] at b1 ⊢
      rw [SameI, written_size h3]
      obtain ⟨vs, h4, h5⟩ : Reorder SameI us ks := Reorder.perm_left a2 (Reorder.perm ⟨_, written_rcs h3 a1 b1, .refl _⟩ b2)
      exact ⟨vs, ks, rfl, sameIs_iff.2 h4, h5⟩
    rcases h with rfl | ⟨pls, h4, rfl⟩
    · obtain ⟨c', rfl, hs', h5, h6⟩ := entrywise_single hc
      have := stands_unique h1 h5
      subst this
      simpa using same_entrywise h2 h6 fun _ _ _ => core rfl
    · obtain ⟨ex, pls', h5, h6⟩ := h1
      obtain ⟨rfl, rfl⟩ := places_unique h5 h4.places
      refine written_blocks h6 h2 hc ?_
      rintro pl hpl h i c' a1 a2 ⟨hs', a3, a4⟩
      have := stands_unique (stands_oneClu (h4.plain pl hpl).1 a1) a3
      subst this
      obtain ⟨j, rfl, a5⟩ := entrywise_single a4
      exact ⟨j, rfl, core (c' := oneClu c pl) rfl a2 a5⟩
theorem written_rcs : ∀ {E : Int} {xs ys : List SRC} {as bs : List IRC}, WrittenRCs xs ys → RCsBuilt E xs as → RCsBuilt E ys bs → Entrywise SameI as bs
  | E, [], ys, as, bs, h, ha, hb => by
    rw [WrittenRCs] at h
    subst h
    rw [RCsBuilt] at ha hb
    subst ha hb
    exact .nil
  | E, x :: xs, ys, as, bs, h, ha, hb => by
    rw [WrittenRCs] at h
    obtain ⟨a, b, rfl, h1, h2⟩ := h
    rw [RCsBuilt] at ha
    obtain ⟨hs, u, v, h3, h4, h5, rfl⟩ := ha
    obtain ⟨cs, h6, rfl⟩ := rcsBuilt_blocks hb
    obtain ⟨c1, c2, rfl, h7, h8⟩ := entrywise_append h6
    rw [List.flatten_append]
    exact entrywise_glue (written_rc h1 ⟨hs, h3, h4⟩ h7) (written_rcs h2 h5 (rcsBuilt_of_blocks h8))
end

theorem written_periph {p : SPeriphT} {ps : List SPeriphT} (h : WrittenPeriph p ps) {b : List IPeripheral} {cs : List (List IPeripheral)}
    (hb : PeriphBlock p b) (hc : Entrywise PeriphBlock ps cs) : Entrywise SameIP b cs.flatten := by
  obtain ⟨hs, h1, h2⟩ := hb
  obtain ⟨zs, h3, h⟩ := h
  have core : ∀ {p' : SPeriphT} {h i j}, p'.hd.props = p.hd.props → p'.rcs = zs → PeriphBuilt p h i → PeriphBuilt p' h j → SameIP i j := by
    rintro p' h i j hf hz ⟨hd, us, rfl, a1, a2, a3, -⟩ ⟨hd', us', e, b1, b2, b3, -⟩
    injection e with e
    subst e
    rw [hf, hz] at b1 b2
    exact ⟨by rw [a1, b1, written_size h3], Reorder.perm_left a3 (Reorder.perm ⟨_, written_rcs h3 a2 b2, .refl _⟩ b3)⟩
  rcases h with rfl | ⟨pls, h4, rfl⟩
  · obtain ⟨c', rfl, hs', h5, h6⟩ := entrywise_single hc
    have := stands_unique h1 h5
    subst this
    simpa using same_entrywise h2 h6 fun _ _ _ => core rfl rfl
  · obtain ⟨ex, pls', h5, h6⟩ := h1
    obtain ⟨rfl, rfl⟩ := places_unique h5 h4.places
    refine written_blocks h6 h2 hc ?_
    rintro pl hpl h i c' a1 a2 ⟨hs', a3, a4⟩
    have := stands_unique (stands_onePeriph (h4.plain pl hpl).1 a1) a3
    subst this
    obtain ⟨j, rfl, a5⟩ := entrywise_single a4
    exact ⟨j, rfl, core (p' := { hd := onePeriph p.hd pl, rcs := zs }) rfl rfl a2 a5⟩

theorem written_periphs {ps : List SPeriphT} {bs : List (List SPeriphT)} (h : Entrywise WrittenPeriph ps bs) : ∀ {xs ys : List IPeripheral},
    PeriphsBuilt ps xs → PeriphsBuilt bs.flatten ys → Entrywise SameIP xs ys := by
  induction h with
  | nil => intro xs ys ha hb; cases ha; cases hb; exact .nil
  | cons h1 _ ih =>
    intro xs ys ha hb
    cases ha with
    | @cons _ _ hs a b h2 h3 h4 =>
      obtain ⟨cs, h5, rfl⟩ := periphsBuilt_blocks hb
      rw [List.flatten_cons] at h5
      obtain ⟨c1, c2, rfl, h6, h7⟩ := entrywise_append h5
      rw [List.flatten_append]
      exact entrywise_glue (written_periph h1 ⟨hs, h2, h3⟩ h6) (ih h4 (periphsBuilt_of_blocks h7))

theorem unrolled_built {d d' : SDevice} (h : Unrolled d d') {xs xs' : List IPeripheral} (hb : DeviceBuilt d xs) (hb' : DeviceBuilt d' xs') :
    Reorder SameIP xs xs' := by
  obtain ⟨bs, h1, rfl⟩ := h
  obtain ⟨ys, h2, h3, -⟩ := hb
  obtain ⟨ys', h4, h5, -⟩ := hb'
  exact Reorder.perm_left h3 (Reorder.perm ⟨_, written_periphs h1 h2 h4, .refl _⟩ h5)

end Svd
