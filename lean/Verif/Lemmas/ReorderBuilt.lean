import Verif.Lemmas.ReorderFin
import Verif.Props.DimElements
/- The elements that a description stands for, when its declarations are written in another order. -/
namespace Svd
open Spec

/-! ### a declaration stands for one list of elements -/

theorem places_unique {n : Str} {disp : Option Str} {dm : SDim} {ex ex' : Bool} {l l' : List Place} (h : Places n disp dm ex l)
    (h' : Places n disp dm ex' l') : ex = ex' ∧ l = l' := by
  cases h with
  | single h1 =>
    cases h' with
    | single _ => exact ⟨rfl, rfl⟩
    | expanded _ _ hm _ _ =>
      cases hm with
      | array h2 => exact absurd (array_list h2) h1
      | list _ h2 => exact absurd h2 h1
  | @expanded k mark idx h1 h2 h3 h4 h5 =>
    cases h' with
    | single h6 =>
      cases h3 with
      | array h2 => exact absurd (array_list h2) h6
      | list _ h2 => exact absurd h2 h6
    | @expanded k' mark' idx' g1 g2 g3 g4 g5 =>
      rw [h1] at g1
      injection g1 with g1
      subst g1
      have hm : mark = mark' := by
        cases h3 with
        | array a => cases g3 with
          | array _ => rfl
          | list b _ => exact absurd a b
        | list a _ => cases g3 with
          | array b => exact absurd b a
          | list _ _ => rfl
      have hi : idx = idx' := by
        cases h5 with
        | array a => cases g5 with
          | array _ => rfl
          | list b _ => exact absurd a b
        | list a r => cases g5 with
          | array b => exact absurd b a
          | list _ r' => exact dimReads_unique r r'
      subst hm hi
      exact ⟨rfl, rfl⟩

theorem headAt_unique {ex : Bool} {p : Parsed} {pl : Place} {h h' : Processed} (a : HeadAt ex p pl h) (b : HeadAt ex p pl h') : h = h' := by
  cases a with
  | periph a1 a2 => cases b with
    | periph b1 b2 => rw [StableSort.unique a1 b1, StableSort.unique a2 b2]
  | clu => cases b; rfl
  | reg => cases b; rfl
  | field a1 => cases b with
    | field b1 =>
      obtain ⟨rfl, rfl⟩ := bits_unique a1 b1
      rfl

theorem stands_unique {p : Parsed} {hs hs' : List Processed} (a : StandsFor p hs) (b : StandsFor p hs') : hs = hs' := by
  obtain ⟨ex, pls, h1, h2⟩ := a
  obtain ⟨ex', pls', g1, g2⟩ := b
  obtain ⟨rfl, rfl⟩ := places_unique h1 g1
  clear h1 g1
  induction h2 generalizing hs' with
  | nil => cases g2; rfl
  | cons h3 _ ih => cases g2 with
    | cons g3 g4 => rw [headAt_unique h3 g3, ih g4]

/-! ### order -/

theorem Reorder.perm {α : Type} {R : α → α → Prop} {xs ys zs : List α} (h : Reorder R xs ys) (hp : ys.Perm zs) : Reorder R xs zs := by
  obtain ⟨us, h1, h2⟩ := h
  exact ⟨us, h1, h2.trans hp⟩

theorem Reorder.perm_left {α : Type} {R : α → α → Prop} {xs ys zs : List α} (hp : xs.Perm zs) (h : Reorder R xs ys) : Reorder R zs ys := by
  obtain ⟨us, h1, h2⟩ := h
  obtain ⟨vs, h3, h4⟩ := entrywise_perm hp h1
  exact ⟨vs, h3, h4.trans h2⟩

theorem reorder_flatten {α : Type} {R : α → α → Prop} {xs ys : List (List α)} (h : Entrywise (Reorder R) xs ys) : Reorder R xs.flatten ys.flatten := by
  induction h with
  | nil => exact ⟨[], .nil, .refl _⟩
  | cons h1 _ ih =>
    obtain ⟨as, h2, h3⟩ := h1
    obtain ⟨bs, h4, h5⟩ := ih
    refine ⟨as ++ bs, ?_, by simpa using h3.append h5⟩
    clear h3 h5
    induction h2 with
    | nil => simpa using h4
    | cons g1 _ ih2 => exact .cons g1 ih2

theorem reorder_blocks {α β : Type} {R : α → α → Prop} {S : β → β → Prop} {B : α → List β → Prop} {xs ys : List α} {bs cs : List (List β)}
    (h : Reorder R xs ys) (hb : Entrywise B xs bs) (hc : Entrywise B ys cs)
    (hs : ∀ x ∈ xs, ∀ y b c, R x y → B x b → B y c → Reorder S b c) : Reorder S bs.flatten cs.flatten := by
  obtain ⟨zs, h1, h2⟩ := h
  obtain ⟨cs', h3, h4⟩ := entrywise_perm h2.symm hc
  refine Reorder.perm (ys := cs'.flatten) ?_ h4.flatten
  refine reorder_flatten ?_
  clear hc h4 h2
  induction h1 generalizing bs cs' with
  | nil => cases hb; cases h3; exact .nil
  | cons g1 _ ih =>
    cases hb with
    | cons hb1 hb2 => cases h3 with
      | cons hc1 hc2 => exact .cons (hs _ (by simp) _ _ _ g1 hb1 hc1) (ih hb2 (fun x hx => hs x (by simp [hx])) _ hc2)

/-! ### fields -/

theorem bits_containers {f : SField} {b : Option IFieldHd} {m l : Int} (h : BitsOf f b m l) (cs : List SEnumContainer) :
    BitsOf { f with containers := cs } b m l := by
  cases h with
  | range h1 h2 h3 => exact .range h1 h2 h3
  | lsbMsb h1 h2 h3 h4 => exact .lsbMsb h1 h2 h3 h4
  | offsetWidth h1 h2 h3 h4 h5 => exact .offsetWidth h1 h2 h3 h4 h5

theorem stands_field {f : SField} {hs : List Processed} (h : StandsFor (.field f) hs) (cs : List SEnumContainer) :
    StandsFor (.field { f with containers := cs }) hs := by
  obtain ⟨ex, pls, h1, h2⟩ := h
  refine ⟨ex, pls, h1, entrywise_imp h2 ?_⟩
  intro x _ y _ h
  cases h with
  | field h => exact .field (bits_containers h cs)

theorem stands_reg {r : SRegister} {hs : List Processed} (h : StandsFor (.reg r) hs) (fs : List SField) :
    StandsFor (.reg { r with fields := fs }) hs := by
  obtain ⟨ex, pls, h1, h2⟩ := h
  refine ⟨ex, pls, h1, entrywise_imp h2 ?_⟩
  intro x _ y _ h
  cases h with
  | reg => exact .reg

/-- What one declared field contributes. -/
def FieldBlock (f : SField) (b : List IField) : Prop := ∃ hs, StandsFor (.field f) hs ∧ Entrywise (FieldBuilt f) hs b

theorem fieldsBuilt_blocks {fs : List SField} {xs : List IField} (h : FieldsBuilt fs xs) : ∃ bs, Entrywise FieldBlock fs bs ∧ xs = bs.flatten := by
  induction h with
  | nil => exact ⟨[], .nil, rfl⟩
  | cons h1 h2 _ ih =>
    obtain ⟨bs, h3, rfl⟩ := ih
    exact ⟨_ :: bs, .cons ⟨_, h1, h2⟩ h3, by simp⟩

theorem entrywise_fun {α β : Type} {R : α → β → Prop} (hR : ∀ x y y', R x y → R x y' → y = y') {xs : List α} {ys ys' : List β}
    (h : Entrywise R xs ys) (h' : Entrywise R xs ys') : ys = ys' := by
  induction h generalizing ys' with
  | nil => cases h'; rfl
  | cons h1 _ ih => cases h' with
    | cons h2 h3 => rw [hR _ _ _ h1 h2, ih h3]

theorem conts_built_perm {cs cs' : List SEnumContainer} {l m : Int} {ks ks' : List IEnumContainer} (hp : cs.Perm cs')
    (h : ContainersBuilt cs l m ks) (h' : ContainersBuilt cs' l m ks') : ks.Perm ks' := by
  obtain ⟨as, h1, h2⟩ := h.each
  obtain ⟨bs, h3, h4⟩ := h'.each
  obtain ⟨js, h5, h6⟩ := entrywise_perm (h3.trans (hp.symm.trans h1.symm)) h4
  have : ks = js := entrywise_fun (by
    rintro x y y' ⟨w, e⟩ ⟨w', e'⟩
    rw [e] at e'
    injection e') h2 h5
  rw [this]
  exact h6

theorem same_entrywise {α β : Type} {R R' : α → β → Prop} {S : β → β → Prop} {xs : List α} {ys ys' : List β}
    (h : Entrywise R xs ys) (h' : Entrywise R' xs ys') (hs : ∀ x y y', R x y → R' x y' → S y y') : Entrywise S ys ys' := by
  induction h generalizing ys' with
  | nil => cases h'; exact .nil
  | cons h1 _ ih => cases h' with
    | cons h2 h3 => exact .cons (hs _ _ _ h1 h2) (ih h3)

theorem fieldBlock_same {f f' : SField} {b b' : List IField} (h : ShuffledField f f') (hb : FieldBlock f b) (hb' : FieldBlock f' b') :
    Reorder SameIF b b' := by
  obtain ⟨cs, h1, rfl⟩ := h
  obtain ⟨hs, h2, h3⟩ := hb
  obtain ⟨hs', h4, h5⟩ := hb'
  have := stands_unique (stands_field h2 cs) h4
  subst this
  refine ⟨b', ?_, .refl _⟩
  refine same_entrywise h3 h5 ?_
  rintro p x x' ⟨a1, a2⟩ ⟨b1, b2⟩
  rw [a1] at b1
  injection b1 with b1
  rw [← b1] at b2
  exact ⟨b1, conts_built_perm h1 a2 b2, a2.usages⟩

theorem fieldsBuilt_same {fs fs' : List SField} {xs xs' : List IField} (h : Reorder ShuffledField fs fs') (hb : FieldsBuilt fs xs)
    (hb' : FieldsBuilt fs' xs') : Reorder SameIF xs xs' := by
  obtain ⟨bs, h1, rfl⟩ := fieldsBuilt_blocks hb
  obtain ⟨bs', h2, rfl⟩ := fieldsBuilt_blocks hb'
  exact reorder_blocks h h1 h2 fun x _ y b c h3 h4 h5 => fieldBlock_same h3 h4 h5

/-! ### sizes -/

theorem contentSize_perm {E : Int} {xs ys : List SRC} (h : xs.Perm ys) : contentSize E xs = contentSize E ys := by
  induction h with
  | nil => rfl
  | cons a _ ih => rw [contentSize, contentSize, ih]
  | swap a b l => rw [contentSize, contentSize, contentSize, contentSize]; omega
  | trans _ _ ih1 ih2 => rw [ih1, ih2]

mutual
theorem count_same {E : Int} : ∀ {x y : SRC}, ShuffledRC x y → countRC E x = countRC E y
  | .reg r, y, h => by
    rw [ShuffledRC] at h
    obtain ⟨fs, rfl, -⟩ := h
    rw [countRC, countRC]
  | .clu c ch, y, h => by
    rw [ShuffledRC] at h
    obtain ⟨zs, ys, rfl, h1, h2⟩ := h
    rw [countRC, countRC]
    obtain ⟨h3, h4⟩ := content_same (E := c.props.size.getD E) h1
    rw [h4, h3, contentSize_perm h2]
    have : zs.isEmpty = ys.isEmpty := by
      cases zs with
      | nil => rw [List.nil_perm.1 h2]
      | cons a zs => cases ys with
        | nil => exact absurd (List.perm_nil.1 h2) (by simp)
        | cons b ys => rfl
    rw [this]
theorem content_same {E : Int} : ∀ {xs ys : List SRC}, ShuffledRCs xs ys → contentSize E xs = contentSize E ys ∧ xs.isEmpty = ys.isEmpty
  | [], ys, h => by
    rw [ShuffledRCs] at h
    subst h
    exact ⟨rfl, rfl⟩
  | x :: xs, ys, h => by
    rw [ShuffledRCs] at h
    obtain ⟨z, zs, rfl, h1, h2⟩ := h
    rw [contentSize, contentSize, count_same h1, (content_same h2).1]
    exact ⟨rfl, rfl⟩
end

theorem sizeWith_same {o : Option Int} {E : Int} {xs zs ys : List SRC} (h : ShuffledRCs xs zs) (hp : zs.Perm ys) : sizeWith o E xs = sizeWith o E ys := by
  unfold sizeWith
  obtain ⟨h3, h4⟩ := content_same (E := o.getD E) h
  rw [h4, h3, contentSize_perm hp]
  have : zs.isEmpty = ys.isEmpty := by
    cases zs with
    | nil => rw [List.nil_perm.1 hp]
    | cons a zs => cases ys with
      | nil => exact absurd (List.perm_nil.1 hp) (by simp)
      | cons b ys => rfl
  rw [this]

/-! ### registers, clusters, peripherals -/

theorem shuffledRCs_iff : ∀ {xs ys : List SRC}, ShuffledRCs xs ys ↔ Entrywise ShuffledRC xs ys
  | [], ys => by
    rw [ShuffledRCs]
    exact ⟨fun h => (by subst h; exact .nil), fun h => (by cases h; rfl)⟩
  | x :: xs, ys => by
    rw [ShuffledRCs]
    constructor
    · rintro ⟨z, zs, rfl, h1, h2⟩
      exact .cons h1 (shuffledRCs_iff.1 h2)
    · intro h
      cases h with
      | cons h1 h2 => exact ⟨_, _, rfl, h1, shuffledRCs_iff.2 h2⟩

/-- What one declared register or cluster contributes. -/
def RCBlock (E : Int) (x : SRC) (b : List IRC) : Prop := ∃ hs, StandsFor (declOf x) hs ∧ Entrywise (RCBuilt E x) hs b

theorem rcsBuilt_blocks {E : Int} : ∀ {xs : List SRC} {ys : List IRC}, RCsBuilt E xs ys → ∃ bs, Entrywise (RCBlock E) xs bs ∧ ys = bs.flatten
  | [], ys, h => by
    rw [RCsBuilt] at h
    subst h
    exact ⟨[], .nil, rfl⟩
  | x :: xs, ys, h => by
    rw [RCsBuilt] at h
    obtain ⟨hs, a, b, h1, h2, h3, rfl⟩ := h
    obtain ⟨bs, h4, rfl⟩ := rcsBuilt_blocks h3
    exact ⟨a :: bs, .cons ⟨hs, h1, h2⟩ h4, by simp⟩

theorem stands_same {x y : SRC} (h : ShuffledRC x y) {hs : List Processed} (hh : StandsFor (declOf x) hs) : StandsFor (declOf y) hs := by
  cases x with
  | reg r =>
    rw [ShuffledRC] at h
    obtain ⟨fs, rfl, -⟩ := h
    exact stands_reg hh fs
  | clu c ch =>
    rw [ShuffledRC] at h
    obtain ⟨zs, ys, rfl, -⟩ := h
    exact hh

theorem scope_same {E : Int} {xs zs ys : List SRC} {as as' bs bs' : List IRC} (h : ShuffledRCs xs zs) (hp : zs.Perm ys)
    (ha : RCsBuilt E xs as') (hb : RCsBuilt E ys bs') (hpa : as'.Perm as) (hpb : bs'.Perm bs)
    (hx : ∀ x ∈ xs, ∀ y h i j, ShuffledRC x y → RCBuilt E x h i → RCBuilt E y h j → SameI i j) : Reorder SameI as bs := by
  obtain ⟨cs, h1, rfl⟩ := rcsBuilt_blocks ha
  obtain ⟨ds, h2, rfl⟩ := rcsBuilt_blocks hb
  refine Reorder.perm_left hpa (Reorder.perm ?_ hpb)
  refine reorder_blocks ⟨zs, shuffledRCs_iff.1 h, hp⟩ h1 h2 ?_
  rintro x hxm y b c hxy ⟨hs, g1, g2⟩ ⟨hs', g3, g4⟩
  have := stands_unique (stands_same hxy g1) g3
  subst this
  exact ⟨c, same_entrywise g2 g4 fun h i j => hx x hxm y h i j hxy, .refl _⟩

theorem rcBuilt_same : (x : SRC) → ∀ {E : Int} {y : SRC} {h : Processed} {i j : IRC}, ShuffledRC x y → RCBuilt E x h i → RCBuilt E y h j → SameI i j
  | .reg r, E, y, h, i, j, hs, ha, hb => by
    rw [ShuffledRC] at hs
    obtain ⟨fs, rfl, h1⟩ := hs
    rw [RCBuilt] at ha hb
    obtain ⟨hd, gs, gs', rfl, rfl, a1, a2, a3⟩ := ha
    obtain ⟨hd', ks, ks', e, rfl, b1, b2, b3⟩ := hb
    injection e with e
    subst e
    rw [SameI]
    exact ⟨ks, rfl, Reorder.perm_left a2 (Reorder.perm (fieldsBuilt_same h1 a1 b1) b2), a3, b3⟩
  | .clu c ch, E, y, h, i, j, hs, ha, hb => by
    rw [ShuffledRC] at hs
    obtain ⟨zs, ys, rfl, h1, h2⟩ := hs
    rw [RCBuilt] at ha hb
    obtain ⟨hd, gs, gs', rfl, rfl, a1, a2, a3⟩ := ha
    obtain ⟨hd', ks, ks', e, rfl, b1, b2, b3⟩ := hb
    injection e with e
    subst e
    rw [SameI, sizeWith_same h1 h2]
    obtain ⟨us, h3, h4⟩ := scope_same h1 h2 a1 b1 a2 b2 fun x hx y h i j => rcBuilt_same x
    exact ⟨us, ks, rfl, sameIs_iff.2 h3, h4⟩

/-- What one declared peripheral contributes. -/
def PeriphBlock (p : SPeriphT) (b : List IPeripheral) : Prop := ∃ hs, StandsFor (.periph p.hd) hs ∧ Entrywise (PeriphBuilt p) hs b

theorem periphsBuilt_blocks {ps : List SPeriphT} {xs : List IPeripheral} (h : PeriphsBuilt ps xs) : ∃ bs, Entrywise PeriphBlock ps bs ∧ xs = bs.flatten := by
  induction h with
  | nil => exact ⟨[], .nil, rfl⟩
  | cons h1 h2 _ ih =>
    obtain ⟨bs, h3, rfl⟩ := ih
    exact ⟨_ :: bs, .cons ⟨_, h1, h2⟩ h3, by simp⟩

theorem deviceBuilt_same {d d' : SDevice} (h : Reordered d d') {xs xs' : List IPeripheral} (hb : DeviceBuilt d xs) (hb' : DeviceBuilt d' xs') :
    Reorder SameIP xs xs' := by
  obtain ⟨ps, rfl, h1⟩ := h
  obtain ⟨ys, h2, h3, -⟩ := hb
  obtain ⟨ys', h4, h5, -⟩ := hb'
  obtain ⟨bs, h6, rfl⟩ := periphsBuilt_blocks h2
  obtain ⟨bs', h7, rfl⟩ := periphsBuilt_blocks h4
  refine Reorder.perm_left h3 (Reorder.perm ?_ h5)
  refine reorder_blocks h1 h6 h7 ?_
  rintro x hxm y b c ⟨zs, ks, rfl, hs1, hs2⟩ ⟨hs, g1, g2⟩ ⟨hs', g3, g4⟩
  have := stands_unique g1 g3
  subst this
  refine ⟨c, same_entrywise g2 g4 ?_, .refl _⟩
  rintro h i j ⟨hd, us, rfl, a1, a2, a3, -⟩ ⟨hd', us', e, b1, b2, b3, -⟩
  injection e with e
  subst e
  refine ⟨by rw [a1, b1, sizeWith_same hs1 hs2], ?_⟩
  exact scope_same hs1 hs2 a2 b2 a3 b3 fun x hx y h i j => rcBuilt_same x

end Svd
