import Verif.Spec.Full
import Verif.Spec.Definite
import Verif.Lemmas.ReorderBuilt
import Verif.Lemmas.Exact
import Verif.Props.Shared
/-
A definite description says one thing only: the elements that a declaration stands for are determined by its position.
-/
namespace Svd
open Spec

/-! ### names of the elements of a declaration -/

theorem fillList_self (s : Str) : fillList listMark s = s := by
  induction s using fillList.induct with
  | case1 t ih => rw [fillList, ih]; rfl
  | case2 c t h ih => rw [fillList, ih]; exact h
  | case3 => rfl

theorem fillArray_self (s : Str) : fillArray arrayMark s = s := by
  induction s using fillArray.induct with
  | case1 t ih => rw [fillArray, ih]; rfl
  | case2 c t h ih => rw [fillArray, ih]; exact h
  | case3 => rfl

theorem fill_inj {name mark i j : Str} (hm : MarkerOf name mark) (h : fill mark i name = fill mark j name) : i = j := by
  cases hm with
  | array h1 =>
    simp only [arrayMark, fill_array] at h h1
    exact replaceAll_inj (hasSub_iff.2 h1) (by decide) h
  | list _ h1 =>
    simp only [listMark, fill_list] at h h1
    exact replaceAll_inj (hasSub_iff.2 h1) (by decide) h

theorem fill_own {name mark : Str} (hm : MarkerOf name mark) : fill mark mark name = name := by
  cases hm with
  | array h1 => exact (if_pos (by decide)).trans (fillArray_self _)
  | list _ h1 => exact (if_neg (by decide)).trans (fillList_self _)

/-- What an index text is read as names no index twice, and not the marker. -/
def Ind (o : Option Str) : Prop := ∀ n l, DimReads n o l → l.Nodup ∧ listMark ∉ l

theorem natText_nodup (n : Nat) : ((List.range n).map natText).Nodup := by rw [natText_eq]; exact natStrs_nodup n

theorem natText_digit (n : Nat) : ∀ c ∈ natText n, isDigitC c = true := by
  rw [natText_eq]
  exact natStr_digits n

theorem indices_apart {name mark : Str} {n : Int} {o : Option Str} {idx : List Str} (hm : MarkerOf name mark) (hi : Ind o)
    (h : IndicesOf name n o idx) : idx.Nodup ∧ mark ∉ idx := by
  cases h with
  | array h1 =>
    refine ⟨natText_nodup _, fun hc => ?_⟩
    obtain ⟨k, -, hk⟩ := List.mem_map.1 hc
    have : '%' ∈ natText k := by rw [hk]; cases hm <;> decide
    exact absurd (natText_digit k _ this) (by decide)
  | list h1 h2 =>
    cases hm with
    | array h3 => exact absurd h3 h1
    | list _ _ => exact hi _ _ h2

theorem headAt_nameOf {ex : Bool} {p : Parsed} {pl : Place} {h : Processed} (hh : HeadAt ex p pl h) : nameOf h = pl.name := by
  cases hh <;> rfl

theorem mapIdx_inj {α β γ : Type} {f : Nat → α → β} {g : β → γ} : ∀ {l : List α} (_ : l.Nodup)
    (_ : ∀ i j a b, g (f i a) = g (f j b) → a = b), ∀ x ∈ l.mapIdx f, ∀ y ∈ l.mapIdx f, g x = g y → x = y := by
  intro l hn hg x hx y hy h
  obtain ⟨i, hi, rfl⟩ := List.mem_mapIdx.1 hx
  obtain ⟨j, hj, rfl⟩ := List.mem_mapIdx.1 hy
  have := hg _ _ _ _ h
  have := (List.Nodup.getElem_inj_iff hn).1 this
  subst this
  rfl

theorem places_apart {name : Str} {disp : Option Str} {dm : SDim} {ex : Bool} {pls : List Place} (h : Places name disp dm ex pls)
    (hi : Ind dm.dimIndex) : (∀ a ∈ pls, ∀ b ∈ pls, a.name = b.name → a = b) ∧ (ex = true → ∀ a ∈ pls, a.name ≠ name) := by
  cases h with
  | single h1 =>
    refine ⟨fun a ha b hb _ => ?_, fun h => by cases h⟩
    rw [List.mem_singleton.1 ha, List.mem_singleton.1 hb]
  | @expanded n mark idx h1 h2 h3 h4 h5 =>
    obtain ⟨hn, hk⟩ := indices_apart h3 hi h5
    refine ⟨mapIdx_inj (g := Place.name) hn (fun i j a b h => fill_inj h3 h), fun _ a ha he => ?_⟩
    obtain ⟨i, hi, rfl⟩ := List.mem_mapIdx.1 ha
    have : idx[i] = mark := fill_inj h3 (he.trans (fill_own h3).symm)
    exact hk (this ▸ List.getElem_mem hi)

theorem stands_apart {p : Parsed} (hi : Ind (dimOf p).dimIndex) {hs : List Processed} (h : StandsFor p hs) {a b : Processed}
    (ha : a ∈ hs ∨ Pattern p a) (hb : b ∈ hs ∨ Pattern p b) (hn : nameOf a = nameOf b) : a = b := by
  obtain ⟨ex, pls, h1, h2⟩ := h
  obtain ⟨k1, k2⟩ := places_apart h1 hi
  have hpat : ∀ {c c' : Processed}, c ∈ hs → Pattern p c' → nameOf c ≠ nameOf c' := by
    rintro c c' hc ⟨pl, ps, g1, g2⟩ he
    obtain ⟨rfl, rfl⟩ := places_unique h1 g1
    obtain ⟨q, hq, hqc⟩ := entrywise_right h2 hc
    rw [headAt_nameOf hqc, headAt_nameOf g2] at he
    exact k2 rfl q hq he
  rcases ha with ha | ha <;> rcases hb with hb | hb
  · obtain ⟨q, hq, hqa⟩ := entrywise_right h2 ha
    obtain ⟨q', hq', hqb⟩ := entrywise_right h2 hb
    rw [headAt_nameOf hqa, headAt_nameOf hqb] at hn
    have := k1 q hq q' hq' hn
    subst this
    exact headAt_unique hqa hqb
  · exact absurd hn (hpat ha hb)
  · exact absurd hn.symm (hpat hb ha)
  · obtain ⟨pl, ps, g1, g2⟩ := ha
    obtain ⟨pl', ps', g3, g4⟩ := hb
    obtain ⟨-, he⟩ := places_unique g1 g3
    injection he with he1 he2
    subst he1
    exact headAt_unique g2 g4

/-- The index text that an element keeps. -/
def indexOf : Processed → Option Str
  | .periph p => p.dim.dimIndex
  | .clu c => c.dim.dimIndex
  | .reg r => r.dim.dimIndex
  | .field f => f.dim.dimIndex

theorem ind_none : Ind none := by
  intro n l h
  cases h with
  | absent =>
    refine ⟨natText_nodup _, fun hc => ?_⟩
    obtain ⟨k, -, hk⟩ := List.mem_map.1 hc
    have : '%' ∈ natText k := by rw [hk]; decide
    exact absurd (natText_digit k _ this) (by decide)

theorem headAt_index {ex : Bool} {p : Parsed} {pl : Place} {h : Processed} (hh : HeadAt ex p pl h) (hi : Ind (dimOf p).dimIndex) :
    Ind (indexOf h) := by
  cases hh <;> cases ex <;> first | exact hi | exact ind_none

theorem element_index {p : Parsed} (hi : Ind (dimOf p).dimIndex) {hs : List Processed} (h : StandsFor p hs) {a : Processed}
    (ha : a ∈ hs ∨ Pattern p a) : Ind (indexOf a) := by
  rcases ha with ha | ⟨pl, pls, -, h2⟩
  · obtain ⟨ex, pls, h1, h2⟩ := h
    obtain ⟨q, -, hq⟩ := entrywise_right h2 ha
    exact headAt_index hq hi
  · exact headAt_index h2 hi

theorem or_index {a b : Option Str} (ha : Ind a) (hb : Ind b) : Ind (a.or b) := by
  cases a with
  | none => exact hb
  | some _ => exact ha

theorem completed_index {p : Parsed} {b : Processed} (hp : Ind (dimOf p).dimIndex) (hb : Ind (indexOf b)) :
    Ind (dimOf (completed p b)).dimIndex := by
  cases p <;> cases b <;> first | exact hp | exact or_index hp hb

variable {d : SDevice}

theorem Spec.Definite.index (D : Definite d) {x : Pos} {p : Parsed} (h : DeclAt d x p) : Ind (dimOf p).dimIndex :=
  D.indices p (declared_of_declAt h)

theorem elementOf_index (D : Definite d) {x : Pos} {l : List Pos} {h : Processed} (he : ElementOf d x l h) : Ind (indexOf h) := by
  induction he with
  | own h1 h2 h3 h4 => exact element_index (D.index h1) h3 h4
  | derived h1 h2 h3 h4 h5 h6 h7 ih => exact element_index (completed_index (D.index h1) ih) h6 h7

/-! ### one position, one list of elements -/

theorem elementOf_unique (D : Definite d) {x : Pos} {l : List Pos} {h : Processed} (he : ElementOf d x l h) :
    ∀ {l' h'}, ElementOf d x l' h' → l = l' ∧ (nameOf h = nameOf h' → h = h') := by
  induction he with
  | own h1 h2 h3 h4 =>
    intro l' h' k
    cases k with
    | own k1 k2 k3 k4 =>
      cases declAt_unique h1 k1
      cases stands_unique h3 k3
      exact ⟨rfl, stands_apart (D.index h1) h3 h4 k4⟩
    | derived k1 k2 k3 _ _ _ _ =>
      cases declAt_unique h1 k1
      rw [h2] at k2
      cases k2
  | derived h1 h2 h3 h4 h5 h6 h7 ih =>
    intro l' h' k
    cases k with
    | own k1 k2 k3 k4 =>
      cases declAt_unique h1 k1
      rw [h2] at k2
      cases k2
    | derived k1 k2 k3 k4 k5 k6 k7 =>
      cases declAt_unique h1 k1
      rw [h2] at k2
      injection k2 with k2
      subst k2
      cases D.refs _ _ _ h3 k3
      obtain ⟨rfl, e⟩ := ih k4
      cases e (h5.trans k5.symm)
      cases stands_unique h6 k6
      exact ⟨rfl, stands_apart (completed_index (D.index h1) (elementOf_index D h4)) h6 h7 k7⟩

theorem standsAlong_unique (D : Definite d) {x : Pos} {l l' : List Pos} {hs hs' : List Processed} (h : StandsAlong d x l hs)
    (k : StandsAlong d x l' hs') : l = l' ∧ hs = hs' := by
  cases h with
  | own h1 h2 h3 =>
    cases k with
    | own k1 k2 k3 =>
      cases declAt_unique h1 k1
      exact ⟨rfl, stands_unique h3 k3⟩
    | derived k1 k2 k3 _ _ _ =>
      cases declAt_unique h1 k1
      rw [h2] at k2
      cases k2
  | derived h1 h2 h3 h4 h5 h6 =>
    cases k with
    | own k1 k2 k3 =>
      cases declAt_unique h1 k1
      rw [h2] at k2
      cases k2
    | derived k1 k2 k3 k4 k5 k6 =>
      cases declAt_unique h1 k1
      rw [h2] at k2
      injection k2 with k2
      subst k2
      cases D.refs _ _ _ h3 k3
      obtain ⟨rfl, e⟩ := elementOf_unique D h4 k4
      cases e (h5.trans k5.symm)
      exact ⟨rfl, stands_unique h6 k6⟩

/-- All elements of a declaration have the same size. -/
theorem stands_size {p : Parsed} {hs : List Processed} (h : StandsFor p hs) {a b : Processed} (ha : a ∈ hs) (hb : b ∈ hs) :
    sizeOfP a = sizeOfP b := by
  obtain ⟨ex, pls, h1, h2⟩ := h
  obtain ⟨q, -, hq⟩ := entrywise_right h2 ha
  obtain ⟨q', -, hq'⟩ := entrywise_right h2 hb
  rw [(headAt_size hq).1, (headAt_size hq').1]

theorem standsAlong_size {x : Pos} {l : List Pos} {hs : List Processed} (h : StandsAlong d x l hs) {a b : Processed} (ha : a ∈ hs)
    (hb : b ∈ hs) : sizeOfP a = sizeOfP b := by
  cases h with
  | own _ _ h3 => exact stands_size h3 ha hb
  | derived _ _ _ _ _ h6 => exact stands_size h6 ha hb

/-! ### containers and fields -/

theorem takes_unique (D : Definite d) {x : Pos} {c : SEnumContainer} (h : Takes d x c) : ∀ {c'}, Takes d x c' → c = c' := by
  induction h with
  | own h1 h2 =>
    intro c' k
    cases k with
    | own k1 _ =>
      have := declAt_unique h1 k1
      injection this
    | base k1 _ =>
      obtain ⟨p, path, g1, g2⟩ := refers_derived k1
      cases declAt_unique h1 g1
      cases h2.symm.trans g2
    | unfinished k1 _ _ =>
      obtain ⟨p, path, g1, g2⟩ := refers_derived k1
      cases declAt_unique h1 g1
      cases h2.symm.trans g2
  | base h1 h2 ih =>
    intro c' k
    cases k with
    | own k1 k2 =>
      obtain ⟨p, path, g1, g2⟩ := refers_derived h1
      cases declAt_unique k1 g1
      cases k2.symm.trans g2
    | base k1 k2 =>
      cases D.refs _ _ _ h1 k1
      exact ih k2
    | unfinished k1 k2 k3 => exact absurd (D.enums _ _ _ k1 k2) k3
  | unfinished h1 h2 h3 => exact absurd (D.enums _ _ _ h1 h2) h3

theorem containers_sub (D : Definite d) {l : List Pos} {a b : Int} {ks ks' : List IEnumContainer} (h : ContainersOf d l a b ks)
    (h' : ContainersOf d l a b ks') : ∀ k ∈ ks, k ∈ ks' := by
  intro k hk
  obtain ⟨y, c, w, h1, h2, h3⟩ := h.sub k hk
  obtain ⟨k', hk', c', w', h4, h5⟩ := h'.all y h1
  cases takes_unique D h2 h4
  rw [h3] at h5
  injection h5 with h5
  exact h5 ▸ hk'

theorem perm_of_same {α β : Type} {f : α → β} {l l' : List α} (hn : (l.map f).Nodup) (hn' : (l'.map f).Nodup) (h : ∀ x, x ∈ l ↔ x ∈ l') :
    l.Perm l' := (List.perm_ext_iff_of_nodup (nodup_of_map f hn) (nodup_of_map f hn')).2 h

theorem containers_unique (D : Definite d) {l : List Pos} {a b : Int} {ks ks' : List IEnumContainer} (h : ContainersOf d l a b ks)
    (h' : ContainersOf d l a b ks') : ks.Perm ks' :=
  perm_of_same h.usages h'.usages fun _ => ⟨containers_sub D h h' _, containers_sub D h' h _⟩

theorem fieldOf_unique (D : Definite d) {x : Pos} {f f' : IField} (h : FieldOf d x f) (h' : FieldOf d x f') (hh : f.hd = f'.hd) :
    SameIF f f' := by
  obtain ⟨l, ⟨hs, h1, h2⟩, h3⟩ := h
  obtain ⟨l', ⟨hs', k1, k2⟩, k3⟩ := h'
  obtain ⟨rfl, -⟩ := standsAlong_unique D h1 k1
  rw [hh] at h3
  exact ⟨hh, containers_unique D h3 k3, h3.usages⟩

theorem fieldsOf_sub (D : Definite d) {l : List Pos} {fs fs' : List IField} (h : FieldsOf d l fs) (h' : FieldsOf d l fs') :
    ∀ f ∈ fs, ∃ f' ∈ fs', SameIF f f' := by
  intro f hf
  obtain ⟨y, h1, h2⟩ := h.sub f hf
  obtain ⟨hs', ⟨l', k1⟩, k2⟩ := h'.all y h1
  have h2' := h2
  obtain ⟨l1, ⟨hs, g1, g2⟩, g3⟩ := h2
  obtain ⟨-, rfl⟩ := standsAlong_unique D g1 k1
  obtain ⟨f', hf', e, k3⟩ := k2 _ g2
  injection e with e
  exact ⟨f', hf', fieldOf_unique D h2' k3 e⟩

theorem SameIF.symm {f f' : IField} (h : SameIF f f') : SameIF f' f := ⟨h.1.symm, h.2.1.symm, ((h.2.1.map _).nodup_iff).1 h.2.2⟩

/-! ### registers, clusters and peripherals -/

/-- The same resolved register or cluster, but for the order of its content and how often something is there. -/
inductive SimI : IRC → IRC → Prop
  | reg {r fs fs'} : (∀ f ∈ fs, ∃ f' ∈ fs', SameIF f f') → (∀ f' ∈ fs', ∃ f ∈ fs, SameIF f f') → SortedBy fieldKey fs →
      SortedBy fieldKey fs' → SimI (.reg r fs) (.reg r fs')
  | clu {c ch ys} (R : IRC → IRC → Prop) : (∀ x y, R x y → SimI x y) → (∀ x ∈ ch, ∃ y ∈ ys, R x y) → (∀ y ∈ ys, ∃ x ∈ ch, R x y) →
      SimI (.clu c ch) (.clu c ys)

theorem SimI.size {x y : IRC} (h : SimI x y) : givenSize x = givenSize y := by cases h <;> rfl

/-- The relation of two contents. -/
def SimIs (xs ys : List IRC) : Prop := (∀ x ∈ xs, ∃ y ∈ ys, SimI x y) ∧ ∀ y ∈ ys, ∃ x ∈ xs, SimI x y

theorem sized_unique {own : Option Int} {encl : Int} {xs ys : List IRC} (h : SimIs xs ys) {s s' : Option Int} (hs : SizedBy own encl xs s)
    (hs' : SizedBy own encl ys s') : s = s' := by
  obtain ⟨h1, h2⟩ := h
  by_cases hx : xs = []
  · have hy : ys = [] := by
      cases ys with
      | nil => rfl
      | cons y ys =>
        obtain ⟨x, hx', -⟩ := h2 y (by simp)
        subst hx
        cases hx'
    rw [hs.empty hx, hs'.empty hy]
  · have hy : ys ≠ [] := by
      intro hy
      cases xs with
      | nil => exact hx rfl
      | cons x xs =>
        obtain ⟨y, hy', -⟩ := h1 x (by simp)
        subst hy
        cases hy'
    obtain ⟨m, rfl, a1, x, hx1, a2⟩ := hs.largest hx
    obtain ⟨m', rfl, b1, y, hy1, b2⟩ := hs'.largest hy
    obtain ⟨y', hy', e1⟩ := h1 x hx1
    obtain ⟨x', hx', e2⟩ := h2 y hy1
    have c1 : countsAs (own.getD encl) x = countsAs (own.getD encl) y' := by rw [countsAs, countsAs, e1.size]
    have c2 : countsAs (own.getD encl) x' = countsAs (own.getD encl) y := by rw [countsAs, countsAs, e2.size]
    have := b1 y' hy'
    have := a1 x' hx'
    exact congrArg some (by omega)

/-- The head of a register or cluster is, but for its size, one of those that its declaration stands for. -/
theorem rcFull_head {E : Int} {x : Pos} {y : IRC} (h : RCFull d E x y) : ∃ l hd, Instance d x l hd ∧ ButSize hd (headOf y) := by
  cases h with
  | reg h1 _ _ => exact ⟨_, _, h1, .reg⟩
  | clu h1 _ _ _ _ => exact ⟨_, _, h1, .clu⟩

theorem props_ext {a b : Props} (h1 : a.size = b.size) (h2 : a.access = b.access ∧ a.protection = b.protection ∧
    a.resetValue = b.resetValue ∧ a.resetMask = b.resetMask) : a = b := by
  cases a; cases b
  simp_all

theorem butSize_inj {a b c : Processed} (h : ButSize a c) (h' : ButSize b c) (hs : sizeOfP a = sizeOfP b) : a = b := by
  cases h with
  | @periph h s =>
    generalize hz : Processed.periph _ = z at h'
    cases h' with
    | @periph h' s' =>
      injection hz with hz
      cases h; cases h'
      injection hz
      simp_all [sizeOfP]
      exact props_ext (by assumption) ⟨by simp_all, by simp_all, by simp_all, by simp_all⟩
    | _ => cases hz
  | @clu h s =>
    generalize hz : Processed.clu _ = z at h'
    cases h' with
    | @clu h' s' =>
      injection hz with hz
      cases h; cases h'
      injection hz
      simp_all [sizeOfP]
      exact props_ext (by assumption) ⟨by simp_all, by simp_all, by simp_all, by simp_all⟩
    | _ => cases hz
  | reg => cases h'; rfl
  | field => cases h'; rfl

theorem rcFull_unique (D : Definite d) (y : IRC) : ∀ {E : Int} {x : Pos} {y' : IRC} {hd : Processed}, RCFull d E x y → RCFull d E x y' →
    ButSize hd (headOf y) → ButSize hd (headOf y') → (∃ l, Instance d x l hd) → SimI y y' := by
  refine IRC.induct (P := fun y => ∀ {E : Int} {x : Pos} {y' : IRC} {hd : Processed}, RCFull d E x y → RCFull d E x y' →
    ButSize hd (headOf y) → ButSize hd (headOf y') → (∃ l, Instance d x l hd) → SimI y y') ?_ ?_ y
  · intro r fs E x y' hd h h' b b' _
    cases h with
    | reg h1 h2 h3 =>
      cases h' with
      | reg k1 k2 k3 =>
        cases b
        cases b'
        obtain ⟨hs, h1, _⟩ := h1
        obtain ⟨hs', k1, _⟩ := k1
        obtain ⟨rfl, -⟩ := standsAlong_unique D h1 k1
        refine .reg (fieldsOf_sub D h2 k2) (fun f' hf' => ?_) h3 k3
        obtain ⟨f, hf, e⟩ := fieldsOf_sub D k2 h2 f' hf'
        exact ⟨f, hf, e.symm⟩
      | clu _ _ _ _ _ =>
        cases b
        cases b'
  · intro c ch ih E x y' hd h h' b b' hI
    generalize hz : IRC.clu c ch = z at h
    cases h with
    | reg => cases hz
    | @clu _ _ l hc s ys h1 h2 h3 h4 h5 =>
      injection hz with hz1 hz2
      subst hz1 hz2
      cases h' with
      | reg k1 k2 k3 =>
        cases b'
        cases b
      | @clu _ _ l' hc' s' ys' k1 k2 k3 k4 k5 =>
        obtain ⟨l0, hs0, hI1, hI2⟩ := hI
        obtain ⟨hs, h1, h1'⟩ := h1
        obtain ⟨hs', k1, k1'⟩ := k1
        obtain ⟨rfl, rfl⟩ := standsAlong_unique D h1 k1
        obtain ⟨-, rfl⟩ := standsAlong_unique D h1 hI1
        have e1 := butSize_inj b .clu (standsAlong_size h1 hI2 h1')
        have e2 := butSize_inj b' .clu (standsAlong_size h1 hI2 k1')
        subst e1
        injection e2 with e2
        subst e2
        -- the elements
        have key : SimIs ch ys' := by
          refine ⟨fun y1 hy1 => ?_, fun y1 hy1 => ?_⟩
          · obtain ⟨hin, hf⟩ := h2 y1 hy1
            obtain ⟨st, hfo⟩ := k3 _ hin
            obtain ⟨l2, hd2, hd2i, hd2b⟩ := rcFull_head hf
            obtain ⟨l3, st⟩ := st
            have hd2i' := hd2i
            obtain ⟨hs2, a1, a2⟩ := hd2i
            obtain ⟨-, rfl⟩ := standsAlong_unique D a1 st
            obtain ⟨m1, m2, m3⟩ := hfo _ a2
            exact ⟨_, m1, ih y1 hy1 hf m3 hd2b m2 ⟨_, hd2i'⟩⟩
          · obtain ⟨hin, hf⟩ := k2 y1 hy1
            obtain ⟨st, hfo⟩ := h3 _ hin
            obtain ⟨l2, hd2, hd2i, hd2b⟩ := rcFull_head hf
            obtain ⟨l3, st⟩ := st
            have hd2i' := hd2i
            obtain ⟨hs2, a1, a2⟩ := hd2i
            obtain ⟨-, rfl⟩ := standsAlong_unique D a1 st
            obtain ⟨m1, m2, m3⟩ := hfo _ a2
            exact ⟨_, m1, ih _ m1 m3 hf m2 hd2b ⟨_, hd2i'⟩⟩
        have := sized_unique key h5 k5
        subst this
        exact .clu SimI (fun _ _ h => h) key.1 key.2

/-- The relation of two contents that are said by the same declarations. -/
theorem contents_unique (D : Definite d) {E : Int} {l : List Pos} {ys ys' : List IRC} (h2 : ∀ y ∈ ys, MemberFull d E l y)
    (h3 : ∀ z, InChain d l z → KeptFull d E ys z) (k2 : ∀ y ∈ ys', MemberFull d E l y) (k3 : ∀ z, InChain d l z → KeptFull d E ys' z) :
    SimIs ys ys' := by
  refine ⟨fun y1 hy1 => ?_, fun y1 hy1 => ?_⟩
  · obtain ⟨hin, hf⟩ := h2 y1 hy1
    obtain ⟨st, hfo⟩ := k3 _ hin
    obtain ⟨l2, hd2, hd2i, hd2b⟩ := rcFull_head hf
    obtain ⟨l3, st⟩ := st
    have hd2i' := hd2i
    obtain ⟨hs2, a1, a2⟩ := hd2i
    obtain ⟨-, rfl⟩ := standsAlong_unique D a1 st
    obtain ⟨m1, m2, m3⟩ := hfo _ a2
    exact ⟨_, m1, rcFull_unique D y1 hf m3 hd2b m2 ⟨_, hd2i'⟩⟩
  · obtain ⟨hin, hf⟩ := k2 y1 hy1
    obtain ⟨st, hfo⟩ := h3 _ hin
    obtain ⟨l2, hd2, hd2i, hd2b⟩ := rcFull_head hf
    obtain ⟨l3, st⟩ := st
    have hd2i' := hd2i
    obtain ⟨hs2, a1, a2⟩ := hd2i
    obtain ⟨-, rfl⟩ := standsAlong_unique D a1 st
    obtain ⟨m1, m2, m3⟩ := hfo _ a2
    exact ⟨_, m1, rcFull_unique D _ m3 hf m2 hd2b ⟨_, hd2i'⟩⟩

/-- The same resolved peripheral, but for the order of its content and how often something is there. -/
def SimP (p p' : IPeripheral) : Prop := p.hd = p'.hd ∧ SimIs p.rcs p'.rcs

theorem periphFull_unique (D : Definite d) {x : Pos} {q q' : IPeripheral} {hd : Processed} (h : PeriphFull d x q) (h' : PeriphFull d x q')
    (b : ButSize hd (.periph q.hd)) (b' : ButSize hd (.periph q'.hd)) (hI : ∃ l, Instance d x l hd) : SimP q q' := by
  obtain ⟨l, hc, s, ⟨hs, h1, h1'⟩, he, h2, h3, h4, h5⟩ := h
  obtain ⟨l', hc', s', ⟨hs', k1, k1'⟩, ke, k2, k3, k4, k5⟩ := h'
  obtain ⟨l0, hs0, hI1, hI2⟩ := hI
  obtain ⟨rfl, rfl⟩ := standsAlong_unique D h1 k1
  obtain ⟨-, rfl⟩ := standsAlong_unique D h1 hI1
  rw [he] at b
  rw [ke] at b'
  have e1 := butSize_inj b .periph (standsAlong_size h1 hI2 h1')
  have e2 := butSize_inj b' .periph (standsAlong_size h1 hI2 k1')
  subst e1
  injection e2 with e2
  subst e2
  have key := contents_unique D h2 h3 k2 k3
  have := sized_unique key h5 k5
  subst this
  exact ⟨he.trans ke.symm, key⟩

theorem deviceFull_sub (D : Definite d) {ps ps' : List IPeripheral} (h : DeviceFull d ps) (h' : DeviceFull d ps') :
    ∀ q ∈ ps, ∃ q' ∈ ps', SimP q q' := by
  intro q hq
  obtain ⟨x, h1, h2⟩ := h.sub q hq
  obtain ⟨hs, ⟨l, k1⟩, k2⟩ := h'.all x h1
  have h2' := h2
  obtain ⟨l', hc, s, hI, he, -⟩ := h2
  have hI' := hI
  obtain ⟨hs', g1, g2⟩ := hI
  obtain ⟨-, rfl⟩ := standsAlong_unique D g1 k1
  obtain ⟨q', hq', b, f⟩ := k2 _ g2
  exact ⟨q', hq', periphFull_unique D h2' f (he ▸ .periph) b ⟨_, hI'⟩⟩

theorem SimI.symm (x : IRC) : ∀ {y : IRC}, SimI x y → SimI y x := by
  refine IRC.induct (P := fun x => ∀ {y : IRC}, SimI x y → SimI y x) ?_ ?_ x
  · intro r fs y h
    cases h with
    | reg h1 h2 h3 h4 =>
      refine .reg (fun f hf => ?_) (fun f hf => ?_) h4 h3
      · obtain ⟨f', hf', e⟩ := h2 f hf
        exact ⟨f', hf', e.symm⟩
      · obtain ⟨f', hf', e⟩ := h1 f hf
        exact ⟨f', hf', e.symm⟩
  · intro c ch ih y h
    cases h with
    | clu R h1 h2 h3 =>
      refine .clu (fun a b => b ∈ ch ∧ R b a) (fun a b h => ih b h.1 (h1 _ _ h.2)) (fun a ha => ?_) (fun a ha => ?_)
      · obtain ⟨x, hx, e⟩ := h3 a ha
        exact ⟨x, hx, hx, e⟩
      · obtain ⟨x, hx, e⟩ := h2 a ha
        exact ⟨x, hx, ha, e⟩

theorem SimP.symm {p p' : IPeripheral} (h : SimP p p') : SimP p' p := by
  refine ⟨h.1.symm, fun x hx => ?_, fun x hx => ?_⟩
  · obtain ⟨y, hy, e⟩ := h.2.2 x hx
    exact ⟨y, hy, e.symm⟩
  · obtain ⟨y, hy, e⟩ := h.2.1 x hx
    exact ⟨y, hy, e.symm⟩

end Svd
