import Verif.Lemmas.UnrollBuilt
import Verif.Props.Reorder
/-
C66: a dim element is an abbreviation: writing its elements out by hand makes no difference.
-/
namespace Svd
open Spec
variable {ord ord' : List Nat → List Nat} {fuel fuel' : Nat} {d d' : SDevice} {dev dev' : Device} {ws ws' : List Warn}

/-! ### declarations -/

/-- A declaration `q` that comes from the declaration `p`. -/
inductive Copy : Parsed → Parsed → Prop
  | same {p} : Copy p p
  | reg {r fs} : Copy (.reg r) (.reg { r with fields := fs })
  | onePeriph {p pl pls} : Expands (.periph p) pls → pl ∈ pls → Copy (.periph p) (.periph (onePeriph p pl))
  | oneClu {c pl pls} : Expands (.clu c) pls → pl ∈ pls → Copy (.clu c) (.clu (oneClu c pl))
  | oneReg {r fs pl pls} : Expands (.reg r) pls → pl ∈ pls → Copy (.reg r) (.reg (oneReg { r with fields := fs } pl))
  | oneField {f m l pl pls} : Expands (.field f) pls → BitsOf f none m l → pl ∈ pls → Copy (.field f) (.field (Spec.oneField f m l pl))

theorem Copy.derived {p q : Parsed} (h : Copy p q) : q.derivedFrom = p.derivedFrom := by cases h <;> rfl
theorem Copy.size {p q : Parsed} (h : Copy p q) : statedSize q = statedSize p := by cases h <;> rfl

theorem plain_fine {p : Parsed} (h1 : ¬ Contains listMark (nameOfDecl p)) (h2 : ∀ t, displayOf p = some t → ¬ Contains listMark t) : ¬ BadDim p := by
  intro hb
  cases hb with
  | lessThanOne h _ _ => exact h1 h
  | markerWithoutDim h _ _ => exact h1 h
  | fieldArray h => exact h1 (array_list h)
  | peripheralList h _ => exact h1 h
  | displayWithoutName h h' _ => exact h2 _ h h'
  | listDisplayOfArray h h' _ _ => exact h2 _ h h'
  | arrayDisplayOfList h h' _ _ => exact h2 _ h (array_list h')

theorem plain_sound {p : Parsed} (h1 : ¬ Contains listMark (nameOfDecl p)) (h2 : ∀ t, displayOf p = some t → ¬ Contains listMark t) : DimSound p :=
  ⟨plain_fine h1 h2, fun _ _ h => absurd h h1⟩

theorem expands_sound {p : Parsed} {pls : List Place} (h : Expands p pls) : DimSound p where
  fine := h.fine
  indices n hn hl ha := by
    cases h.places with
    | expanded h1 h2 h3 h4 h5 =>
      rw [hn] at h1
      injection h1 with h1
      subst h1
      cases h5 with
      | array h0 => exact absurd h0 ha
      | list _ hr => exact ⟨_, hr, h4⟩

theorem expands_marked {p : Parsed} {pls : List Place} (h : Expands p pls) : Contains listMark (nameOfDecl p) := by
  cases h.places with
  | expanded _ _ h3 _ _ =>
    cases h3 with
    | array h0 => exact array_list h0
    | list _ h0 => exact h0

theorem sound_fields {r : SRegister} {fs : List SField} (h : DimSound (.reg r)) : DimSound (.reg { r with fields := fs }) := by
  refine ⟨fun hb => h.fine ?_, h.indices⟩
  exact Like.bad (q := .reg { r with fields := fs }) .reg hb

theorem Copy.sound {p q : Parsed} (h : Copy p q) (hs : DimSound p) : DimSound q := by
  cases h with
  | same => exact hs
  | reg => exact sound_fields hs
  | onePeriph h1 h2 => exact plain_sound (h1.plain _ h2).1 (fun t ht => by cases ht)
  | oneClu h1 h2 => exact plain_sound (h1.plain _ h2).1 (fun t ht => by cases ht)
  | oneReg h1 h2 => exact plain_sound (h1.plain _ h2).1 (h1.plain _ h2).2
  | oneField h1 _ h2 => exact plain_sound (h1.plain _ h2).1 (fun t ht => by cases ht)

theorem Copy.sound_back {p q : Parsed} (h : Copy p q) (hs : DimSound q) : DimSound p := by
  cases h with
  | same => exact hs
  | @reg r fs => exact sound_fields (r := { r with fields := fs }) (fs := r.fields) hs
  | onePeriph h1 h2 => exact expands_sound h1
  | oneClu h1 h2 => exact expands_sound h1
  | oneReg h1 h2 => exact expands_sound h1
  | oneField h1 _ h2 => exact expands_sound h1

/-- A field has bits, and the enumerated values fit. -/
def FieldFits (f : SField) : Prop := ∃ msb lsb, BitsOf f none msb lsb ∧ (∀ c ∈ f.containers, Acceptable c.values (msb - lsb + 1)) ∧ UsagesOK f.containers

theorem oneField_fits {f : SField} {m l : Int} {pl : Place} (hb : BitsOf f none m l) : FieldFits (Spec.oneField f m l pl) ↔ FieldFits f := by
  have e : ∀ s : Int, m + s - (l + s) + 1 = m - l + 1 := fun s => by omega
  constructor
  · rintro ⟨m', l', h1, h2, h3⟩
    obtain ⟨rfl, rfl⟩ := bits_unique bits_oneField h1
    exact ⟨m, l, hb, fun c hc => (by have := h2 c hc; rwa [e] at this), h3⟩
  · rintro ⟨m', l', h1, h2, h3⟩
    obtain ⟨rfl, rfl⟩ := bits_unique hb h1
    exact ⟨_, _, bits_oneField, fun c hc => (by rw [e]; exact h2 c hc), h3⟩

theorem Copy.note {p q : Parsed} (h : Copy p q) {w : Warn} (hw : ¬ PositionWarning w) : DeclNote p w ↔ DeclNote q w := by
  have key : ∀ {p q : Parsed}, Contains listMark (nameOfDecl p) → (dimOf q).dim = none → (DeclNote p w ↔ DeclNote q w) := by
    intro p q h1 h2
    constructor <;> intro h
    · cases h with
      | ignoredDim _ h3 => exact absurd h1 h3
      | swapped _ _ _ _ => exact absurd trivial hw
      | crossed _ _ => exact absurd trivial hw
    · cases h with
      | ignoredDim h3 _ => exact absurd h2 h3
      | swapped _ _ _ _ => exact absurd trivial hw
      | crossed _ _ => exact absurd trivial hw
  cases h with
  | same => exact .rfl
  | @reg r fs => exact ⟨Like.note .reg, Like.note (Like.reg (r := { r with fields := fs }) (fs := r.fields))⟩
  | onePeriph h1 h2 => exact key (expands_marked h1) rfl
  | oneClu h1 h2 => exact key (expands_marked h1) rfl
  | oneReg h1 h2 => exact key (expands_marked h1) rfl
  | oneField h1 _ h2 => exact key (expands_marked h1) rfl

theorem written_mem : ∀ {xs ys : List SRC}, WrittenRCs xs ys → ∀ {x : SRC}, x ∈ xs → ∃ a, WrittenRC x a ∧ ∀ y ∈ a, y ∈ ys
  | [], _, _, x, hx => by cases hx
  | z :: xs, ys, h, x, hx => by
    rw [WrittenRCs] at h
    obtain ⟨a, b, rfl, h1, h2⟩ := h
    rcases List.mem_cons.1 hx with rfl | hx
    · exact ⟨a, h1, fun y hy => List.mem_append.2 (Or.inl hy)⟩
    · obtain ⟨c, h3, h4⟩ := written_mem h2 hx
      exact ⟨c, h3, fun y hy => List.mem_append.2 (Or.inr (h4 y hy))⟩

theorem written_mem_back : ∀ {xs ys : List SRC}, WrittenRCs xs ys → ∀ {y : SRC}, y ∈ ys → ∃ x ∈ xs, ∃ a, WrittenRC x a ∧ y ∈ a
  | [], _, h, y, hy => by
    rw [WrittenRCs] at h
    subst h
    cases hy
  | z :: xs, ys, h, y, hy => by
    rw [WrittenRCs] at h
    obtain ⟨a, b, rfl, h1, h2⟩ := h
    rcases List.mem_append.1 hy with hy | hy
    · exact ⟨z, by simp, a, h1, hy⟩
    · obtain ⟨x, h3, h4⟩ := written_mem_back h2 hy
      exact ⟨x, by simp [h3], h4⟩

theorem written_reg {r : SRegister} {a : List SRC} (h : WrittenRC (.reg r) a) {y : SRC} (hy : y ∈ a) :
    ∃ gs r', Entrywise WrittenField r.fields gs ∧ y = .reg r' ∧ r'.fields = gs.flatten ∧ Copy (.reg r) (.reg r') := by
  rw [WrittenRC] at h
  obtain ⟨gs, h1, rfl | ⟨pls, h2, rfl⟩⟩ := h
  · rw [List.mem_singleton] at hy
    exact ⟨gs, _, h1, hy, rfl, .reg⟩
  · obtain ⟨pl, h3, rfl⟩ := List.mem_map.1 hy
    exact ⟨gs, _, h1, rfl, rfl, .oneReg h2 h3⟩

theorem written_clu {c : SCluster} {ch : List SRC} {a : List SRC} (h : WrittenRC (.clu c ch) a) {y : SRC} (hy : y ∈ a) :
    ∃ c' zs, WrittenRCs ch zs ∧ y = .clu c' zs ∧ Copy (.clu c) (.clu c') := by
  rw [WrittenRC] at h
  obtain ⟨zs, h1, rfl | ⟨pls, h2, rfl⟩⟩ := h
  · rw [List.mem_singleton] at hy
    exact ⟨c, zs, h1, hy, .same⟩
  · obtain ⟨pl, h3, rfl⟩ := List.mem_map.1 hy
    exact ⟨_, zs, h1, rfl, .oneClu h2 h3⟩

theorem written_some {x : SRC} {a : List SRC} (h : WrittenRC x a) : ∃ y, y ∈ a := List.exists_mem_of_ne_nil _ (written_count (E := 0) h).1

theorem below_written {xs : List SRC} {x : SRC} (h : SBelow xs x) : ∀ {ys : List SRC}, WrittenRCs xs ys → ∃ a, WrittenRC x a ∧ ∀ y ∈ a, SBelow ys y := by
  induction h with
  | here hx =>
    intro ys hr
    obtain ⟨a, h1, h2⟩ := written_mem hr hx
    exact ⟨a, h1, fun y hy => .here (h2 y hy)⟩
  | inside hx _ ih =>
    intro ys hr
    obtain ⟨a, h1, h2⟩ := written_mem hr hx
    obtain ⟨y, hy⟩ := written_some h1
    obtain ⟨c', zs, h3, rfl, -⟩ := written_clu h1 hy
    obtain ⟨b, h4, h5⟩ := ih h3
    exact ⟨b, h4, fun z hz => .inside (h2 _ hy) (h5 z hz)⟩

theorem below_back {ys : List SRC} {y : SRC} (h : SBelow ys y) : ∀ {xs : List SRC}, WrittenRCs xs ys → ∃ x, SBelow xs x ∧ ∃ a, WrittenRC x a ∧ y ∈ a := by
  induction h with
  | here hy =>
    intro xs hr
    obtain ⟨x, h1, h2⟩ := written_mem_back hr hy
    exact ⟨x, .here h1, h2⟩
  | inside hy _ ih =>
    intro xs hr
    obtain ⟨x, h1, a, h2, h3⟩ := written_mem_back hr hy
    cases x with
    | reg r =>
      obtain ⟨gs, r', -, e, -⟩ := written_reg h2 h3
      cases e
    | clu c ch =>
      obtain ⟨c', zs, h4, e, -⟩ := written_clu h2 h3
      injection e with e1 e2
      subst e2
      obtain ⟨u, h5, h6⟩ := ih h4
      exact ⟨u, .inside h1 h5, h6⟩

theorem writtenField_copy {f g : SField} {fs : List SField} (h : WrittenField f fs) (hg : g ∈ fs) : Copy (.field f) (.field g) ∧ g.containers = f.containers ∧
    (FieldFits g ↔ FieldFits f) := by
  rcases h with rfl | ⟨pls, m, l, h1, h2, rfl⟩
  · rw [List.mem_singleton] at hg
    subst hg
    exact ⟨.same, rfl, .rfl⟩
  · obtain ⟨pl, h3, rfl⟩ := List.mem_map.1 hg
    exact ⟨.oneField h1 h2 h3, rfl, oneField_fits h2⟩

theorem writtenField_some {f : SField} {fs : List SField} (h : WrittenField f fs) : ∃ g, g ∈ fs := by
  rcases h with rfl | ⟨pls, m, l, h1, h2, rfl⟩
  · exact ⟨f, by simp⟩
  · obtain ⟨pl, hp⟩ := List.exists_mem_of_ne_nil _ (places_pos h1.places)
    exact ⟨_, List.mem_map.2 ⟨pl, hp, rfl⟩⟩

theorem writtenPeriph_forms {p : SPeriphT} {ps : List SPeriphT} (h : WrittenPeriph p ps) : (∃ q, q ∈ ps) ∧
    ∀ q ∈ ps, WrittenRCs p.rcs q.rcs ∧ Copy (.periph p.hd) (.periph q.hd) := by
  obtain ⟨zs, h1, rfl | ⟨pls, h2, rfl⟩⟩ := h
  · refine ⟨⟨_, List.mem_singleton.2 rfl⟩, fun q hq => ?_⟩
    rw [List.mem_singleton] at hq
    subst hq
    exact ⟨h1, .same⟩
  · obtain ⟨pl, hp⟩ := List.exists_mem_of_ne_nil _ (places_pos h2.places)
    refine ⟨⟨_, List.mem_map.2 ⟨pl, hp, rfl⟩⟩, fun q hq => ?_⟩
    obtain ⟨pl, h3, rfl⟩ := List.mem_map.1 hq
    exact ⟨h1, .onePeriph h2 h3⟩

/-- Every declaration is left or written out. -/
theorem declared_written (h : Unrolled d d') {p : Parsed} (hp : Declared d p) : ∃ q, Declared d' q ∧ Copy p q := by
  obtain ⟨bs, hr, rfl⟩ := h
  have hper : ∀ {p : SPeriphT}, p ∈ d.peripherals → ∃ q ∈ bs.flatten, WrittenRCs p.rcs q.rcs ∧ Copy (.periph p.hd) (.periph q.hd) := by
    intro p hp
    obtain ⟨ps, h1, h2⟩ := entrywise_left' hr hp
    obtain ⟨⟨q, hq⟩, h3⟩ := writtenPeriph_forms h2
    exact ⟨q, List.mem_flatten.2 ⟨ps, h1, hq⟩, h3 q hq⟩
  have hreg : ∀ {p : SPeriphT} {r : SRegister}, p ∈ d.peripherals → SBelow p.rcs (.reg r) → ∃ q ∈ bs.flatten, ∃ r' gs, SBelow q.rcs (.reg r') ∧
      Entrywise WrittenField r.fields gs ∧ r'.fields = gs.flatten ∧ Copy (.reg r) (.reg r') := by
    intro p r hp hb
    obtain ⟨q, hq, h1, -⟩ := hper hp
    obtain ⟨a, h2, h3⟩ := below_written hb h1
    obtain ⟨y, hy⟩ := written_some h2
    obtain ⟨gs, r', h4, rfl, h5, h6⟩ := written_reg h2 hy
    exact ⟨q, hq, r', gs, h3 _ hy, h4, h5, h6⟩
  have hfield : ∀ {p : SPeriphT} {r : SRegister} {f : SField}, p ∈ d.peripherals → SBelow p.rcs (.reg r) → f ∈ r.fields →
      ∃ q ∈ bs.flatten, ∃ r', SBelow q.rcs (.reg r') ∧ ∃ g ∈ r'.fields, Copy (.field f) (.field g) ∧ g.containers = f.containers := by
    intro p r f hp hb hf
    obtain ⟨q, hq, r', gs, h1, h2, h3, -⟩ := hreg hp hb
    obtain ⟨fs, h4, h5⟩ := entrywise_left' h2 hf
    obtain ⟨g, hg⟩ := writtenField_some h5
    obtain ⟨h6, h7, -⟩ := writtenField_copy h5 hg
    exact ⟨q, hq, r', h1, g, by rw [h3]; exact List.mem_flatten.2 ⟨fs, h4, hg⟩, h6, h7⟩
  cases hp with
  | device => exact ⟨.device, .device, .same⟩
  | @periph p hp =>
    obtain ⟨q, hq, -, h1⟩ := hper hp
    exact ⟨_, .periph hq, h1⟩
  | @clu p c ch hp hb =>
    obtain ⟨q, hq, h1, -⟩ := hper hp
    obtain ⟨a, h2, h3⟩ := below_written hb h1
    obtain ⟨y, hy⟩ := written_some h2
    obtain ⟨c', zs, -, rfl, h4⟩ := written_clu h2 hy
    exact ⟨_, .clu hq (h3 _ hy), h4⟩
  | reg hp hb =>
    obtain ⟨q, hq, r', gs, h1, -, -, h2⟩ := hreg hp hb
    exact ⟨_, .reg hq h1, h2⟩
  | field hp hb hf =>
    obtain ⟨q, hq, r', h1, g, h2, h3, -⟩ := hfield hp hb hf
    exact ⟨_, .field hq h1 h2, h3⟩
  | @enum p r f e hp hb hf he =>
    obtain ⟨q, hq, r', h1, g, h2, -, h3⟩ := hfield hp hb hf
    exact ⟨_, .enum hq h1 h2 (by rw [h3]; exact he), .same⟩

/-- Every declaration comes from one that is left or written out. -/
theorem declared_back (h : Unrolled d d') {q : Parsed} (hq : Declared d' q) : ∃ p, Declared d p ∧ Copy p q := by
  obtain ⟨bs, hr, rfl⟩ := h
  have hper : ∀ {q : SPeriphT}, q ∈ bs.flatten → ∃ p ∈ d.peripherals, WrittenRCs p.rcs q.rcs ∧ Copy (.periph p.hd) (.periph q.hd) := by
    intro q hq
    obtain ⟨ps, h1, h2⟩ := List.mem_flatten.1 hq
    obtain ⟨p, h3, h4⟩ := entrywise_right hr h1
    exact ⟨p, h3, (writtenPeriph_forms h4).2 q h2⟩
  have hreg : ∀ {q : SPeriphT} {r' : SRegister}, q ∈ bs.flatten → SBelow q.rcs (.reg r') → ∃ p ∈ d.peripherals, ∃ r gs, SBelow p.rcs (.reg r) ∧
      Entrywise WrittenField r.fields gs ∧ r'.fields = gs.flatten ∧ Copy (.reg r) (.reg r') := by
    intro q r' hq hb
    obtain ⟨p, hp, h1, -⟩ := hper hq
    obtain ⟨x, h2, a, h3, h4⟩ := below_back hb h1
    cases x with
    | clu c ch =>
      obtain ⟨c', zs, -, e, -⟩ := written_clu h3 h4
      cases e
    | reg r =>
      obtain ⟨gs, r'', h5, e, h6, h7⟩ := written_reg h3 h4
      injection e with e
      subst e
      exact ⟨p, hp, r, gs, h2, h5, h6, h7⟩
  have hfield : ∀ {q : SPeriphT} {r' : SRegister} {g : SField}, q ∈ bs.flatten → SBelow q.rcs (.reg r') → g ∈ r'.fields →
      ∃ p ∈ d.peripherals, ∃ r, SBelow p.rcs (.reg r) ∧ ∃ f ∈ r.fields, Copy (.field f) (.field g) ∧ g.containers = f.containers := by
    intro q r' g hq hb hg
    obtain ⟨p, hp, r, gs, h1, h2, h3, -⟩ := hreg hq hb
    rw [h3] at hg
    obtain ⟨fs, h4, h5⟩ := List.mem_flatten.1 hg
    obtain ⟨f, h6, h7⟩ := entrywise_right h2 h4
    obtain ⟨h8, h9, -⟩ := writtenField_copy h7 h5
    exact ⟨p, hp, r, h1, f, h6, h8, h9⟩
  cases hq with
  | device => exact ⟨.device, .device, .same⟩
  | @periph q hq =>
    obtain ⟨p, hp, -, h1⟩ := hper hq
    exact ⟨_, .periph hp, h1⟩
  | @clu q c ch hq hb =>
    obtain ⟨p, hp, h1, -⟩ := hper hq
    obtain ⟨x, h2, a, h3, h4⟩ := below_back hb h1
    cases x with
    | reg r =>
      obtain ⟨gs, r', -, e, -⟩ := written_reg h3 h4
      cases e
    | clu c0 ch0 =>
      obtain ⟨c', zs, -, e, h5⟩ := written_clu h3 h4
      injection e with e1 e2
      subst e1
      exact ⟨_, .clu hp h2, h5⟩
  | reg hq hb =>
    obtain ⟨p, hp, r, gs, h1, -, -, h2⟩ := hreg hq hb
    exact ⟨_, .reg hp h1, h2⟩
  | field hq hb hg =>
    obtain ⟨p, hp, r, h1, f, h2, h3, -⟩ := hfield hq hb hg
    exact ⟨_, .field hp h1 h2, h3⟩
  | @enum q r' g e hq hb hg he =>
    obtain ⟨p, hp, r, h1, f, h2, -, h3⟩ := hfield hq hb hg
    exact ⟨_, .enum hp h1 h2 (by rw [← h3]; exact he), .same⟩

theorem Copy.fits {f : SField} {q : Parsed} (h : Copy (.field f) q) : ∃ g, q = .field g ∧ (FieldFits f ↔ FieldFits g) := by
  cases h with
  | same => exact ⟨f, rfl, .rfl⟩
  | oneField h1 h2 h3 => exact ⟨_, rfl, (oneField_fits h2).symm⟩

theorem Copy.fits_back {p : Parsed} {g : SField} (h : Copy p (.field g)) : ∃ f, p = .field f ∧ (FieldFits f ↔ FieldFits g) := by
  cases h with
  | same => exact ⟨g, rfl, .rfl⟩
  | oneField h1 h2 h3 => exact ⟨_, rfl, (oneField_fits h2).symm⟩

theorem unrolled_underived (h : Unrolled d d') : Underived d ↔ Underived d' := by
  constructor
  · intro hu q hq
    obtain ⟨p, hp, hc⟩ := declared_back h hq
    rw [hc.derived]
    exact hu p hp
  · intro hu p hp
    obtain ⟨q, hq, hc⟩ := declared_written h hp
    rw [← hc.derived]
    exact hu q hq

theorem unrolled_some (h : Unrolled d d') : d.peripherals = [] ↔ d'.peripherals = [] := by
  obtain ⟨bs, hr, rfl⟩ := h
  constructor
  · intro e
    rw [e] at hr
    cases hr
    rfl
  · intro e
    cases hp : d.peripherals with
    | nil => rfl
    | cons p ps =>
      obtain ⟨b, h1, h2⟩ := entrywise_left' hr (x := p) (by rw [hp]; simp)
      obtain ⟨⟨q, hq⟩, -⟩ := writtenPeriph_forms h2
      have : q ∈ bs.flatten := List.mem_flatten.2 ⟨b, h1, hq⟩
      rw [show bs.flatten = [] from e] at this
      cases this

theorem unrolled_buildable (h : Unrolled d d') : Buildable d ↔ Buildable d' := by
  constructor
  · intro hb
    refine ⟨fun e => hb.some ((unrolled_some h).2 e), fun q hq => ?_, fun g hg => ?_⟩
    · obtain ⟨p, hp, hc⟩ := declared_back h hq
      exact hc.sound (hb.dims p hp)
    · obtain ⟨p, hp, hc⟩ := declared_back h hg
      obtain ⟨f, rfl, h1⟩ := hc.fits_back
      exact h1.1 (hb.fields f hp)
  · intro hb
    refine ⟨fun e => hb.some ((unrolled_some h).1 e), fun p hp => ?_, fun f hf => ?_⟩
    · obtain ⟨q, hq, hc⟩ := declared_written h hp
      exact hc.sound_back (hb.dims q hq)
    · obtain ⟨q, hq, hc⟩ := declared_written h hf
      obtain ⟨g, rfl, h1⟩ := hc.fits
      exact h1.2 (hb.fields g hq)

theorem unrolled_notes (hr : Unrolled d d') (hord : ∀ l, (ord l).Perm l) (hord' : ∀ l, (ord' l).Perm l) (hu : Underived d)
    (h : processDevice ord fuel d = .ok dev ws) (h' : processDevice ord' fuel' d' = .ok dev' ws') {w : Warn} (hp : ¬ PositionWarning w)
    (hw : ResolutionWarning w) : w ∈ ws ↔ w ∈ ws' := by
  have h1 := C61_underived hord hu h w
  have h2 := C61_underived hord' ((unrolled_underived hr).1 hu) h' w
  have key : ((∃ x p, DeclAt d x p ∧ DeclNote p w) ∨ ∃ y c, DeclAt d y (.enum c) ∧ EntriesNote c.values w) ↔
      (∃ x p, DeclAt d' x p ∧ DeclNote p w) ∨ ∃ y c, DeclAt d' y (.enum c) ∧ EntriesNote c.values w := by
    constructor
    · rintro (⟨x, p, h3, h4⟩ | ⟨y, c, h3, h4⟩)
      · obtain ⟨q, h5, h6⟩ := declared_written hr (declared_of_declAt h3)
        obtain ⟨z, h7⟩ := declAt_of_declared h5
        exact Or.inl ⟨z, q, h7, (h6.note hp).1 h4⟩
      · obtain ⟨q, h5, h6⟩ := declared_written hr (declared_of_declAt h3)
        obtain ⟨z, h7⟩ := declAt_of_declared h5
        cases h6
        exact Or.inr ⟨z, c, h7, h4⟩
    · rintro (⟨x, p, h3, h4⟩ | ⟨y, c, h3, h4⟩)
      · obtain ⟨q, h5, h6⟩ := declared_back hr (declared_of_declAt h3)
        obtain ⟨z, h7⟩ := declAt_of_declared h5
        exact Or.inl ⟨z, q, h7, (h6.note hp).2 h4⟩
      · obtain ⟨q, h5, h6⟩ := declared_back hr (declared_of_declAt h3)
        obtain ⟨z, h7⟩ := declAt_of_declared h5
        cases h6
        exact Or.inr ⟨z, c, h7, h4⟩
  constructor
  · intro hm
    exact (h2.2 (key.1 (h1.1 ⟨hm, hw⟩))).1
  · intro hm
    exact (h1.2 (key.2 (h2.1 ⟨hm, hw⟩))).1

/-! ### C66 -/

/-- C66: a description without `derivedFrom` and the same one with some of its dim elements written out by hand, both accepted:
they give the same device and the same warnings (apart from those about the way the bits of a field are written). -/
theorem C66_same (hr : Unrolled d d') (hu : Underived d) (hord : ∀ l, (ord l).Perm l) (hord' : ∀ l, (ord' l).Perm l)
    (h : processDevice ord fuel d = .ok dev ws) (h' : processDevice ord' fuel' d' = .ok dev' ws') :
    dev = dev' ∧ ∀ w, ¬ PositionWarning w → (w ∈ ws ↔ w ∈ ws') := by
  obtain ⟨ps, w1, w2, h1, h2, e1⟩ := processDevice_ok.1 h
  obtain ⟨ps', w1', w2', h1', h2', e1'⟩ := processDevice_ok.1 h'
  have hs := unrolled_built hr (resolve_built hu h1) (resolve_built ((unrolled_underived hr).1 hu) h1')
  have hh : deviceHead d'.hd = deviceHead d.hd := by
    obtain ⟨ps, -, rfl⟩ := hr
    rfl
  rw [hh] at h2'
  obtain ⟨u, h3, h4⟩ := finish_same (d := { hd := deviceHead d.hd, peripherals := ps }) (d' := { hd := deviceHead d.hd, peripherals := ps' }) rfl hs h2
  rw [h3] at h2'
  injection h2' with h5 h6
  subst h5 h6
  refine ⟨rfl, fun w hp => ?_⟩
  by_cases hk : ResolutionWarning w
  · exact unrolled_notes hr hord hord' hu h h' hp hk
  · rw [e1, e1', List.mem_append, List.mem_append]
    have n1 : w ∉ w1 := fun hm => hk (resolve_kind h1 hm)
    have n2 : w ∉ w1' := fun hm => hk (resolve_kind h1' hm)
    have := h4.mem_iff (a := w)
    constructor
    · rintro (hm | hm)
      · exact absurd hm n1
      · exact Or.inr (this.1 hm)
    · rintro (hm | hm)
      · exact absurd hm n2
      · exact Or.inr (this.2 hm)

theorem sameIF_symm {f g : IField} (h : SameIF f g) : SameIF g f :=
  ⟨h.1.symm, h.2.1.symm, ((h.2.1.map (·.usage)).nodup_iff).1 h.2.2⟩

theorem sameI_symm (x : IRC) : ∀ {y : IRC}, SameI x y → SameI y x := by
  refine IRC.induct (P := fun x => ∀ {y : IRC}, SameI x y → SameI y x) ?_ ?_ x
  · intro r fs y h
    rw [SameI] at h
    obtain ⟨gs, rfl, h1, h2, h3⟩ := h
    rw [SameI]
    exact ⟨fs, rfl, h1.symm fun _ _ _ => sameIF_symm, h3, h2⟩
  · intro c ch ih y h
    rw [SameI] at h
    obtain ⟨zs, ys, rfl, h1, h2⟩ := h
    rw [SameI]
    obtain ⟨us, h3, h4⟩ := Reorder.symm ⟨zs, sameIs_iff.1 h1, h2⟩ fun x hx y h => ih x hx h
    exact ⟨us, ch, rfl, sameIs_iff.2 h3, h4⟩

theorem sameIP_symm {p q : IPeripheral} (h : SameIP p q) : SameIP q p :=
  ⟨h.1.symm, h.2.symm fun x _ _ => sameI_symm x⟩

/-- C66, acceptance: with sizes that are not negative, the one is accepted exactly if the other is. -/
theorem C66_accepted (hr : Unrolled d d') (hu : Underived d) (hz : ∀ p, Declared d p → ∀ s, statedSize p = some s → 0 ≤ s) (f f' : Nat) :
    (∃ ws, processDevice ord (f + 2) d = .ok dev ws) ↔ ∃ ws', processDevice ord' (f' + 2) d' = .ok dev ws' := by
  have hu' := (unrolled_underived hr).1 hu
  have hz' : ∀ p, Declared d' p → ∀ s, statedSize p = some s → 0 ≤ s := by
    intro q hq s hs
    obtain ⟨p, hp, hc⟩ := declared_back hr hq
    exact hz p hp s (by rw [← hc.size]; exact hs)
  have hh : deviceHead d'.hd = deviceHead d.hd := by
    obtain ⟨ps, -, rfl⟩ := hr
    rfl
  constructor
  · rintro ⟨ws, h⟩
    obtain ⟨ps, w1, w2, h1, h2, -⟩ := processDevice_ok.1 h
    obtain ⟨ps', w1', h3⟩ := resolve_total ord' f' hu' (able_of hu' hz' ((unrolled_buildable hr).1 (buildable_of hu h1)))
    have hs := unrolled_built hr (resolve_built hu h1) (resolve_built hu' h3)
    obtain ⟨u, h4, -⟩ := finish_same (d := { hd := deviceHead d.hd, peripherals := ps }) (d' := { hd := deviceHead d'.hd, peripherals := ps' }) hh.symm hs h2
    exact ⟨_, processDevice_ok.2 ⟨ps', w1', u, h3, h4, rfl⟩⟩
  · rintro ⟨ws, h⟩
    obtain ⟨ps', w1, w2, h1, h2, -⟩ := processDevice_ok.1 h
    obtain ⟨ps, w1', h3⟩ := resolve_total ord f hu (able_of hu hz ((unrolled_buildable hr).2 (buildable_of hu' h1)))
    have hs := (unrolled_built hr (resolve_built hu h3) (resolve_built hu' h1)).symm fun _ _ _ => sameIP_symm
    obtain ⟨u, h4, -⟩ := finish_same (d := { hd := deviceHead d'.hd, peripherals := ps' }) (d' := { hd := deviceHead d.hd, peripherals := ps }) hh hs h2
    exact ⟨_, processDevice_ok.2 ⟨ps, w1', u, h3, h4, rfl⟩⟩

/-! ### samples -/

namespace Sample
def abbrDim (inc : Int) (i : Option Str) : SDim := { dim := some 2, dimIncrement := some inc, dimIndex := i }
def abbrE : SEnumContainer := { name := some (s%"E"), values := [{ name := s%"ON", value := some (s%"1") }, { name := s%"ON", value := some (s%"2") }] }
def abbrF : SField := { name := s%"F%s", bitRange := some (s%"[3:0]"), containers := [abbrE], dim := abbrDim 8 none }
def abbrR (fs : List SField) : SRegister := { name := s%"R[%s]", displayName := some (s%"D[%s]"), addressOffset := 4, dim := abbrDim 4 none, fields := fs }
def abbrC : SCluster := { name := s%"C%s", addressOffset := 16, dim := abbrDim 16 (some (s%"A-B")), props := { size := some 16 } }
def abbrP : SPeripheral := { name := s%"T[%s]", baseAddress := 4096, dim := abbrDim 256 none, addressBlocks := [{ offset := 0, size := 256, usage := .registers }] }

def abbrPls (a b : Str) (inc : Int) (n m : Option Str := none) : List Place := [⟨0, a, n, 0⟩, ⟨1, b, m, inc⟩]
def longF : List SField := (abbrPls (s%"F0") (s%"F1") 8).map (Spec.oneField abbrF 3 0)
def longR : List SRC := (abbrPls (s%"R0") (s%"R1") 4 (some (s%"D0")) (some (s%"D1"))).map fun pl => .reg (Spec.oneReg (abbrR longF) pl)
def longC : List SRC := (abbrPls (s%"CA") (s%"CB") 16).map fun pl => .clu (Spec.oneClu abbrC pl) longR
def abbrX : SRC := .reg { name := s%"X", addressOffset := 0 }

/-- Two peripherals with two clusters each, of two registers with two fields, in four dim elements inside each other. -/
def abbreviated : SDevice := { hd := { name := s%"DEV", addressUnitBits := 8, width := 32 }, peripherals := [{ hd := abbrP, rcs := [abbrX, .clu abbrC [.reg (abbrR [abbrF])]] }] }
/-- The same with all of them written out. -/
def inFull : SDevice := { hd := { name := s%"DEV", addressUnitBits := 8, width := 32 }, peripherals := (abbrPls (s%"T0") (s%"T1") 256).map fun pl => { hd := Spec.onePeriph abbrP pl, rcs := abbrX :: longC } }
/-- The same with the clusters left. -/
def inPart : SDevice := { hd := { name := s%"DEV", addressUnitBits := 8, width := 32 }, peripherals := (abbrPls (s%"T0") (s%"T1") 256).map fun pl => { hd := Spec.onePeriph abbrP pl, rcs := [abbrX, .clu abbrC longR] } }

theorem abbr_underived : Underived abbreviated := underived_of (by decide +kernel)

theorem abbr_sound {p : Parsed} (h : Declared abbreviated p) : ¬ BadDim p := by
  obtain ⟨dev, ws, h1, -⟩ := okAnd_spec (x := processDevice id 10 abbreviated) (p := fun _ _ => true) (by decide +kernel)
  obtain ⟨ps, w1, w2, h2, -⟩ := processDevice_ok.1 h1
  exact ((buildable_of abbr_underived h2).dims p h).fine

theorem not_contains {a b : Str} (h : hasSub a b = false) : ¬ Contains a b := by
  intro hc
  rw [hasSub_iff.2 hc] at h
  cases h

theorem expands_of {p : Parsed} {pls : List Place} (hp : Places (nameOfDecl p) (displayOf p) (dimOf p) true pls) (hf : ¬ BadDim p)
    (h : pls.all (fun pl => !hasSub listMark pl.name && (match pl.display with | none => true | some t => !hasSub listMark t)) = true) : Expands p pls := by
  refine ⟨hp, hf, fun pl hpl => ?_⟩
  have := List.all_eq_true.1 h pl hpl
  rw [Bool.and_eq_true] at this
  refine ⟨not_contains (by simpa using this.1), fun t ht => ?_⟩
  rw [ht] at this
  exact not_contains (by simpa using this.2)

theorem abbrF_expands : Expands (.field abbrF) (abbrPls (s%"F0") (s%"F1") 8) := by
  refine expands_of ?_ (abbr_sound (.field (p := abbreviated.peripherals.head (by decide)) (by simp [abbreviated]) (.inside (c := abbrC) (ch := [.reg (abbrR [abbrF])]) (by simp [abbreviated]) (.here (List.mem_singleton.2 rfl))) (List.mem_singleton.2 rfl))) (by decide +kernel)
  exact .expanded (n := 2) (mark := listMark) (idx := [s%"0", s%"1"]) rfl (by decide) (.list (not_contains (by decide +kernel)) (hasSub_iff.1 (by decide +kernel))) rfl
    (.list (not_contains (by decide +kernel)) .absent)

theorem abbrR_expands : Expands (.reg (abbrR [abbrF])) (abbrPls (s%"R0") (s%"R1") 4 (some (s%"D0")) (some (s%"D1"))) := by
  refine expands_of ?_ (abbr_sound (.reg (p := abbreviated.peripherals.head (by decide)) (by simp [abbreviated]) (.inside (c := abbrC) (ch := [.reg (abbrR [abbrF])]) (by simp [abbreviated]) (.here (List.mem_singleton.2 rfl))))) (by decide +kernel)
  exact .expanded (n := 2) (mark := arrayMark) (idx := [s%"0", s%"1"]) rfl (by decide) (.array (hasSub_iff.1 (by decide +kernel))) rfl
    (.array (hasSub_iff.1 (by decide +kernel)))

theorem abbrC_expands : Expands (.clu abbrC) (abbrPls (s%"CA") (s%"CB") 16) := by
  refine expands_of ?_ (abbr_sound (.clu (p := abbreviated.peripherals.head (by decide)) (ch := [.reg (abbrR [abbrF])]) (by simp [abbreviated]) (.here (by simp [abbreviated])))) (by decide +kernel)
  exact .expanded (n := 2) (mark := listMark) (idx := [s%"A", s%"B"]) rfl (by decide) (.list (not_contains (by decide +kernel)) (hasSub_iff.1 (by decide +kernel))) rfl
    (.list (not_contains (by decide +kernel)) (.letters (by decide) (by decide) (by decide)))

theorem abbrP_expands : Expands (.periph abbrP) (abbrPls (s%"T0") (s%"T1") 256) := by
  refine expands_of ?_ (abbr_sound (.periph (p := abbreviated.peripherals.head (by decide)) (by simp [abbreviated]))) (by decide +kernel)
  exact .expanded (n := 2) (mark := arrayMark) (idx := [s%"0", s%"1"]) rfl (by decide) (.array (hasSub_iff.1 (by decide +kernel))) rfl
    (.array (hasSub_iff.1 (by decide +kernel)))

theorem abbr_bits : BitsOf abbrF none 3 0 := .range (x := s%"3") (y := s%"0") (rest := []) rfl ⟨by decide, by decide⟩ ⟨by decide, by decide⟩

theorem abbrX_written : WrittenRC abbrX [abbrX] := by
  unfold abbrX
  rw [WrittenRC]
  exact ⟨[], .nil, Or.inl rfl⟩

theorem abbrR_written : WrittenRCs [.reg (abbrR [abbrF])] longR := by
  rw [WrittenRCs]
  refine ⟨longR, [], by simp, ?_, by rw [WrittenRCs]⟩
  rw [WrittenRC]
  exact ⟨[longF], .cons (Or.inr ⟨_, 3, 0, abbrF_expands, abbr_bits, rfl⟩) .nil, Or.inr ⟨_, abbrR_expands, by simp [longR, abbrR]⟩⟩

theorem abbr_full : Unrolled abbreviated inFull := by
  refine ⟨[inFull.peripherals], .cons ⟨abbrX :: longC, ?_, Or.inr ⟨_, abbrP_expands, rfl⟩⟩ .nil, by simp [inFull, abbreviated]⟩
  rw [WrittenRCs]
  refine ⟨[abbrX], longC, rfl, abbrX_written, ?_⟩
  rw [WrittenRCs]
  refine ⟨longC, [], by simp, ?_, by rw [WrittenRCs]⟩
  rw [WrittenRC]
  exact ⟨longR, abbrR_written, Or.inr ⟨_, abbrC_expands, rfl⟩⟩

theorem abbr_part : Unrolled abbreviated inPart := by
  refine ⟨[inPart.peripherals], .cons ⟨[abbrX, .clu abbrC longR], ?_, Or.inr ⟨_, abbrP_expands, rfl⟩⟩ .nil, by simp [inPart, abbreviated]⟩
  rw [WrittenRCs]
  refine ⟨[abbrX], [.clu abbrC longR], rfl, abbrX_written, ?_⟩
  rw [WrittenRCs]
  refine ⟨[.clu abbrC longR], [], by simp, ?_, by rw [WrittenRCs]⟩
  rw [WrittenRC]
  exact ⟨longR, abbrR_written, Or.inl rfl⟩
end Sample

/-- The hypotheses of C66 are met by a description with four dim elements inside each other, written out in part and in full. -/
theorem C66_sample : Unrolled Sample.abbreviated Sample.inFull ∧ Unrolled Sample.abbreviated Sample.inPart ∧ Underived Sample.abbreviated ∧
    (∀ p, Declared Sample.abbreviated p → ∀ s, statedSize p = some s → 0 ≤ s) ∧
    (∃ dev ws, processDevice id 10 Sample.abbreviated = .ok dev ws ∧ Warn.enumDuplicateName (s%"ON") ∈ ws) ∧
    (∃ dev ws, processDevice id 10 Sample.inFull = .ok dev ws) ∧ ∃ dev ws, processDevice id 10 Sample.inPart = .ok dev ws := by
  refine ⟨Sample.abbr_full, Sample.abbr_part, Sample.abbr_underived, ?_, ?_, ?_, ?_⟩
  · intro p hp s hs
    have h : (Sample.declared Sample.abbreviated).all (fun p => match statedSize p with | some s => decide (0 ≤ s) | none => true) = true := by decide +kernel
    have := List.all_eq_true.1 h p (Sample.declared_mem hp)
    rw [hs] at this
    exact of_decide_eq_true this
  · obtain ⟨dev, ws, h1, h2⟩ := Sample.okAnd_spec (x := processDevice id 10 Sample.abbreviated) (p := fun _ ws => ws.contains (.enumDuplicateName (s%"ON"))) (by decide +kernel)
    exact ⟨dev, ws, h1, by simpa using h2⟩
  · obtain ⟨dev, ws, h1, h2⟩ := Sample.okAnd_spec (x := processDevice id 10 Sample.inFull) (p := fun _ _ => true) (by decide +kernel)
    exact ⟨dev, ws, h1⟩
  · obtain ⟨dev, ws, h1, h2⟩ := Sample.okAnd_spec (x := processDevice id 10 Sample.inPart) (p := fun _ _ => true) (by decide +kernel)
    exact ⟨dev, ws, h1⟩

end Svd
