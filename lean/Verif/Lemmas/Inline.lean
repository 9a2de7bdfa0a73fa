import Verif.Spec.Inline
import Verif.Props.Extend
/- Two descriptions whose declarations correspond to each other after completion. -/
namespace Svd
open Spec

variable {d d' : SDevice}

/-- The same declaration (not of `enumeratedValues`), apart from its reference and its content. -/
inductive Retold : Parsed → Parsed → Prop
  | periph {p x} : Retold (.periph p) (.periph { p with derivedFrom := x })
  | clu {c x} : Retold (.clu c) (.clu { c with derivedFrom := x })
  | reg {r x fs} : Retold (.reg r) (.reg { r with derivedFrom := x, fields := fs })
  | field {f x cs} : Retold (.field f) (.field { f with derivedFrom := x, containers := cs })

theorem Retold.name {p q : Parsed} (h : Retold p q) : nameOfDecl q = nameOfDecl p := by cases h <;> rfl
theorem Retold.dim {p q : Parsed} (h : Retold p q) : dimOf q = dimOf p := by cases h <;> rfl
theorem Retold.display {p q : Parsed} (h : Retold p q) : displayOf q = displayOf p := by cases h <;> rfl
theorem Retold.kind {p q : Parsed} (h : Retold p q) : kindOf q = kindOf p := by cases h <;> rfl

theorem bits_retold {f g : SField} (h1 : g.bitRange = f.bitRange) (h2 : g.lsb = f.lsb) (h3 : g.msb = f.msb) (h4 : g.bitOffset = f.bitOffset)
    (h5 : g.bitWidth = f.bitWidth) {b : Option IFieldHd} {m l : Int} (h : BitsOf f b m l) : BitsOf g b m l := by
  cases h with
  | range a1 a2 a3 => exact .range (h1.trans a1) a2 a3
  | lsbMsb a1 a2 a3 a4 => exact .lsbMsb (h1.trans a1) (by rw [h2, h3]; exact a2) (by rw [h2]; exact a3) (by rw [h3]; exact a4)
  | offsetWidth a1 a2 a3 a4 a5 =>
    exact .offsetWidth (h1.trans a1) (by rw [h2, h3]; exact a2) (by rw [h4, h5]; exact a3) (by rw [h4]; exact a4) (by rw [h5]; exact a5)

theorem Retold.headAt {p q : Parsed} (h : Retold p q) {ex : Bool} {pl : Place} {a : Processed} (ha : HeadAt ex p pl a) : HeadAt ex q pl a := by
  cases h with
  | @periph p x => cases ha with
    | periph h1 h2 => exact HeadAt.periph (p := { p with derivedFrom := x }) h1 h2
  | @clu c x => cases ha; exact HeadAt.clu (c := { c with derivedFrom := x })
  | @reg r x fs => cases ha; exact HeadAt.reg (r := { r with derivedFrom := x, fields := fs })
  | @field f x cs => cases ha with
    | field h1 => exact HeadAt.field (f := { f with derivedFrom := x, containers := cs }) (bits_retold (f := f) (g := { f with derivedFrom := x, containers := cs }) rfl rfl rfl rfl rfl h1)

theorem Retold.stands {p q : Parsed} (h : Retold p q) {hs : List Processed} (hh : StandsFor p hs) : StandsFor q hs := by
  obtain ⟨ex, pls, h1, h2⟩ := hh
  refine ⟨ex, pls, by rw [h.name, h.display, h.dim]; exact h1, entrywise_imp h2 fun _ _ _ _ k => h.headAt k⟩

theorem Retold.note {p q : Parsed} (h : Retold p q) {w : Warn} : DeclNote p w ↔ DeclNote q w := by
  constructor <;> intro hn
  · cases hn with
    | ignoredDim h1 h2 =>
      rw [← h.name]
      exact .ignoredDim (by rwa [h.dim]) (by rwa [h.name])
    | swapped h1 h2 h3 h4 => cases h with
      | field => exact .swapped h1 h2 h3 h4
    | @crossed f0 _ _ h1 h2 => cases h with
      | @field f1 x cs => exact DeclNote.crossed (bits_retold (f := f0) (g := { f0 with derivedFrom := x, containers := cs }) rfl rfl rfl rfl rfl h1) h2
  · cases hn with
    | ignoredDim h1 h2 =>
      rw [h.name]
      exact .ignoredDim (by rwa [h.dim] at h1) (by rwa [h.name] at h2)
    | swapped h1 h2 h3 h4 => cases h with
      | field => exact .swapped h1 h2 h3 h4
    | crossed h1 h2 => cases h with
      | @field f x cs => exact DeclNote.crossed (f := f) (bits_retold (f := { f with derivedFrom := x, containers := cs }) (g := f) rfl rfl rfl rfl rfl h1) h2

/-! ### completion -/

theorem Spec.Completes.complete {x : Pos} {l : List Pos} {q : Parsed} (h : Completes d x l q) : Complete d x q := by
  cases h with
  | own h1 h2 => exact .own h1 h2
  | derived h1 h2 h3 h4 h5 => exact .derived h1 h2 h3 h4 h5

theorem complete_completes {x : Pos} {q : Parsed} (h : Complete d x q) : ∃ l, Completes d x l q := by
  cases h with
  | own h1 h2 => exact ⟨_, .own h1 h2⟩
  | derived h1 h2 h3 h4 h5 => exact ⟨_, .derived h1 h2 h3 h4 h5⟩

theorem along_completes {x : Pos} {l : List Pos} {hs : List Processed} : StandsAlong d x l hs ↔ ∃ q, Completes d x l q ∧ StandsFor q hs := by
  constructor
  · intro h
    cases h with
    | own h1 h2 h3 => exact ⟨_, .own h1 h2, h3⟩
    | derived h1 h2 h3 h4 h5 h6 => exact ⟨_, .derived h1 h2 h3 h4 h5, h6⟩
  · rintro ⟨q, h, k⟩
    cases h with
    | own h1 h2 => exact .own h1 h2 k
    | derived h1 h2 h3 h4 h5 => exact .derived h1 h2 h3 h4 h5 k

theorem completes_unique (D : Definite d) {x : Pos} {l l' : List Pos} {q q' : Parsed} (h : Completes d x l q) (h' : Completes d x l' q') : l = l' ∧ q = q' := by
  refine ⟨?_, complete_unique D h.complete h'.complete⟩
  cases h with
  | own h1 h2 =>
    cases h' with
    | own k1 k2 => rfl
    | derived k1 k2 k3 k4 k5 =>
      cases declAt_unique h1 k1
      cases h2.symm.trans k2
  | derived h1 h2 h3 h4 h5 =>
    cases h' with
    | own k1 k2 =>
      cases declAt_unique h1 k1
      cases k2.symm.trans h2
    | derived k1 k2 k3 k4 k5 =>
      cases D.refs _ _ _ h3 k3
      rw [(elementOf_unique D h4 k4).1]

theorem completed_kindOf (p : Parsed) (b : Processed) : kindOf (completed p b) = kindOf p := by
  cases p <;> cases b <;> rfl

theorem Spec.Completes.kind {x : Pos} {l : List Pos} {q : Parsed} (h : Completes d x l q) : ∃ p, DeclAt d x p ∧ kindOf q = kindOf p ∧ x ∈ l := by
  cases h with
  | own h1 h2 => exact ⟨_, h1, rfl, by simp⟩
  | derived h1 h2 h3 h4 h5 => exact ⟨_, h1, completed_kindOf _ _, by simp⟩

/-! ### corresponding positions -/

/-- The positions of two descriptions correspond to each other: what is declared there is, completed, the same, and so is what
is declared inside. -/
structure Unfolds (d d' : SDevice) (R : Pos → Pos → Prop) : Prop where
  decl : ∀ x x', R x x' →
    (∃ l l' q q', Completes d x l q ∧ Completes d' x' l' q' ∧ Retold q q' ∧ (∀ z, InChain d l z → ∃ z', InChain d' l' z' ∧ R z z') ∧
      ∀ z', InChain d' l' z' → ∃ z, InChain d l z ∧ R z z') ∨
    ∃ c c', Takes d x c ∧ Takes d' x' c' ∧ c'.values = c.values ∧ ∀ a b, createContainer c' a b = createContainer c a b
  top : ∀ x, OwnChild d [] x → ∃ x', OwnChild d' [] x' ∧ R x x'
  topBack : ∀ x', OwnChild d' [] x' → ∃ x, OwnChild d [] x ∧ R x x'

namespace Unfolds
variable {R : Pos → Pos → Prop} (U : Unfolds d d' R) (D : Definite d)
include U D

/-- The chains correspond to each other. -/
def Chains (_ : Unfolds d d' R) (_ : Definite d) (l l' : List Pos) : Prop :=
  (∀ z, InChain d l z → ∃ z', InChain d' l' z' ∧ R z z') ∧ ∀ z', InChain d' l' z' → ∃ z, InChain d l z ∧ R z z'

theorem completes {x x' : Pos} (hr : R x x') {l : List Pos} {q : Parsed} (h : Completes d x l q) (hk : kindOf q ≠ .enumcont) :
    ∃ l' q', Completes d' x' l' q' ∧ Retold q q' ∧ U.Chains D l l' := by
  rcases U.decl x x' hr with ⟨l0, l', q0, q', h1, h2, h3, h4, h5⟩ | ⟨c, c', h1, -⟩
  · obtain ⟨rfl, rfl⟩ := completes_unique D h h1
    exact ⟨l', q', h2, h3, h4, h5⟩
  · obtain ⟨c0, h2⟩ := takes_declared h1
    obtain ⟨p, h3, h4, -⟩ := h.kind
    cases declAt_unique h2 h3
    exact absurd h4 hk

theorem standsAlong {x x' : Pos} (hr : R x x') {l : List Pos} {hs : List Processed} (h : StandsAlong d x l hs) :
    ∃ l', StandsAlong d' x' l' hs ∧ U.Chains D l l' := by
  obtain ⟨q, h1, h2⟩ := along_completes.1 h
  obtain ⟨l', q', h3, h4, h5⟩ := U.completes D hr h1 (by
    intro hk
    cases q with
    | enum c =>
      obtain ⟨ex, pl, a, -, ha⟩ := stands_some h2
      cases ha
    | _ => cases hk)
  exact ⟨l', along_completes.2 ⟨q', h3, h4.stands h2⟩, h5⟩

theorem stands {x x' : Pos} (hr : R x x') {hs : List Processed} (h : StandsAt d x hs) : StandsAt d' x' hs := by
  obtain ⟨l, h⟩ := h
  obtain ⟨l', h', -⟩ := U.standsAlong D hr h
  exact ⟨l', h'⟩

theorem instance' {x x' : Pos} (hr : R x x') {l : List Pos} {a : Processed} (h : Instance d x l a) : ∃ l', Instance d' x' l' a ∧ U.Chains D l l' := by
  obtain ⟨hs, h1, h2⟩ := h
  obtain ⟨l', h3, h4⟩ := U.standsAlong D hr h1
  exact ⟨l', ⟨hs, h3, h2⟩, h4⟩

theorem takes {x x' : Pos} (hr : R x x') {c : SEnumContainer} (h : Takes d x c) :
    ∃ c', Takes d' x' c' ∧ c'.values = c.values ∧ ∀ a b, createContainer c' a b = createContainer c a b := by
  rcases U.decl x x' hr with ⟨l0, l', q0, q', h1, h2, h3, -⟩ | ⟨c0, c', h1, h2, h3, h4⟩
  · obtain ⟨c0, h4⟩ := takes_declared h
    obtain ⟨p, h5, h6, -⟩ := h1.kind
    cases declAt_unique h4 h5
    cases h3 <;> cases h6
  · cases takes_unique D h h1
    exact ⟨c', h2, h3, h4⟩

theorem fieldOf {x x' : Pos} (hr : R x x') {g : IField} (h : FieldOf d x g) : FieldOf d' x' g := by
  obtain ⟨l, h1, h2⟩ := h
  obtain ⟨l', h3, h4, h5⟩ := U.instance' D hr h1
  refine ⟨l', h3, ?_, ?_, h2.usages, h2.two, h2.both⟩
  · intro k hk
    obtain ⟨y, c, w, k1, k2, k3⟩ := h2.sub k hk
    obtain ⟨y', k4, k5⟩ := h4 y k1
    obtain ⟨c', k6, -, k7⟩ := U.takes D k5 k2
    exact ⟨y', c', w, k4, k6, by rw [k7]; exact k3⟩
  · intro y' hy'
    obtain ⟨y, hy, k5⟩ := h5 y' hy'
    obtain ⟨k, hk, c, w, k2, k3⟩ := h2.all y hy
    obtain ⟨c', k6, -, k7⟩ := U.takes D k5 k2
    exact ⟨k, hk, c', w, k6, by rw [k7]; exact k3⟩

theorem fieldsOf {l l' : List Pos} (hl : U.Chains D l l') {fs : List IField} (h : FieldsOf d l fs) : FieldsOf d' l' fs := by
  constructor
  · intro g hg
    obtain ⟨y, k1, k2⟩ := h.sub g hg
    obtain ⟨y', k3, k4⟩ := hl.1 y k1
    exact ⟨y', k3, U.fieldOf D k4 k2⟩
  · intro y' hy'
    obtain ⟨y, hy, hr⟩ := hl.2 y' hy'
    obtain ⟨hs, k1, k2⟩ := h.all y hy
    refine ⟨hs, U.stands D hr k1, fun a ha => ?_⟩
    obtain ⟨g, hg, e, k3⟩ := k2 a ha
    exact ⟨g, hg, e, U.fieldOf D hr k3⟩

mutual
theorem rcFull {e : Int} {x x' : Pos} (hr : R x x') {y : IRC} (h : RCFull d e x y) : RCFull d' e x' y := by
  match h with
  | .reg h1 h2 h3 =>
    obtain ⟨l', h4, h5⟩ := U.instance' D hr h1
    exact .reg h4 (U.fieldsOf D h5 h2) h3
  | .clu h1 h2 h3 h4 h5 =>
    obtain ⟨l', h6, h7⟩ := U.instance' D hr h1
    refine .clu h6 (fun y hy => memberFull h7 (h2 y hy)) ?_ h4 h5
    intro z' hz'
    obtain ⟨z, hz, hr'⟩ := h7.2 z' hz'
    exact keptFull hr' (h3 z hz)
theorem memberFull {e : Int} {l l' : List Pos} (hl : U.Chains D l l') {y : IRC} (h : MemberFull d e l y) : MemberFull d' e l' y := by
  match h with
  | .intro h1 h2 =>
    obtain ⟨z', k1, k2⟩ := hl.1 _ h1
    exact .intro k1 (rcFull k2 h2)
theorem keptFull {e : Int} {ys : List IRC} {z z' : Pos} (hr : R z z') (h : KeptFull d e ys z) : KeptFull d' e ys z' := by
  match h with
  | .intro h1 h2 => exact .intro (U.stands D hr h1) fun a ha => foundFull hr (h2 a ha)
theorem foundFull {e : Int} {ys : List IRC} {z z' : Pos} (hr : R z z') {a : Processed} (h : FoundFull d e ys z a) : FoundFull d' e ys z' a := by
  match h with
  | .intro h1 h2 h3 => exact .intro h1 h2 (rcFull hr h3)
end

theorem periphFull {x x' : Pos} (hr : R x x') {q : IPeripheral} (h : PeriphFull d x q) : PeriphFull d' x' q := by
  obtain ⟨l, a, s, h1, h2, h3, h4, h5, h6⟩ := h
  obtain ⟨l', h7, h8⟩ := U.instance' D hr h1
  refine ⟨l', a, s, h7, h2, fun y hy => U.memberFull D h8 (h3 y hy), ?_, h5, h6⟩
  intro z' hz'
  obtain ⟨z, hz, hr'⟩ := h8.2 z' hz'
  exact U.keptFull D hr' (h4 z hz)

/-- The same device is meant. -/
theorem deviceFull {ps : List IPeripheral} (h : DeviceFull d ps) : DeviceFull d' ps where
  sub q hq := by
    obtain ⟨x, h1, h2⟩ := h.sub q hq
    obtain ⟨x', h3, h4⟩ := U.top x h1
    exact ⟨x', h3, U.periphFull D h4 h2⟩
  all x' hx' := by
    obtain ⟨x, h1, h2⟩ := U.topBack x' hx'
    obtain ⟨hs, h3, h4⟩ := h.all x h1
    refine ⟨hs, U.stands D h2 h3, fun a ha => ?_⟩
    obtain ⟨q, k1, k2, k3⟩ := h4 a ha
    exact ⟨q, k1, k2, U.periphFull D h2 k3⟩
  sorted := h.sorted

/-! ### every declaration corresponds to one -/

omit D in
theorem each (n : Nat) : ∀ x, x.length = n → x ≠ [] → (∃ p, DeclAt d x p) → ∃ x', R x x' := by
  induction n with
  | zero => exact fun x hn hx _ => absurd (List.length_eq_zero_iff.1 hn) hx
  | succ n ih =>
    rintro x hn hx ⟨p, hp⟩
    obtain ⟨y, k, rfl⟩ : ∃ y k, x = y ++ [k] := ⟨_, _, (List.dropLast_concat_getLast hx).symm⟩
    have ho : OwnChild d y (y ++ [k]) := ⟨k, p, rfl, hp⟩
    by_cases hy : y = []
    · subst hy
      obtain ⟨x', -, h⟩ := U.top _ ho
      exact ⟨x', h⟩
    · obtain ⟨q, -, hq, -⟩ := ownChild_decl ho
      obtain ⟨y', h1⟩ := ih y (by simpa using hn) hy ⟨q, hq⟩
      rcases U.decl y y' h1 with ⟨l, l', q, q', h2, h3, h4, h5, h6⟩ | ⟨c, c', h2, -⟩
      · obtain ⟨-, -, -, h7⟩ := h2.kind
        obtain ⟨z', -, h8⟩ := h5 _ ⟨y, h7, ho⟩
        exact ⟨z', h8⟩
      · obtain ⟨c0, h3⟩ := takes_declared h2
        have := ownChild_kind ho h3 hp
        cases p <;> cases this

omit D in
theorem eachBack (n : Nat) : ∀ x', x'.length = n → x' ≠ [] → (∃ p, DeclAt d' x' p) → ∃ x, R x x' := by
  induction n with
  | zero => exact fun x hn hx _ => absurd (List.length_eq_zero_iff.1 hn) hx
  | succ n ih =>
    rintro x hn hx ⟨p, hp⟩
    obtain ⟨y, k, rfl⟩ : ∃ y k, x = y ++ [k] := ⟨_, _, (List.dropLast_concat_getLast hx).symm⟩
    have ho : OwnChild d' y (y ++ [k]) := ⟨k, p, rfl, hp⟩
    by_cases hy : y = []
    · subst hy
      obtain ⟨x', -, h⟩ := U.topBack _ ho
      exact ⟨x', h⟩
    · obtain ⟨q, -, hq, -⟩ := ownChild_decl ho
      obtain ⟨y', h1⟩ := ih y (by simpa using hn) hy ⟨q, hq⟩
      rcases U.decl y' y h1 with ⟨l, l', q, q', h2, h3, h4, h5, h6⟩ | ⟨c, c', -, h2, -⟩
      · obtain ⟨-, -, -, h7⟩ := h3.kind
        obtain ⟨z', -, h8⟩ := h6 _ ⟨y, h7, ho⟩
        exact ⟨z', h8⟩
      · obtain ⟨c0, h3⟩ := takes_declared h2
        have := ownChild_kind ho h3 hp
        cases p <;> cases this

omit U D in
theorem note_ne_nil {x : Pos} {q : Parsed} {w : Warn} (h : Complete d x q) (hn : DeclNote q w) : x ≠ [] ∧ kindOf q ≠ .enumcont := by
  have key : ∀ {q : Parsed}, DeclNote q w → kindOf q ≠ .enumcont ∧ kindOf q ≠ .device := by
    intro q hn
    cases hn with
    | ignoredDim h1 h2 =>
      cases q with
      | enum c => exact absurd rfl h1
      | device => exact absurd rfl h1
      | _ => exact ⟨(fun h => by cases h), (fun h => by cases h)⟩
    | swapped => exact ⟨(fun h => by cases h), (fun h => by cases h)⟩
    | crossed => exact ⟨(fun h => by cases h), (fun h => by cases h)⟩
  refine ⟨?_, (key hn).1⟩
  rintro rfl
  obtain ⟨l, h⟩ := complete_completes h
  obtain ⟨p, h1, h2, -⟩ := h.kind
  cases declAt_nil h1
  exact (key hn).2 h2

theorem notedIn {w : Warn} (h : NotedIn d w) : NotedIn d' w := by
  cases h with
  | decl h1 h2 =>
    obtain ⟨h3, h4⟩ := note_ne_nil h1 h2
    obtain ⟨l, h1⟩ := complete_completes h1
    obtain ⟨p, h5, -⟩ := h1.kind
    obtain ⟨x', hr⟩ := U.each _ _ rfl h3 ⟨p, h5⟩
    obtain ⟨l', q', h6, h7, -⟩ := U.completes D hr h1 h4
    exact .decl h6.complete (h7.note.1 h2)
  | entries h1 h2 =>
    obtain ⟨c0, h3⟩ := takes_declared h1
    obtain ⟨x', hr⟩ := U.each _ _ rfl (by rintro rfl; cases declAt_nil h3) ⟨_, h3⟩
    obtain ⟨c', h4, h5, -⟩ := U.takes D hr h1
    exact .entries h4 (by rw [h5]; exact h2)

omit D in
theorem notedBack (D' : Definite d') {w : Warn} (h : NotedIn d' w) : NotedIn d w := by
  cases h with
  | decl h1 h2 =>
    obtain ⟨h3, h4⟩ := note_ne_nil h1 h2
    obtain ⟨l, h1⟩ := complete_completes h1
    obtain ⟨p, h5, h6, -⟩ := h1.kind
    obtain ⟨x, hr⟩ := U.eachBack _ _ rfl h3 ⟨p, h5⟩
    rcases U.decl x _ hr with ⟨l0, l', q, q', k1, k2, k3, -⟩ | ⟨c, c', -, k2, -⟩
    · obtain ⟨-, rfl⟩ := completes_unique D' h1 k2
      exact .decl k1.complete (k3.note.2 h2)
    · obtain ⟨c0, k3⟩ := takes_declared k2
      cases declAt_unique k3 h5
      exact absurd h6 h4
  | entries h1 h2 =>
    obtain ⟨c0, h3⟩ := takes_declared h1
    obtain ⟨x, hr⟩ := U.eachBack _ _ rfl (by rintro rfl; cases declAt_nil h3) ⟨_, h3⟩
    rcases U.decl x _ hr with ⟨l0, l', q, q', k1, k2, k3, -⟩ | ⟨c, c', k1, k2, k3, -⟩
    · obtain ⟨p, k4, k5, -⟩ := k2.kind
      cases declAt_unique k4 h3
      cases k3 <;> cases k5
    · cases takes_unique D' h1 k2
      exact .entries k1 (by rw [← k3]; exact h2)
end Unfolds

end Svd
