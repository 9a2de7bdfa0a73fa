import Verif.Lemmas.ReorderBuilt
import Verif.Props.Notes
import Verif.Props.AcceptExact
/-
C62: the order in which the elements of a description without `derivedFrom` are declared makes no difference.
-/
namespace Svd
open Spec
variable {ord ord' : List Nat → List Nat} {fuel fuel' : Nat} {d d' : SDevice} {dev dev' : Device} {ws ws' : List Warn}

/-! ### symmetry -/

theorem Spec.Reorder.symm {α : Type} {R : α → α → Prop} {xs ys : List α} (h : Reorder R xs ys) (hs : ∀ x ∈ xs, ∀ y, R x y → R y x) : Reorder R ys xs := by
  obtain ⟨zs, h1, h2⟩ := h
  have h3 : Entrywise R zs xs := by
    have := entrywise_flip h1
    refine entrywise_imp this ?_
    intro x _ y hy h
    exact hs y hy x h
  obtain ⟨us, h4, h5⟩ := entrywise_perm h2 h3
  exact ⟨us, h4, h5⟩

theorem shuffledField_symm {f g : SField} (h : ShuffledField f g) : ShuffledField g f := by
  obtain ⟨cs, h1, rfl⟩ := h
  exact ⟨f.containers, h1.symm, rfl⟩

theorem shuffledRC_symm : (x : SRC) → ∀ {y : SRC}, ShuffledRC x y → ShuffledRC y x
  | .reg r, y, h => by
    rw [ShuffledRC] at h
    obtain ⟨fs, rfl, h1⟩ := h
    rw [ShuffledRC]
    exact ⟨r.fields, rfl, h1.symm fun x _ y => shuffledField_symm⟩
  | .clu c ch, y, h => by
    rw [ShuffledRC] at h
    obtain ⟨zs, ys, rfl, h1, h2⟩ := h
    rw [ShuffledRC]
    obtain ⟨us, h3, h4⟩ := Reorder.symm ⟨zs, shuffledRCs_iff.1 h1, h2⟩ fun x _ y => shuffledRC_symm x
    exact ⟨us, ch, rfl, shuffledRCs_iff.2 h3, h4⟩

/-- Reordering back. -/
theorem reordered_symm (h : Reordered d d') : Reordered d' d := by
  obtain ⟨ps, rfl, h1⟩ := h
  refine ⟨d.peripherals, rfl, h1.symm ?_⟩
  rintro p - q ⟨zs, ys, rfl, h2, h3⟩
  obtain ⟨us, h4, h5⟩ := Reorder.symm ⟨zs, shuffledRCs_iff.1 h2, h3⟩ fun x _ y => shuffledRC_symm x
  exact ⟨us, p.rcs, rfl, shuffledRCs_iff.2 h4, h5⟩

theorem reorder_refl {α : Type} {R : α → α → Prop} {xs : List α} (h : ∀ x ∈ xs, R x x) : Reorder R xs xs := by
  refine ⟨xs, ?_, .refl _⟩
  induction xs with
  | nil => exact .nil
  | cons x xs ih => exact .cons (h x (by simp)) (ih fun y hy => h y (by simp [hy]))

mutual
theorem shuffledRC_refl : ∀ x : SRC, ShuffledRC x x
  | .reg r => by
    rw [ShuffledRC]
    exact ⟨r.fields, rfl, reorder_refl fun f _ => ⟨f.containers, .refl _, rfl⟩⟩
  | .clu c ch => by
    rw [ShuffledRC]
    exact ⟨ch, ch, rfl, shuffledRCs_refl ch, .refl _⟩
theorem shuffledRCs_refl : ∀ xs : List SRC, ShuffledRCs xs xs
  | [] => rfl
  | x :: xs => by
    rw [ShuffledRCs]
    exact ⟨x, xs, rfl, shuffledRC_refl x, shuffledRCs_refl xs⟩
end

/-! ### declarations -/

theorem Spec.Reorder.mem {α : Type} {R : α → α → Prop} {xs ys : List α} (h : Reorder R xs ys) {x : α} (hx : x ∈ xs) : ∃ y ∈ ys, R x y := by
  obtain ⟨zs, h1, h2⟩ := h
  obtain ⟨y, h3, h4⟩ := entrywise_left' h1 hx
  exact ⟨y, h2.mem_iff.1 h3, h4⟩

/-- The same declaration, up to the order of what it contains. -/
inductive Like : Parsed → Parsed → Prop
  | same {p} : Like p p
  | reg {r fs} : Like (.reg r) (.reg { r with fields := fs })
  | field {f cs} : f.containers.Perm cs → Like (.field f) (.field { f with containers := cs })

theorem below_same {xs : List SRC} {x : SRC} (h : SBelow xs x) : ∀ {ys : List SRC}, Reorder ShuffledRC xs ys → ∃ y, SBelow ys y ∧ ShuffledRC x y := by
  induction h with
  | here hx =>
    intro ys hr
    obtain ⟨y, h1, h2⟩ := hr.mem hx
    exact ⟨y, .here h1, h2⟩
  | inside hx _ ih =>
    intro ys hr
    obtain ⟨y, h1, h2⟩ := hr.mem hx
    rw [ShuffledRC] at h2
    obtain ⟨zs, us, rfl, h3, h4⟩ := h2
    obtain ⟨v, h5, h6⟩ := ih ⟨zs, shuffledRCs_iff.1 h3, h4⟩
    exact ⟨v, .inside h1 h5, h6⟩

theorem declared_same (h : Reordered d d') {p : Parsed} (hp : Declared d p) : ∃ p', Declared d' p' ∧ Like p p' := by
  obtain ⟨ps, rfl, hr⟩ := h
  have hreg : ∀ {p : SPeriphT} {r : SRegister}, p ∈ d.peripherals → SBelow p.rcs (.reg r) →
      ∃ q ∈ ps, ∃ fs, SBelow q.rcs (.reg { r with fields := fs }) ∧ Reorder ShuffledField r.fields fs := by
    intro p r hp hb
    obtain ⟨q, hq, zs, ys, rfl, h2, h3⟩ := hr.mem hp
    obtain ⟨y, h4, h5⟩ := below_same hb ⟨zs, shuffledRCs_iff.1 h2, h3⟩
    rw [ShuffledRC] at h5
    obtain ⟨fs, rfl, h6⟩ := h5
    exact ⟨_, hq, fs, h4, h6⟩
  cases hp with
  | device => exact ⟨.device, .device, .same⟩
  | @periph p hp =>
    obtain ⟨q, hq, zs, ys, rfl, h2, h3⟩ := hr.mem hp
    exact ⟨.periph p.hd, .periph (p := { p with rcs := ys }) hq, .same⟩
  | @clu p c ch hp hb =>
    obtain ⟨q, hq, zs, ys, rfl, h2, h3⟩ := hr.mem hp
    obtain ⟨y, h4, h5⟩ := below_same hb ⟨zs, shuffledRCs_iff.1 h2, h3⟩
    rw [ShuffledRC] at h5
    obtain ⟨us, vs, rfl, -, -⟩ := h5
    exact ⟨.clu c, .clu (p := { p with rcs := ys }) hq h4, .same⟩
  | reg hp hb =>
    obtain ⟨q, hq, fs, h1, -⟩ := hreg hp hb
    exact ⟨_, .reg hq h1, .reg⟩
  | field hp hb hf =>
    obtain ⟨q, hq, fs, h1, h2⟩ := hreg hp hb
    obtain ⟨g, hg, cs, h3, rfl⟩ := h2.mem hf
    exact ⟨_, .field hq h1 hg, .field h3⟩
  | @enum p r f e hp hb hf he =>
    obtain ⟨q, hq, fs, h1, h2⟩ := hreg hp hb
    obtain ⟨g, hg, cs, h3, rfl⟩ := h2.mem hf
    exact ⟨_, .enum hq h1 hg (h3.mem_iff.1 he), .same⟩

theorem Like.derived {p q : Parsed} (h : Like p q) : q.derivedFrom = p.derivedFrom := by cases h <;> rfl
theorem Like.size {p q : Parsed} (h : Like p q) : statedSize q = statedSize p := by cases h <;> rfl
theorem Like.name {p q : Parsed} (h : Like p q) : nameOfDecl q = nameOfDecl p := by cases h <;> rfl
theorem Like.dim {p q : Parsed} (h : Like p q) : dimOf q = dimOf p := by cases h <;> rfl

theorem Like.bad {p q : Parsed} (h : Like p q) (hb : BadDim q) : BadDim p := by
  cases hb with
  | lessThanOne h1 h2 h3 => exact .lessThanOne (by rwa [h.name] at h1) (by rwa [h.dim] at h2) h3
  | markerWithoutDim h1 h2 h3 => exact .markerWithoutDim (by rwa [h.name] at h1) (by rwa [h.dim] at h2) (by rwa [h.derived] at h3)
  | fieldArray h1 =>
    cases h with
    | same => exact .fieldArray h1
    | field _ => exact .fieldArray h1
  | peripheralList h1 h2 => cases h; exact .peripheralList h1 h2
  | displayWithoutName h1 h2 h3 =>
    cases h with
    | same => exact .displayWithoutName h1 h2 h3
    | reg => exact .displayWithoutName h1 h2 h3
  | listDisplayOfArray h1 h2 h3 h4 =>
    cases h with
    | same => exact .listDisplayOfArray h1 h2 h3 h4
    | reg => exact .listDisplayOfArray h1 h2 h3 h4
  | arrayDisplayOfList h1 h2 h3 h4 =>
    cases h with
    | same => exact .arrayDisplayOfList h1 h2 h3 h4
    | reg => exact .arrayDisplayOfList h1 h2 h3 h4

theorem Like.note {p q : Parsed} (h : Like p q) {w : Warn} (hn : DeclNote p w) : DeclNote q w := by
  cases hn with
  | ignoredDim h1 h2 =>
    rw [← h.name]
    exact .ignoredDim (by rwa [h.dim]) (by rwa [h.name])
  | swapped h1 h2 h3 h4 =>
    cases h with
    | same => exact .swapped h1 h2 h3 h4
    | field _ => exact .swapped h1 h2 h3 h4
  | crossed h1 h2 =>
    cases h with
    | same => exact .crossed h1 h2
    | field _ => exact .crossed (bits_containers h1 _) h2

theorem usagesOK_perm {cs cs' : List SEnumContainer} (h : cs.Perm cs') (hu : UsagesOK cs) : UsagesOK cs' := by
  rcases hu with hu | ⟨a, b, rfl, hu⟩
  · exact Or.inl (by rw [← h.length_eq]; exact hu)
  · have hl := h.length_eq
    match cs', hl with
    | [x, y], _ =>
      refine Or.inr ⟨x, y, rfl, ?_⟩
      have hx : x = a ∨ x = b := by simpa using h.mem_iff.2 (show x ∈ [x, y] by simp)
      have hc := h.map (·.usage)
      rcases hx with rfl | rfl
      · have := List.Perm.cons_inv h
        have := List.singleton_perm.1 this
        injection this with e
        subst e
        exact hu
      · have := List.Perm.cons_inv ((List.Perm.swap _ _ _).trans h)
        have := List.singleton_perm.1 this
        injection this with e
        subst e
        exact hu.symm.imp And.symm And.symm

theorem underived_same (h : Reordered d d') (hu : Underived d) : Underived d' := by
  intro p hp
  obtain ⟨q, hq, hl⟩ := declared_same (reordered_symm h) hp
  rw [← hl.derived]
  exact hu q hq

theorem buildable_same (h : Reordered d d') (hb : Buildable d) : Buildable d' where
  some := by
    obtain ⟨ps, rfl, hr⟩ := h
    intro he
    obtain ⟨p, hp⟩ := List.exists_mem_of_ne_nil _ hb.some
    obtain ⟨y, hy, -⟩ := hr.mem hp
    rw [show ps = [] from he] at hy
    cases hy
  dims p hp := by
    obtain ⟨q, hq, hl⟩ := declared_same (reordered_symm h) hp
    have hs := hb.dims q hq
    refine ⟨fun hbad => ?_, ?_⟩
    · refine hs.fine ?_
      cases hl with
      | same => exact hbad
      | @reg r fs => exact Like.bad (.reg (r := { r with fields := fs }) (fs := r.fields)) hbad |> fun h => by simpa using h
      | @field f cs hc => exact Like.bad (.field (f := { f with containers := cs }) hc.symm) hbad |> fun h => by simpa using h
    · rw [← hl.name, ← hl.dim]
      exact hs.indices
  fields f hf := by
    obtain ⟨q, hq, hl⟩ := declared_same (reordered_symm h) hf
    cases hl with
    | same => exact hb.fields f hq
    | @field _ cs hp =>
      obtain ⟨m, l, h1, h2, h3⟩ := hb.fields _ hq
      refine ⟨m, l, ?_, fun c hc => h2 c (hp.mem_iff.1 hc), usagesOK_perm hp.symm h3⟩
      exact bits_containers h1 f.containers

/-! ### positions -/

theorem declAt_of_tree {t : DTree} {q : Parsed} {ts : List DTree} {x : Pos} (h : treeAt (declTree d) x = some (.node q ts)) {k : Nat}
    (hk : ts[k]? = some t) : treeAt (declTree d) (x ++ [k]) = some t := by
  rw [treeAt_snoc, h]
  show treeAt (.node q ts) [k] = _
  rw [treeAt_kid, hk]

theorem below_at {xs : List SRC} {x : SRC} (h : SBelow xs x) : ∀ {pos : Pos} {q : Parsed}, treeAt (declTree d) pos = some (.node q (ofRCs xs)) →
    ∃ pos', treeAt (declTree d) pos' = some (ofRC x) := by
  induction h with
  | here hx =>
    intro pos q hq
    obtain ⟨k, hk⟩ := List.mem_iff_getElem?.1 (mem_ofRCs.2 ⟨_, hx, rfl⟩)
    exact ⟨_, declAt_of_tree hq hk⟩
  | @inside xs c ch x hx _ ih =>
    intro pos q hq
    obtain ⟨k, hk⟩ := List.mem_iff_getElem?.1 (mem_ofRCs.2 ⟨_, hx, rfl⟩)
    have := declAt_of_tree hq hk
    rw [ofRC] at this
    exact ih this

/-- Every declared element is declared at some position. -/
theorem declAt_of_declared {p : Parsed} (h : Declared d p) : ∃ x, DeclAt d x p := by
  have hper : ∀ {p : SPeriphT}, p ∈ d.peripherals → ∃ x, treeAt (declTree d) x = some (ofPeriph p) := by
    intro p hp
    obtain ⟨k, hk⟩ := List.mem_iff_getElem?.1 (List.mem_map.2 ⟨p, hp, rfl⟩ : ofPeriph p ∈ d.peripherals.map ofPeriph)
    exact ⟨[k], (treeAt_kid _ _ _).trans hk⟩
  have hrc : ∀ {p : SPeriphT} {x : SRC}, p ∈ d.peripherals → SBelow p.rcs x → ∃ y, treeAt (declTree d) y = some (ofRC x) := by
    intro p x hp hb
    obtain ⟨y, hy⟩ := hper hp
    exact below_at hb hy
  have hfield : ∀ {p : SPeriphT} {r : SRegister} {f : SField}, p ∈ d.peripherals → SBelow p.rcs (.reg r) → f ∈ r.fields →
      ∃ y, treeAt (declTree d) y = some (ofField f) := by
    intro p r f hp hb hf
    obtain ⟨y, hy⟩ := hrc hp hb
    rw [ofRC] at hy
    obtain ⟨k, hk⟩ := List.mem_iff_getElem?.1 (List.mem_map.2 ⟨f, hf, rfl⟩ : ofField f ∈ r.fields.map ofField)
    exact ⟨_, declAt_of_tree hy hk⟩
  cases h with
  | device => exact ⟨[], _, rfl⟩
  | periph hp =>
    obtain ⟨y, hy⟩ := hper hp
    exact ⟨y, _, hy⟩
  | clu hp hb =>
    obtain ⟨y, hy⟩ := hrc hp hb
    rw [ofRC] at hy
    exact ⟨y, _, hy⟩
  | reg hp hb =>
    obtain ⟨y, hy⟩ := hrc hp hb
    rw [ofRC] at hy
    exact ⟨y, _, hy⟩
  | field hp hb hf =>
    obtain ⟨y, hy⟩ := hfield hp hb hf
    exact ⟨y, _, hy⟩
  | @enum p r f e hp hb hf he =>
    obtain ⟨y, hy⟩ := hfield hp hb hf
    obtain ⟨k, hk⟩ := List.mem_iff_getElem?.1 (List.mem_map.2 ⟨e, he, rfl⟩ : ofEnum e ∈ f.containers.map ofEnum)
    exact ⟨y ++ [k], _, declAt_of_tree hy hk⟩

/-! ### C62 -/

theorem notes_same (hr : Reordered d d') (hord : ∀ l, (ord l).Perm l) (hord' : ∀ l, (ord' l).Perm l) (hu : Underived d)
    (h : processDevice ord fuel d = .ok dev ws) (h' : processDevice ord' fuel' d' = .ok dev' ws') {w : Warn}
    (hw : w ∈ ws ∧ ResolutionWarning w) : w ∈ ws' := by
  refine ((C61_underived hord' (underived_same hr hu) h' w).2 ?_).1
  rcases (C61_underived hord hu h w).1 hw with ⟨x, p, h1, h2⟩ | ⟨y, c, h1, h2⟩
  · obtain ⟨q, h3, h4⟩ := declared_same hr (declared_of_declAt h1)
    obtain ⟨z, h5⟩ := declAt_of_declared h3
    exact Or.inl ⟨z, q, h5, h4.note h2⟩
  · obtain ⟨q, h3, h4⟩ := declared_same hr (declared_of_declAt h1)
    obtain ⟨z, h5⟩ := declAt_of_declared h3
    cases h4
    exact Or.inr ⟨z, c, h5, h2⟩

theorem resolve_kind {ps : List IPeripheral} (h : resolvePeripherals ord fuel d = .ok ps ws) {w : Warn} (hw : w ∈ ws) : ResolutionWarning w := by
  have := (rsat_resolvePeripherals ord fuel d).warns h w hw
  cases w <;> exact this

/-- C62: two descriptions without `derivedFrom` that differ only in the order of their peripherals, registers, clusters,
fields and `enumeratedValues`, both accepted: they give the same device and the same warnings (whatever the order in which
sets are iterated, and the number of rounds allowed). -/
theorem C62_same (hr : Reordered d d') (hu : Underived d) (hord : ∀ l, (ord l).Perm l) (hord' : ∀ l, (ord' l).Perm l)
    (h : processDevice ord fuel d = .ok dev ws) (h' : processDevice ord' fuel' d' = .ok dev' ws') : dev = dev' ∧ ∀ w, w ∈ ws ↔ w ∈ ws' := by
  obtain ⟨ps, w1, w2, h1, h2, e1⟩ := processDevice_ok.1 h
  obtain ⟨ps', w1', w2', h1', h2', e1'⟩ := processDevice_ok.1 h'
  have hu' := underived_same hr hu
  have hs := deviceBuilt_same hr (resolve_built hu h1) (resolve_built hu' h1')
  have hh : deviceHead d'.hd = deviceHead d.hd := by
    obtain ⟨ps, rfl, -⟩ := hr
    rfl
  rw [hh] at h2'
  obtain ⟨u, h3, h4⟩ := finish_same (d := { hd := deviceHead d.hd, peripherals := ps }) (d' := { hd := deviceHead d.hd, peripherals := ps' }) rfl hs h2
  rw [h3] at h2'
  injection h2' with h5 h6
  subst h5 h6
  refine ⟨rfl, fun w => ⟨fun hw => ?_, fun hw => ?_⟩⟩
  · by_cases hk : ResolutionWarning w
    · exact notes_same hr hord hord' hu h h' ⟨hw, hk⟩
    · rw [e1] at hw
      rcases List.mem_append.1 hw with hw | hw
      · exact absurd (resolve_kind h1 hw) hk
      · rw [e1']
        exact List.mem_append.2 (Or.inr (h4.mem_iff.1 hw))
  · by_cases hk : ResolutionWarning w
    · exact notes_same (reordered_symm hr) hord' hord hu' h' h ⟨hw, hk⟩
    · rw [e1'] at hw
      rcases List.mem_append.1 hw with hw | hw
      · exact absurd (resolve_kind h1' hw) hk
      · rw [e1]
        exact List.mem_append.2 (Or.inr (h4.mem_iff.2 hw))

/-- C62, acceptance: with sizes that are not negative, the one is accepted exactly if the other is. -/
theorem C62_accepted (hr : Reordered d d') (hu : Underived d) (hz : ∀ p, Declared d p → ∀ s, statedSize p = some s → 0 ≤ s) (f f' : Nat) :
    (∃ ws, processDevice ord (f + 2) d = .ok dev ws) ↔ ∃ ws', processDevice ord' (f' + 2) d' = .ok dev ws' := by
  have key : ∀ {d d' : SDevice} {ord ord' : List Nat → List Nat} {f f' : Nat}, Reordered d d' → Underived d →
      (∀ p, Declared d p → ∀ s, statedSize p = some s → 0 ≤ s) → (∃ ws, processDevice ord (f + 2) d = .ok dev ws) →
      ∃ ws', processDevice ord' (f' + 2) d' = .ok dev ws' := by
    rintro d d' ord ord' f f' hr hu hz ⟨ws, h⟩
    obtain ⟨ps, w1, w2, h1, h2, -⟩ := processDevice_ok.1 h
    have hu' := underived_same hr hu
    have hz' : ∀ p, Declared d' p → ∀ s, statedSize p = some s → 0 ≤ s := by
      intro p hp s hs
      obtain ⟨q, hq, hl⟩ := declared_same (reordered_symm hr) hp
      exact hz q hq s (by rw [hl.size]; exact hs)
    obtain ⟨ps', w1', h3⟩ := resolve_total ord' f' hu' (able_of hu' hz' (buildable_same hr (buildable_of hu h1)))
    have hs := deviceBuilt_same hr (resolve_built hu h1) (resolve_built hu' h3)
    have hh : deviceHead d'.hd = deviceHead d.hd := by
      obtain ⟨ps, rfl, -⟩ := hr
      rfl
    obtain ⟨u, h4, -⟩ := finish_same (d := { hd := deviceHead d.hd, peripherals := ps }) (d' := { hd := deviceHead d'.hd, peripherals := ps' }) hh.symm hs h2
    exact ⟨_, processDevice_ok.2 ⟨ps', w1', u, h3, h4, rfl⟩⟩
  refine ⟨key hr hu hz, key (reordered_symm hr) (underived_same hr hu) ?_⟩
  intro p hp s hs
  obtain ⟨q, hq, hl⟩ := declared_same (reordered_symm hr) hp
  exact hz q hq s (by rw [hl.size]; exact hs)

/-- C62 for one description: the order in which sets are iterated and the number of rounds allowed make no difference. -/
theorem C62_iteration (hu : Underived d) (hord : ∀ l, (ord l).Perm l) (hord' : ∀ l, (ord' l).Perm l)
    (h : processDevice ord fuel d = .ok dev ws) (h' : processDevice ord' fuel' d = .ok dev' ws') : dev = dev' ∧ ∀ w, w ∈ ws ↔ w ∈ ws' := by
  refine C62_same ?_ hu hord hord' h h'
  exact ⟨d.peripherals, rfl, reorder_refl fun p _ => ⟨p.rcs, p.rcs, rfl, shuffledRCs_refl p.rcs, .refl _⟩⟩

/-! ### samples -/

namespace Sample
def ordEv (u : Usage) (n : Str) : SEnumContainer := { name := some n, usage := some u, values := [{ name := s%"ON", value := some (s%"1") }, { name := s%"ON", value := some (s%"2") }] }
def ordF1 (cs : List SEnumContainer) : SField := { name := s%"F1", bitRange := some (s%"[0:3]"), containers := cs }
def ordF2 : SField := { name := s%"F2", lsb := some 4, msb := some 40 }
def ordR (fs : List SField) : SRC := .reg { name := s%"R%s", addressOffset := 4, dim := { dim := some 2, dimIncrement := some 2 }, fields := fs }
def ordC (rcs : List SRC) : SRC := .clu { name := s%"C", addressOffset := 8 } rcs
def ordX : SRC := .reg { name := s%"X", addressOffset := 0 }
def ordY : SRC := .reg { name := s%"Y", addressOffset := 2, props := { size := some 16 } }
def ordP (n : Str) (b : Int) (rcs : List SRC) : SPeriphT :=
  { hd := { name := n, baseAddress := b, addressBlocks := [{ offset := 0, size := 256, usage := .registers }] }, rcs }

/-- A description with overlaps and other peculiarities at every level. -/
def oneWay : SDevice := { hd := { name := s%"DEV", addressUnitBits := 8, width := 32 }, peripherals := [ordP (s%"P") 4096 [ordR [ordF1 [ordEv .read (s%"A"), ordEv .write (s%"B")], ordF2], ordC [ordX, ordY]], ordP (s%"Q") 4100 [ordX]] }
/-- The same with everything declared the other way round. -/
def otherWay : SDevice := { hd := { name := s%"DEV", addressUnitBits := 8, width := 32 }, peripherals := [ordP (s%"Q") 4100 [ordX], ordP (s%"P") 4096 [ordC [ordY, ordX], ordR [ordF2, ordF1 [ordEv .write (s%"B"), ordEv .read (s%"A")]]]] }

/-- A field with two positions missing and one with a malformed bit range. -/
def badA : SField := { name := s%"A" }
def badB : SField := { name := s%"B", bitRange := some (s%"x") }
end Sample

/-- The hypotheses of C62 are met by two descriptions that are not the same, with eleven warnings. -/
theorem C62_sample : Reordered Sample.oneWay Sample.otherWay ∧ Underived Sample.oneWay ∧
    (∀ p, Declared Sample.oneWay p → ∀ s, statedSize p = some s → 0 ≤ s) ∧
    Sample.oneWay.peripherals.map (·.hd.name) ≠ Sample.otherWay.peripherals.map (·.hd.name) ∧
    (∃ dev ws, processDevice id 10 Sample.oneWay = .ok dev ws ∧ ws.length = 11) ∧
    ∃ dev ws, processDevice List.reverse 10 Sample.otherWay = .ok dev ws := by
  refine ⟨?_, Sample.underived_of (by decide +kernel), ?_, by decide, ?_, ?_⟩
  · refine ⟨_, rfl, [Sample.ordP (s%"P") 4096 [Sample.ordC [Sample.ordY, Sample.ordX], Sample.ordR [Sample.ordF2, Sample.ordF1 [Sample.ordEv .write (s%"B"), Sample.ordEv .read (s%"A")]]],
      Sample.ordP (s%"Q") 4100 [Sample.ordX]], ?_, List.Perm.swap _ _ _⟩
    refine .cons ?_ (.cons ?_ .nil)
    · refine ⟨[Sample.ordR [Sample.ordF2, Sample.ordF1 [Sample.ordEv .write (s%"B"), Sample.ordEv .read (s%"A")]], Sample.ordC [Sample.ordY, Sample.ordX]], _, rfl, ?_, List.Perm.swap _ _ _⟩
      refine shuffledRCs_iff.2 (.cons ?_ (.cons ?_ .nil))
      · unfold Sample.ordR
        rw [ShuffledRC]
        refine ⟨_, rfl, [Sample.ordF1 [Sample.ordEv .write (s%"B"), Sample.ordEv .read (s%"A")], Sample.ordF2], ?_, List.Perm.swap _ _ _⟩
        exact .cons ⟨_, List.Perm.swap _ _ _, rfl⟩ (.cons ⟨_, .refl _, rfl⟩ .nil)
      · unfold Sample.ordC
        rw [ShuffledRC]
        exact ⟨[Sample.ordX, Sample.ordY], _, rfl, shuffledRCs_refl _, List.Perm.swap _ _ _⟩
    · exact ⟨_, _, rfl, shuffledRCs_refl _, .refl _⟩
  · intro p hp s hs
    have h : (Sample.declared Sample.oneWay).all (fun p => match statedSize p with | some s => decide (0 ≤ s) | none => true) = true := by decide +kernel
    have := List.all_eq_true.1 h p (Sample.declared_mem hp)
    rw [hs] at this
    exact of_decide_eq_true this
  · obtain ⟨dev, ws, h1, h2⟩ := Sample.okAnd_spec (x := processDevice id 10 Sample.oneWay) (p := fun _ ws => ws.length == 11) (by decide +kernel)
    exact ⟨dev, ws, h1, eq_of_beq h2⟩
  · obtain ⟨dev, ws, h1, h2⟩ := Sample.okAnd_spec (x := processDevice List.reverse 10 Sample.otherWay) (p := fun _ _ => true) (by decide +kernel)
    exact ⟨dev, ws, h1⟩

/-- When a description has more than one defect, the order decides which exception is raised. -/
theorem C62_exception_differs : processDevice id 10 (Sample.devOfFields [Sample.badA, Sample.badB]) = .err (.process .noFieldPosition) ∧
    processDevice id 10 (Sample.devOfFields [Sample.badB, Sample.badA]) = .err (.process .invalidBitRange) := by
  constructor <;> decide +kernel

end Svd
