import Verif.Lemmas.FinRun
import Verif.Lemmas.FolCheck
import Verif.Props.Accept
import Verif.Props.Follow
/-
C56 for descriptions with `derivedFrom`: which of them are accepted.
-/
namespace Svd
open Spec Graph M

section
variable {ord : List Nat → List Nat} {d : SDevice}

/-- The resolution does not fail, unless the number of rounds is too small. -/
theorem resolvable_resolved (hord : ∀ l, (ord l).Perm l) (h : Resolvable d) (fuel : Nat) :
    (∃ ps ws, resolvePeripherals ord fuel d = .ok ps ws) ∨ resolvePeripherals ord fuel d = .err .outOfFuel := by
  obtain ⟨g0, h0, -, -⟩ := initialization_total d
  obtain ⟨lab0, P, N, C⟩ := neat_initial h.follow.acyclic h0
  unfold resolvePeripherals
  rw [h0, M.bind_ok_nil]
  cases hr : rounds ord fuel g0 [] with
  | err x =>
    have hF : Feasible d := ⟨h.dims, h.widths⟩
    have := rounds_total hord h.follow h.quiet h.clear hF P N C (single_initialization h0) (by simp) hr
    subst this
    exact Or.inr rfl
  | ok g w =>
    obtain ⟨hun, lab, T⟩ := tidy_rounds hord h.follow h.quiet h0 hr
    obtain ⟨s, w', ps, h1, h2⟩ := finalize_total h T
    refine Or.inl ⟨ps, w ++ (w' ++ []), ?_⟩
    simp only [M.bind, hun, ne_eq, not_true_eq_false, if_false, h1, h2, M.pure]

/-- C56, with `derivedFrom`: a description that satisfies `Resolvable` is resolved, for every traversal order, if the number of rounds is large
enough; it is then accepted unless the resolved description has one of the defects of C55, and refused with the exception for one
of them otherwise. -/
theorem C56_derived (hord : ∀ l, (ord l).Perm l) (h : Resolvable d) : ∃ N ps, (∀ fuel, N ≤ fuel → ∃ ws, resolvePeripherals ord fuel d = .ok ps ws) ∧
    ∀ fuel, N ≤ fuel → ((∃ dev ws', processDevice ord fuel d = .ok dev ws') ↔ ∀ e, ¬ Defect d ps e) ∧
      ∀ e, processDevice ord fuel d = .err e → Defect d ps e := by
  obtain ⟨g0, h0, -, -⟩ := initialization_total d
  obtain ⟨lab, h1, -⟩ := lab_initialization h0
  have hin : ∀ x, ¬ Inside d x x := fun x hi => h.follow.acyclic x (precedes_inside hi)
  obtain ⟨N, hN⟩ := rounds_end hin hord (prev := []) ⟨inv_initialization h0, ac_initialization h0, h1⟩
  have hnf : resolvePeripherals ord N d ≠ .err .outOfFuel := by
    intro hc
    refine hN N (Nat.le_refl _) ?_
    unfold resolvePeripherals at hc
    rw [h0, M.bind_ok_nil] at hc
    cases hr : rounds ord N g0 [] with
    | err x =>
      have hF : Feasible d := ⟨h.dims, h.widths⟩
      obtain ⟨lab0, P, Nt, C⟩ := neat_initial h.follow.acyclic h0
      rw [rounds_total hord h.follow h.quiet h.clear hF P Nt C (single_initialization h0) (by simp) hr]
    | ok g w =>
      obtain ⟨hun, lab, T⟩ := tidy_rounds hord h.follow h.quiet h0 hr
      obtain ⟨s, w', ps, h1, h2⟩ := finalize_total h T
      rw [hr] at hc
      simp only [M.bind, hun, ne_eq, not_true_eq_false, if_false, h1, h2, M.pure] at hc
      cases hc
  obtain ⟨ps, ws, hps⟩ := (resolvable_resolved hord h N).resolve_right hnf
  have hall : ∀ fuel, N ≤ fuel → resolvePeripherals ord fuel d = .ok ps ws := by
    intro fuel hf
    obtain ⟨k, rfl⟩ := Nat.exists_eq_add_of_le hf
    rw [← hps]
    unfold resolvePeripherals
    rw [h0, M.bind_ok_nil, M.bind_ok_nil, rounds_stable (hN N (Nat.le_refl _)) k]
  exact ⟨N, ps, fun fuel hf => ⟨ws, hall fuel hf⟩, fun fuel hf => C55_refused_iff_defect (hall fuel hf)⟩

end

/-! ### a description that satisfies the hypotheses -/

/-- Can an element be called `n`? -/
def callableAs (n : Str) (p : Parsed) : Bool :=
  match p with
  | .enum c => c.name == some n
  | .device => n == s%"Device"
  | p => nameOfDecl p == n || (decide ('%' ∈ nameOfDecl p) && (match nameOfDecl p with
    | c :: _ => c == '%' || c == '[' || n.head? == some c
    | [] => true))

theorem instance_first {c : Char} {t n : Str} (h : InstanceName (c :: t) n) (h1 : c ≠ '%') (h2 : c ≠ '[') : n.head? = some c := by
  rcases h with rfl | ⟨idx, rfl | rfl⟩
  · rfl
  · unfold fillList
    split
    · rename_i heq; cases heq; exact absurd rfl h1
    · rename_i heq; cases heq; rfl
    · rename_i heq; cases heq
  · unfold fillArray
    split
    · rename_i heq; cases heq; exact absurd rfl h2
    · rename_i heq; cases heq; rfl
    · rename_i heq; cases heq

theorem callableAs_of {p : Parsed} {n : Str} (h : NameFor p n) : callableAs n p = true := by
  cases p with
  | enum c => simpa [callableAs, NameFor] using h
  | device => simpa [callableAs, NameFor] using h
  | _ =>
    simp only [callableAs, Bool.or_eq_true, Bool.and_eq_true, decide_eq_true_eq, beq_iff_eq]
    rcases Classical.em ('%' ∈ nameOfDecl _) with hm | hm
    · refine Or.inr ⟨hm, ?_⟩
      split
      · rename_i c t heq
        by_cases h1 : c = '%'
        · simp [h1]
        by_cases h2 : c = '['
        · simp [h2]
        have : InstanceName (c :: t) n := by rw [← heq]; exact h
        simp [instance_first this h1 h2]
      · rfl
    · exact Or.inl (instance_plain h hm).symm

def mayBe (d : SDevice) (y : Pos) (n : Str) : Bool := (declOf d y).any (callableAs n)

theorem mayBe_of {d : SDevice} {y : Pos} {n : Str} (h : Called d y n) : mayBe d y n = true := by
  obtain ⟨p, h1, h2⟩ := h
  unfold mayBe
  rw [declOf_iff.2 h1]
  exact callableAs_of h2

def clearB (d : SDevice) : Bool :=
  let all := posIn (declTree d)
  all.all fun x => ((declOf d x).bind (·.derivedFrom)).all fun path => (splitC '.' path).all fun n =>
    all.all fun y => !mayBe d y n || ((declOf d y).all (fun q => q.derivedFrom.isNone && (kindOf q == .enumcont || !hasSub listMark (nameOfDecl q))) &&
      all.all fun z => !mayBe d z n || y == z)

theorem clear_of_check {d : SDevice} (h : clearB d = true) : Clear d := by
  have hin : ∀ {x p}, DeclAt d x p → x ∈ posIn (declTree d) := fun ⟨ts, h⟩ => treeAt_posIn _ _ h
  have key : ∀ x p path parts n y, DeclAt d x p → p.derivedFrom = some path → PathNames path parts → n ∈ parts → Called d y n →
      (∀ q, DeclAt d y q → q.derivedFrom = none ∧ (kindOf q = .enumcont ∨ ¬ Contains listMark (nameOfDecl q))) ∧ ∀ z, Called d z n → y = z := by
    intro x p path parts n y hx hp hpn hn hc
    have h1 := List.all_eq_true.1 h x (hin hx)
    rw [declOf_iff.2 hx] at h1
    simp only [Option.bind_some, hp, Option.all_some] at h1
    have h2 := List.all_eq_true.1 h1 n (by rw [pathNames_split hpn]; exact hn)
    obtain ⟨q, hq, -⟩ := id hc
    have h3 := List.all_eq_true.1 h2 y (hin hq)
    rw [mayBe_of hc, declOf_iff.2 hq] at h3
    simp only [Bool.not_true, Bool.false_or, Option.all_some, Bool.and_eq_true, Option.isNone_iff_eq_none, Bool.or_eq_true, beq_iff_eq, Bool.not_eq_true'] at h3
    refine ⟨fun q' hq' => ?_, fun z hz => ?_⟩
    · rw [declAt_unique hq' hq]
      exact ⟨h3.1.1, h3.1.2.imp id hasSub_false.1⟩
    · obtain ⟨q', hq', -⟩ := id hz
      have h4 := List.all_eq_true.1 h3.2 z (hin hq')
      rw [mayBe_of hz] at h4
      simpa using h4
  constructor
  · intro x p path parts n y q hx hp hpn hn hc hq hk
    exact (((key x p path parts n y hx hp hpn hn hc).1 q hq).2).resolve_left hk
  · intro x p path parts n q y z hx hp hpn hn _ _ hy hz
    exact (key x p path parts n y hx hp hpn hn hy).2 z hz
  · intro x p path n rest q s hx hp hpn _ hr hc
    obtain ⟨q', path', h1, h2⟩ := refers_derived hr
    have := ((key x p path _ n s hx hp hpn (by simp) hc).1 q' h1).1
    rw [this] at h2
    cases h2

/-- `z` is a base below the level of peripherals or is declared in one. -/
def InBase (d : SDevice) (z : Pos) : Prop := ∃ x p b, DeclAt d x p ∧ kindOf p ≠ .peripheral ∧ Refers d x b ∧ b <+: z

section
variable {d : SDevice} (und : ∀ x p b z q, DeclAt d x p → kindOf p ≠ .peripheral → Refers d x b → b <+: z → b ≠ z → DeclAt d z q → q.derivedFrom = none)
include und

theorem inBase_refers {z w : Pos} (hz : InBase d z) (hr : Refers d z w) : InBase d w := by
  obtain ⟨x, p, b, h1, h2, h3, h4⟩ := hz
  obtain ⟨q, path, h5, h6⟩ := refers_derived hr
  rcases Classical.em (b = z) with rfl | hne
  · refine ⟨b, q, w, h5, ?_, hr, List.prefix_refl _⟩
    obtain ⟨p', q', h7, h8, h9⟩ := refers_kind h3
    rw [declAt_unique h7 h1, declAt_unique h8 h5] at h9
    rwa [← h9]
  · rw [und x p b z q h1 h2 h3 h4 hne h5] at h6
    cases h6

theorem inBase_own {z w : Pos} (hz : InBase d z) (ho : OwnChild d z w) : InBase d w ∧ ∀ q, DeclAt d w q → q.derivedFrom = none := by
  obtain ⟨x, p, b, h1, h2, h3, h4⟩ := hz
  obtain ⟨k, r, rfl, -⟩ := ho
  have h5 : b <+: z ++ [k] := h4.trans (List.prefix_append _ _)
  refine ⟨⟨x, p, b, h1, h2, h3, h5⟩, fun q hq => und x p b _ q h1 h2 h3 h5 ?_ hq⟩
  rintro rfl
  have := h4.length_le
  simp only [List.length_append, List.length_cons, List.length_nil] at this
  omega

mutual
theorem inBase_child {z w : Pos} (hz : InBase d z) : HasChild d z w → InBase d w ∧ ∀ q, DeclAt d w q → q.derivedFrom = none
  | .own h => inBase_own und hz h
  | .inherited h1 h2 => inBase_child (inBase_refers und hz h1) h2
  | .nested h => (inBase_nested hz h).elim
theorem inBase_nested {z w : Pos} (hz : InBase d z) : Nested d z w → False
  | .here h1 h2 h3 => by
    have := (inBase_inside (inBase_refers und hz h1) h3).2
    obtain ⟨q, path, h5, h6⟩ := refers_derived h2
    rw [this q h5] at h6
    cases h6
  | .inherited h1 h2 => inBase_nested (inBase_refers und hz h1) h2
theorem inBase_inside {z w : Pos} (hz : InBase d z) : Inside d z w → InBase d w ∧ ∀ q, DeclAt d w q → q.derivedFrom = none
  | .one h => inBase_child hz h
  | .more h1 h2 => inBase_inside (inBase_child hz h1).1 h2
end

end

def quietB (d : SDevice) : Bool :=
  let all := posIn (declTree d)
  all.all fun x => (declOf d x).all (fun p => kindOf p == .peripheral) ||
    all.all fun b => !mayRefer d x b || all.all fun y => !b.isPrefixOf y || b == y || (declOf d y).all fun q => q.derivedFrom.isNone

theorem quiet_of_check {d : SDevice} (h : quietB d = true) : Quiet d := by
  have hin : ∀ {x p}, DeclAt d x p → x ∈ posIn (declTree d) := fun ⟨ts, h⟩ => treeAt_posIn _ _ h
  have und : ∀ x p b z q, DeclAt d x p → kindOf p ≠ .peripheral → Refers d x b → b <+: z → b ≠ z → DeclAt d z q → q.derivedFrom = none := by
    intro x p b z q hx hk hr hz hne hq
    have h1 := List.all_eq_true.1 h x (hin hx)
    rw [declOf_iff.2 hx] at h1
    simp only [Option.all_some, Bool.or_eq_true, beq_iff_eq, hk, false_or] at h1
    obtain ⟨-, pb, -, hb, -⟩ := refers_kind hr
    have h2 := List.all_eq_true.1 h1 b (hin hb)
    rw [mayRefer_of hr] at h2
    simp only [Bool.not_true, Bool.false_or] at h2
    have h3 := List.all_eq_true.1 h2 z (hin hq)
    rw [List.isPrefixOf_iff_prefix.2 hz, declOf_iff.2 hq] at h3
    simpa [hne] using h3
  intro x p b y q hx hk hr hi hq
  exact (inBase_inside und ⟨x, p, b, hx, hk, hr, List.prefix_refl _⟩ hi).2 q hq

/-- Without display names in the declarations there are none in the elements. -/
theorem headAt_display {ex : Bool} {p : Parsed} {pl : Place} {h : Processed} (hh : HeadAt ex p pl h) (hp : pl.display = none) :
    ∀ r, h = .reg r → r.displayName = none := by
  cases hh with
  | reg => intro r hr; cases hr; simp [hp]
  | _ => intro r hr; cases hr

theorem places_display {n : Str} {dim : SDim} {ex : Bool} {pls : List Place} (h : Places n none dim ex pls) : ∀ pl ∈ pls, pl.display = none := by
  cases h with
  | single _ => intro pl hp; simp only [List.mem_cons, List.not_mem_nil, or_false] at hp; rw [hp]
  | expanded _ _ _ _ _ =>
    intro pl hp
    simp only [List.mem_mapIdx] at hp
    obtain ⟨i, _, rfl⟩ := hp
    rfl

theorem stands_display {p : Parsed} {hs : List Processed} {h : Processed} (hd : displayOf p = none) (h1 : StandsFor p hs)
    (h2 : h ∈ hs ∨ Pattern p h) : ∀ r, h = .reg r → r.displayName = none := by
  rcases h2 with h2 | ⟨pl, pls, h3, h4⟩
  · obtain ⟨ex, pls, h3, h4⟩ := h1
    obtain ⟨pl, h5, h6⟩ := entrywise_right h4 h2
    rw [hd] at h3
    exact headAt_display h6 (places_display h3 _ h5)
  · rw [hd] at h3
    exact headAt_display h4 (places_display h3 pl (by simp))

theorem element_display {d : SDevice} (hn : ∀ x r, DeclAt d x (.reg r) → r.displayName = none) {x : Pos} {l : List Pos} {h : Processed}
    (he : ElementOf d x l h) : ∀ r, h = .reg r → r.displayName = none := by
  induction he with
  | @own x p hs h h1 h2 h3 h4 =>
    refine stands_display ?_ h3 h4
    cases p with
    | reg r => exact hn _ r h1
    | _ => rfl
  | @derived x p path z l b hs h h1 h2 h3 h4 h5 h6 h7 ih =>
    refine stands_display ?_ h6 h7
    cases p with
    | reg r =>
      cases b with
      | reg b => simp [completed, displayOf, hn _ r h1, ih b rfl]
      | _ => exact hn _ r h1
    | _ => cases b <;> rfl

/-- A simple way to meet the hypotheses: derived elements have plain names, derived fields have a position of their own, no
register has a display name, no container has a default value, and there is only one container. -/
theorem resolvable_simple {d : SDevice} (follow : Followable d) (quiet : Quiet d) (clear : Clear d) (some : d.peripherals ≠ [])
    (hn : ∀ x r, DeclAt d x (.reg r) → r.displayName = none)
    (hd : ∀ x p, DeclAt d x p → if p.derivedFrom = none then DimFits p ∧ (Contains listMark (nameOfDecl p) → (dimOf p).dim ≠ none)
      else hasSub listMark (nameOfDecl p) = false)
    (hw : ∀ x f, DeclAt d x (.field f) → if f.derivedFrom = none then ∃ w, WidthOf f w
      else f.bitRange = none ∧ f.lsb = none ∧ f.msb = none ∧ f.bitOffset ≠ none ∧ f.bitWidth ≠ none)
    (sizes : ∀ p, Declared d p → ∀ s, statedSize p = .some s → 0 ≤ s)
    (hv : ∀ x c, DeclAt d x (.enum c) → ∀ w, EnumFits c w)
    (h1 : ∀ y z c c', DeclAt d y (.enum c) → DeclAt d z (.enum c') → y = z) : Resolvable d := by
  have htake : ∀ y c, Takes d y c → (∃ x, DeclAt d x (.enum c)) ∧ ∃ c', DeclAt d y (.enum c') := by
    intro y c h
    induction h with
    | own h1 _ => exact ⟨⟨_, h1⟩, _, h1⟩
    | base h1 _ ih =>
      obtain ⟨p, q, hp, hq, hk⟩ := refers_kind h1
      obtain ⟨c', hc'⟩ := ih.2
      refine ⟨ih.1, ?_⟩
      rw [declAt_unique hq hc'] at hk
      cases p <;> simp only [kindOf, reduceCtorEq] at hk ⊢; exact ⟨_, hp⟩
    | unfinished h1 h2 _ =>
      obtain ⟨p, q, hp, hq, hk⟩ := refers_kind h1
      refine ⟨⟨_, h2⟩, ?_⟩
      rw [declAt_unique hq h2] at hk
      cases p <;> simp only [kindOf, reduceCtorEq] at hk ⊢; exact ⟨_, hp⟩
  constructor
  · exact follow
  · exact quiet
  · exact clear
  · exact some
  · intro x q hq
    cases hq with
    | own h2 h3 =>
      have := hd _ _ h2
      rwa [if_pos h3] at this
    | @derived p path z l b h2 h3 h4 h5 h6 =>
      have := hd _ _ h2
      rw [if_neg (by simp [h3])] at this
      have hnm : nameOfDecl (completed p b) = nameOfDecl p := by cases p <;> cases b <;> rfl
      refine ⟨dimOK_unmarked (by rw [hnm]; exact this) ?_, fun hc => absurd (hnm ▸ hc) (hasSub_false.1 this)⟩
      intro r hr
      cases p with
      | reg r' =>
        cases b with
        | reg b =>
          cases hr
          simp [hn _ r' h2, element_display hn h5 b rfl]
        | _ => cases hr; exact hn _ _ h2
      | _ => cases b <;> cases hr
  · intro x f hf
    generalize hq : Parsed.field f = q at hf
    cases hf with
    | own h2 h3 =>
      subst hq
      have := hw _ f h2
      rwa [if_pos (show f.derivedFrom = none from h3)] at this
    | @derived p path z l b h2 h3 h4 h5 h6 =>
      cases p with
      | field f' =>
        have := hw _ f' h2
        rw [if_neg (by change f'.derivedFrom = _ at h3; simp [h3])] at this
        obtain ⟨a1, a2, a3, a4, a5⟩ := this
        obtain ⟨o, ho⟩ := Option.ne_none_iff_exists'.1 a4
        obtain ⟨w, hw⟩ := Option.ne_none_iff_exists'.1 a5
        cases b with
        | field b =>
          cases hq
          exact ⟨w, .offset (o := o) a1 (Or.inl (by simp [half, a2, a3])) (by simp [half, ho]) (by simp [half, hw])⟩
        | _ => cases hq; exact ⟨w, .offset a1 (Or.inl a2) ho hw⟩
      | _ => cases b <;> cases hq
  · exact sizes
  · intro x l h y c _ _ ht
    obtain ⟨⟨x', hx'⟩, -⟩ := htake y c ht
    exact hv x' c hx' _
  · intro x l h y z c c' _ _ _ hne ht ht'
    obtain ⟨-, c1, hc1⟩ := htake y c ht
    obtain ⟨-, c2, hc2⟩ := htake z c' ht'
    exact absurd (h1 _ _ _ _ hc1 hc2) hne

namespace Sample

/-- Values without a default entry. -/
def freeValues : SEnumContainer := { name := some (s%"MODE_EV"), values := [{ name := s%"OFF", value := some (s%"0") }, { name := s%"ODD", value := some (s%"#1x1") }] }

def fEN : SField := { name := s%"EN", bitOffset := some 0, bitWidth := some 1 }
def fMODE : SField := { name := s%"MODE", bitRange := some (s%"[3:1]"), containers := [freeValues] }
def fUP : SField := { name := s%"UP", bitOffset := some 0, bitWidth := some 2 }
def fNX : SField := { name := s%"NX", bitOffset := some 2, bitWidth := some 3, derivedFrom := some (s%"UP") }
def ctrlFree : SRegister := { name := s%"CTRL", addressOffset := 0, props := { size := some 32 }, fields := [fEN, fMODE] }
def rCPY : SRegister := { name := s%"CPY", addressOffset := 12, derivedFrom := some (s%"CTRL") }
def rAUX : SRegister := { name := s%"AUX", addressOffset := 16, fields := [fUP, fNX] }
def rZ : SRegister := { name := s%"Z", addressOffset := 32, derivedFrom := some (s%"T.CTRL") }

/-- References at all levels: a peripheral, two registers and a field are derived; the register `CTRL` has enumerated values and
`DATA%s` is a list. -/
def reuse : SDevice :=
  rdev [rper (s%"T") 0 none [.reg ctrlFree, .reg data, .reg rCPY, .reg rAUX], rper (s%"U") 4096 (some (s%"T")) [.reg rZ]]

theorem decls {d : SDevice} {ps : List (Pos × Parsed)} (h : (posIn (declTree d)).all (fun x => (declOf d x).all (fun p => decide ((x, p) ∈ ps))) = true)
    {x : Pos} {p : Parsed} (hx : DeclAt d x p) : (x, p) ∈ ps := by
  have hin : x ∈ posIn (declTree d) := let ⟨ts, h⟩ := hx; treeAt_posIn _ _ h
  have := List.all_eq_true.1 h x hin
  rw [declOf_iff.2 hx] at this
  simpa using this

theorem freeValues_fit (w : Int) : EnumFits freeValues w where
  lits e he lit hl _ := by
    simp only [freeValues, List.mem_cons, List.not_mem_nil, or_false] at he
    rcases he with rfl | rfl
    · cases hl
      refine .inl ⟨by decide, ?_⟩
      simp only [IsDec]
      decide
    · cases hl
      refine .inr (.inr ⟨s%"#", s%"1x1", .inr (.inr rfl), ⟨by decide, by decide⟩, rfl⟩)
  one := by decide
  single e he hd lit hl := by
    simp only [freeValues, List.mem_cons, List.not_mem_nil, or_false] at he
    rcases he with rfl | rfl <;> cases hd
  width := by
    rintro ⟨e, he, hd⟩
    simp only [freeValues, List.mem_cons, List.not_mem_nil, or_false] at he
    rcases he with rfl | rfl <;> cases hd

end Sample

/-- C56: the hypotheses are met by a description with references at all levels. -/
theorem C56_derived_sample : Resolvable Sample.reuse := by
  have hall : ∀ {x p}, DeclAt Sample.reuse x p → (x, p) ∈ [([], Parsed.device), ([0], .periph (Sample.rper (s%"T") 0 none []).hd),
      ([0, 0], .reg Sample.ctrlFree), ([0, 0, 0], .field Sample.fEN), ([0, 0, 1], .field Sample.fMODE), ([0, 0, 1, 0], .enum Sample.freeValues),
      ([0, 1], .reg Sample.data), ([0, 2], .reg Sample.rCPY), ([0, 3], .reg Sample.rAUX), ([0, 3, 0], .field Sample.fUP), ([0, 3, 1], .field Sample.fNX),
      ([1], .periph (Sample.rper (s%"U") 4096 (some (s%"T")) []).hd), ([1, 0], .reg Sample.rZ)] := fun h => Sample.decls (by decide +kernel) h
  simp only [List.mem_cons, List.not_mem_nil, or_false, Prod.mk.injEq] at hall
  refine resolvable_simple (followable_of_check List.length (fun | [1] => 1 | [0, 2] => 1 | [0, 3, 1] => 1 | [1, 0] => 1 | _ => 0)
      (fun | [1] => ([0], []) | [0, 2] => ([0, 0], []) | [0, 3, 1] => ([0, 3, 0], []) | [1, 0] => ([0], [0]) | _ => ([], [])) (by decide +kernel))
    (quiet_of_check (by decide +kernel)) (clear_of_check (by decide +kernel)) (by decide) ?_ ?_ ?_ ?_ ?_ ?_
  · intro x r h
    have := hall h
    simp only [reduceCtorEq, and_false, false_or, or_false, Parsed.reg.injEq] at this
    rcases this with ⟨-, rfl⟩ | ⟨-, rfl⟩ | ⟨-, rfl⟩ | ⟨-, rfl⟩ | ⟨-, rfl⟩ <;> rfl
  · intro x p h
    rcases hall h with ⟨-, rfl⟩ | ⟨-, rfl⟩ | ⟨-, rfl⟩ | ⟨-, rfl⟩ | ⟨-, rfl⟩ | ⟨-, rfl⟩ | ⟨-, rfl⟩ | ⟨-, rfl⟩ | ⟨-, rfl⟩ | ⟨-, rfl⟩ | ⟨-, rfl⟩ | ⟨-, rfl⟩ | ⟨-, rfl⟩
    all_goals first
      | exact ⟨data_dimOK, fun _ h => by cases h⟩
      | exact ⟨dimOK_unmarked (by decide) (by intro r h; cases h <;> rfl), fun h => absurd h (hasSub_false.1 (by decide))⟩
      | (rw [if_neg (by decide)]; decide)
  · intro x f h
    have := hall h
    simp only [reduceCtorEq, and_false, false_or, or_false, Parsed.field.injEq] at this
    rcases this with ⟨-, rfl⟩ | ⟨-, rfl⟩ | ⟨-, rfl⟩ | ⟨-, rfl⟩
    · exact ⟨_, .offset rfl (.inl rfl) rfl rfl⟩
    · exact ⟨_, .range (x := s%"3") (y := s%"1") (decimal_intro (by decide) (by decide)) (decimal_intro (by decide) (by decide)) rfl⟩
    · exact ⟨_, .offset rfl (.inl rfl) rfl rfl⟩
    · exact ⟨rfl, rfl, rfl, by decide, by decide⟩
  · intro p hp s hs
    have := Sample.declared_mem hp
    have hz : (Sample.declared Sample.reuse).all (fun p => (statedSize p).all (fun s => decide (0 ≤ s))) = true := by decide +kernel
    have := List.all_eq_true.1 hz p this
    rw [hs] at this
    simpa using this
  · intro x c h w
    have := hall h
    simp only [reduceCtorEq, and_false, false_or, or_false, Parsed.enum.injEq] at this
    rw [this.2]
    exact Sample.freeValues_fit w
  · intro y z c c' h h'
    have := hall h
    have h2 := hall h'
    simp only [reduceCtorEq, and_false, false_or, or_false, Parsed.enum.injEq] at this h2
    rw [this.1, h2.1]

/-- It is accepted; all that is derived from `CTRL` has its fields, with their values. -/
theorem C56_derived_accepted : Sample.okAnd (processDevice id 10 Sample.reuse)
    (fun dev ws => ws == [] && dev.peripherals.map (fun p => (p.name, p.registers.map (fun r => (r.name, r.fields.map (fun f => (f.name, f.lsb, f.msb, f.containers.length)))))) ==
      [(s%"T", [(s%"CTRL", [(s%"EN", 0, 0, 0), (s%"MODE", 1, 3, 1)]), (s%"DATA0", []), (s%"DATA1", []), (s%"CPY", [(s%"EN", 0, 0, 0), (s%"MODE", 1, 3, 1)]),
         (s%"AUX", [(s%"UP", 0, 1, 0), (s%"NX", 2, 4, 0)])]),
       (s%"U", [(s%"CTRL", [(s%"EN", 0, 0, 0), (s%"MODE", 1, 3, 1)]), (s%"DATA0", []), (s%"DATA1", []), (s%"CPY", [(s%"EN", 0, 0, 0), (s%"MODE", 1, 3, 1)]),
         (s%"AUX", [(s%"UP", 0, 1, 0), (s%"NX", 2, 4, 0)]), (s%"Z", [(s%"EN", 0, 0, 0), (s%"MODE", 1, 3, 1)])])]) = true := by
  decide +kernel

end Svd
