import Verif.Lemmas.NotesRun
import Verif.Lemmas.NotesFin
import Verif.Lemmas.ValQuiet
import Verif.Lemmas.LabVisit
import Verif.Props.Warnings
import Verif.Props.Build
import Verif.Props.Validate
import Verif.Lemmas.EscapeFin
import Verif.Lemmas.FolFind
import Verif.Lemmas.Exact
import Verif.Props.Shared
/-
C61: the warnings of the resolution phase are those the description gives reason for.
-/
namespace Svd
open Spec Graph

variable {ord : List Nat → List Nat} {fuel : Nat} {d : SDevice} {dev : Device} {ws : List Warn}

/-- What is known of the warnings of an accepted run. -/
theorem notes_run (hord : ∀ l, (ord l).Perm l) {ps : List IPeripheral} (h : resolvePeripherals ord fuel d = .ok ps ws) :
    ∃ g lab w1 w2, ws = w1 ++ w2 ∧ Lab d g lab ∧ Sur d g lab ∧ (∀ i e, g.elem? i = some e → e.isProcessed = true) ∧ Told d g lab w1 ∧
      ∀ w, w ∈ w2 ↔ ∃ i, FieldNote g i w := by
  obtain ⟨g0, g, s, w1, w2, w3, h1, h2, h3, h4, -, rfl⟩ := resolve_graph h
  have T := told_rounds hord (told_initial h1) h2
  obtain ⟨lab, hl, hs, ht⟩ := T.lab
  refine ⟨g, lab, w1 ++ w2, w3, by simp, hl, hs, fun i e he => ?_, ht, finalize_notes T.inv T.ac h4⟩
  cases hp : e.isProcessed with
  | true => rfl
  | false =>
    have : i ∈ g.unprocessed := mem_unprocessed he hp
    rw [h3] at this
    cases this

/-- C61 (soundness): every warning of the resolution phase has its reason in the description. -/
theorem C61_sound (hord : ∀ l, (ord l).Perm l) (h : processDevice ord fuel d = .ok dev ws) {w : Warn} (hw : w ∈ ws)
    (hr : ResolutionWarning w) : NotedIn d w := by
  obtain ⟨ps, w1, w2, h1, h2, rfl⟩ := processDevice_ok.1 h
  rcases List.mem_append.1 hw with hw | hw
  · obtain ⟨g, lab, u1, u2, rfl, hl, -, hd, ht, hf⟩ := notes_run hord h1
    rcases List.mem_append.1 hw with hw | hw
    · obtain ⟨x, q, h3, h4⟩ := ht.sound w hw
      exact .decl h3 h4
    · obtain ⟨i, e, c, ec, k, -, -, -, -, h3, h4, h5⟩ := (hf w).1 hw
      obtain ⟨p, hp⟩ := hl.node c ec h3
      by_cases hlv : ec.level = .enumcont
      · rw [hp.level] at hlv
        cases p <;> simp [Parsed.level] at hlv
        obtain ⟨-, c', h6, h7, -⟩ := hp.enum _ rfl
        rw [h4] at h6
        injection h6 with h6
        subst h6
        exact .entries (h7 (hd _ _ h3)) h5
      · have := hp.parsed hlv
        rw [h4] at this
        subst this
        exact absurd hp.level hlv
  · exact absurd hr ((vsat_validate _).warns h2 w hw)

theorem declAt_inside {x : Pos} {p : Parsed} (h : DeclAt d x p) (hx : p.level ≠ .device) : ∃ z, OwnChild d z x := by
  rcases List.eq_nil_or_concat x with rfl | ⟨z, k, rfl⟩
  · have hdev : DeclAt d [] .device := ⟨_, rfl⟩
    rw [declAt_unique h hdev] at hx
    exact absurd rfl hx
  · rw [List.concat_eq_append] at h ⊢
    exact ⟨z, k, p, rfl, h⟩

/-- A field or an `enumeratedValues` is found below every element whose declaration contains it. -/
theorem child_found {g : Graph} {lab : Nat → Pos} (hl : Lab d g lab) {i : Nat} {e : ElemNode} (he : g.elem? i = some e) {y : Pos} {q : Parsed}
    (hy : DeclAt d y q) (hq : q.level = .field ∨ q.level = .enumcont) (ho : OwnChild d (lab i) y) : PresentIn d g lab i y := by
  obtain ⟨p, hp⟩ := hl.node i e he
  have hk := ownChild_kind ho hp.decl hy
  obtain ⟨l, h1, h2⟩ := hl.cont i e id he (by
    intro hc
    rw [hp.level] at hc
    rw [hc] at hk
    revert hk
    cases q.level <;> simp [childKind])
  rcases h2.all y ⟨lab i, chainOf_self h1, ho⟩ with ⟨z, -, h3, h4⟩ | h3
  · exfalso
    obtain ⟨q', p', h5, h6, -⟩ := id (refers_kind h3)
    have h7 := hasChild_kind h6 hy h4
    rw [← sameKind_level (refers_kind h3) hy h6] at h7
    rcases hq with hq | hq <;> rw [hq] at h7 <;> simp [childKind] at h7
  · exact h3

/-- C61 (completeness, declarations): of every declared peripheral, cluster, register and field, all that there is to remark
is remarked. -/
theorem C61_decl (hord : ∀ l, (ord l).Perm l) (h : processDevice ord fuel d = .ok dev ws) {x : Pos} {p : Parsed} (hx : DeclAt d x p)
    (h1 : p.level ≠ .device) (h2 : p.level ≠ .enumcont) : ∃ q, Complete d x q ∧ ∀ w, DeclNote q w → w ∈ ws := by
  obtain ⟨ps, w1, w2, h3, -, rfl⟩ := processDevice_ok.1 h
  obtain ⟨g, lab, u1, u2, rfl, hl, hs, hd, ht, -⟩ := notes_run hord h3
  obtain ⟨k, ⟨e, he⟩, rfl⟩ := hs x p hx
  obtain ⟨p', hp⟩ := hl.node k e he
  have := declAt_unique hx hp.decl
  subst this
  obtain ⟨q, h4, h5⟩ := ht.all k e he (hd _ _ he) (by rw [hp.level]; exact h1) (by rw [hp.level]; exact h2)
  exact ⟨q, h4, fun w hw => List.mem_append_left _ (List.mem_append_left _ (h5 w hw))⟩

/-- C61 (completeness, enumerated values): of every declared `enumeratedValues`, all that there is to remark is remarked. -/
theorem C61_entries (hord : ∀ l, (ord l).Perm l) (h : processDevice ord fuel d = .ok dev ws) {y : Pos} {c0 : SEnumContainer}
    (hy : DeclAt d y (.enum c0)) : ∃ c, Takes d y c ∧ ∀ w, EntriesNote c.values w → w ∈ ws := by
  obtain ⟨ps, w1, w2, h3, -, rfl⟩ := processDevice_ok.1 h
  obtain ⟨g, lab, u1, u2, rfl, hl, hs, hd, -, hf⟩ := notes_run hord h3
  obtain ⟨x, ho⟩ := declAt_inside hy (fun h => by cases h)
  obtain ⟨p, -, hx, -⟩ := ownChild_decl ho
  have hk := ownChild_kind ho hx hy
  have hpf : p.level = .field := by
    revert hk
    cases p.level <;> simp [childKind, Parsed.level]
  obtain ⟨z, hz⟩ := declAt_inside hx (by rw [hpf]; exact fun h => by cases h)
  obtain ⟨pz, -, hpz, -⟩ := ownChild_decl hz
  obtain ⟨k, ⟨e, he⟩, rfl⟩ := hs z pz hpz
  obtain ⟨c, ec, h4, h5, h6, h7⟩ := child_found hl he hx (Or.inl hpf) hz
  obtain ⟨pc, hpc⟩ := hl.node c ec h5
  rw [h6] at hpc
  have := declAt_unique hx hpc.decl
  subst this
  rcases h7 with h7 | h7 | ⟨l, hs', h7, h8⟩
  · rw [hd _ _ h5] at h7; cases h7
  · rw [hpc.level, hpf] at h7; cases h7
  · obtain ⟨p', b, -, -, a1, a2, a3, a4, xs, a5, -, -, hne, rfl⟩ := h7
    obtain ⟨hx0, hm⟩ := List.exists_mem_of_ne_nil xs hne
    obtain ⟨j, -, ej, h9, h10, -, h11, -⟩ := h8 _ (List.mem_map.2 ⟨hx0, hm, rfl⟩)
    obtain ⟨pj, hpj⟩ := hl.node j ej h9
    have hpj' := hpj.decl
    rw [h10] at hpj'
    have := declAt_unique hx hpj'
    subst this
    have hoj : OwnChild d (lab j) y := by rw [h10]; exact ho
    obtain ⟨m, em, h12, h13, h14, -⟩ := child_found hl h9 hy (Or.inr rfl) hoj
    obtain ⟨pm, hpm⟩ := hl.node m em h13
    rw [h14] at hpm
    have := declAt_unique hy hpm.decl
    subst this
    obtain ⟨-, c', h15, h16, -⟩ := hpm.enum _ rfl
    refine ⟨c', h16 (hd _ _ h13), fun w hw => List.mem_append_left _ (List.mem_append_right _ ?_)⟩
    exact (hf w).2 ⟨j, ej, m, em, c', h9, h11, by rw [hpj.level, hpf], succ_view.2 (Or.inl h12), h13, h15, hw⟩

/-- A remark is on a peripheral, cluster, register or field. -/
theorem declNote_level {q : Parsed} {w : Warn} (h : DeclNote q w) : q.level ≠ .device ∧ q.level ≠ .enumcont := by
  cases h with
  | ignoredDim h1 h2 =>
    constructor <;> intro h <;> cases q <;> simp_all [Parsed.level, dimOf]
  | swapped => exact ⟨(fun h => by cases h), (fun h => by cases h)⟩
  | crossed => exact ⟨(fun h => by cases h), (fun h => by cases h)⟩

theorem note_kind {w : Warn} : (∀ q, DeclNote q w → ResolutionWarning w) ∧ ∀ es, EntriesNote es w → ResolutionWarning w := by
  constructor
  · intro q h
    cases h <;> exact trivial
  · intro es h
    cases h with
    | reserved => exact trivial
    | value h1 h2 => cases h2 <;> exact trivial

theorem takes_declared {y : Pos} {c : SEnumContainer} : Takes d y c → ∃ c0, DeclAt d y (.enum c0)
  | .own h _ => ⟨_, h⟩
  | .base h1 h2 => by
    obtain ⟨c0, h3⟩ := takes_declared h2
    obtain ⟨p, q, h4, h5, h6⟩ := refers_kind h1
    have := declAt_unique h3 h5
    subst this
    cases p <;> simp [kindOf] at h6
    exact ⟨_, h4⟩
  | .unfinished h1 h2 _ => by
    obtain ⟨p, q, h4, h5, h6⟩ := refers_kind h1
    have := declAt_unique h2 h5
    subst this
    cases p <;> simp [kindOf] at h6
    exact ⟨_, h4⟩

theorem complete_declared {x : Pos} {q : Parsed} (h : Complete d x q) : ∃ p, DeclAt d x p ∧ p.level = q.level := by
  cases h with
  | own h1 _ => exact ⟨_, h1, rfl⟩
  | derived h1 _ _ _ _ => exact ⟨_, h1, (completed_level _ _).symm⟩

/-- C61: if it is clear by what each declaration is completed, the warnings of the resolution phase are exactly those the
description gives reason for. -/
theorem C61_exact (hord : ∀ l, (ord l).Perm l) (hq : ∀ x q q', Complete d x q → Complete d x q' → q = q')
    (ht : ∀ y c c', Takes d y c → Takes d y c' → c = c') (h : processDevice ord fuel d = .ok dev ws) (w : Warn) :
    w ∈ ws ∧ ResolutionWarning w ↔ NotedIn d w := by
  constructor
  · rintro ⟨h1, h2⟩
    exact C61_sound hord h h1 h2
  · intro hn
    cases hn with
    | @decl x q _ h1 h2 =>
      obtain ⟨p, h3, h4⟩ := complete_declared h1
      obtain ⟨q', h5, h6⟩ := C61_decl hord h h3 (by rw [h4]; exact (declNote_level h2).1) (by rw [h4]; exact (declNote_level h2).2)
      have := hq x q q' h1 h5
      subst this
      exact ⟨h6 w h2, note_kind.1 _ h2⟩
    | @entries y c _ h1 h2 =>
      obtain ⟨c0, h3⟩ := takes_declared h1
      obtain ⟨c', h5, h6⟩ := C61_entries hord h h3
      have := ht y c c' h1 h5
      subst this
      exact ⟨h6 w h2, note_kind.2 _ h2⟩

/-- C61 for a description without `derivedFrom`: the warnings of the resolution phase are exactly the remarks on what is
declared. -/
theorem C61_underived (hord : ∀ l, (ord l).Perm l) (hu : Underived d) (h : processDevice ord fuel d = .ok dev ws) (w : Warn) :
    w ∈ ws ∧ ResolutionWarning w ↔
      (∃ x p, DeclAt d x p ∧ DeclNote p w) ∨ ∃ y c, DeclAt d y (.enum c) ∧ EntriesNote c.values w := by
  have hn : ∀ {x p}, DeclAt d x p → p.derivedFrom = none := fun hp => hu _ (declared_of_declAt hp)
  have hr : ∀ {x z}, ¬ Refers d x z := by
    intro x z hr
    cases hr with
    | intro h1 h2 _ _ _ => rw [hn h1] at h2; cases h2
  have hc : ∀ {x q}, Complete d x q → DeclAt d x q := by
    intro x q hq
    cases hq with
    | own h1 _ => exact h1
    | derived h1 h2 _ _ _ => rw [hn h1] at h2; cases h2
  have ht : ∀ {y c}, Takes d y c → DeclAt d y (.enum c) := by
    intro y c ht
    cases ht with
    | own h1 _ => exact h1
    | base h1 _ => exact (hr h1).elim
    | unfinished h1 _ _ => exact (hr h1).elim
  rw [C61_exact hord (fun x q q' h1 h2 => declAt_unique (hc h1) (hc h2)) (fun y c c' h1 h2 => by
    have := declAt_unique (ht h1) (ht h2)
    injection this) h]
  constructor
  · intro hn
    cases hn with
    | decl h1 h2 => exact Or.inl ⟨_, _, hc h1, h2⟩
    | entries h1 h2 => exact Or.inr ⟨_, _, ht h1, h2⟩
  · rintro (⟨x, p, h1, h2⟩ | ⟨y, c, h1, h2⟩)
    · exact .decl (.own h1 (hn h1)) h2
    · exact .entries (.own h1 (hn h1)) h2

/-! ### samples -/

/-- A register of which everything is remarked on that can be. -/
def Sample.sloppyReg : SRC :=
  .reg { name := s%"R", addressOffset := 0, props := { size := some 32 }, dim := { dim := some 2, dimIncrement := some 4 }
         fields := [
           { name := s%"F", bitRange := some (s%"[2:5]"), containers := [{ name := some (s%"E"), values := [
              { name := s%"Reserved", value := some (s%"9") }, { name := s%"A", value := some (s%"1") },
              { name := s%"A", value := some (s%"2") }, { name := s%"B", value := some (s%"0x1") },
              { name := s%"D", isDefault := true, value := some (s%"3") }] }] },
           { name := s%"G", lsb := some 8, msb := some 7 }] }

def Sample.sloppy (more : List SRC) : SDevice :=
  { hd := { name := s%"DEV", addressUnitBits := 8, width := 32 }
    peripherals := [
      { hd := { name := s%"P", baseAddress := 4096, addressBlocks := [{ offset := 0, size := 16, usage := .registers }] }
        rcs := Sample.sloppyReg :: more }] }

/-- Every kind of warning is met with (without `derivedFrom`). -/
theorem C61_sample : Underived (Sample.sloppy []) ∧ ∃ dev, processDevice id 10 (Sample.sloppy []) = .ok dev
    [.dimWithoutMarker (s%"R"), .bitRangeReversed (s%"[2:5]"), .msbLtLsb (s%"G"), .enumReserved, .enumDuplicateName (s%"A"),
      .enumDuplicateValue (s%"B") (some 1), .enumDefaultHasValue (s%"D") 3] := by
  refine ⟨Sample.underived_of (by decide +kernel), ?_⟩
  have h : Sample.okAnd (processDevice id 10 (Sample.sloppy [])) (fun _ ws => ws == [.dimWithoutMarker (s%"R"), .bitRangeReversed (s%"[2:5]"), .msbLtLsb (s%"G"), .enumReserved, .enumDuplicateName (s%"A"), .enumDuplicateValue (s%"B") (some 1), .enumDefaultHasValue (s%"D") 3]) = true := by
    decide +kernel
  generalize processDevice id 10 (Sample.sloppy []) = m at h
  cases m with
  | err e => simp [Sample.okAnd] at h
  | ok dev ws => exact ⟨dev, by rw [eq_of_beq h]⟩

/-- A derived register: the `dim` it takes over is remarked on with its own name; the values it takes over are remarked on, the
fields are not. -/
theorem C61_sample_derived : ∃ dev, processDevice id 10
      (Sample.sloppy [.reg { name := s%"S", addressOffset := 4, derivedFrom := some (s%"R") }]) = .ok dev
    [.dimWithoutMarker (s%"R"), .bitRangeReversed (s%"[2:5]"), .msbLtLsb (s%"G"), .dimWithoutMarker (s%"S"), .enumReserved,
      .enumDuplicateName (s%"A"), .enumDuplicateValue (s%"B") (some 1), .enumDefaultHasValue (s%"D") 3, .enumReserved,
      .enumDuplicateName (s%"A"), .enumDuplicateValue (s%"B") (some 1), .enumDefaultHasValue (s%"D") 3] := by
  have h : Sample.okAnd (processDevice id 10 (Sample.sloppy [.reg { name := s%"S", addressOffset := 4, derivedFrom := some (s%"R") }])) (fun _ ws => ws == [.dimWithoutMarker (s%"R"), .bitRangeReversed (s%"[2:5]"), .msbLtLsb (s%"G"), .dimWithoutMarker (s%"S"), .enumReserved, .enumDuplicateName (s%"A"), .enumDuplicateValue (s%"B") (some 1), .enumDefaultHasValue (s%"D") 3, .enumReserved, .enumDuplicateName (s%"A"), .enumDuplicateValue (s%"B") (some 1), .enumDefaultHasValue (s%"D") 3]) = true := by
    decide +kernel
  generalize processDevice id 10 (Sample.sloppy [.reg { name := s%"S", addressOffset := 4, derivedFrom := some (s%"R") }]) = m at h
  cases m with
  | err e => simp [Sample.okAnd] at h
  | ok dev ws => exact ⟨dev, by rw [eq_of_beq h]⟩

end Svd
