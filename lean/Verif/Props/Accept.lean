import Verif.Lemmas.Accept
import Verif.Props.Validate
import Verif.Props.Build
/-
C56: which descriptions without `derivedFrom` are accepted.
-/
namespace Svd
open Spec

variable {ord : List Nat → List Nat} {fuel : Nat} {d : SDevice}

/-- C56: a well-formed description without `derivedFrom` is resolved, for every traversal order and with any number of
rounds from two on; it is then accepted unless the resolved description has one of the defects of C55, and refused with the
exception for one of them otherwise. -/
theorem C56_accepted (h : WellFormed d) (f : Nat) : ∃ ps ws, resolvePeripherals ord (f + 2) d = .ok ps ws ∧
    ((∃ dev ws', processDevice ord (f + 2) d = .ok dev ws') ↔ ∀ e, ¬ Defect d ps e) ∧
    ∀ e, processDevice ord (f + 2) d = .err e → Defect d ps e := by
  obtain ⟨ps, ws, hr⟩ := resolve_total ord f h.plain (able_of h.plain h.sizes h.buildable)
  exact ⟨ps, ws, hr, C55_refused_iff_defect hr⟩

/-- C56, the other direction: if a description without `derivedFrom` whose `dimIndex` and `bitRange` texts have one of the
forms of the schema is accepted, then the dim attributes of each declared element are consistent and each declared field
has a position. -/
theorem C56_necessary {dev : Device} {ws : List Warn} (hu : Underived d) (hs : SchemaForm d)
    (h : processDevice ord fuel d = .ok dev ws) :
    (∀ p, Declared d p → DimFits p) ∧ ∀ f, Declared d (.field f) → ∃ w, WidthOf f w := by
  obtain ⟨ps, w1, w2, h1, -, -⟩ := processDevice_ok.1 h
  have made : ∀ p, Declared d p → p.level ≠ .enumcont → p.level ≠ .device → ∃ y, Yields p none y := by
    intro p hp hl hl'
    obtain ⟨ch, y, hm⟩ := made_all h1 hp hl hl'
    cases hm with
    | base _ hdf hy => exact ⟨y, hy⟩
    | derive _ hdf _ _ hy => rw [hu p hp] at hdf; cases hdf
  have trivial' : ∀ p : Parsed, nameOfDecl p = [] → (∀ r, p ≠ .reg r) → DimFits p := by
    have hno : ∀ m : Str, m ≠ [] → ¬ Contains m [] := by
      rintro m hm ⟨a, b, hab⟩
      have := List.append_eq_nil_iff.1 hab.symm
      exact hm (List.append_eq_nil_iff.1 this.2).1
    intro p hn hr
    refine ⟨fun hb => ?_, fun n _ hl => absurd (hn ▸ hl) (hno _ (by decide))⟩
    cases hb with
    | lessThanOne hm => exact hno _ (by decide) (hn ▸ hm)
    | markerWithoutDim hm => exact hno _ (by decide) (hn ▸ hm)
    | fieldArray hm => exact hno arrayMark (by decide) (show Contains arrayMark [] from hn ▸ hm)
    | peripheralList hm => exact hno listMark (by decide) (show Contains listMark [] from hn ▸ hm)
    | displayWithoutName => exact hr _ rfl
    | listDisplayOfArray => exact hr _ rfl
    | arrayDisplayOfList => exact hr _ rfl
  refine ⟨fun p hp => ?_, fun f hf => ?_⟩
  · by_cases hl : p.level = .enumcont
    · cases p <;> first | (cases hl; done) | exact trivial' _ rfl (by simp)
    · by_cases hl' : p.level = .device
      · cases p <;> first | (cases hl'; done) | exact trivial' _ rfl (by simp)
      · obtain ⟨y, _, _, _, _, _, _, _, _, _, hx, -⟩ := made p hp hl hl'
        exact dimOK_of_extract (hs.index p hp) hx
  · obtain ⟨y, _, _, _, _, i, n, disp, x, _, -, -, -, hx, -⟩ := made _ hf (by simp [Parsed.level]) (by simp [Parsed.level])
    unfold createDimable processField at hx
    simp only [M.bind_eq_ok] at hx
    obtain ⟨_, _, _, ⟨z, w, _, hz, -⟩, -⟩ := hx
    exact widthOf_of_ok hz (hs.range f hf)

/-- A name without marker and no display name: consistent, whatever `dim` says. -/
theorem dimOK_unmarked {p : Parsed} (h : hasSub listMark (nameOfDecl p) = false) (hr : ∀ r, p = .reg r → r.displayName = none) :
    DimFits p := by
  have hl := hasSub_false.1 h
  have ha : ¬ Contains arrayMark (nameOfDecl p) := by
    rintro ⟨x, y, hxy⟩
    exact hl ⟨x ++ ['['], [']'] ++ y, by rw [hxy]; simp [arrayMark, listMark]⟩
  refine ⟨fun hb => ?_, fun n _ h => absurd h hl⟩
  cases hb with
  | lessThanOne hm => exact hl hm
  | markerWithoutDim hm => exact hl hm
  | fieldArray hm => exact ha hm
  | peripheralList hm => exact hl hm
  | displayWithoutName hx => rw [hr _ rfl] at hx; cases hx
  | listDisplayOfArray hx => rw [hr _ rfl] at hx; cases hx
  | arrayDisplayOfList hx => rw [hr _ rfl] at hx; cases hx

theorem data_dimOK : DimFits (.reg Sample.data) := by
  have ha : ¬ Contains arrayMark Sample.data.name := hasSub_false.1 (by decide)
  refine ⟨fun hb => ?_, fun n hn _ _ => ?_⟩
  · cases hb with
    | lessThanOne _ hn hlt => cases hn; omega
    | markerWithoutDim _ hn => cases hn
    | displayWithoutName h => cases h
    | listDisplayOfArray h => cases h
    | arrayDisplayOfList h => cases h
  · cases hn
    exact ⟨_, .absent, by decide⟩

theorem modeValues_ok : EnumFits Sample.modeValues 3 where
  lits e he lit hl _ := by
    simp only [Sample.modeValues, List.mem_cons, List.not_mem_nil, or_false] at he
    rcases he with rfl | rfl | rfl
    · cases hl
      refine .inl ⟨by decide, ?_⟩
      simp only [IsDec]
      decide
    · cases hl
      refine .inr (.inr ⟨s%"#", s%"1x1", .inr (.inr rfl), ⟨by decide, by decide⟩, rfl⟩)
    · cases hl
  one := by decide
  single e he hd lit hl := by
    simp only [Sample.modeValues, List.mem_cons, List.not_mem_nil, or_false] at he
    rcases he with rfl | rfl | rfl
    · cases hd
    · cases hd
    · cases hl
  width _ := by omega

/-- C56: the hypotheses are met by a device with a cluster, a register list, fields in all three notations and enumerated
values with don't-care bits and a default. -/
theorem C56_sample : WellFormed Sample.plain ∧ SchemaForm Sample.plain := by
  have hall : ∀ p, Declared Sample.plain p → p ∈ Sample.declared Sample.plain := fun _ h => Sample.declared_mem h
  have hex : Sample.declared Sample.plain = [.device, .periph (Sample.plain.peripherals.head (by decide)).hd, .reg Sample.ctrl,
      .field { name := s%"EN", bitOffset := some 0, bitWidth := some 1 },
      .field { name := s%"MODE", bitRange := some (s%"[3:1]"), containers := [Sample.modeValues] }, .enum Sample.modeValues,
      .field { name := s%"STAT", lsb := some 8, msb := some 15, access := some .readOnly },
      .field { name := s%"CMD", lsb := some 8, msb := some 15, access := some .writeOnly }, .reg Sample.data,
      .clu { name := s%"CH", addressOffset := 16 }, .reg { name := s%"CFG", addressOffset := 4, props := { access := some .readOnly } }] := by
    decide +kernel
  rw [hex] at hall
  have hD : ∀ x y : Str, x ≠ [] ∧ y ≠ [] ∧ (∀ c ∈ x, isDigitC c = true) ∧ (∀ c ∈ y, isDigitC c = true) → Decimal x ∧ Decimal y :=
    fun x y h => ⟨decimal_intro h.1 h.2.2.1, decimal_intro h.2.1 h.2.2.2⟩
  refine ⟨⟨plain_underived, by decide, ?_, ?_, ?_⟩, ?_, ?_⟩
  · intro p hp
    have := hall p hp
    simp only [List.mem_cons, List.not_mem_nil, or_false] at this
    rcases this with rfl | rfl | rfl | rfl | rfl | rfl | rfl | rfl | rfl | rfl | rfl
    all_goals first
      | exact data_dimOK
      | exact dimOK_unmarked (by decide) (by intro r h; cases h <;> rfl)
  · intro p hp s hs
    have := hall p hp
    simp only [List.mem_cons, List.not_mem_nil, or_false] at this
    rcases this with rfl | rfl | rfl | rfl | rfl | rfl | rfl | rfl | rfl | rfl | rfl
    all_goals first
      | (cases hs; done)
      | (cases hs; omega)
  · intro f hf
    have := hall _ hf
    simp only [List.mem_cons, List.not_mem_nil, or_false, Parsed.field.injEq, reduceCtorEq, false_or] at this
    rcases this with rfl | rfl | rfl | rfl
    · exact ⟨_, .offset rfl (.inl rfl) rfl rfl, by simp, .inl (by simp)⟩
    · obtain ⟨h1, h2⟩ := hD (s%"3") (s%"1") (by decide)
      refine ⟨_, .range h1 h2 rfl, ?_, .inl (by simp)⟩
      intro c hc
      simp only [List.mem_cons, List.not_mem_nil, or_false] at hc
      subst hc
      exact modeValues_ok
    · exact ⟨_, .lsbMsb rfl rfl rfl, by simp, .inl (by simp)⟩
    · exact ⟨_, .lsbMsb rfl rfl rfl, by simp, .inl (by simp)⟩
  · intro p hp s hs
    have := hall p hp
    simp only [List.mem_cons, List.not_mem_nil, or_false] at this
    rcases this with rfl | rfl | rfl | rfl | rfl | rfl | rfl | rfl | rfl | rfl | rfl
    all_goals (cases hs; done)
  · intro f hf r hr
    have := hall _ hf
    simp only [List.mem_cons, List.not_mem_nil, or_false, Parsed.field.injEq, reduceCtorEq, false_or] at this
    rcases this with rfl | rfl | rfl | rfl
    · cases hr
    · obtain ⟨h1, h2⟩ := hD (s%"3") (s%"1") (by decide)
      cases hr
      exact ⟨_, _, h1, h2, rfl⟩
    · cases hr
    · cases hr

end Svd
