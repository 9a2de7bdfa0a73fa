import Verif.Lemmas.DimText
/-
C07 at the level of one element, and the exact reading of dimIndex (C08).
-/
namespace Svd
open Spec

/-- C07, at the level of one element: the expansion of a dim element (own attributes or those of the base `b`) consists
of exactly `n` elements; the `i`-th is named by substituting the `i`-th index for the marker and lies `i` increments
behind the declared position.  (`C07_device`: the processed device contains exactly these elements.) -/
theorem C07_elements {p : Parsed} {b : Option Processed} {names : List Str} {displays : List (Option Str)}
    {w w' : List Warn} {xs : List Processed} (h : extractDimOf p b = .ok (true, names, displays) w)
    (hc : createAll p b 0 names displays = .ok xs w') :
    ∃ n mark idx, ownOr (dimOf p).dim b (·.dim) = some n ∧ 1 ≤ n ∧ MarkerOf (nameOfDecl p) mark ∧
      (xs.length : Int) = n ∧ (idx.length : Int) = n ∧
      IndicesOf (nameOfDecl p) n (ownOr (dimOf p).dimIndex b (·.dimIndex)) idx ∧
      ∀ (i : Nat) x, xs[i]? = some x → ∃ s pos, idx[i]? = some s ∧ nameOfProcessed x = fill mark s (nameOfDecl p) ∧
        DeclaredAt b p pos ∧ position x = pos + (ownOr (dimOf p).dimIncrement b (·.dimIncrement)).getD 0 * i := by
  obtain ⟨display, ho, -⟩ := extractDimOf_outcome h
  rcases ho with ⟨h1, -⟩ | ⟨-, -, n, hdim, hn, hmark, mark, idx, rfl, rfl, hlen, hm⟩
  · cases h1
  obtain ⟨h2, h3⟩ := createAll_ok hc
  simp only [List.length_map, Nat.min_self] at h2
  refine ⟨n, mark, idx, hdim, hn, ?_, by rw [h2]; exact hlen, hlen, ?_, ?_⟩
  · rcases hm with ⟨rfl, ha, -⟩ | ⟨rfl, ha, -⟩
    · exact .array (hasSub_iff.1 ha)
    · exact .list (hasSub_false.1 ha) (hasSub_iff.1 hmark)
  · exact indices_of hm
  · intro i x hx
    obtain ⟨nm, disp, w2, h4, h5, h6⟩ := h3 i x hx
    rw [List.getElem?_map] at h4
    cases hi : idx[i]? with
    | none => rw [hi] at h4; cases h4
    | some s =>
      rw [hi] at h4
      simp only [Option.map_some, Option.some.injEq] at h4
      obtain ⟨pos, h7, h8⟩ := createDimable_position h6
      refine ⟨s, pos, rfl, ?_, h7, ?_⟩
      · rw [nameOf_nameOfProcessed, createDimable_name h6, ← h4]
        rcases hm with ⟨rfl, -⟩ | ⟨rfl, -⟩
        · exact (fill_array _ _).symm
        · exact (fill_list _ _).symm
      · rw [h8, Nat.zero_add]

/-! ### C08 for every text -/

theorem dimReads_unique {n : Int} {di : Option Str} {l l' : List Str} (h : DimReads n di l) (h' : DimReads n di l') : l = l' := by
  have e := (dimIndexList_reads n di l []).2 ⟨h, rfl⟩
  rw [(dimIndexList_reads n di l' []).2 ⟨h', rfl⟩] at e
  simpa using e.symm

/-- C08, for every text: a `dimIndex` gives the indices `l` for `n` elements exactly when it is read as `l` and `l` has `n`
entries (and `n` is at least 1); the text determines the list. -/
theorem C08_exact (n : Int) (di : Option Str) :
    (∀ l, processDimIndex n di = .ok l [] ↔ 1 ≤ n ∧ DimReads n di l ∧ (l.length : Int) = n) ∧
    ((¬ ∃ l, 1 ≤ n ∧ DimReads n di l ∧ (l.length : Int) = n) ↔ ∃ e, processDimIndex n di = .err e) ∧
    ∀ l l', DimReads n di l → DimReads n di l' → l = l' := by
  have h1 : ∀ l ws, processDimIndex n di = .ok l ws ↔ 1 ≤ n ∧ DimReads n di l ∧ (l.length : Int) = n ∧ ws = [] := by
    intro l ws
    rw [processDimIndex_ok, dimIndexList_reads]
    simp
  refine ⟨fun l => by rw [h1]; simp, ⟨fun hn => ?_, ?_⟩, fun l l' => dimReads_unique⟩
  · cases hc : processDimIndex n di with
    | err e => exact ⟨e, rfl⟩
    | ok l ws =>
      obtain ⟨a, b, c, -⟩ := (h1 l ws).1 hc
      exact absurd ⟨l, a, b, c⟩ hn
  · rintro ⟨e, he⟩ ⟨l, a, b, c⟩
    rw [(h1 l []).2 ⟨a, b, c, rfl⟩] at he
    cases he

/-- Texts that no form of the schema covers. -/
example : DimReads 3 (some (s%"9-1_1 ")) [s%"9", s%"10", s%"11"] ∧ DimReads 3 (some (s%"A, B;C,")) [s%"A", s%"B;C", []] ∧
    DimReads 1 (some (s%"x-y z")) [s%"x-y z"] ∧ ¬ ∃ l, DimReads 2 (some (s%"3-1")) l := by
  refine ⟨((dimIndexList_reads _ _ _ []).1 (by decide +kernel)).1, ((dimIndexList_reads _ _ _ []).1 (by decide +kernel)).1,
    ((dimIndexList_reads _ _ _ []).1 (by decide +kernel)).1, ?_⟩
  rintro ⟨l, h⟩
  have h := (dimIndexList_reads _ _ _ []).2 ⟨h, rfl⟩
  rw [show dimIndexList 2 (some (s%"3-1")) = .err (.process .dimIndexOrder) by decide +kernel] at h
  cases h

end Svd
