import Verif.Lemmas.NotesEnum
import Verif.Lemmas.Complete
import Verif.Props.Dim
/-
The warnings given when the elements of a declaration are made are those that the declaration calls for.
-/
namespace Svd
open Spec

theorem bitRangePos_notes {r : Str} {x : Int × Int} {ws : List Warn} (h : bitRangePos r = .ok x ws) (w : Warn) :
    w ∈ ws ↔ w = .bitRangeReversed r ∧ ∃ a b rest, r = rangeText a b ++ rest ∧ Decimal a ∧ Decimal b ∧ decValue a < decValue b := by
  unfold bitRangePos at h
  cases hm : matchBitRange r with
  | none => rw [hm] at h; simp [M.throw] at h
  | some ab =>
    obtain ⟨a, b⟩ := ab
    obtain ⟨ha, hb, rest, rfl⟩ := bitRange_match_inv hm
    rw [hm] at h
    simp only [decValue_digits ha, decValue_digits hb] at h
    have uniq : ∀ a' b' rest', rangeText a b ++ rest = rangeText a' b' ++ rest' → Decimal a' → Decimal b' → a' = a ∧ b' = b := by
      intro a' b' rest' he ha' hb'
      have h1 := bitRange_match_rest ha' hb' (rest := rest')
      rw [← he, hm] at h1
      simp only [Option.some.injEq, Prod.mk.injEq] at h1
      exact ⟨h1.1.symm, h1.2.symm⟩
    split at h
    · rename_i hlt
      simp only [M.bind_eq_ok, M.warn_eq_ok, M.pure_eq_ok] at h
      obtain ⟨_, _, _, rfl, ⟨-, rfl⟩, rfl⟩ := h
      simp only [List.append_nil, List.mem_singleton]
      exact ⟨fun e => ⟨e, a, b, rest, rfl, ha, hb, by omega⟩, fun e => e.1⟩
    · rename_i hlt
      simp only [M.pure_eq_ok] at h
      obtain ⟨-, rfl⟩ := h
      refine ⟨(fun h => by cases h), ?_⟩
      rintro ⟨-, a', b', rest', h1, h2, h3, h4⟩
      obtain ⟨rfl, rfl⟩ := uniq _ _ _ h1 h2 h3
      omega

theorem field_notes {f : SField} {x : Int × Int} {ws : List Warn} (h : fieldMsbLsb f none = .ok x ws) (w : Warn) :
    w ∈ ws ↔ (∃ a b rest, f.bitRange = some (rangeText a b ++ rest) ∧ Decimal a ∧ Decimal b ∧ decValue a < decValue b ∧
      w = .bitRangeReversed (rangeText a b ++ rest)) ∨ ∃ m l, BitsOf f none m l ∧ m < l ∧ w = .msbLtLsb f.name := by
  obtain ⟨m, l⟩ := x
  have hb := bits_iff.1 ⟨ws, h⟩
  have key : (∃ m l, BitsOf f none m l ∧ m < l ∧ w = .msbLtLsb f.name) ↔ m < l ∧ w = .msbLtLsb f.name := by
    constructor
    · rintro ⟨m', l', h1, h2, h3⟩
      obtain ⟨rfl, rfl⟩ := bits_unique h1 hb
      exact ⟨h2, h3⟩
    · rintro ⟨h1, h2⟩; exact ⟨m, l, hb, h1, h2⟩
  rw [key]
  unfold fieldMsbLsb at h
  simp only [M.bind_eq_ok] at h
  obtain ⟨s3, w1, w2, h1, h2, rfl⟩ := h
  cases s3 with
  | none => simp [M.throw] at h2
  | some x =>
    obtain ⟨m', l'⟩ := x
    simp only [M.bind_eq_ok, M.pure_eq_ok, Prod.mk.injEq] at h2
    obtain ⟨_, w3, w4, h3, ⟨⟨rfl, rfl⟩, rfl⟩, rfl⟩ := h2
    have hw3 : w ∈ w3 ↔ m' < l' ∧ w = .msbLtLsb f.name := by
      unfold M.warnIf at h3
      by_cases hlt : m' < l'
      · simp only [hlt, decide_true, if_true, M.warn_eq_ok] at h3
        subst h3
        simp [hlt]
      · simp only [hlt, decide_false, Bool.false_eq_true, if_false, M.pure_eq_ok] at h3
        obtain ⟨-, rfl⟩ := h3
        simp [hlt]
    rw [List.append_nil, List.mem_append, hw3]
    refine or_congr ?_ Iff.rfl
    cases hr : f.bitRange with
    | none =>
      rw [hr] at h1
      simp only [M.pure_eq_ok] at h1
      obtain ⟨-, rfl⟩ := h1
      simp
    | some r =>
      rw [hr] at h1
      simp only [M.bind_eq_ok, M.pure_eq_ok] at h1
      obtain ⟨_, _, _, h1, ⟨-, rfl⟩, rfl⟩ := h1
      rw [List.append_nil, bitRangePos_notes h1]
      constructor
      · rintro ⟨rfl, a, b, rest, rfl, h4, h5, h6⟩
        exact ⟨a, b, rest, rfl, h4, h5, h6, rfl⟩
      · rintro ⟨a, b, rest, h3, h4, h5, h6, rfl⟩
        injection h3 with h3
        subst h3
        exact ⟨rfl, a, b, rest, rfl, h4, h5, h6⟩

/-- The notes about the bits of a field. -/
inductive BitNote : Parsed → Warn → Prop
  | mk {f w} : ((∃ a b rest, f.bitRange = some (rangeText a b ++ rest) ∧ Decimal a ∧ Decimal b ∧ decValue a < decValue b ∧
      w = .bitRangeReversed (rangeText a b ++ rest)) ∨ ∃ m l, BitsOf f none m l ∧ m < l ∧ w = .msbLtLsb f.name) → BitNote (.field f) w

theorem create_notes {i : Nat} {n : Str} {disp : Option Str} {p : Parsed} {x : Processed} {ws : List Warn}
    (h : createDimable i n disp p none = .ok x ws) (w : Warn) : w ∈ ws ↔ BitNote p w := by
  cases p with
  | device => cases h
  | enum e => cases h
  | periph p => cases h; exact ⟨(fun h => by cases h), (fun h => by cases h)⟩
  | clu p => cases h; exact ⟨(fun h => by cases h), (fun h => by cases h)⟩
  | reg p => cases h; exact ⟨(fun h => by cases h), (fun h => by cases h)⟩
  | field f =>
    simp only [createDimable, processField, M.bind_eq_ok, M.pure_eq_ok] at h
    obtain ⟨_, w1, w2, ⟨r, w3, w4, h1, ⟨-, rfl⟩, rfl⟩, ⟨-, rfl⟩, rfl⟩ := h
    rw [List.append_nil, List.append_nil, field_notes h1]
    exact ⟨.mk, fun h => by cases h with | mk h => exact h⟩

theorem createAll_notes {p : Parsed} (ns : List Str) : ∀ (k : Nat) (ds : List (Option Str)) {xs : List Processed} {ws : List Warn},
    createAll p none k ns ds = .ok xs ws → ∀ w, (w ∈ ws → BitNote p w) ∧ (xs ≠ [] → BitNote p w → w ∈ ws) := by
  induction ns with
  | nil =>
    intro k ds xs ws h w
    simp only [createAll, M.pure_eq_ok] at h
    obtain ⟨rfl, rfl⟩ := h
    exact ⟨(fun h => by cases h), fun h => absurd rfl h⟩
  | cons n ns ih =>
    intro k ds xs ws h w
    cases ds with
    | nil =>
      simp only [createAll, M.pure_eq_ok] at h
      obtain ⟨rfl, rfl⟩ := h
      exact ⟨(fun h => by cases h), fun h => absurd rfl h⟩
    | cons d ds =>
      simp only [createAll, M.bind_eq_ok, M.pure_eq_ok] at h
      obtain ⟨x, w1, w2, h1, ⟨xs', w3, w4, h2, ⟨rfl, rfl⟩, rfl⟩, rfl⟩ := h
      rw [List.append_nil, List.mem_append, create_notes h1]
      refine ⟨?_, fun _ h => .inl h⟩
      rintro (h | h)
      · exact h
      · exact (ih _ _ h2 w).1 h

/-- The warnings of a declaration. -/
theorem decl_notes {p : Parsed} {isDim : Bool} {names : List Str} {ds : List (Option Str)} {w1 w2 : List Warn} {xs : List Processed}
    (h1 : extractDimOf p none = .ok (isDim, names, ds) w1) (h2 : createAll p none 0 names ds = .ok xs w2) (hx : xs ≠ []) (w : Warn) :
    w ∈ w1 ++ w2 ↔ DeclNote p w := by
  have ha : w ∈ w2 ↔ BitNote p w := ⟨(createAll_notes _ _ _ h2 w).1, (createAll_notes _ _ _ h2 w).2 hx⟩
  have hb : w ∈ w1 ↔ (dimOf p).dim ≠ none ∧ ¬ Contains listMark (nameOfDecl p) ∧ w = .dimWithoutMarker (nameOfDecl p) := by
    obtain ⟨ty, ho⟩ := outcome_none h1
    rcases ho with ⟨-, -, -, hm, -, rfl⟩ | ⟨-, rfl, n, hd, -, hm, -⟩
    · have := hasSub_false.1 hm
      cases hd : (dimOf p).dim with
      | none => simp
      | some n => 
        simp only [Option.isSome_some, if_true, List.mem_singleton, ne_eq, reduceCtorEq, not_false_eq_true, true_and]
        exact ⟨fun h => ⟨this, h⟩, fun h => h.2⟩
    · refine ⟨(fun h => by cases h), ?_⟩
      rintro ⟨-, h, -⟩
      exact absurd (hasSub_iff.1 hm) h
  rw [List.mem_append, ha, hb]
  constructor
  · rintro (⟨h3, h4, rfl⟩ | h)
    · exact .ignoredDim h3 h4
    · cases h with
      | mk h =>
        rcases h with ⟨a, b, rest, h3, h4, h5, h6, rfl⟩ | ⟨m, l, h3, h4, rfl⟩
        · exact .swapped h3 h4 h5 h6
        · exact .crossed h3 h4
  · intro h
    cases h with
    | ignoredDim h3 h4 => exact .inl ⟨h3, h4, rfl⟩
    | swapped h3 h4 h5 h6 => exact .inr (.mk (.inl ⟨_, _, _, h3, h4, h5, h6, rfl⟩))
    | crossed h3 h4 => exact .inr (.mk (.inr ⟨_, _, h3, h4, rfl⟩))

/-- The same for an element that may be derived. -/
theorem base_notes {d : SDevice} {y : Pos} {k : List Pos} {p : Parsed} {b : Option Processed} (hp : DeclAt d y p) (hb : BaseHead d y k p b)
    {isDim : Bool} {names : List Str} {ds : List (Option Str)} {w1 w2 : List Warn} {xs : List Processed}
    (h1 : extractDimOf p b = .ok (isDim, names, ds) w1) (h2 : createAll p b 0 names ds = .ok xs w2) (hx : xs ≠ []) :
    ∃ q, Complete d y q ∧ ∀ w, w ∈ w1 ++ w2 ↔ DeclNote q w := by
  rcases hb with ⟨h3, rfl, -⟩ | ⟨path, x, z, l, h3, rfl, h4, h5, h6, h7, -⟩
  · exact ⟨p, .own hp h3, decl_notes h1 h2 hx⟩
  · have hm := h7
    obtain ⟨ps, -, hm⟩ := hm
    obtain ⟨u, us, rfl⟩ := List.exists_cons_of_ne_nil hx
    obtain ⟨n, disp, w3, -, -, h8⟩ := (createAll_ok h2).2 0 u rfl
    have hf := create_fits h8
    refine ⟨completed p x, .derived hp h3 h5 (elementOf_made h6 h7) (by rw [nameOf_eq, ← lastPart_eq]; exact h4), ?_⟩
    rw [extract_completed hf] at h1
    rw [createAll_completed hf (made_sorted hm)] at h2
    exact decl_notes h1 h2 hx

end Svd
