import Verif.Spec.Accept
import Verif.Lemmas.FinTotal
import Verif.Props.Dim
import Verif.Props.Fields
import Verif.Props.EnumValues
import Verif.Lemmas.DimText
import Verif.Lemmas.EnumExact
/-
Acceptance: well-formed declarations pass each step of the resolution.
-/
namespace Svd
open Spec

/-! ### Enumerated values -/

def defCount (vs : List IEnumValue) : Nat := (vs.filter (·.isDefault)).length

def seenCount (st : EVState) : Nat := if st.seenDefault.isSome then 1 else 0

theorem validateStep_total (st : EVState) (evs : List IEnumValue) (v : IEnumValue)
    (h : seenCount st + (if v.isDefault then 1 else 0) ≤ 1) :
    ∃ r w, validateStep (st, evs) v = .ok r w ∧ seenCount r.1 ≤ seenCount st + (if v.isDefault then 1 else 0) := by
  unfold validateStep isValueValid
  simp only
  split
  · exact ⟨(st, evs), _, rfl, by simp⟩
  · split
    · exact ⟨(st, evs), _, rfl, by simp⟩
    · by_cases hd : v.isDefault = true
      · rw [hd, if_pos rfl] at h
        have hn : st.seenDefault = none := by
          unfold seenCount at h
          cases hs : st.seenDefault with
          | none => rfl
          | some x => rw [hs] at h; simp at h
        rw [if_pos hd, hn]
        cases hv : v.value <;> exact ⟨_, _, rfl, by simp [seenCount, hd]⟩
      · rw [if_neg hd]
        exact ⟨_, _, rfl, by simp [seenCount]⟩

theorem validate_total (vs : List IEnumValue) : ∀ (st : EVState) (evs : List IEnumValue),
    seenCount st + defCount vs ≤ 1 →
    ∃ r w, M.foldM validateStep (st, evs) vs = .ok r w ∧ seenCount r.1 ≤ seenCount st + defCount vs := by
  induction vs with
  | nil => exact fun st evs _ => ⟨(st, evs), [], rfl, by simp⟩
  | cons v vs ih =>
    intro st evs h
    have hc : defCount (v :: vs) = (if v.isDefault then 1 else 0) + defCount vs := by
      unfold defCount
      rw [List.filter_cons]
      split <;> simp <;> omega
    rw [hc] at h ⊢
    obtain ⟨⟨st1, evs1⟩, w1, h1, h2⟩ := validateStep_total st evs v (by omega)
    obtain ⟨r, w2, h3, h4⟩ := ih st1 evs1 (by simp only at h2; omega)
    exact ⟨r, w1 ++ w2, M.bind_eq_ok.2 ⟨_, w1, w2, h1, h3, rfl⟩, by simp only at h2; omega⟩

theorem single_literal {lit : Str} (h : WellFormedLit lit) (hx : ¬ HasDontCare lit) :
    ∃ v, convertEnumValue lit = .ok [v] [] := by
  rcases h with ⟨h1, h2⟩ | ⟨pre, s, h1, h2, h3, rfl⟩ | ⟨pre, p, h1, h2, rfl⟩
  · exact ⟨_, convert_dec h1 h2⟩
  · exact ⟨_, convert_hex h1 h2 h3⟩
  · refine ⟨_, convert_bits h1 h2.1 ?_⟩
    intro c hc
    rcases h2.2 c hc with h | h | rfl | rfl
    · exact Or.inl h
    · exact Or.inr h
    · exact absurd ⟨pre, p, h1, h2, rfl, Or.inl hc⟩ hx
    · exact absurd ⟨pre, p, h1, h2, rfl, Or.inr hc⟩ hx

theorem resolveOnes (e : SEnumValue) (l : List (Option Int)) : ∃ vs w, M.filterMapM (resolveOne e) l = .ok vs w ∧
    vs.length ≤ l.length ∧ ∀ v ∈ vs, v.isDefault = e.isDefault.getD false := by
  by_cases hn : lower e.name = s%"reserved"
  · exact ⟨_, _, filterMapM_resolveOne_reserved hn l, by simp, by simp⟩
  · refine ⟨_, _, filterMapM_resolveOne hn l, by simp, ?_⟩
    intro v hv
    rw [List.mem_map] at hv
    obtain ⟨o, -, rfl⟩ := hv
    rfl

theorem resolveWildcard_total (e : SEnumValue) (h1 : ∀ lit, e.value = some lit → lit ≠ [] → WellFormedLit lit)
    (h2 : e.isDefault = some true → ∀ lit, e.value = some lit → ¬ HasDontCare lit) :
    ∃ vs w, resolveWildcard e = .ok vs w ∧ defCount vs ≤ if e.isDefault = some true then 1 else 0 := by
  have hb : ∀ vs : List IEnumValue, (∀ v ∈ vs, v.isDefault = e.isDefault.getD false) →
      (e.isDefault = some true → vs.length ≤ 1) → defCount vs ≤ if e.isDefault = some true then 1 else 0 := by
    intro vs ha hl
    unfold defCount
    split
    · next hd => exact Nat.le_trans (List.length_filter_le ..) (hl hd)
    · next hd =>
      have : vs.filter (·.isDefault) = [] := by
        rw [List.filter_eq_nil_iff]
        intro v hv
        rw [ha v hv]
        cases hx : e.isDefault with
        | none => simp
        | some b => cases b <;> simp_all
      rw [this]; simp
  unfold resolveWildcard
  cases hv : e.value with
  | none =>
    obtain ⟨vs, w, h3, h4, h5⟩ := resolveOnes e [none]
    exact ⟨vs, [] ++ w, M.bind_eq_ok.2 ⟨_, _, _, rfl, h3, rfl⟩, hb vs h5 fun _ => by simpa using h4⟩
  | some lit =>
    by_cases he : lit = []
    · subst he
      obtain ⟨vs, w, h3, h4, h5⟩ := resolveOnes e [none]
      exact ⟨vs, [] ++ w, M.bind_eq_ok.2 ⟨_, _, _, rfl, h3, rfl⟩, hb vs h5 fun _ => by simpa using h4⟩
    · simp only [List.isEmpty_iff, if_neg he]
      have hw := h1 lit hv he
      by_cases hd : e.isDefault = some true
      · obtain ⟨v, h3⟩ := single_literal hw (h2 hd lit hv)
        obtain ⟨vs, w, h4, h5, h6⟩ := resolveOnes e [some v]
        refine ⟨vs, _, M.bind_eq_ok.2 ⟨_, _, _, M.bind_eq_ok.2 ⟨_, _, _, h3, rfl, rfl⟩, h4, rfl⟩, hb vs h6 fun _ => by simpa using h5⟩
      · obtain ⟨xs, h3, -⟩ := convert_wellFormed hw
        obtain ⟨vs, w, h4, h5, h6⟩ := resolveOnes e (xs.map some)
        exact ⟨vs, _, M.bind_eq_ok.2 ⟨_, _, _, M.bind_eq_ok.2 ⟨_, _, _, h3, rfl, rfl⟩, h4, rfl⟩, hb vs h6 fun h => absurd h hd⟩

def declCount (ps : List SEnumValue) : Nat := (ps.filter fun e => e.isDefault = some true).length

theorem validateLoop_total (ps : List SEnumValue) : ∀ (st : EVState) (evs : List IEnumValue),
    (∀ e ∈ ps, ∀ lit, e.value = some lit → lit ≠ [] → WellFormedLit lit) →
    (∀ e ∈ ps, e.isDefault = some true → ∀ lit, e.value = some lit → ¬ HasDontCare lit) →
    seenCount st + declCount ps ≤ 1 →
    ∃ r w, validateLoop (st, evs) ps = .ok r w ∧ seenCount r.1 ≤ seenCount st + declCount ps := by
  induction ps with
  | nil => exact fun st evs _ _ _ => ⟨(st, evs), [], rfl, by simp⟩
  | cons e ps ih =>
    intro st evs h1 h2 h
    have hc : declCount (e :: ps) = (if e.isDefault = some true then 1 else 0) + declCount ps := by
      unfold declCount
      rw [List.filter_cons]
      by_cases hd : e.isDefault = some true <;> simp [hd]; omega
    rw [hc] at h ⊢
    obtain ⟨vs, w0, h3, h4⟩ := resolveWildcard_total e (h1 e (by simp)) (h2 e (by simp))
    obtain ⟨⟨st1, evs1⟩, w1, h5, h6⟩ := validate_total vs st evs (by omega)
    obtain ⟨r, w2, h7, h8⟩ := ih st1 evs1 (fun a ha => h1 a (by simp [ha])) (fun a ha => h2 a (by simp [ha]))
      (by simp only at h6; omega)
    refine ⟨r, _, M.bind_eq_ok.2 ⟨_, _, _, M.bind_eq_ok.2 ⟨_, _, _, h3, h5, rfl⟩, h7, rfl⟩, by simp only at h6; omega⟩

theorem container_accepted {c : SEnumContainer} {w lsb msb : Int} (h : EnumFits c w) (hw : w = msb - lsb + 1) :
    ∃ k ws, createContainer c lsb msb = .ok k ws := by
  obtain ⟨⟨st, evs⟩, w1, h1, h2⟩ := validateLoop_total c.values {} [] h.lits h.single (by
    have := h.one
    simpa [seenCount, declCount] using this)
  unfold createContainer processEnumValues
  have : ∃ evs' w', (match st.seenDefault with
      | some d => extendDefault evs d lsb msb
      | none => M.pure evs) = .ok evs' w' := by
    cases hs : st.seenDefault with
    | none => exact ⟨_, _, rfl⟩
    | some d =>
      have hd : ∃ e ∈ c.values, e.isDefault = some true := by
        have h3 : 0 < declCount c.values := by
          have h4 : seenCount st = 1 := by simp [seenCount, hs]
          simp only [h4] at h2
          have h5 : seenCount {} = 0 := rfl
          omega
        unfold declCount at h3
        obtain ⟨e, he⟩ := List.exists_mem_of_length_pos h3
        rw [List.mem_filter] at he
        exact ⟨e, he.1, by simpa using he.2⟩
      have := h.width hd
      unfold extendDefault
      simp only
      rw [if_neg (by omega)]
      exact ⟨_, _, rfl⟩
  obtain ⟨evs', w', h3⟩ := this
  exact ⟨_, _, M.bind_eq_ok.2 ⟨_, _, _, M.bind_eq_ok.2 ⟨_, _, _, h1, M.bind_eq_ok.2 ⟨_, _, _, h3, rfl, rfl⟩, rfl⟩, rfl, rfl⟩⟩

/-! ### Positions -/

theorem width_accepted {f : SField} {w : Int} (h : WidthOf f w) :
    ∃ m l ws, fieldMsbLsb f none = .ok (m, l) ws ∧ m - l + 1 = w := by
  have fin : ∀ m l : Int, ∃ ws, (M.bind (M.warnIf (decide (m < l)) (.msbLtLsb f.name)) fun _ => M.pure (m, l)) = .ok (m, l) ws := by
    intro m l
    exact ⟨_, M.bind_eq_ok.2 ⟨(), if m < l then [.msbLtLsb f.name] else [], [], by unfold M.warnIf; by_cases hm : m < l <;> simp [hm, M.warn, M.pure], rfl, rfl⟩⟩
  cases h with
  | @range x y hx hy h1 =>
    have h1 : f.bitRange = some (rangeText x y) := h1
    unfold fieldMsbLsb
    simp only [h1]
    rw [bitRangePos_text hx hy]
    by_cases hlt : decValue x < decValue y
    · obtain ⟨ws, h⟩ := fin (decValue y) (decValue x)
      refine ⟨decValue y, decValue x, [.bitRangeReversed (rangeText x y)] ++ [] ++ ws, ?_, by omega⟩
      rw [if_pos (by omega)]
      exact M.bind_eq_ok.2 ⟨_, _, _, M.bind_eq_ok.2 ⟨_, _, _, rfl, rfl, rfl⟩, h, rfl⟩
    · obtain ⟨ws, h⟩ := fin (decValue x) (decValue y)
      refine ⟨decValue x, decValue y, [] ++ [] ++ ws, ?_, by omega⟩
      rw [if_neg (by omega)]
      exact M.bind_eq_ok.2 ⟨_, _, _, M.bind_eq_ok.2 ⟨_, _, _, rfl, rfl, rfl⟩, h, rfl⟩
  | @lsbMsb l m h1 h2 h3 =>
    refine ⟨m, l, ?_⟩
    obtain ⟨ws, h⟩ := fin m l
    refine ⟨[] ++ ws, ?_, rfl⟩
    unfold fieldMsbLsb
    simp only [h1, h2, h3, orIfNone, Option.isSome_some, Bool.or_true, if_true]
    exact M.bind_eq_ok.2 ⟨_, _, _, rfl, h, rfl⟩
  | @offset o w h1 h2 h3 h4 =>
    refine ⟨o + w - 1, o, ?_⟩
    obtain ⟨ws, h⟩ := fin (o + w - 1) o
    refine ⟨[] ++ ws, ?_, by omega⟩
    unfold fieldMsbLsb
    have hs : (if f.lsb.isSome || f.msb.isSome then
        match orIfNone f.lsb ((none : Option IFieldHd).map (·.lsb)), orIfNone f.msb ((none : Option IFieldHd).map (·.msb)) with
        | some l, some m => some (m, l)
        | _, _ => some (o + w - 1, o)
      else some (o + w - 1, o)) = some (o + w - 1, o) := by
      rcases h2 with h2 | h2 <;> rw [h2]
      · cases f.msb <;> simp [orIfNone]
      · cases f.lsb <;> simp [orIfNone]
    simp only [h1, h3, h4, Option.isSome_some, Bool.or_true, if_true]
    refine M.bind_eq_ok.2 ⟨some (o + w - 1, o), [], ws, ?_, h, rfl⟩
    exact congrArg M.pure hs

/-! ### Dimensions -/

theorem processDim_total {ty : Level} {name : Str} {n : Int} {dimIndex : Option Str} {display : Option Str}
    (hl : hasSub lstMark name = true) (h1 : 1 ≤ n) (h2 : hasSub arrMark name = true → ty ≠ .field)
    (h3 : hasSub arrMark name = false → ty ≠ .peripheral)
    (h4 : hasSub arrMark name = true → dispHas lstMark display = true → dispHas arrMark display = true)
    (h5 : hasSub arrMark name = false → dispHas arrMark display = false)
    (h6 : hasSub arrMark name = false → ∃ l, DimReads n dimIndex l ∧ (l.length : Int) = n) :
    ∃ ns ds w, processDim name display (some n) dimIndex ty = .ok (ns, ds) w ∧ ns ≠ [] ∧ ds.length = ns.length := by
  unfold processDim
  simp only
  rw [if_neg (by omega)]
  cases ha : hasSub arrMark name with
  | true =>
    rw [if_pos rfl, if_neg (h2 ha)]
    unfold processDimArray
    rw [if_neg]
    · refine ⟨_, _, _, rfl, ?_, by simp⟩
      rw [rangeFrom_zero]
      simp
      omega
    · have := h4 ha
      intro hc
      simp only [Bool.and_eq_true, Bool.not_eq_true'] at hc
      rw [this hc.2] at hc
      exact absurd hc.1 (by simp)
  | false =>
    rw [if_neg (by simp), if_pos hl, if_neg (h3 ha)]
    unfold processDimList
    rw [if_neg (by rw [h5 ha]; simp)]
    obtain ⟨l, h7, h8⟩ := h6 ha
    refine ⟨_, _, _, M.bind_eq_ok.2 ⟨l, [], [], processDimIndex_ok.2 ⟨h1, (dimIndexList_reads _ _ _ _).2 ⟨h7, rfl⟩, h8, rfl⟩, rfl, rfl⟩, ?_, by simp⟩
    intro hc
    rw [List.map_eq_nil_iff] at hc
    subst hc
    simp at h8
    omega

theorem extractDim_total {ty : Level} {name : Str} {pd : SDim} {pdisp : Option Str}
    (h0 : pd.dim = none → hasSub lstMark name = false) (h1 : ∀ n, pd.dim = some n → hasSub lstMark name = true → 1 ≤ n)
    (h2 : hasSub arrMark name = true → ty ≠ .field)
    (h3 : hasSub lstMark name = true → hasSub arrMark name = false → ty ≠ .peripheral)
    (h7 : ty = .register → dispHas lstMark pdisp = true → hasSub lstMark name = true)
    (h4 : ty = .register → hasSub arrMark name = true → dispHas lstMark pdisp = true → dispHas arrMark pdisp = true)
    (h5 : ty = .register → hasSub lstMark name = true → hasSub arrMark name = false → dispHas arrMark pdisp = false)
    (h6 : ∀ n, pd.dim = some n → hasSub lstMark name = true → hasSub arrMark name = false →
      ∃ l, DimReads n pd.dimIndex l ∧ (l.length : Int) = n) :
    ∃ b ns ds w, extractDim ty name pd pdisp none none = .ok (b, ns, ds) w ∧ ns ≠ [] ∧ ds.length = ns.length := by
  unfold extractDim
  simp only [Option.bind_none, orIfNone_none]
  have hnone : ∀ m, dispHas m none = false := fun _ => rfl
  generalize hdp : (if ty = Level.register then pdisp else none) = display
  have k7 : dispHas lstMark display = true → hasSub lstMark name = true := by
    subst hdp; split
    · next h => exact h7 h
    · simp [hnone]
  have k4 : hasSub arrMark name = true → dispHas lstMark display = true → dispHas arrMark display = true := by
    subst hdp; split
    · next h => exact h4 h
    · simp [hnone]
  have k5 : hasSub lstMark name = true → hasSub arrMark name = false → dispHas arrMark display = false := by
    subst hdp; split
    · next h => exact h5 h
    · simp [hnone]
  cases hl : hasSub lstMark name with
  | false =>
    have hd : dispHas lstMark display = false := by
      cases hx : dispHas lstMark display with
      | false => rfl
      | true => rw [k7 hx] at hl; cases hl
    rw [if_neg (by simp)]
    cases hn : pd.dim with
    | none =>
      refine ⟨false, [name], [display], [] ++ ([] ++ []), M.bind_eq_ok.2 ⟨none, [], [] ++ [], rfl, ?_, rfl⟩, by simp, rfl⟩
      rw [if_neg (by rw [hd]; simp)]
      exact M.bind_eq_ok.2 ⟨_, _, _, rfl, rfl, rfl⟩
    | some n =>
      refine ⟨false, [name], [display], [.dimWithoutMarker name] ++ ([] ++ []), M.bind_eq_ok.2 ⟨none, [.dimWithoutMarker name], [] ++ [], rfl, ?_, rfl⟩, by simp, rfl⟩
      rw [if_neg (by rw [hd]; simp)]
      exact M.bind_eq_ok.2 ⟨_, _, _, rfl, rfl, rfl⟩
  | true =>
    cases hn : pd.dim with
    | none => rw [h0 hn] at hl; cases hl
    | some n =>
      rw [if_neg (by simp)]
      obtain ⟨ns, ds, w, h8, h9, h10⟩ := processDim_total (ty := ty) (dimIndex := pd.dimIndex) (display := display) hl (h1 n hn hl) h2 (h3 hl) k4 (k5 hl) (h6 n hn hl)
      refine ⟨true, ns, ds, [] ++ (w ++ []), M.bind_eq_ok.2 ⟨some n, [], w ++ [], rfl, ?_, rfl⟩, h9, h10⟩
      rw [if_neg (by simp)]
      exact M.bind_eq_ok.2 ⟨_, _, _, h8, rfl, rfl⟩

theorem arr_lst {s : Str} (h : hasSub arrMark s = true) : hasSub lstMark s = true := by
  obtain ⟨x, y, rfl⟩ := hasSub_iff.1 h
  exact hasSub_iff.2 ⟨x ++ ['['], [']'] ++ y, by simp [arrMark, lstMark]⟩

theorem Spec.DimFits.sound {p : Parsed} (h : DimFits p) : DimSound p where
  fine := h.fine
  indices n hn hl ha := by
    obtain ⟨l, h1, h2⟩ := h.indices n hn hl ha
    exact ⟨l, ((dimIndexList_reads _ _ _ _).1 (dimIndexList_denotes h1)).1, h2⟩

theorem extract_accepted' {p : Parsed} (hp : p ≠ .device) (he : p.isEnum = false) (hd : Contains listMark (nameOfDecl p) → (dimOf p).dim ≠ none)
    (h : DimSound p) : ∃ b ns ds w, extractDimOf p none = .ok (b, ns, ds) w ∧ ns ≠ [] ∧ ds.length = ns.length := by
  have g0 : (dimOf p).dim = none → hasSub lstMark (nameOfDecl p) = false := by
    intro hn
    cases hx : hasSub lstMark (nameOfDecl p) with
    | false => rfl
    | true => exact absurd hn (hd (hasSub_iff.1 hx))
  have g1 : ∀ n, (dimOf p).dim = some n → hasSub lstMark (nameOfDecl p) = true → 1 ≤ n := by
    intro n hn hx
    by_cases hlt : n < 1
    · exact absurd (.lessThanOne (hasSub_iff.1 hx) hn hlt) h.fine
    · omega
  have g6 : ∀ n, (dimOf p).dim = some n → hasSub lstMark (nameOfDecl p) = true → hasSub arrMark (nameOfDecl p) = false →
      ∃ l, DimReads n (dimOf p).dimIndex l ∧ (l.length : Int) = n :=
    fun n hn hx ha => h.indices n hn (hasSub_iff.1 hx) (hasSub_false.1 ha)
  unfold extractDimOf
  cases p with
  | device => exact absurd rfl hp
  | enum c => cases he
  | periph p =>
    refine extractDim_total g0 g1 (by simp) ?_ (by simp) (by simp) (by simp) g6
    intro hx ha
    exact absurd (.peripheralList (hasSub_iff.1 hx) (hasSub_false.1 ha)) h.fine
  | clu c => exact extractDim_total g0 g1 (by simp) (by simp) (by simp) (by simp) (by simp) g6
  | field f =>
    refine extractDim_total g0 g1 ?_ (by simp) (by simp) (by simp) (by simp) g6
    intro hx
    exact absurd (.fieldArray (hasSub_iff.1 hx)) h.fine
  | reg r =>
    have disp : ∀ m, dispHas m r.displayName = true → ∃ x, r.displayName = some x ∧ Contains m x := by
      intro m hm
      cases hx : r.displayName with
      | none => rw [hx] at hm; cases hm
      | some x => rw [hx] at hm; exact ⟨x, rfl, hasSub_iff.1 hm⟩
    refine extractDim_total g0 g1 (by simp) (by simp) ?_ ?_ ?_ g6
    · intro _ hx
      obtain ⟨x, h1, h2⟩ := disp _ hx
      cases hl : hasSub lstMark r.name with
      | true => rfl
      | false => exact absurd (.displayWithoutName h1 h2 (hasSub_false.1 hl)) h.fine
    · intro _ ha hx
      obtain ⟨x, h1, h2⟩ := disp _ hx
      cases hl : dispHas arrMark r.displayName with
      | true => rfl
      | false =>
        rw [h1] at hl
        exact absurd (.listDisplayOfArray h1 h2 (hasSub_false.1 hl) (hasSub_iff.1 ha)) h.fine
    · intro _ hl ha
      cases hx : dispHas arrMark r.displayName with
      | false => rfl
      | true =>
        obtain ⟨x, h1, h2⟩ := disp _ hx
        exact absurd (.arrayDisplayOfList h1 h2 (hasSub_iff.1 hl) (hasSub_false.1 ha)) h.fine

theorem extract_accepted {p : Parsed} (hp : p ≠ .device) (he : p.isEnum = false) (hd : p.derivedFrom = none) (h : DimSound p) :
    ∃ b ns ds w, extractDimOf p none = .ok (b, ns, ds) w ∧ ns ≠ [] ∧ ds.length = ns.length :=
  extract_accepted' hp he (fun hc hn => h.fine (.markerWithoutDim hc hn hd)) h

theorem createAll_accepted {p : Parsed} (h : ∀ i n d, ∃ x w, createDimable i n d p none = .ok x w) :
    ∀ (ns : List Str) (ds : List (Option Str)) (i : Nat), ds.length = ns.length →
      ∃ xs w, createAll p none i ns ds = .ok xs w ∧ xs.length = ns.length := by
  intro ns
  induction ns with
  | nil => intro ds i hl; exact ⟨[], [], by unfold createAll; rfl, rfl⟩
  | cons n ns ih =>
    intro ds i hl
    cases ds with
    | nil => cases hl
    | cons d ds =>
      obtain ⟨x, w, h1⟩ := h i n d
      obtain ⟨xs, w', h2, h3⟩ := ih ds (i + 1) (by simpa using hl)
      unfold createAll
      exact ⟨x :: xs, _, M.bind_eq_ok.2 ⟨_, _, _, h1, M.bind_eq_ok.2 ⟨_, _, _, h2, rfl, rfl⟩, rfl⟩, by simp [h3]⟩

theorem expand_accepted {p : Parsed} (hp : p ≠ .device) (he : p.isEnum = false) (hd : p.derivedFrom = none) (h : DimSound p)
    (hf : ∀ f, p = .field f → ∃ m l, BitsOf f none m l) : ∃ y w, expandM p = .ok y w := by
  obtain ⟨b, ns, ds, w, h1, h2, h3⟩ := extract_accepted hp he hd h
  obtain ⟨xs, w', h4, h5⟩ := createAll_accepted (p := p) (by
    intro i n d
    cases p with
    | device => exact absurd rfl hp
    | enum c => cases he
    | periph p => exact ⟨_, _, rfl⟩
    | clu p => exact ⟨_, _, rfl⟩
    | reg p => exact ⟨_, _, rfl⟩
    | field f =>
      obtain ⟨m, l, hb⟩ := hf f rfl
      obtain ⟨ws, h4⟩ := bits_iff.2 hb
      unfold createDimable processField
      exact ⟨_, _, M.bind_eq_ok.2 ⟨_, _, _, M.bind_eq_ok.2 ⟨_, _, _, h4, rfl, rfl⟩, rfl, rfl⟩⟩) ns ds 0 h3
  unfold expandM
  refine ⟨(b, xs), w ++ (w' ++ []), M.bind_eq_ok.2 ⟨_, _, _, h1, M.bind_eq_ok.2 ⟨_, _, _, h4, ?_, rfl⟩, rfl⟩⟩
  rw [if_neg]
  · rfl
  · intro hc
    rw [hc] at h5
    exact h2 (List.length_eq_zero_iff.1 h5.symm)


theorem atIndex_width (l m : Int) (inc : Option Int) (i : Nat) : atIndex m inc i - atIndex l inc i = m - l := by
  unfold atIndex
  cases inc with
  | none => rfl
  | some k => simp only; omega

/-- All fields made from a declaration have the declared width. -/
theorem head_width {f : SField} {m l : Int} (hw : BitsOf f none m l) {hd : IFieldHd} (h : Processed.field hd ∈ headsOf (.field f)) :
    m - l + 1 = hd.msb - hd.lsb + 1 := by
  obtain ⟨ws, h1⟩ := bits_iff.2 hw
  cases hx : expandM (.field f) with
  | err e =>
    unfold headsOf expandO at h
    rw [hx] at h
    cases h
  | ok y w' =>
    rw [headsOf_eq hx] at h
    unfold expandM at hx
    simp only [M.bind_eq_ok] at hx
    obtain ⟨a, w1, w2, -, ⟨xs, w3, w4, h4, h5, -⟩, -⟩ := hx
    split at h5
    · simp [M.throw] at h5
    rw [M.pure_eq_ok] at h5
    obtain ⟨rfl, -⟩ := h5
    rw [List.mem_map] at h
    obtain ⟨x, hxm, hxe⟩ := h
    obtain ⟨j, hj⟩ := List.mem_iff_getElem?.1 hxm
    obtain ⟨n, disp, w5, -, -, h6⟩ := (createAll_ok h4).2 j x hj
    unfold createDimable processField at h6
    simp only [M.bind_eq_ok, M.pure_eq_ok] at h6
    obtain ⟨y, w6, w7, ⟨z, w8, w9, h7, ⟨rfl, -⟩, -⟩, ⟨rfl, -⟩, -⟩ := h6
    have h7 : fieldMsbLsb f none = .ok z w8 := h7
    rw [h1] at h7
    cases h7
    have := atIndex_width l m (mergeDim f.dim (Option.map (fun x : IFieldHd => x.dim) none)).dimIncrement (0 + j)
    split at hxe
    · simp only [Processed.clearDim, Processed.field.injEq] at hxe
      subst hxe
      simp only at this ⊢
      omega
    · simp only [Processed.field.injEq] at hxe
      subst hxe
      simp only at this ⊢
      omega

theorem usages_accepted {cs : List SEnumContainer} (h : UsagesOK cs) :
    (cs.map fun c => c.usage.getD .readWrite).Nodup ∧ cs.length ≤ 2 ∧
    (cs.length = 2 → ∀ c ∈ cs, c.usage.getD .readWrite = .read ∨ c.usage.getD .readWrite = .write) := by
  rcases h with h | ⟨a, b, rfl, h⟩
  · match cs, h with
    | [], _ => simp
    | [c], _ => simp
  · rcases h with ⟨h1, h2⟩ | ⟨h1, h2⟩ <;> simp [h1, h2]

theorem able_of {d : SDevice} (hu : Underived d) (hz : ∀ p, Declared d p → ∀ s, statedSize p = .some s → 0 ≤ s) (h : Buildable d) : Able d where
  some := h.some
  exp p hp h1 h2 := expand_accepted h1 h2 (hu p hp) (h.dims p hp) (by
    rintro f rfl
    obtain ⟨m, l, hw, -⟩ := h.fields f hp
    exact ⟨m, l, hw⟩)
  size p hp s hs := hz p hp s hs
  conts f hf hd hh c hc := by
    obtain ⟨m, l, hw, h1, -⟩ := h.fields f hf
    have := h1 c hc
    rw [head_width hw hh] at this
    exact container_accepts.2 this
  usages f hf := by
    obtain ⟨m, l, hw, -, h1⟩ := h.fields f hf
    exact usages_accepted h1

theorem Spec.WellFormed.buildable {d : SDevice} (h : WellFormed d) : Buildable d where
  some := h.some
  dims p hp := (h.dims p hp).sound
  fields f hf := by
    obtain ⟨w, hw, h1, h2⟩ := h.fields f hf
    obtain ⟨m, l, ws, h3, h4⟩ := width_accepted hw
    refine ⟨m, l, bits_iff.1 ⟨ws, h3⟩, fun c hc => ?_, h2⟩
    exact container_accepts.1 (container_accepted (h1 c hc) h4.symm)

/-! ### Necessity -/

theorem indexText_denotes {n : Int} {s : Str} {l : List Str} (h : IndexText s) (hl : dimIndexList n (some s) = .ok l [])
    (hn : 1 ≤ n) (hlen : (l.length : Int) = n) : ∃ l, DimDenotes n (some s) l ∧ (l.length : Int) = n := by
  have key : ∀ l', DimDenotes n (some s) l' → ∃ l, DimDenotes n (some s) l ∧ (l.length : Int) = n := by
    intro l' hd
    rw [dimIndexList_denotes hd] at hl
    cases hl
    exact ⟨_, hd, hlen⟩
  have hok : processDimIndex n (some s) = .ok l [] := processDimIndex_ok.2 ⟨hn, hl, hlen, rfl⟩
  cases h with
  | @numbers a b ha hb =>
    by_cases hab : decValue a ≤ decValue b
    · exact key _ (.numbers ha hb hab)
    · obtain ⟨e, he⟩ := C08_descending (n := n) ha hb (by omega)
      rw [he] at hok; cases hok
  | @letters x y hx hy =>
    by_cases hab : x.toNat < y.toNat
    · exact key _ (.letters hx hy hab)
    · obtain ⟨e, he⟩ := C08_descending_letters (n := n) hx hy (by omega)
      rw [he] at hok; cases hok
  | items h1 h2 h3 => exact key _ (.items h1 h2 h3)
  | single h1 => exact key _ (.single h1)

theorem dimOK_of_extract {p : Parsed} {r : Bool × List Str × List (Option Str)} {w : List Warn}
    (hi : ∀ s, (dimOf p).dimIndex = some s → IndexText s) (h : extractDimOf p none = .ok r w) : DimFits p where
  fine hb := badDim_not_ok hb (fun _ => rfl) h
  indices n hn hl ha := by
    obtain ⟨isDim, names, displays⟩ := r
    obtain ⟨display, ho, -⟩ := extractDimOf_outcome h
    rcases ho with ⟨-, -, -, h1, -⟩ | ⟨-, -, n', h2, h3, h4, mark, idx, -, -, h5, h6⟩
    · exact absurd hl (hasSub_false.1 h1)
    · simp only [ownOr, orIfNone_none] at h2 h6
      rw [hn] at h2
      cases h2
      rcases h6 with ⟨-, h7, -⟩ | ⟨-, -, -, h8, -⟩
      · exact absurd (hasSub_iff.1 h7) ha
      · cases hs : (dimOf p).dimIndex with
        | none => exact ⟨_, .absent, by simp; omega⟩
        | some s =>
          rw [hs] at h8
          exact indexText_denotes (hi s hs) h8 h3 h5

theorem widthOf_of_ok {f : SField} {y : Int × Int} {w : List Warn} (h : fieldMsbLsb f none = .ok y w)
    (hr : ∀ r, f.bitRange = some r → ∃ x y, Decimal x ∧ Decimal y ∧ r = s%"[" ++ x ++ s%":" ++ y ++ s%"]") :
    ∃ w, WidthOf f w := by
  cases hb : f.bitRange with
  | some r =>
    obtain ⟨x, y, hx, hy, rfl⟩ := hr r hb
    exact ⟨_, .range hx hy hb⟩
  | none =>
    cases hl : f.lsb with
    | some l =>
      cases hm : f.msb with
      | some m => exact ⟨_, .lsbMsb hb hl hm⟩
      | none =>
        cases ho : f.bitOffset with
        | some o =>
          cases hw : f.bitWidth with
          | some k => exact ⟨_, .offset hb (.inr hm) ho hw⟩
          | none => simp [fieldMsbLsb, hb, hl, hm, ho, hw, orIfNone, M.bind, M.pure, M.throw] at h
        | none => simp [fieldMsbLsb, hb, hl, hm, ho, orIfNone, M.bind, M.pure, M.throw] at h
    | none =>
      cases ho : f.bitOffset with
      | some o =>
        cases hw : f.bitWidth with
        | some k => exact ⟨_, .offset hb (.inl hl) ho hw⟩
        | none => simp [fieldMsbLsb, hb, hl, ho, hw, orIfNone, M.bind, M.pure, M.throw] at h
      | none => simp [fieldMsbLsb, hb, hl, ho, orIfNone, M.bind, M.pure, M.throw] at h

theorem dimSound_of_extract {p : Parsed} {r : Bool × List Str × List (Option Str)} {w : List Warn}
    (h : extractDimOf p none = .ok r w) : DimSound p where
  fine hb := badDim_not_ok hb (fun _ => rfl) h
  indices n hn hl ha := by
    obtain ⟨isDim, names, displays⟩ := r
    obtain ⟨display, ho, -⟩ := extractDimOf_outcome h
    rcases ho with ⟨-, -, -, h1, -⟩ | ⟨-, -, n', h2, h3, h4, mark, idx, -, -, h5, h6⟩
    · exact absurd hl (hasSub_false.1 h1)
    · simp only [ownOr, orIfNone_none] at h2 h6
      rw [hn] at h2
      cases h2
      rcases h6 with ⟨-, h7, -⟩ | ⟨-, -, -, h8, -⟩
      · exact absurd (hasSub_iff.1 h7) ha
      · have h8' := ((dimIndexList_reads _ _ _ _).1 h8).1
        rw [Option.map_none, Option.bind_none, Option.or_none] at h8'
        exact ⟨_, h8', h5⟩

end Svd
