import Verif.Lemmas.EnumAccept
import Verif.Lemmas.EnumCont
import Verif.Lemmas.FinField
/- Lemmas for the theorems on enumerated values. -/
namespace Svd
open Spec

theorem lower_contains_x {s : Str} : (lower s).contains 'x' = true ↔ 'x' ∈ s ∨ 'X' ∈ s := by
  rw [List.contains_iff_mem]
  unfold lower
  rw [List.mem_map]
  constructor
  · rintro ⟨c, hc, h⟩
    rcases lowerC_eq_cases h with h1 | h1
    · exact Or.inl (h1 ▸ hc)
    · have : c = 'X' := char_eq_of_toNat (by simpa using h1)
      exact Or.inr (this ▸ hc)
  · rintro (h | h)
    · exact ⟨_, h, by decide⟩
    · exact ⟨_, h, by decide⟩

theorem hex_no_x {s : Str} (h : ∀ c ∈ s, IsHex c) : ¬ ('x' ∈ s ∨ 'X' ∈ s) := by
  rintro (hx | hx)
  · have := h _ hx; revert this; unfold IsHex; decide
  · have := h _ hx; revert this; unfold IsHex; decide

theorem prefix_lower_0x {a : Char} {s : Str} (ha : lowerC a ≠ 'x') : (s%"0x").isPrefixOf (lower ('0' :: a :: s)) = false := by
  simp only [lower, List.map_cons, List.isPrefixOf, Bool.and_true, Bool.and_eq_false_iff]
  right
  simpa using Ne.symm ha

theorem hasWildcard_eq (s : Str) : hasWildcard s =
    if (s%"0x").isPrefixOf (lower s) then (lower (s.drop 2)).contains 'x' else (lower s).contains 'x' := by
  unfold hasWildcard
  simp only
  split
  · rfl
  · rw [lower_idem]

/-- The test for don't-care bits on well-formed literals. -/
theorem hasWildcard_iff {lit : Str} (h : WellFormedLit lit) : hasWildcard lit = true ↔ HasDontCare lit := by
  have hno : ∀ {s : Str}, (∀ c ∈ s, IsHex c) → ¬ HasDontCare s := by
    rintro s hs ⟨pre, p, hpre, hp, rfl, hx⟩
    refine hex_no_x hs ?_
    rcases hx with hx | hx
    · exact Or.inl (by simp [hx])
    · exact Or.inr (by simp [hx])
  rw [hasWildcard_eq]
  rcases h with ⟨h1, h2⟩ | ⟨pre, s, h1, h2, h3, rfl⟩ | ⟨pre, p, h1, h2, rfl⟩
  · have hd : ∀ c ∈ lit, IsHex c := fun c hc => dec_isHex (h2 c hc)
    have hx := hex_no_x hd
    have hn : (s%"0x").isPrefixOf (lower lit) = false := by
      rw [lower_dec h2]
      rw [← Bool.not_eq_true, List.isPrefixOf_iff_prefix]
      rintro ⟨t, rfl⟩
      exact hx (Or.inl (by simp))
    rw [hn]
    simp only [Bool.false_eq_true, if_false, lower_contains_x]
    exact ⟨fun h => absurd h hx, fun h => absurd h (hno hd)⟩
  · have hn : (s%"0x").isPrefixOf (lower (pre ++ s)) = true := by
      rcases h1 with rfl | rfl <;> rfl
    have hdrop : (pre ++ s).drop 2 = s := by rcases h1 with rfl | rfl <;> rfl
    rw [hn, hdrop]
    simp only [if_true, lower_contains_x]
    constructor
    · exact fun h => absurd h (hex_no_x h3)
    · rintro ⟨pre', p, hpre, hp, he, hx⟩
      exfalso
      rcases h1 with rfl | rfl <;> rcases hpre with rfl | rfl | rfl <;> simp at he
  · have hn : (s%"0x").isPrefixOf (lower (pre ++ p)) = false := by
      rcases h1 with rfl | rfl | rfl <;> rfl
    rw [hn]
    simp only [Bool.false_eq_true, if_false, lower_contains_x]
    have hpre : 'x' ∉ pre ∧ 'X' ∉ pre := by rcases h1 with rfl | rfl | rfl <;> decide
    constructor
    · intro h
      refine ⟨pre, p, h1, h2, rfl, ?_⟩
      simpa [hpre.1, hpre.2] using h
    · rintro ⟨pre', p', h3, h4, he, hx⟩
      rw [he]
      rcases hx with hx | hx
      · exact Or.inl (by simp [hx])
      · exact Or.inr (by simp [hx])

theorem expName_spec {e : SEnumValue} {lit : Str} (hv : e.value = some lit) (h : WellFormedLit lit) (v : Int) :
    ExpandedName e.name lit v (expName e v) := by
  unfold expName ExpandedName
  rw [hv, intText_eq]
  simp only [← hasWildcard_iff h]
  by_cases hw : hasWildcard lit = true <;> simp [hw]

theorem denotes_iff {lit : Str} {vs : List Int} {ws : List Warn} (hw : WellFormedLit lit)
    (h : convertEnumValue lit = .ok vs ws) : Ascending vs ∧ ∀ v, v ∈ vs ↔ Denotes lit v := by
  obtain ⟨vs', h1, h2, h3⟩ := convert_wellFormed hw
  rw [h1] at h
  simp only [M.ok.injEq] at h
  obtain ⟨rfl, rfl⟩ := h
  refine ⟨h2, fun v => ⟨h3 v, fun hd => ?_⟩⟩
  obtain ⟨vs, h4, h5⟩ := convert_denotes hd
  rw [h1] at h4
  simp only [M.ok.injEq] at h4
  rw [h4.1]; exact h5

/-- A literal that denotes `v` in range appears, or its duplicate is reported. -/
theorem entry_present {ps : List SEnumValue} {lsb msb : Int} {vs : List IEnumValue} {out : List EnumValue}
    {w1 w2 : List Warn} (h1 : processEnumValues ps lsb msb = .ok vs w1)
    (h2 : finalizeEnumValues vs lsb msb = .ok out w2) {e : SEnumValue} (he : e ∈ ps) (hn : ¬ Reserved e.name)
    (hd : e.isDefault ≠ some true) {lit : Str} (hlit : e.value = some lit) {v : Int} (hv : Denotes lit v)
    (hr : v < 2 ^ (msb - lsb + 1).toNat) (hlm : lsb ≤ msb + 1) :
    ∃ n, ExpandedName e.name lit v n ∧
      ({ name := n, description := e.description, value := v } ∈ out ∨ ∃ w ∈ w1, DupWarning n w) := by
  have hwf := denotes_wellFormed hv
  refine ⟨expName e v, expName_spec hlit hwf v, ?_⟩
  obtain ⟨hsome, hout, -⟩ := finalizeEnumValues_spec h2
  obtain ⟨st, evs, hl, hinv, hcases⟩ := processEnumValues_spec h1
  obtain ⟨-, vss, wss, hE, ws', hf, hperm⟩ := validateLoop_spec EVInv.init ps hl
  obtain ⟨-, mask, hm, hk, hdup⟩ := validate_foldM EVInv.init _ hf
  obtain ⟨us, hus, w, hres⟩ := hE.mem' he
  obtain ⟨l, hne, hll, ⟨hr1, -, -⟩ | ⟨-, -, rfl⟩⟩ := resolveWildcard_spec hres
  · exact absurd hr1 (fun x => hn (reserved_iff.2 x))
  have hlne : lit ≠ [] := by
    rintro rfl
    rcases hwf with ⟨h, -⟩ | ⟨pre, s, h, h', -, he⟩ | ⟨pre, p, h, h', he⟩
    · exact h rfl
    · rw [eq_comm, List.append_eq_nil_iff] at he; exact h' he.2
    · rw [eq_comm, List.append_eq_nil_iff] at he; exact h'.1 he.2
  obtain ⟨ints, hc, rfl⟩ : ∃ ints, convertEnumValue lit = .ok ints [] ∧ l = ints.map some := by
    rcases hll with ⟨h, -⟩ | ⟨lit', ints, h3, -, h4, h5⟩
    · exact absurd (h lit hlit) hlne
    · rw [hlit] at h3; simp only [Option.some.injEq] at h3; subst h3; exact ⟨ints, h4, h5⟩
  have hvi : v ∈ ints := ((denotes_iff hwf hc).2 v).2 hv
  let u : IEnumValue := { name := expName e v, description := e.description, value := some v,
                          isDefault := e.isDefault.getD false }
  have hud : u.isDefault = false := by
    show e.isDefault.getD false = false
    cases hh : e.isDefault with
    | none => rfl
    | some b => cases b with
      | false => rfl
      | true => exact absurd hh hd
  have hu : u ∈ vss.flatten :=
    List.mem_flatten.2 ⟨_, hus, List.mem_map.2 ⟨some v, List.mem_map.2 ⟨v, hvi, rfl⟩, rfl⟩⟩
  rcases kept_or_dropped hm hu with hkept | hdrop
  · left
    have hcd : clearDefault u = u := by unfold clearDefault; rw [if_neg (by simp [hud])]
    rw [hcd] at hkept
    have hue : u ∈ evs := by simp only [List.nil_append] at hk; rw [hk]; exact hkept
    have huv : u ∈ vs := by
      rcases hcases with ⟨-, rfl⟩ | ⟨d, -, -, rfl⟩
      · rw [mem_sortBy]; exact hue
      · rw [mem_sortBy, List.mem_append, List.mem_filter]; exact Or.inl ⟨hue, by simp [hud]⟩
    rw [hout]
    refine List.mem_map.2 ⟨u, List.mem_filter.2 ⟨huv, ?_⟩, rfl⟩
    rw [inFieldRange_iff]
    refine ⟨by omega, (mem_fieldValues _ _).2 ⟨?_, hr⟩⟩
    have : v ∈ ints := hvi
    show 0 ≤ v
    cases hv with
    | dec _ _ => omega
    | hex _ _ _ => omega
    | bin _ _ hm => obtain ⟨n, rfl, -⟩ := hm; omega
  · right
    obtain ⟨w, hw, hdw⟩ := hdup.mem hdrop
    exact ⟨w, hperm.mem_iff.2 (by simp [hw]), hdw⟩

theorem prefix_eq_of_expanded {name lit n : Str} {v : Int} (h : ExpandedName name lit v n) : name <+: n := by
  by_cases hw : HasDontCare lit
  · rw [h.1 hw]; exact List.prefix_append _ _
  · rw [h.2 hw]; exact List.prefix_rfl

/-! ### first come, first kept -/

/-- Name and value of a candidate. -/
def pairOf (v : IEnumValue) : Str × Int := (v.name, v.value.getD 0)

theorem keptOf_eq_keepFirst {prev vs : List IEnumValue} {m : List Bool} (hm : FirstsMask prev vs m)
    (hp : ∀ v ∈ prev, v.value.isSome) (hv : ∀ v ∈ vs, v.value.isSome ∧ v.isDefault = false) :
    (keptOf vs m).map pairOf = keepFirst (prev.map pairOf) (vs.map pairOf) := by
  induction vs generalizing prev m with
  | nil => cases m <;> simp [keptOf, keepFirst]
  | cons v vs ih =>
    cases m with
    | nil => exact hm.elim
    | cons b m =>
      obtain ⟨hb, hm⟩ := hm
      have hvv := hv v (by simp)
      have hcd : clearDefault v = v := by unfold clearDefault; rw [if_neg (by simp [hvv.2])]
      have hany : (prev.map pairOf).any (fun u => u.1 == (pairOf v).1 || u.2 == (pairOf v).2) = true ↔
          ∃ u ∈ prev, Clash u v := by
        rw [List.any_eq_true]
        constructor
        · rintro ⟨_, hu', h⟩
          obtain ⟨u, hu, rfl⟩ := List.mem_map.1 hu'
          refine ⟨u, hu, ?_⟩
          simp only [pairOf, Bool.or_eq_true, beq_iff_eq] at h
          rcases h with h | h
          · exact Or.inl h
          · obtain ⟨x, hx⟩ := Option.isSome_iff_exists.1 (hp u hu)
            obtain ⟨y, hy⟩ := Option.isSome_iff_exists.1 hvv.1
            refine Or.inr ⟨x, hx, ?_⟩
            simp only [hx, hy, Option.getD_some] at h
            rw [hy, h]
        · rintro ⟨u, hu, h⟩
          refine ⟨pairOf u, List.mem_map.2 ⟨u, hu, rfl⟩, ?_⟩
          simp only [pairOf, Bool.or_eq_true, beq_iff_eq]
          rcases h with h | ⟨x, h1, h2⟩
          · exact Or.inl h
          · right; rw [h1, h2]
      cases b with
      | true =>
        have hc : ¬ ∃ u ∈ prev, Clash u v := fun hh => by simpa using hb.2 hh
        simp only [keptOf, hcd, List.map_cons]
        rw [keepFirst, if_neg (by rw [← hany] at hc; exact hc)]
        simp only [hcd, if_true] at hm
        have := ih hm ?_ (fun u hu => hv u (by simp [hu]))
        · rw [this]; simp
        · intro u hu
          rcases List.mem_append.1 hu with hu | hu
          · exact hp u hu
          · simp only [List.mem_singleton] at hu; subst hu; exact hvv.1
      | false =>
        have hc : ∃ u ∈ prev, Clash u v := hb.1 rfl
        simp only [keptOf, List.map_cons]
        rw [keepFirst, if_pos (hany.2 hc)]
        simp only [Bool.false_eq_true, if_false, List.append_nil] at hm
        exact ih hm hp (fun u hu => hv u (by simp [hu]))

/-- Provenance of a processed value. -/
theorem value_origin {ps : List SEnumValue} {lsb msb : Int} {vs : List IEnumValue} {out : List EnumValue}
    {w1 w2 : List Warn} (h1 : processEnumValues ps lsb msb = .ok vs w1)
    (h2 : finalizeEnumValues vs lsb msb = .ok out w2) (hp : PlainValues ps) {v : EnumValue} (hv : v ∈ out) :
    ∃ e ∈ ps, ¬ Reserved e.name ∧ v.description = e.description ∧
      ((∃ lit, e.value = some lit ∧ Denotes lit v.value ∧ ExpandedName e.name lit v.value v.name) ∨
       (e.isDefault = some true ∧ e.name <+: v.name ∧ (['_'] ++ intStr v.value) <:+ v.name)) := by
  obtain ⟨e, he, hn, hd, h⟩ := final_origin h1 h2 hv
  refine ⟨e, he, fun x => hn (reserved_iff.1 x), hd, ?_⟩
  rcases h with ⟨lit, ints, h3, h4, h5, h6, h7⟩ | ⟨h3, n, h4, h5⟩
  · left
    have hwf := convert_accept (hp e he lit h3) h5
    exact ⟨lit, h3, ((denotes_iff hwf h5).2 _).1 h6, h7 ▸ expName_spec h3 hwf _⟩
  · right
    refine ⟨h3, ?_, ?_⟩
    · rw [h5]
      rcases h4 with rfl | ⟨x, rfl⟩
      · exact List.prefix_append _ _
      · exact (expName_prefix e x).trans (List.prefix_append _ _)
    · rw [h5]; exact List.suffix_append _ _

theorem each_candidates {ps : List SEnumValue} {vss : List (List IEnumValue)} {wss : List Warn}
    (h : M.Each resolveWildcard ps vss wss) (hp : PlainValues ps)
    (hv : ∀ v ∈ vss.flatten, v.value.isSome) : Candidates ps (vss.flatten.map pairOf) := by
  induction h with
  | nil => exact .nil
  | @cons e vs w ps vss ws he _ ih =>
    have hp' : PlainValues ps := fun e he => hp e (by simp [he])
    have ih := ih hp' (fun v hv' => hv v (by
      rw [List.flatten_cons, List.mem_append]; exact Or.inr hv'))
    obtain ⟨l, hne, hl, ⟨h1, rfl, -⟩ | ⟨h1, -, rfl⟩⟩ := resolveWildcard_spec he
    · simpa using Candidates.reserved (reserved_iff.2 h1) ih
    · rcases hl with ⟨-, rfl⟩ | ⟨lit, ints, h2, h3, h4, rfl⟩
      · exfalso
        have := hv { name := e.name, description := e.description, value := none,
                     isDefault := e.isDefault.getD false } (by simp)
        simp at this
      · have hwf := convert_accept (hp e (by simp) lit h2) h4
        obtain ⟨h5, h6⟩ := denotes_iff hwf h4
        have hc : Candidates (e :: ps) ((ints.map fun v => (expName e v, v)) ++ vss.flatten.map pairOf) := by
          refine .lit (fun x => h1 (reserved_iff.1 x)) h2 ?_ ?_ ?_ ih
          · simpa [Function.comp_def, Ascending] using h5
          · simpa [Function.comp_def] using h6
          · intro x hx
            obtain ⟨v, -, rfl⟩ := List.mem_map.1 hx
            exact expName_spec h2 hwf v
        rw [List.flatten_cons, List.map_append, List.map_map, List.map_map]
        exact hc

theorem sortBy_pair_filter {vs : List IEnumValue} {p : Int → Bool} :
    ((sortBy evKeyLe vs).filter fun v => p (v.value.getD 0)).Perm (vs.filter fun v => p (v.value.getD 0)) :=
  (sortBy_perm vs).filter _

/-- The processed container is made of the first candidates of each name and value. -/
theorem container_keepFirst {ps : List SEnumValue} {lsb msb : Int} {vs : List IEnumValue} {out : List EnumValue}
    {w1 w2 : List Warn} (h1 : processEnumValues ps lsb msb = .ok vs w1)
    (h2 : finalizeEnumValues vs lsb msb = .ok out w2) (hp : PlainValues ps) (hd : ∀ e ∈ ps, e.isDefault ≠ some true)
    (hlit : ∀ e ∈ ps, ¬ Reserved e.name → ∃ lit, e.value = some lit ∧ lit ≠ []) :
    ∃ cands, Candidates ps cands ∧ (out.map fun v => (v.name, v.value)).Perm
      ((keepFirst [] cands).filter fun c => inFieldRange c.2 (msb - lsb + 1)) := by
  obtain ⟨hsome, hout, -⟩ := finalizeEnumValues_spec h2
  obtain ⟨st, evs, hl, hinv, hcases⟩ := processEnumValues_spec h1
  obtain ⟨-, vss, wss, hE, ws', hf, hperm⟩ := validateLoop_spec EVInv.init ps hl
  obtain ⟨-, mask, hm, hk, hdup⟩ := validate_foldM EVInv.init _ hf
  simp only [List.nil_append] at hk
  have hnd : ∀ v ∈ vss.flatten, v.isDefault = false := by
    intro v hv
    obtain ⟨e, he, us, w, hr, hu⟩ := each_flatten_mem hE hv
    obtain ⟨l, -, -, ⟨-, rfl, -⟩ | ⟨-, -, rfl⟩⟩ := resolveWildcard_spec hr
    · cases hu
    · obtain ⟨o, -, rfl⟩ := List.mem_map.1 hu
      have := hd e he
      simp only
      cases hh : e.isDefault with
      | none => rfl
      | some b => cases b with
        | false => rfl
        | true => exact absurd hh this
  have hdf : st.seenDefault = none := by
    cases hs : st.seenDefault with
    | none => rfl
    | some d =>
      obtain ⟨h3, h4⟩ := hinv.dflt' d hs
      rw [hk] at h3
      obtain ⟨u, hu, rfl⟩ := keptOf_mem h3
      rw [clearDefault_isDefault, hnd u hu] at h4
      cases h4
  have hvs : vs = sortBy evKeyLe evs := by
    rcases hcases with ⟨-, h⟩ | ⟨d, h, -⟩
    · exact h
    · rw [hdf] at h; cases h
  have hevs : ∀ v ∈ evs, v.value.isSome := by
    intro v hv; exact hsome v (by rw [hvs, mem_sortBy]; exact hv)
  have hall : ∀ v ∈ vss.flatten, v.value.isSome := by
    intro v hv
    obtain ⟨e, he, us, w, hr, hu⟩ := each_flatten_mem hE hv
    obtain ⟨l, -, hll, ⟨-, rfl, -⟩ | ⟨hnr, -, rfl⟩⟩ := resolveWildcard_spec hr
    · cases hu
    · obtain ⟨o, ho, rfl⟩ := List.mem_map.1 hu
      rcases hll with ⟨h3, -⟩ | ⟨lit, ints, -, -, -, rfl⟩
      · obtain ⟨lit, h4, h5⟩ := hlit e he (fun x => hnr (reserved_iff.1 x))
        exact absurd (h3 lit h4) h5
      · obtain ⟨x, -, rfl⟩ := List.mem_map.1 ho
        rfl
  refine ⟨_, each_candidates hE hp hall, ?_⟩
  have hkf := keptOf_eq_keepFirst hm (by simp) (fun v hv => ⟨hall v hv, hnd v hv⟩)
  rw [← hk, List.map_nil] at hkf
  rw [← hkf, hout, hvs, List.map_map, List.filter_map]
  exact ((sortBy_perm evs).filter _).map _

theorem containerLe_total : TotalPre containerLe where
  total a b := by
    unfold containerLe
    by_cases h : a.usage.val = b.usage.val
    · rw [if_pos h, if_pos h.symm]; simp only [decide_eq_true_eq]; omega
    · rw [if_neg h, if_neg (Ne.symm h)]; exact strLe_total _ _
  trans a b c h1 h2 := by
    unfold containerLe at *
    by_cases hab : a.usage.val = b.usage.val <;> by_cases hbc : b.usage.val = c.usage.val
    · rw [if_pos hab] at h1; rw [if_pos hbc] at h2; rw [if_pos (hab.trans hbc)]
      simp only [decide_eq_true_eq] at *; omega
    · rw [if_neg hbc] at h2; rw [if_neg (by rw [hab]; exact hbc), hab]; exact h2
    · rw [if_neg hab] at h1; rw [if_neg (by rw [← hbc]; exact hab), ← hbc]; exact h1
    · rw [if_neg hab] at h1; rw [if_neg hbc] at h2
      by_cases hac : a.usage.val = c.usage.val
      · rw [hac] at h1
        exact absurd (strLe_antisymm _ _ h2 h1) hbc
      · rw [if_neg hac]; exact strLe_trans _ _ _ h1 h2

/-- An accepted container cannot have two kept defaults. -/
theorem two_defaults {ps : List SEnumValue} {lsb msb : Int} {vs : List IEnumValue} {w1 : List Warn}
    (h1 : processEnumValues ps lsb msb = .ok vs w1) {e1 e2 : SEnumValue} (he1 : e1 ∈ ps) (he2 : e2 ∈ ps)
    (hd1 : e1.isDefault = some true) (hd2 : e2.isDefault = some true) (hn1 : ¬ Reserved e1.name)
    (hn2 : ¬ Reserved e2.name) (hp1 : ¬ e1.name <+: e2.name) (hp2 : ¬ e2.name <+: e1.name) :
    ∃ w ∈ w1, ∃ n, DupWarning n w ∧ (e1.name <+: n ∨ e2.name <+: n) := by
  obtain ⟨st, evs, hl, hinv, -⟩ := processEnumValues_spec h1
  obtain ⟨-, vss, wss, hE, ws', hf, hperm⟩ := validateLoop_spec EVInv.init ps hl
  obtain ⟨-, mask, hm, hk, hdup⟩ := validate_foldM EVInv.init _ hf
  simp only [List.nil_append] at hk
  have key : ∀ e ∈ ps, e.isDefault = some true → ¬ Reserved e.name →
      ∃ u ∈ vss.flatten, e.name <+: u.name ∧ u.isDefault = true := by
    intro e he hd hn
    obtain ⟨us, hus, w, hres⟩ := hE.mem' he
    obtain ⟨l, hne, -, ⟨hr, -⟩ | ⟨-, -, rfl⟩⟩ := resolveWildcard_spec hres
    · exact absurd hr (fun x => hn (reserved_iff.2 x))
    · cases l with
      | nil => exact absurd rfl hne
      | cons o l =>
        refine ⟨_, List.mem_flatten.2 ⟨_, hus, List.mem_cons_self ..⟩, ?_, ?_⟩
        · cases o with
          | none => exact List.prefix_rfl
          | some v => exact expName_prefix e v
        · simp [hd]
  obtain ⟨u1, hu1, hpre1, hdu1⟩ := key e1 he1 hd1 hn1
  obtain ⟨u2, hu2, hpre2, hdu2⟩ := key e2 he2 hd2 hn2
  have fin : ∀ u ∈ droppedOf vss.flatten mask, ∃ w ∈ w1, DupWarning u.name w := by
    intro u hu
    obtain ⟨w, hw, hdw⟩ := hdup.mem hu
    exact ⟨w, hperm.mem_iff.2 (by simp [hw]), hdw⟩
  rcases kept_or_dropped hm hu1 with hk1 | hk1
  · rcases kept_or_dropped hm hu2 with hk2 | hk2
    · exfalso
      have a1 := hinv.dflt (clearDefault u1) (by show _ ∈ evs; rw [hk]; exact hk1) (by rw [clearDefault_isDefault]; exact hdu1)
      have a2 := hinv.dflt (clearDefault u2) (by show _ ∈ evs; rw [hk]; exact hk2) (by rw [clearDefault_isDefault]; exact hdu2)
      rw [a1] at a2
      simp only [Option.some.injEq] at a2
      have hn : u1.name = u2.name := by rw [← clearDefault_name u1, a2, clearDefault_name]
      rw [hn] at hpre1
      rcases List.prefix_or_prefix_of_prefix hpre1 hpre2 with h | h
      · exact hp1 h
      · exact hp2 h
    · obtain ⟨w, hw, hd⟩ := fin u2 hk2
      exact ⟨w, hw, u2.name, hd, Or.inr hpre2⟩
  · obtain ⟨w, hw, hd⟩ := fin u1 hk1
    exact ⟨w, hw, u1.name, hd, Or.inl hpre1⟩

/-- Fields with a width of at least one bit. -/
theorem proc_field_width {ord : List Nat → List Nat} {fuel : Nat} {d : SDevice} {dev : Device} {ws : List Warn}
    (h : processDevice ord fuel d = .ok dev ws) {f : Field} (hf : HasField dev f) :
    f.bitWidth = f.msb - f.lsb + 1 ∧ f.bitOffset = f.lsb ∧ f.bitRange = (f.msb, f.lsb) := by
  obtain ⟨ps, w1, w2, h1, h2, rfl⟩ := processDevice_ok.1 h
  obtain ⟨r, hr, hf⟩ := hf
  obtain ⟨p, hp, ics, ir, ifs, h3, -, fi, hfi, w, -, h4, h5, -, h6, h7, -, h8⟩ := trace_field h2 hr hf
  rw [h8]
  exact ⟨rfl, rfl, rfl⟩

end Svd
