import Verif.Lemmas.EnumCore
import Verif.Lemmas.EnumConv
/- One container from its declaration to its processed form. -/
namespace Svd
open Spec

theorem intsBase2_length {l : List Str} {vs : List Int} (h : intsBase2 l = some vs) : vs.length = l.length := by
  induction l generalizing vs with
  | nil => simp [intsBase2] at h; subst h; rfl
  | cons b bs ih =>
    simp only [intsBase2] at h
    split at h
    · cases h
    · split at h
      · cases h
      · rename_i vs' hv
        simp only [Option.some.injEq] at h
        subst h
        simp [ih hv]

theorem product01_ne_nil (k : Nat) : product01 k ≠ [] := by
  induction k with
  | zero => simp [product01]
  | succ k ih => simp [product01, ih]

/-- An accepted literal denotes at least one value. -/
theorem convert_ne_nil {lit : Str} {vs : List Int} {ws : List Warn} (h : convertEnumValue lit = .ok vs ws) :
    vs ≠ [] ∧ ws = [] := by
  unfold convertEnumValue at h
  simp only at h
  split at h
  · rw [M.ofOption_eq_ok] at h
    obtain ⟨h, rfl⟩ := h
    refine ⟨?_, rfl⟩
    unfold binaryWithWildcard at h
    split at h
    · have := intsBase2_length h
      rintro rfl
      simp [replaceXCombinations] at this
      have := this.symm
      simp [product01_ne_nil] at this
    · rw [Option.map_eq_some_iff] at h
      obtain ⟨v, -, rfl⟩ := h
      simp
  · split at h
    · rw [M.ofOption_eq_ok, Option.map_eq_some_iff] at h
      obtain ⟨⟨v, -, rfl⟩, rfl⟩ := h
      simp
    · split at h
      · rw [M.ofOption_eq_ok, Option.map_eq_some_iff] at h
        obtain ⟨⟨v, -, rfl⟩, rfl⟩ := h
        simp
      · simp at h

/-- The values an entry stands for: no value, or what its literal denotes. -/
theorem resolveWildcard_spec {e : SEnumValue} {vs : List IEnumValue} {ws : List Warn}
    (h : resolveWildcard e = .ok vs ws) :
    ∃ l : List (Option Int), l ≠ [] ∧
      ((∀ lit, e.value = some lit → lit = []) ∧ l = [none] ∨
        ∃ lit ints, e.value = some lit ∧ lit ≠ [] ∧ convertEnumValue lit = .ok ints [] ∧ l = ints.map some) ∧
      ((lower e.name = s%"reserved" ∧ vs = [] ∧ ws = l.map fun _ => Warn.enumReserved) ∨
       (lower e.name ≠ s%"reserved" ∧ ws = [] ∧ vs = l.map fun o =>
        { name := (match o with | some v => expName e v | none => e.name), description := e.description, value := o,
          isDefault := e.isDefault.getD false })) := by
  unfold resolveWildcard at h
  rw [M.bind_eq_ok] at h
  obtain ⟨l, w1, w2, h1, h2, rfl⟩ := h
  refine ⟨l, ?_⟩
  have hl : w1 = [] ∧ l ≠ [] ∧ ((∀ lit, e.value = some lit → lit = []) ∧ l = [none] ∨
        ∃ lit ints, e.value = some lit ∧ lit ≠ [] ∧ convertEnumValue lit = .ok ints [] ∧ l = ints.map some) := by
    cases hv : e.value with
    | none =>
      rw [hv] at h1
      simp only [M.pure_eq_ok] at h1
      obtain ⟨rfl, rfl⟩ := h1
      exact ⟨rfl, by simp, Or.inl ⟨by simp, rfl⟩⟩
    | some lit =>
      rw [hv] at h1
      simp only at h1
      split at h1
      · rename_i he
        simp only [M.pure_eq_ok] at h1
        obtain ⟨rfl, rfl⟩ := h1
        refine ⟨rfl, by simp, Or.inl ⟨?_, rfl⟩⟩
        intro lit' hl
        simp only [Option.some.injEq] at hl
        subst hl
        simpa using he
      · rename_i he
        simp only [M.bind_eq_ok, M.pure_eq_ok] at h1
        obtain ⟨ints, w3, w4, h3, ⟨rfl, rfl⟩, rfl⟩ := h1
        obtain ⟨hne, rfl⟩ := convert_ne_nil h3
        exact ⟨rfl, by simpa using hne, Or.inr ⟨lit, ints, rfl, by simpa using he, h3, rfl⟩⟩
  obtain ⟨rfl, hne, hl⟩ := hl
  refine ⟨hne, hl, ?_⟩
  by_cases hn : lower e.name = s%"reserved"
  · left
    rw [filterMapM_resolveOne_reserved hn] at h2
    simp only [M.ok.injEq] at h2
    exact ⟨hn, h2.1.symm, by simpa using h2.2.symm⟩
  · right
    rw [filterMapM_resolveOne hn] at h2
    simp only [M.ok.injEq] at h2
    exact ⟨hn, by simpa using h2.2.symm, h2.1.symm⟩

theorem keptOf_mem {vs : List IEnumValue} {m : List Bool} {v : IEnumValue} (h : v ∈ keptOf vs m) :
    ∃ u ∈ vs, v = clearDefault u := by
  induction vs generalizing m with
  | nil => simp [keptOf] at h
  | cons u us ih =>
    cases m with
    | nil => simp [keptOf] at h
    | cons b m =>
      cases b with
      | true =>
        simp only [keptOf, List.mem_cons] at h
        rcases h with rfl | h
        · exact ⟨u, by simp, rfl⟩
        · obtain ⟨x, hx, rfl⟩ := ih h; exact ⟨x, by simp [hx], rfl⟩
      | false =>
        simp only [keptOf] at h
        obtain ⟨x, hx, rfl⟩ := ih h; exact ⟨x, by simp [hx], rfl⟩

/-- Every entry is kept or dropped. -/
theorem kept_or_dropped {prev vs : List IEnumValue} {m : List Bool} (hm : FirstsMask prev vs m) {v : IEnumValue}
    (hv : v ∈ vs) : clearDefault v ∈ keptOf vs m ∨ v ∈ droppedOf vs m := by
  induction vs generalizing m prev with
  | nil => cases hv
  | cons u us ih =>
    cases m with
    | nil => exact hm.elim
    | cons b m =>
      have hm' := hm.2
      cases b with
      | true =>
        simp only [keptOf, droppedOf, List.mem_cons] at *
        rcases hv with rfl | hv
        · exact Or.inl (Or.inl rfl)
        · exact (ih hm' hv).imp Or.inr id
      | false =>
        simp only [keptOf, droppedOf, List.mem_cons] at *
        rcases hv with rfl | hv
        · exact Or.inr (Or.inl rfl)
        · exact (ih hm' hv).imp id Or.inr

theorem DupWarns.mem {vs : List IEnumValue} {ws : List Warn} (h : DupWarns vs ws) {v : IEnumValue} (hv : v ∈ vs) :
    ∃ w ∈ ws, IsDupWarn v.name w := by
  induction h with
  | nil => cases hv
  | dup hw _ ih =>
    rcases List.mem_cons.1 hv with rfl | hv
    · exact ⟨_, by simp, hw⟩
    · obtain ⟨w, hw, h⟩ := ih hv; exact ⟨w, by simp [hw], h⟩
  | other _ _ ih => obtain ⟨w, hw, h⟩ := ih hv; exact ⟨w, by simp [hw], h⟩

theorem each_flatten_mem {ps : List SEnumValue} {vss : List (List IEnumValue)} {wss : List Warn}
    (h : M.Each resolveWildcard ps vss wss) {v : IEnumValue} (hv : v ∈ vss.flatten) :
    ∃ e ∈ ps, ∃ vs w, resolveWildcard e = .ok vs w ∧ v ∈ vs := by
  obtain ⟨vs, hvs, hv⟩ := List.mem_flatten.1 hv
  obtain ⟨e, he, w, hw⟩ := h.mem hvs
  exact ⟨e, he, vs, w, hw, hv⟩

theorem clearDefault_none {v : IEnumValue} (h : v.value = none) : (clearDefault v).value = none := by
  unfold clearDefault; cases v.isDefault <;> simp [h]
theorem clearDefault_name (v : IEnumValue) : (clearDefault v).name = v.name := by
  unfold clearDefault; split <;> rfl
theorem clearDefault_isDefault (v : IEnumValue) : (clearDefault v).isDefault = v.isDefault := by
  unfold clearDefault; split <;> rfl
theorem clearDefault_description (v : IEnumValue) : (clearDefault v).description = v.description := by
  unfold clearDefault; split <;> rfl

/-- The name of an expanded entry begins with the name of the entry. -/
theorem expName_prefix (e : SEnumValue) (v : Int) : e.name <+: expName e v := by
  unfold expName
  split
  · split
    · exact List.prefix_append _ _
    · exact List.prefix_rfl
  · exact List.prefix_rfl

/-- Where a validated value comes from. -/
theorem kept_origin {ps : List SEnumValue} {st : EVState} {evs : List IEnumValue} {ws : List Warn}
    (h : validateLoop ({}, []) ps = .ok (st, evs) ws) {v : IEnumValue} (hv : v ∈ evs) :
    ∃ e ∈ ps, lower e.name ≠ s%"reserved" ∧ v.description = e.description ∧ v.isDefault = e.isDefault.getD false ∧
      ((v.name = e.name ∧ v.value = none) ∨
        ∃ lit ints x, e.value = some lit ∧ lit ≠ [] ∧ convertEnumValue lit = .ok ints [] ∧ x ∈ ints ∧
          v.name = expName e x ∧ (v.isDefault = false → v.value = some x)) := by
  obtain ⟨-, vss, wss, he, ws', hf, -⟩ := validateLoop_spec EVInv.init ps h
  obtain ⟨-, mask, hm, hk, -⟩ := validate_foldM EVInv.init _ hf
  simp only [List.nil_append] at hk
  rw [hk] at hv
  obtain ⟨u, hu, rfl⟩ := keptOf_mem hv
  obtain ⟨e, hep, vs, w, hr, huv⟩ := each_flatten_mem he hu
  obtain ⟨l, -, hl, ⟨-, rfl, -⟩ | ⟨hn, -, rfl⟩⟩ := resolveWildcard_spec hr
  · cases huv
  · obtain ⟨o, ho, rfl⟩ := List.mem_map.1 huv
    refine ⟨e, hep, hn, clearDefault_description _, clearDefault_isDefault _, ?_⟩
    rcases hl with ⟨-, rfl⟩ | ⟨lit, ints, h1, h2, h3, rfl⟩
    · simp only [List.mem_singleton] at ho
      subst ho
      left
      exact ⟨clearDefault_name _, clearDefault_none rfl⟩
    · obtain ⟨x, hx, rfl⟩ := List.mem_map.1 ho
      right
      refine ⟨lit, ints, x, h1, h2, h3, hx, clearDefault_name _, ?_⟩
      intro hd
      rw [clearDefault_isDefault] at hd
      unfold clearDefault
      rw [hd]; rfl

/-- A default entry that is not reported as a duplicate is seen. -/
theorem default_seen {ps : List SEnumValue} {st : EVState} {evs : List IEnumValue} {ws : List Warn}
    (h : validateLoop ({}, []) ps = .ok (st, evs) ws) {e : SEnumValue} (he : e ∈ ps) (hd : e.isDefault = some true)
    (hn : lower e.name ≠ s%"reserved") (hw : ∀ w ∈ ws, ∀ n, IsDupWarn n w → ¬ e.name <+: n) :
    st.seenDefault.isSome := by
  obtain ⟨-, vss, wss, hE, ws', hf, hperm⟩ := validateLoop_spec EVInv.init ps h
  obtain ⟨-, mask, hm, hk, hdup⟩ := validate_foldM EVInv.init _ hf
  obtain ⟨vs, hvs, w, hr⟩ := hE.mem' he
  obtain ⟨l, hne, hl, ⟨h1, -, -⟩ | ⟨-, -, rfl⟩⟩ := resolveWildcard_spec hr
  · exact absurd h1 hn
  · obtain ⟨o, l', rfl⟩ := List.exists_cons_of_ne_nil hne
    have hmem : _ ∈ vss.flatten := List.mem_flatten.2 ⟨_, hvs, List.mem_map.2 ⟨o, by simp, rfl⟩⟩
    have := (foldM_seenDefault EVInv.init hf)
    simp only at this
    rw [this]
    rcases kept_or_dropped hm hmem with hkept | hdrop
    · simp only [List.nil_append] at hk
      refine ⟨_, by rw [hk]; exact hkept, ?_⟩
      rw [clearDefault_isDefault, hd]; rfl
    · exfalso
      obtain ⟨w, hw', hdw⟩ := hdup.mem hdrop
      refine hw w (hperm.mem_iff.2 (List.mem_append.2 (Or.inr hw'))) _ hdw ?_
      cases o with
      | none => exact List.prefix_rfl
      | some x => exact expName_prefix e x

/-- Provenance of the values of a processed container. -/
theorem final_origin {ps : List SEnumValue} {lsb msb : Int} {vs : List IEnumValue} {out : List EnumValue}
    {w1 w2 : List Warn} (h1 : processEnumValues ps lsb msb = .ok vs w1)
    (h2 : finalizeEnumValues vs lsb msb = .ok out w2) {v : EnumValue} (hv : v ∈ out) :
    ∃ e ∈ ps, lower e.name ≠ s%"reserved" ∧ v.description = e.description ∧
      ((∃ lit ints, e.value = some lit ∧ lit ≠ [] ∧ convertEnumValue lit = .ok ints [] ∧ v.value ∈ ints ∧
          v.name = expName e v.value) ∨
       (e.isDefault = some true ∧ ∃ n, (n = e.name ∨ ∃ x, n = expName e x) ∧ v.name = n ++ '_' :: intStr v.value)) := by
  obtain ⟨hsome, rfl, -⟩ := finalizeEnumValues_spec h2
  obtain ⟨st, evs, hl, hinv, hcases⟩ := processEnumValues_spec h1
  obtain ⟨u, hu, rfl⟩ := List.mem_map.1 hv
  obtain ⟨hu, hr⟩ := List.mem_filter.1 hu
  have hus := hsome u hu
  obtain ⟨x, hx⟩ := Option.isSome_iff_exists.1 hus
  have kept : u ∈ evs → ∃ e ∈ ps, lower e.name ≠ s%"reserved" ∧ u.description = e.description ∧
      (∃ lit ints, e.value = some lit ∧ lit ≠ [] ∧ convertEnumValue lit = .ok ints [] ∧ u.value.getD 0 ∈ ints ∧
          u.name = expName e (u.value.getD 0)) := by
    intro hue
    obtain ⟨e, he, hn, hd, hdef, ⟨-, h⟩ | ⟨lit, ints, y, h1, h2, h3, h4, h5, h6⟩⟩ := kept_origin hl hue
    · rw [hx] at h; cases h
    · have hdf : u.isDefault = false := by
        cases hud : u.isDefault with
        | false => rfl
        | true => have := hinv.cleared u hue hud; rw [hx] at this; cases this
      have := h6 hdf
      refine ⟨e, he, hn, hd, lit, ints, h1, h2, h3, ?_, ?_⟩ <;> rw [this] <;> assumption
  rcases hcases with ⟨-, rfl⟩ | ⟨d, hd, hw, rfl⟩
  · obtain ⟨e, he, hn, hd, h⟩ := kept (by simpa using hu)
    exact ⟨e, he, hn, hd, Or.inl h⟩
  · simp only [mem_sortBy, List.mem_append, List.mem_filter] at hu
    rcases hu with ⟨hu, -⟩ | hu
    · obtain ⟨e, he, hn, hd, h⟩ := kept hu
      exact ⟨e, he, hn, hd, Or.inl h⟩
    · obtain ⟨y, hy, rfl⟩ := List.mem_map.1 hu
      have hdm := hinv.dflt' d hd
      obtain ⟨e, he, hn, hdd, hdef, h⟩ := kept_origin hl hdm.1
      refine ⟨e, he, hn, hdd, Or.inr ⟨?_, d.name, ?_, rfl⟩⟩
      · rw [hdm.2] at hdef
        cases he' : e.isDefault with
        | none => rw [he'] at hdef; cases hdef
        | some b => rw [he'] at hdef; simp at hdef; rw [← hdef]
      · rcases h with ⟨h, -⟩ | ⟨_, _, x, _, _, _, _, h, _⟩
        · exact Or.inl h
        · exact Or.inr ⟨x, h⟩

/-- Splitting at the last underscore. -/
theorem underscore_split {a b s t : Str} (hs : '_' ∉ s) (ht : '_' ∉ t) (h : a ++ '_' :: s = b ++ '_' :: t) :
    a = b ∧ s = t := by
  induction a generalizing b with
  | nil =>
    cases b with
    | nil => simpa using h
    | cons c b =>
      simp only [List.nil_append, List.cons_append, List.cons.injEq] at h
      exact absurd (show '_' ∈ s by rw [h.2]; simp) hs
  | cons c a ih =>
    cases b with
    | nil =>
      simp only [List.nil_append, List.cons_append, List.cons.injEq] at h
      exact absurd (show '_' ∈ t by rw [← h.2]; simp) ht
    | cons d b =>
      simp only [List.cons_append, List.cons.injEq] at h
      obtain ⟨rfl, h⟩ := h
      obtain ⟨rfl, h2⟩ := ih h
      exact ⟨rfl, h2⟩

theorem intStr_no_underscore (i : Int) : '_' ∉ intStr i := by
  intro h
  have hn : ∀ n, '_' ∉ natStr n := by
    intro n hh
    have := natStr_digits n _ hh
    revert this; decide
  cases i with
  | ofNat n => exact hn n h
  | negSucc n =>
    simp only [intStr, List.mem_cons] at h
    rcases h with h | h
    · simp at h
    · exact hn _ h

theorem lowerC_underscore {c : Char} : lowerC c = '_' ↔ c = '_' := by
  constructor
  · intro h
    unfold lowerC at h
    split at h
    · rename_i hc
      have := congrArg Char.toNat h
      rw [toNat_ofNat_small (by omega)] at this
      have h2 : '_'.toNat = 95 := by decide
      omega
    · exact h
  · rintro rfl; decide

/-- A name with a numeric suffix is never "reserved". -/
theorem suffixed_not_reserved (n : Str) (x : Int) : lower (n ++ '_' :: intStr x) ≠ s%"reserved" := by
  intro h
  have : '_' ∈ lower (n ++ '_' :: intStr x) := by
    unfold lower
    exact List.mem_map.2 ⟨'_', by simp, by decide⟩
  rw [h] at this
  revert this; decide

theorem expName_not_reserved {e : SEnumValue} (h : lower e.name ≠ s%"reserved") (x : Int) :
    lower (expName e x) ≠ s%"reserved" := by
  unfold expName
  split
  · split
    · exact suffixed_not_reserved _ _
    · exact h
  · exact h

/-- Names of a processed container: unique unless a default-generated name collides with a declared one. -/
theorem names_nodup {ps : List SEnumValue} {lsb msb : Int} {vs : List IEnumValue} {out : List EnumValue}
    {w1 w2 : List Warn} (h1 : processEnumValues ps lsb msb = .ok vs w1)
    (h2 : finalizeEnumValues vs lsb msb = .ok out w2)
    (hc : ∀ d ∈ ps, d.isDefault = some true → ∀ e ∈ ps, ¬ (d.name ++ ['_']) <+: e.name) :
    (out.map (·.name)).Nodup := by
  obtain ⟨hsome, rfl, -⟩ := finalizeEnumValues_spec h2
  obtain ⟨st, evs, hl, hinv, hcases⟩ := processEnumValues_spec h1
  rw [List.map_map]
  have hcomp : ((fun v : EnumValue => v.name) ∘ fun v : IEnumValue =>
      ({ name := v.name, description := v.description, value := v.value.getD 0 } : EnumValue)) =
      fun v => v.name := by funext v; rfl
  rw [hcomp]
  refine List.Nodup.sublist ((List.filter_sublist).map _) ?_
  have hev : ∀ l : List IEnumValue, l.Sublist evs → (l.map (·.name)).Nodup := by
    intro l hls
    refine List.Nodup.sublist (hls.map _) ?_
    rw [List.Nodup, List.pairwise_map]
    exact hinv.noClash.imp (fun h hn => h (Or.inl hn))
  rcases hcases with ⟨-, rfl⟩ | ⟨d, hd, hw, rfl⟩
  · exact (((sortBy_perm evs).map _).nodup_iff).2 (hev _ (List.Sublist.refl _))
  · refine (((sortBy_perm _).map _).nodup_iff).2 ?_
    rw [List.map_append, List.nodup_append]
    refine ⟨hev _ (List.filter_sublist), ?_, ?_⟩
    · rw [List.map_map, List.Nodup, List.pairwise_map]
      refine ((fieldValues_ascending _).sublist (List.filter_sublist)).imp ?_
      intro a b hab hn
      have := (underscore_split (intStr_no_underscore _) (intStr_no_underscore _) hn).2
      have := intStr_inj this
      omega
    · intro a ha b hb hab
      subst hab
      obtain ⟨u, hu, rfl⟩ := List.mem_map.1 ha
      obtain ⟨v, hv, hvn⟩ := List.mem_map.1 hb
      obtain ⟨y, hy, rfl⟩ := List.mem_map.1 hv
      obtain ⟨hu, hud⟩ := List.mem_filter.1 hu
      simp only [Bool.not_eq_true'] at hud
      have hdm := hinv.dflt' d hd
      obtain ⟨ed, hed, hdn, -, hdef, hdo⟩ := kept_origin hl hdm.1
      have hed' : ed.isDefault = some true := by
        rw [hdm.2] at hdef
        cases he' : ed.isDefault with
        | none => rw [he'] at hdef; cases hdef
        | some b => rw [he'] at hdef; simp at hdef; rw [← hdef]
      have hpre : ed.name <+: d.name := by
        rcases hdo with ⟨h, -⟩ | ⟨_, _, x, _, _, _, _, h, _⟩
        · rw [h]; exact List.prefix_rfl
        · rw [h]; exact expName_prefix _ _
      simp only at hvn
      -- names that are declared as they stand are excluded by the hypothesis
      have bad : ∀ e ∈ ps, ¬ d.name ++ '_' :: intStr y = e.name := by
        intro e he hn
        obtain ⟨t, ht⟩ := hpre
        cases t with
        | nil =>
          rw [List.append_nil] at ht
          exact hc ed hed hed' e he ⟨intStr y, by rw [← hn, ← ht]; simp⟩
        | cons c t =>
          rcases hdo with ⟨h, -⟩ | ⟨lit, _, x, hlit, _, _, _, h, _⟩
          · rw [h] at ht
            have := congrArg List.length ht
            simp at this
          · unfold expName at h
            rw [hlit] at h
            simp only at h
            split at h
            · exact hc ed hed hed' e he ⟨intStr x ++ '_' :: intStr y, by rw [← hn, h]; simp⟩
            · rw [h] at ht
              have := congrArg List.length ht
              simp at this
      obtain ⟨e, he, -, -, hedef, ⟨h, -⟩ | ⟨lit, _, x, hlit, _, _, _, h, hval⟩⟩ := kept_origin hl hu
      · exact bad e he (by rw [hvn, h])
      · have hval := hval hud
        unfold expName at h
        rw [hlit] at h
        simp only at h
        split at h
        · rw [h] at hvn
          obtain ⟨hn', hi⟩ := underscore_split (intStr_no_underscore _) (intStr_no_underscore _) hvn
          have := intStr_inj hi
          subst this
          have := (List.mem_filter.1 hy).2
          simp only [decide_eq_true_eq] at this
          exact this (List.mem_map.2 ⟨u, hu, hval⟩)
        · exact bad e he (by rw [hvn, h])

end Svd
