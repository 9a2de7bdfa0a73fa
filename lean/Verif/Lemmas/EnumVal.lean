import Verif.Lemmas.EnumLit
/- Lemmas about the enumerated value validator, default expansion and finalisation. -/
namespace Svd
open Spec

/-! ### literals with a binary prefix -/

theorem replaceAll_single (c : Char) (new s : Str) :
    replaceAll [c] new s = s.flatMap fun d => if d = c then new else [d] := by
  unfold replaceAll
  induction s with
  | nil => rfl
  | cons d ds ih =>
    simp only [replaceGo, List.isPrefixOf, List.flatMap_cons, List.length_singleton, Nat.sub_self, ih]
    by_cases h : d = c
    · simp [h]
    · have h' : ¬ c = d := fun e => h e.symm
      simp [h, h']

theorem replaceAll_single_not_mem (c : Char) (new s : Str) (h : c ∉ s) : replaceAll [c] new s = s := by
  rw [replaceAll_single]
  induction s with
  | nil => rfl
  | cons d ds ih =>
    simp only [List.mem_cons, not_or] at h
    have h' : ¬ d = c := fun e => h.1 e.symm
    simp only [List.flatMap_cons, h', if_false, ih h.2]
    rfl

theorem lower_append (a b : Str) : lower (a ++ b) = lower a ++ lower b := by simp [lower]

theorem lower_idem (s : Str) : lower (lower s) = lower s := by
  unfold lower
  rw [List.map_map]
  apply List.map_congr_left
  intro c _
  unfold Function.comp lowerC
  by_cases h : 65 ≤ c.toNat ∧ c.toNat ≤ 90
  · have : ∀ k : Fin 26, (Char.ofNat (k.1 + 65 + 32)).toNat = k.1 + 97 := by decide +kernel
    have := this ⟨c.toNat - 65, by omega⟩
    simp only at this
    have e : c.toNat - 65 + 65 + 32 = c.toNat + 32 := by omega
    rw [e] at this
    rw [if_pos h, if_neg (by omega)]
  · rw [if_neg h, if_neg h]

theorem lpat_no_hash {p : Str} (hp : LPat p) : '#' ∉ p := by
  intro h
  rcases hp _ h with h | h | h <;> simp at h

theorem normalise_bin {pre p : Str} (hpre : BinPrefix pre) (hp : IsPattern p) :
    replaceAll ['#'] (s%"0b") (lower (pre ++ p)) = s%"0b" ++ lower p := by
  have hl := (lower_pattern hp).1
  rw [lower_append, replaceAll_single, List.flatMap_append, ← replaceAll_single, ← replaceAll_single,
    replaceAll_single_not_mem _ _ (lower p) (lpat_no_hash hl)]
  rcases hpre with rfl | rfl | rfl <;> rfl

theorem convert_bin {pre p : Str} (hpre : BinPrefix pre) (hp : IsPattern p) :
    convertEnumValue (pre ++ p) = .ok (patVals (lower p)) [] := by
  have hl := lower_pattern hp
  unfold convertEnumValue
  rw [normalise_bin hpre hp]
  simp only [List.isPrefixOf, List.cons_append, List.nil_append, BEq.rfl, Bool.and_self, if_true, List.drop_succ_cons,
    List.drop_zero]
  rw [binaryWithWildcard_pat hl.1 hl.2]
  rfl

/-! ### expansion of one entry -/

/-- The name of an expanded value. -/
def expName (e : SEnumValue) (v : Int) : Str :=
  match e.value with
  | some lit => if hasWildcard lit then e.name ++ '_' :: intStr v else e.name
  | none => e.name

theorem resolveOne_some {e : SEnumValue} (hn : lower e.name ≠ s%"reserved") (o : Option Int) :
    resolveOne e o = .ok (some { name := (match o with | some v => expName e v | none => e.name),
                                 description := e.description, value := o,
                                 isDefault := e.isDefault.getD false }) [] := by
  unfold resolveOne
  rw [if_neg hn]
  cases o with
  | none => rfl
  | some v =>
    unfold expName
    cases hv : e.value with
    | none => rfl
    | some lit => rfl

theorem filterMapM_resolveOne {e : SEnumValue} (hn : lower e.name ≠ s%"reserved") (l : List (Option Int)) :
    M.filterMapM (resolveOne e) l = .ok (l.map fun o =>
      { name := (match o with | some v => expName e v | none => e.name), description := e.description, value := o,
        isDefault := e.isDefault.getD false }) [] := by
  induction l with
  | nil => rfl
  | cons o l ih =>
    rw [M.filterMapM_cons_ok]
    exact ⟨_, [], _, [], resolveOne_some hn o, ih, rfl, rfl⟩

theorem filterMapM_resolveOne_reserved {e : SEnumValue} (hn : lower e.name = s%"reserved") (l : List (Option Int)) :
    M.filterMapM (resolveOne e) l = .ok [] (l.map fun _ => Warn.enumReserved) := by
  induction l with
  | nil => rfl
  | cons o l ih =>
    rw [M.filterMapM_cons_ok]
    refine ⟨none, [.enumReserved], _, _, ?_, ih, rfl, rfl⟩
    unfold resolveOne
    rw [if_pos hn]
    rfl

/-! ### the validator -/

/-- A default entry carries no value. -/
def clearDefault (v : IEnumValue) : IEnumValue := if v.isDefault then { v with value := none } else v

/-- `v` repeats the name or the value of the kept entry `u`. -/
def Clash (u v : IEnumValue) : Prop := u.name = v.name ∨ ∃ x, u.value = some x ∧ v.value = some x

instance (u v : IEnumValue) : Decidable (Clash u v) :=
  decidable_of_iff (u.name = v.name ∨ (u.value.isSome ∧ u.value = v.value)) (by
    unfold Clash
    constructor
    · rintro (h | ⟨h1, h2⟩)
      · exact Or.inl h
      · obtain ⟨x, hx⟩ := Option.isSome_iff_exists.1 h1
        exact Or.inr ⟨x, hx, by rw [← h2]; exact hx⟩
    · rintro (h | ⟨x, h1, h2⟩)
      · exact Or.inl h
      · exact Or.inr ⟨by rw [h1]; rfl, by rw [h1, h2]⟩)

/-- Invariant of the validator loop: state and accepted values agree. -/
structure EVInv (st : EVState) (evs : List IEnumValue) : Prop where
  names : ∀ n, n ∈ st.seenNames ↔ n ∈ evs.map (·.name)
  vals : ∀ x, x ∈ st.seenValues ↔ some x ∈ evs.map (·.value)
  noClash : evs.Pairwise fun u v => ¬ Clash u v
  cleared : ∀ e ∈ evs, e.isDefault = true → e.value = none
  dflt : ∀ e ∈ evs, e.isDefault = true → st.seenDefault = some e
  dflt' : ∀ d, st.seenDefault = some d → d ∈ evs ∧ d.isDefault = true

theorem EVInv.init : EVInv {} [] := by
  constructor <;> simp

theorem clash_iff {st : EVState} {evs : List IEnumValue} (h : EVInv st evs) (v : IEnumValue) :
    (∃ u ∈ evs, Clash u v) ↔
      (v.name ∈ st.seenNames ∨ ∃ x, v.value = some x ∧ x ∈ st.seenValues) := by
  constructor
  · rintro ⟨u, hu, h1 | ⟨x, h1, h2⟩⟩
    · exact Or.inl ((h.names _).2 (List.mem_map.2 ⟨u, hu, h1⟩))
    · exact Or.inr ⟨x, h2, (h.vals _).2 (List.mem_map.2 ⟨u, hu, h1⟩)⟩
  · rintro (h1 | ⟨x, h1, h2⟩)
    · obtain ⟨u, hu, h3⟩ := List.mem_map.1 ((h.names _).1 h1)
      exact ⟨u, hu, Or.inl h3⟩
    · obtain ⟨u, hu, h3⟩ := List.mem_map.1 ((h.vals _).1 h2)
      exact ⟨u, hu, Or.inr ⟨x, h3, h1⟩⟩

/-- Warnings that report a dropped duplicate named `n`. -/
def IsDupWarn (n : Str) (w : Warn) : Prop := w = .enumDuplicateName n ∨ ∃ x, w = .enumDuplicateValue n x

/-- What one validator step does. -/
theorem validateStep_spec {st : EVState} {evs : List IEnumValue} (h : EVInv st evs) (v : IEnumValue)
    {r : EVState × List IEnumValue} {ws : List Warn} (hr : validateStep (st, evs) v = .ok r ws) :
    ((∃ u ∈ evs, Clash u v) ∧ r = (st, evs) ∧ ∃ w, ws = [w] ∧ IsDupWarn v.name w) ∨
    ((¬ ∃ u ∈ evs, Clash u v) ∧ r.2 = evs ++ [clearDefault v] ∧ EVInv r.1 r.2 ∧
      (∀ n w, w ∈ ws → ¬ IsDupWarn n w) ∧ (v.isDefault = true → ∀ e ∈ evs, e.isDefault = false)) := by
  rw [clash_iff h]
  unfold validateStep isValueValid at hr
  simp only [M.bind_eq_ok] at hr
  obtain ⟨⟨st', o⟩, w1, w2, h1, h2, rfl⟩ := hr
  simp only [M.pure_eq_ok] at h2
  obtain ⟨rfl, rfl⟩ := h2
  split at h1
  · rename_i hn
    simp only [M.bind_eq_ok, M.warn_eq_ok, M.pure_eq_ok, Prod.mk.injEq] at h1
    obtain ⟨_, _, _, rfl, ⟨⟨rfl, rfl⟩, rfl⟩, rfl⟩ := h1
    left
    refine ⟨Or.inl (by simpa using hn), rfl, _, rfl, Or.inl rfl⟩
  · rename_i hn
    by_cases hv : seenValue st v.value = true
    · rw [if_pos hv] at h1
      simp only [M.bind_eq_ok, M.warn_eq_ok, M.pure_eq_ok, Prod.mk.injEq] at h1
      obtain ⟨_, _, _, rfl, ⟨⟨rfl, rfl⟩, rfl⟩, rfl⟩ := h1
      left
      cases hval : v.value with
      | none => simp [hval, seenValue] at hv
      | some x =>
        refine ⟨Or.inr ⟨x, rfl, by simpa [hval, seenValue] using hv⟩, rfl, _, rfl, Or.inr ⟨_, rfl⟩⟩
    · rw [if_neg hv] at h1
      right
      have hnc : ¬ (v.name ∈ st.seenNames ∨ ∃ x, v.value = some x ∧ x ∈ st.seenValues) := by
        rintro (h3 | ⟨x, h3, h4⟩)
        · exact hn (by simpa using h3)
        · rw [h3] at hv; exact hv (by simpa [seenValue] using h4)
      have hnc' : ¬ ∃ u ∈ evs, Clash u v := fun hh => hnc ((clash_iff h v).1 hh)
      refine ⟨hnc, ?_⟩
      have hnm : v.name ∉ st.seenNames := fun hh => hnc (Or.inl hh)
      by_cases hd : v.isDefault = true
      · simp only [hd, if_true, M.bind_eq_ok, M.pure_eq_ok] at h1
        obtain ⟨⟨st2, v2⟩, w3, w4, ⟨u, w5, w6, hwarn, h4, rfl⟩, ⟨h5, rfl⟩, rfl⟩ := h1
        cases hsd : st.seenDefault with
        | some d => rw [hsd] at h4; simp at h4
        | none =>
          rw [hsd] at h4
          simp only [M.pure_eq_ok, Prod.mk.injEq] at h4
          obtain ⟨⟨rfl, rfl⟩, rfl⟩ := h4
          simp only [Prod.mk.injEq] at h5
          obtain ⟨rfl, rfl⟩ := h5
          have hcl : clearDefault v = { v with value := none } := by simp [clearDefault, hd]
          have hnd : ∀ e ∈ evs, e.isDefault = false := by
            intro e he
            by_cases hed : e.isDefault = true
            · have := h.dflt e he hed; rw [hsd] at this; cases this
            · simpa using hed
          refine ⟨by simp [hcl, hd], ?_, ?_, fun _ => hnd⟩
          · constructor
            · intro n
              simp only [List.mem_cons, h.names, List.map_append, List.map_cons, List.map_nil, List.mem_append,
                List.not_mem_nil, or_false]
              exact Or.comm
            · intro x
              simp only [h.vals, List.map_append, List.map_cons, List.map_nil, List.mem_append, List.mem_cons,
                List.not_mem_nil, or_false, reduceCtorEq]
            · simp only [List.pairwise_append, List.pairwise_cons, List.not_mem_nil, false_implies, implies_true,
                List.Pairwise.nil, and_self, List.mem_cons, or_false, forall_eq, true_and]
              refine ⟨h.noClash, ?_⟩
              intro a ha hc
              refine hnc' ⟨a, ha, ?_⟩
              rcases hc with h6 | ⟨x, _, h7⟩
              · exact Or.inl h6
              · cases h7
            · intro e he hed
              simp only [List.mem_append, List.mem_cons, List.not_mem_nil, or_false] at he
              rcases he with he | rfl
              · exact h.cleared e he hed
              · rfl
            · intro e he hed
              simp only [List.mem_append, List.mem_cons, List.not_mem_nil, or_false] at he
              rcases he with he | rfl
              · rw [hnd e he] at hed; cases hed
              · rfl
            · intro d hdd
              simp only [Option.some.injEq] at hdd
              subst hdd
              exact ⟨by simp, rfl⟩
          · intro n w hw
            have : w5 = [] ∨ ∃ x, w5 = [.enumDefaultHasValue v.name x] := by
              cases hval : v.value with
              | none => rw [hval] at hwarn; simp at hwarn; exact Or.inl hwarn
              | some x => rw [hval] at hwarn; simp at hwarn; exact Or.inr ⟨x, hwarn⟩
            simp only [List.append_nil] at hw
            rcases this with rfl | ⟨x, rfl⟩
            · simp at hw
            · simp only [List.mem_cons, List.not_mem_nil, or_false] at hw
              subst hw
              rintro (hh | ⟨_, hh⟩) <;> cases hh
      · simp only [hd, if_false, M.bind_pure, M.pure_eq_ok, Prod.mk.injEq, Bool.false_eq_true] at h1
        obtain ⟨⟨rfl, rfl⟩, rfl⟩ := h1
        have hcl : clearDefault v = v := by simp [clearDefault, hd]
        refine ⟨by simp [hcl], ?_, by simp, fun hh => absurd hh hd⟩
        constructor
        · intro n
          simp only [List.mem_cons, h.names, List.map_append, List.map_cons, List.map_nil, List.mem_append,
            List.not_mem_nil, or_false]
          exact Or.comm
        · intro x
          simp only [List.map_append, List.map_cons, List.map_nil, List.mem_append, List.mem_cons,
            List.not_mem_nil, or_false]
          cases hval : v.value with
          | none => simp [h.vals]
          | some y =>
            simp only [List.mem_cons, h.vals, Option.some.injEq]
            exact Or.comm
        · simp only [List.pairwise_append, List.pairwise_cons, List.not_mem_nil, false_implies, implies_true,
            List.Pairwise.nil, and_self, List.mem_cons, or_false, forall_eq, true_and]
          exact ⟨h.noClash, fun a ha hc => hnc' ⟨a, ha, hc⟩⟩
        · intro e he hed
          simp only [List.mem_append, List.mem_cons, List.not_mem_nil, or_false] at he
          rcases he with he | rfl
          · exact h.cleared e he hed
          · exact absurd hed hd
        · intro e he hed
          simp only [List.mem_append, List.mem_cons, List.not_mem_nil, or_false] at he
          rcases he with he | rfl
          · exact h.dflt e he hed
          · exact absurd hed hd
        · intro d hdd
          have := h.dflt' d hdd
          exact ⟨by simp [this.1], this.2⟩

/-- The entries selected by a mask, default entries without value. -/
def keptOf : List IEnumValue → List Bool → List IEnumValue
  | v :: vs, true :: m => clearDefault v :: keptOf vs m
  | _ :: vs, false :: m => keptOf vs m
  | _, _ => []

/-- The entries not selected by a mask. -/
def droppedOf : List IEnumValue → List Bool → List IEnumValue
  | _ :: vs, true :: m => droppedOf vs m
  | v :: vs, false :: m => v :: droppedOf vs m
  | _, _ => []

/-- The mask keeps exactly the entries that repeat no entry kept before (`prev`: kept already). -/
def FirstsMask (prev : List IEnumValue) : List IEnumValue → List Bool → Prop
  | [], [] => True
  | v :: vs, b :: m =>
      (b = false ↔ ∃ u ∈ prev, Clash u v) ∧ FirstsMask (prev ++ if b then [clearDefault v] else []) vs m
  | _, _ => False

/-- Dropped entries and the duplicate warnings correspond one to one, in order; `ws` may contain other warnings. -/
inductive DupWarns : List IEnumValue → List Warn → Prop
  | nil : DupWarns [] []
  | dup {v vs w ws} : IsDupWarn v.name w → DupWarns vs ws → DupWarns (v :: vs) (w :: ws)
  | other {vs w ws} : (∀ n, ¬ IsDupWarn n w) → DupWarns vs ws → DupWarns vs (w :: ws)

theorem DupWarns.others {vs : List IEnumValue} {ws1 ws2 : List Warn} (h1 : ∀ w ∈ ws1, ∀ n, ¬ IsDupWarn n w)
    (h2 : DupWarns vs ws2) : DupWarns vs (ws1 ++ ws2) := by
  induction ws1 with
  | nil => exact h2
  | cons w ws ih => exact .other (h1 w (by simp)) (ih fun x hx => h1 x (by simp [hx]))

theorem validate_foldM {st : EVState} {evs : List IEnumValue} (h : EVInv st evs) (vs : List IEnumValue)
    {r : EVState × List IEnumValue} {ws : List Warn} (hr : M.foldM validateStep (st, evs) vs = .ok r ws) :
    EVInv r.1 r.2 ∧ ∃ mask, FirstsMask evs vs mask ∧ r.2 = evs ++ keptOf vs mask ∧
      DupWarns (droppedOf vs mask) ws := by
  induction vs generalizing st evs ws with
  | nil =>
    simp only [M.foldM, M.pure_eq_ok] at hr
    obtain ⟨rfl, rfl⟩ := hr
    exact ⟨h, [], trivial, by simp [keptOf], .nil⟩
  | cons v vs ih =>
    simp only [M.foldM, M.bind_eq_ok] at hr
    obtain ⟨⟨st1, evs1⟩, w1, w2, h1, h2, rfl⟩ := hr
    rcases validateStep_spec h v h1 with ⟨hc, heq, w, rfl, hw⟩ | ⟨hc, heq, hinv, hw, -⟩
    · simp only [Prod.mk.injEq] at heq
      obtain ⟨rfl, rfl⟩ := heq
      obtain ⟨hi, mask, hm, hk, hd⟩ := ih h h2
      refine ⟨hi, false :: mask, ⟨⟨fun _ => hc, fun _ => rfl⟩, by simpa using hm⟩, by simpa [keptOf] using hk, ?_⟩
      exact .dup hw hd
    · simp only at heq hinv
      subst heq
      obtain ⟨hi, mask, hm, hk, hd⟩ := ih hinv h2
      refine ⟨hi, true :: mask, ⟨⟨fun hh => by simp at hh, fun hh => absurd hh hc⟩, by simpa using hm⟩,
        by simpa [keptOf] using hk, ?_⟩
      exact .others (fun w hw' n => hw n w hw') hd

/-- The whole validator loop, given the expansion of each entry. -/
theorem validateLoop_spec {st : EVState} {evs : List IEnumValue} (h : EVInv st evs) (ps : List SEnumValue)
    {r : EVState × List IEnumValue} {ws : List Warn} (hr : validateLoop (st, evs) ps = .ok r ws) :
    EVInv r.1 r.2 ∧ ∃ vss wss, M.Each resolveWildcard ps vss wss ∧
      ∃ ws', M.foldM validateStep (st, evs) vss.flatten = .ok r ws' ∧ ws.Perm (wss ++ ws') := by
  unfold validateLoop at hr
  induction ps generalizing st evs ws with
  | nil =>
    simp only [M.foldM, M.pure_eq_ok] at hr
    obtain ⟨rfl, rfl⟩ := hr
    exact ⟨h, [], [], .nil, [], rfl, List.Perm.refl _⟩
  | cons p ps ih =>
    simp only [M.foldM] at hr
    simp only [M.bind_eq_ok] at hr
    obtain ⟨⟨st1, evs1⟩, w1, w2, ⟨vs, w3, w4, h1, h2, rfl⟩, h3, rfl⟩ := hr
    have hinv := (validate_foldM h vs h2).1
    obtain ⟨hi, vss, wss, he, ws', hf, hp⟩ := ih hinv h3
    refine ⟨hi, vs :: vss, w3 ++ wss, .cons h1 he, w4 ++ ws', ?_, ?_⟩
    · rw [List.flatten_cons, M.foldM_append]
      exact M.bind_eq_ok.2 ⟨_, _, _, h2, hf, rfl⟩
    · have : (w3 ++ w4 ++ w2).Perm (w3 ++ w4 ++ (wss ++ ws')) := hp.append_left _
      refine this.trans ?_
      simp only [List.append_assoc]
      refine List.Perm.append_left _ ?_
      rw [← List.append_assoc, ← List.append_assoc]
      exact List.Perm.append_right _ List.perm_append_comm

/-! ### ascending lists -/

theorem ascending_ext {l m : List Int} (hl : Ascending l) (hm : Ascending m) (h : ∀ x, x ∈ l ↔ x ∈ m) : l = m := by
  induction l generalizing m with
  | nil =>
    cases m with
    | nil => rfl
    | cons y ys => exact absurd ((h y).2 (by simp)) (by simp)
  | cons x xs ih =>
    cases m with
    | nil => exact absurd ((h x).1 (by simp)) (by simp)
    | cons y ys =>
      obtain ⟨hx, hxs⟩ := List.pairwise_cons.1 hl
      obtain ⟨hy, hys⟩ := List.pairwise_cons.1 hm
      have hxy : x = y := by
        rcases List.mem_cons.1 ((h x).1 (by simp)) with e | e
        · exact e
        · rcases List.mem_cons.1 ((h y).2 (by simp)) with e' | e'
          · exact e'.symm
          · have := hy x e; have := hx y e'; omega
      subst hxy
      rw [ih hxs hys]
      intro z
      have := h z
      simp only [List.mem_cons] at this
      constructor
      · intro hz
        rcases this.1 (Or.inr hz) with rfl | h2
        · have := hx z hz; omega
        · exact h2
      · intro hz
        rcases this.2 (Or.inr hz) with rfl | h2
        · have := hy z hz; omega
        · exact h2

theorem mem_fieldValues (w : Nat) (v : Int) : v ∈ fieldValues w ↔ 0 ≤ v ∧ v < 2 ^ w := by
  unfold fieldValues
  rw [rangeFrom_zero, List.mem_map]
  constructor
  · rintro ⟨n, hn, rfl⟩
    have h1 : n < 2 ^ w := List.mem_range.1 hn
    have h2 : (n : Int) < ((2 ^ w : Nat) : Int) := by exact_mod_cast h1
    have h3 : ((2 ^ w : Nat) : Int) = (2 : Int) ^ w := by simp
    have : Int.ofNat n = (n : Int) := rfl
    omega
  · rintro ⟨h0, h1⟩
    refine ⟨v.toNat, List.mem_range.2 ?_, by simp; omega⟩
    have h3 : ((2 ^ w : Nat) : Int) = (2 : Int) ^ w := by simp
    omega

theorem fieldValues_ascending (w : Nat) : Ascending (fieldValues w) := by
  unfold fieldValues Ascending
  rw [rangeFrom_zero, List.pairwise_map]
  exact List.pairwise_lt_range.imp (by intro a b h; simp; omega)

theorem inFieldRange_iff (v w : Int) : inFieldRange v w = true ↔ 0 ≤ w ∧ v ∈ fieldValues w.toNat := by
  unfold inFieldRange
  rw [mem_fieldValues]
  simp only [Bool.and_eq_true, Bool.not_eq_true', decide_eq_false_iff_not, decide_eq_true_eq]
  omega

/-! ### finalisation of the values -/

/-- All results of `finalizeEnumValues`: every value is present, and the output is the input restricted to the field
range, in the same order. -/
theorem finalizeEnumValues_spec {vs : List IEnumValue} {lsb msb : Int} {out : List EnumValue} {ws : List Warn}
    (h : finalizeEnumValues vs lsb msb = .ok out ws) :
    (∀ v ∈ vs, v.value.isSome) ∧
    out = (vs.filter fun v => inFieldRange (v.value.getD 0) (msb - lsb + 1)).map
      (fun v => { name := v.name, description := v.description, value := v.value.getD 0 }) ∧
    ws = (vs.filter fun v => !inFieldRange (v.value.getD 0) (msb - lsb + 1)).map
      (fun v => Warn.enumOutOfRange v.name (v.value.getD 0)) := by
  unfold finalizeEnumValues at h
  induction vs generalizing out ws with
  | nil =>
    simp only [M.filterMapM, M.pure_eq_ok] at h
    obtain ⟨rfl, rfl⟩ := h
    simp
  | cons v vs ih =>
    rw [M.filterMapM_cons_ok] at h
    obtain ⟨o, w1, zs, w2, h1, h2, rfl, rfl⟩ := h
    obtain ⟨i1, i2, i3⟩ := ih h2
    unfold finalizeEnumValue at h1
    cases hv : v.value with
    | none => rw [hv] at h1; simp at h1
    | some x =>
      rw [hv] at h1
      simp only at h1
      split at h1
      · rename_i hr
        simp only [M.pure_eq_ok] at h1
        obtain ⟨rfl, rfl⟩ := h1
        refine ⟨?_, ?_, ?_⟩
        · intro u hu
          rcases List.mem_cons.1 hu with rfl | hu
          · simp [hv]
          · exact i1 u hu
        · simp [hv, hr, i2]
        · simp [hv, hr, i3]
      · rename_i hr
        simp only [M.bind_eq_ok, M.warn_eq_ok, M.pure_eq_ok] at h1
        obtain ⟨_, _, _, rfl, ⟨rfl, rfl⟩, rfl⟩ := h1
        refine ⟨?_, ?_, ?_⟩
        · intro u hu
          rcases List.mem_cons.1 hu with rfl | hu
          · simp [hv]
          · exact i1 u hu
        · simp [hv, hr, i2]
        · simp [hv, hr, i3]

/-- Pairwise no clash and all values present: distinct values. -/
theorem values_nodup {evs : List IEnumValue} (h : evs.Pairwise fun u v => ¬ Clash u v)
    (hs : ∀ v ∈ evs, v.value.isSome) : (evs.map fun v => v.value.getD 0).Pairwise (· ≠ ·) := by
  rw [List.pairwise_map]
  induction evs with
  | nil => exact .nil
  | cons v vs ih =>
    obtain ⟨h1, h2⟩ := List.pairwise_cons.1 h
    refine List.Pairwise.cons ?_ (ih h2 fun u hu => hs u (by simp [hu]))
    intro u hu heq
    obtain ⟨x, hx⟩ := Option.isSome_iff_exists.1 (hs v (by simp))
    obtain ⟨y, hy⟩ := Option.isSome_iff_exists.1 (hs u (by simp [hu]))
    refine h1 u hu (Or.inr ⟨x, hx, ?_⟩)
    rw [hx, hy] at heq
    simp at heq
    rw [hy, heq]

theorem evKeyLe_total : TotalPre evKeyLe := totalPre_of_int (fun v : IEnumValue => v.value.getD 0)

/-- Sorted by value and pairwise different values: strictly ascending. -/
theorem sorted_ascending {evs : List IEnumValue} (h : (evs.map fun v => v.value.getD 0).Pairwise (· ≠ ·)) :
    Ascending ((sortBy evKeyLe evs).map fun v => v.value.getD 0) := by
  have h1 := sortBy_sorted evKeyLe_total evs
  have h2 : ((sortBy evKeyLe evs).map fun v => v.value.getD 0).Pairwise (· ≠ ·) :=
    (((sortBy_perm evs).map _).pairwise_iff (fun hab => Ne.symm hab)).2 h
  unfold Ascending
  rw [List.pairwise_map] at h2 ⊢
  refine (List.Pairwise.and h1 h2).imp ?_
  rintro a b ⟨h3, h4⟩
  simp only [evKeyLe, decide_eq_true_eq] at h3
  omega

end Svd
