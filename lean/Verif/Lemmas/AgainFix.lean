import Verif.Lemmas.AgainEnum
import Verif.Lemmas.POverlap
/-
What is known about the parts of a processed device: enough to process them again.
-/
namespace Svd
open Spec M

section
variable {ord : List Nat → List Nat} {fuel : Nat} {d : SDevice} {dev : Device} {ws : List Warn}

theorem proc_contsFix (h : processDevice ord fuel d = .ok dev ws) {f : Field} (hf : HasField dev f) :
    ContsFix f.lsb f.msb f.containers := by
  obtain ⟨cs, w, h1, h2, -⟩ := proc_field h hf
  have hfin := h2
  unfold finalizeContainers at h2
  simp only [M.bind_eq_ok, M.mapM_eq_ok, M.pure_eq_ok] at h2
  obtain ⟨fs, w1, w2, h4, ⟨h5, -⟩, -⟩ := h2
  have hperm : f.containers.Perm fs := by rw [← h5]; exact sortBy_perm _
  have hus : fs.map (·.usage) = cs.map (·.usage) := h4.map_eq (fun x y w _ hxy => by
    simp only [M.bind_eq_ok, M.pure_eq_ok] at hxy
    obtain ⟨_, _, _, _, ⟨rfl, -⟩, -⟩ := hxy
    rfl)
  have hlen : fs.length = cs.length := h4.length
  refine ⟨?_, ?_, ?_, ?_, ?_⟩
  · intro c hc
    obtain ⟨ec, vs, wa, wb, -, h6, h7, -⟩ := proc_container h hf hc
    refine ⟨?_, ?_, (enumCore h6 h7).1⟩
    · intro v hv
      obtain ⟨e, -, h8, -, ⟨lit, ints, -, -, -, -, h9⟩ | ⟨-, n, -, h9⟩⟩ := final_origin h6 h7 hv
      · rw [h9]; exact expName_not_reserved h8 _
      · rw [h9]; exact suffixed_not_reserved _ _
    · intro v hv
      obtain ⟨-, h8, -⟩ := finalizeEnumValues_spec h7
      rw [h8] at hv
      obtain ⟨u, hu, rfl⟩ := List.mem_map.1 hv
      exact (List.mem_filter.1 hu).2
  · refine (hperm.map _).nodup_iff.2 ?_
    rw [hus]
    exact h1.2.1
  · rw [hperm.length_eq, hlen]
    exact h1.2.2.1
  · intro h2 c hc
    rw [hperm.length_eq, hlen] at h2
    have : c.usage ∈ cs.map (·.usage) := by
      rw [← hus]
      exact List.mem_map.2 ⟨c, hperm.mem_iff.1 hc, rfl⟩
    obtain ⟨k, hk, h3⟩ := List.mem_map.1 this
    rw [← h3]
    exact h1.2.2.2 h2 k hk
  · rw [← h5]
    exact sortBy_sorted containerLe_total _

/-- The order of the fields of a register. -/
def fieldLe (a b : Field) : Bool := intStrLe (a.lsb, a.name) (b.lsb, b.name)

/-- What is known about the fields of a processed register. -/
structure RegFix (r : Register) : Prop where
  name : ∀ f ∈ r.fields, lower f.name ≠ s%"reserved"
  pos : ∀ f ∈ r.fields, f.bitWidth = f.msb - f.lsb + 1 ∧ f.bitOffset = f.lsb ∧ f.bitRange = (f.msb, f.lsb)
  wc : ∀ f ∈ r.fields, orIfNone f.writeConstraint r.writeConstraint = f.writeConstraint
  conts : ∀ f ∈ r.fields, ContsFix f.lsb f.msb f.containers
  names : (r.fields.map (·.name)).Nodup
  sorted : r.fields.Pairwise fun a b => fieldLe a b = true
  apart : r.fields.Pairwise fun e f => ¬ Conflict e f

theorem filterMap_pairwise {α β : Type} {f : α → Option β} {R : α → α → Prop} {S : β → β → Prop} {l : List α} (h : l.Pairwise R)
    (hs : ∀ a ∈ l, ∀ b ∈ l, R a b → ∀ x y, f a = some x → f b = some y → S x y) : (l.filterMap f).Pairwise S := by
  induction l with
  | nil => simp
  | cons a l ih =>
    rw [List.pairwise_cons] at h
    have := ih h.2 fun x hx y hy => hs x (by simp [hx]) y (by simp [hy])
    cases ha : f a with
    | none => rw [List.filterMap_cons_none ha]; exact this
    | some x =>
      rw [List.filterMap_cons_some ha, List.pairwise_cons]
      refine ⟨?_, this⟩
      intro y hy
      obtain ⟨b, hb, hb'⟩ := List.mem_filterMap.1 hy
      exact hs a (by simp) b (by simp [hb]) (h.1 b hb) x y ha hb'

theorem each_filterMap_pairwise {α β : Type} {f : α → M (Option β)} {R : α → α → Prop} {S : β → β → Prop} {xs : List α} {os : List (Option β)}
    {w : List Warn} (he : M.Each f xs os w) (h : xs.Pairwise R)
    (hs : ∀ a b, R a b → ∀ x y w w', f a = .ok (some x) w → f b = .ok (some y) w' → S x y) : (os.filterMap id).Pairwise S := by
  induction he with
  | nil => simp
  | @cons x o w xs os ws h1 h2 ih =>
    rw [List.pairwise_cons] at h
    have := ih h.2
    cases o with
    | none => rw [List.filterMap_cons_none rfl]; exact this
    | some y =>
      rw [List.filterMap_cons_some (f := id) (b := y) rfl, List.pairwise_cons]
      refine ⟨?_, this⟩
      intro z hz
      obtain ⟨o, ho, hz⟩ := List.mem_filterMap.1 hz
      cases hz
      obtain ⟨x', hx', w', hw'⟩ := h2.mem ho
      exact hs x x' (h.1 x' hx') y z w w' h1 hw'

theorem proc_regFix (h : processDevice ord fuel d = .ok dev ws) {r : Register} (hr : HasRegister dev r) : RegFix r := by
  obtain ⟨ps, w1, w2, h1, h2, rfl⟩ := processDevice_ok.1 h
  obtain ⟨p, hp, ics, ir, ifs, fp, gs, base, w, h3, h4, -, h6, -, h8, -⟩ := trace_reg h2 hr
  have hg : r.fields = gs := by rw [h8]; rfl
  have hok := OkRC.ipath h3 ((resolvePeripherals_ok h1).1 p hp).2.1
  have hsort : ifs.Pairwise (fun a b => ifLe a b = true) := by cases hok with | reg _ _ h => exact h
  obtain ⟨os, w', h9, h10, h11, h12, -⟩ := finalizeFields_ok h4
  have hs : (os.filterMap id).Pairwise fun a b => fieldLe a b = true := by
    refine each_filterMap_pairwise (R := fun a b => ifLe a b = true) h9 ?_ ?_
    · rw [List.pairwise_map]
      exact hsort.imp fun h => h
    · intro a b hab x y w w' hx hy
      obtain ⟨-, hx⟩ := finalizeFieldOpt_some hx
      obtain ⟨-, hy⟩ := finalizeFieldOpt_some hy
      obtain ⟨_, _, -, -, rfl⟩ := finalizeField_ok hx
      obtain ⟨_, _, -, -, rfl⟩ := finalizeField_ok hy
      exact hab
  have hsorted : gs.Pairwise fun a b => fieldLe a b = true := by
    rw [h10, sortBy_of_sorted]
    · exact hs
    · refine hs.imp ?_
      intro a b hab
      have := intStrLe_spec.1 hab
      unfold AddrNameLe at this
      refine decide_eq_true (p := a.lsb ≤ b.lsb) ?_
      simp only at this
      omega
  refine ⟨?_, ?_, ?_, ?_, by rw [hg]; exact h11, by rw [hg]; exact hsorted, by rw [hg]; exact h12⟩
  · intro f hf
    obtain ⟨_, _, _, _, _, _, _, _, _, _, h, -⟩ := trace_field h2 hr hf
    exact h
  · intro f hf
    exact proc_field_width h ⟨r, hr, hf⟩
  · intro f hf
    obtain ⟨_, _, _, _, _, _, _, fi, _, _, -, -, -, -, -, -, -, hfe⟩ := trace_field h2 hr hf
    rw [hfe]
    simp only [fieldOf, inheritField]
    cases fi.hd.writeConstraint <;> cases r.writeConstraint <;> rfl
  · intro f hf
    exact proc_contsFix h ⟨r, hr, hf⟩

/-! ### alternates -/

def AltsKnown (cl : AltLookup) (xs : List RC) : Prop :=
  ∀ c ch, RC.clu c ch ∈ xs → ∀ a, c.alternateCluster = some a → ∀ z, Connected cl a z → z ∈ cl.map (·.1)

theorem allowed_ok {lk : AltLookup} (hn : (lk.map (·.1)).Nodup) {strict : Bool} {o : Option Str} :
    (∃ l, allowedAlternates lk strict o = .ok l []) ↔
      (strict = true → ∀ a, o = some a → ∀ z, Connected lk a z → z ∈ lk.map (·.1)) := by
  cases o with
  | none => exact ⟨fun _ _ a h => (by cases h), fun _ => ⟨[], rfl⟩⟩
  | some a =>
    rcases allowedAlternates_spec hn strict a with ⟨l, h1, h2, h3⟩ | ⟨h1, h2, z, h3, h4⟩
    · refine ⟨fun _ hs b hb z hz => ?_, fun _ => ⟨l, h1⟩⟩
      cases hb
      exact h3 hs z ((h2 z).2 hz)
    · refine ⟨?_, fun h => absurd (h h1 a rfl z h3) h4⟩
      rintro ⟨l, hl⟩
      rw [h2] at hl
      cases hl

theorem checkRC_ok {rl cl : AltLookup} (hr : (rl.map (·.1)).Nodup) (hc : (cl.map (·.1)).Nodup) :
    ∀ (xs : List RC) (iv : List (Int × Str)), (∃ w, checkRCOverlaps rl cl iv xs = .ok () w) ↔ AltsKnown cl xs
  | [], iv => ⟨fun _ c ch h => by simp at h, fun _ => ⟨[], rfl⟩⟩
  | .reg r :: xs, iv => by
    have hsub : AltsKnown cl (.reg r :: xs) ↔ AltsKnown cl xs := by
      constructor
      · intro h c ch hm; exact h c ch (by simp [hm])
      · intro h c ch hm
        rcases List.mem_cons.1 hm with hm | hm
        · cases hm
        · exact h c ch hm
    rw [hsub, checkRCOverlaps]
    by_cases hg : r.alternateGroup.isSome = true
    · rw [if_pos hg]
      exact checkRC_ok hr hc xs iv
    · rw [if_neg hg]
      obtain ⟨l, hl⟩ := (allowed_ok hr (strict := false) (o := r.alternateRegister)).2 (by simp)
      rw [hl, M.bind_ok_nil]
      rw [← checkRC_ok hr hc xs (iv ++ [((RC.reg r).lastAddr, r.name)])]
      constructor
      · rintro ⟨w, hw⟩
        obtain ⟨_, _, w2, _, h2, _⟩ := M.bind_eq_ok.1 hw
        exact ⟨w2, h2⟩
      · rintro ⟨w, hw⟩
        exact ⟨_, M.bind_eq_ok.2 ⟨(), _, w, rfl, hw, rfl⟩⟩
  | .clu c ch :: xs, iv => by
    rw [checkRCOverlaps]
    constructor
    · rintro ⟨w, hw⟩
      obtain ⟨l, w1, w2, h1, h2, -⟩ := M.bind_eq_ok.1 hw
      obtain ⟨_, _, w3, _, h3, _⟩ := M.bind_eq_ok.1 h2
      have h4 := (checkRC_ok hr hc xs _).1 ⟨w3, h3⟩
      have h5 : ∃ l, allowedAlternates cl true c.alternateCluster = .ok l [] := by
        cases ha : c.alternateCluster with
        | none => exact ⟨[], rfl⟩
        | some a =>
          rw [ha] at h1
          rcases allowedAlternates_spec hc true a with ⟨l, h6, -⟩ | ⟨-, h6, -⟩
          · exact ⟨l, h6⟩
          · rw [h6] at h1; cases h1
      intro c' ch' hm a ha z hz
      rcases List.mem_cons.1 hm with hm | hm
      · cases hm
        exact (allowed_ok hc).1 h5 rfl a ha z hz
      · exact h4 c' ch' hm a ha z hz
    · intro h
      obtain ⟨l, hl⟩ := (allowed_ok hc (strict := true) (o := c.alternateCluster)).2 fun _ => h c ch (by simp)
      obtain ⟨w, hw⟩ := (checkRC_ok hr hc xs (iv ++ [((RC.clu c ch).lastAddr, c.name)])).2 fun c' ch' hm => h c' ch' (by simp [hm])
      rw [hl, M.bind_ok_nil]
      exact ⟨_, M.bind_eq_ok.2 ⟨(), _, w, rfl, hw, rfl⟩⟩

theorem registerLookup_nodup {xs : List RC} (h : (xs.map RC.qualName).Nodup) : ((registerLookup xs).map (·.1)).Nodup := by
  unfold registerLookup
  rw [List.map_filterMap]
  refine filterMap_pairwise (R := fun a b => a.qualName ≠ b.qualName) (by rwa [List.Nodup, List.pairwise_map] at h) ?_
  intro a _ b _ hab x y hx hy
  cases a <;> cases b <;> simp at hx hy
  subst hx hy
  exact hab

theorem clusterLookup_nodup {xs : List RC} (h : (xs.map RC.qualName).Nodup) : ((clusterLookup xs).map (·.1)).Nodup := by
  unfold clusterLookup
  rw [List.map_filterMap]
  refine filterMap_pairwise (R := fun a b => a.qualName ≠ b.qualName) (by rwa [List.Nodup, List.pairwise_map] at h) ?_
  intro a _ b _ hab x y hx hy
  cases a <;> cases b <;> simp at hx hy
  subst hx hy
  exact hab

theorem AltsKnown.perm {cl cl' : AltLookup} (hp : cl.Perm cl') {xs : List RC} (h : AltsKnown cl xs) : AltsKnown cl' xs := by
  intro c ch hm a ha z hz
  have h1 := h c ch hm a ha z (Connected.congr (fun p hp' => hp.mem_iff.2 hp') hz)
  exact (hp.map _).mem_iff.1 h1

theorem ScopeFrom.alts {b : Int} {xs : List IRC} {ys : List RC} {ws : List Warn} (h : ScopeFrom b xs ys ws) :
    AltsKnown (clusterLookup ys) ys := by
  obtain ⟨os, w1, w2, raw, -, -, h1, rfl, h2, -⟩ := h.ex
  have h3 := (checkRC_ok (registerLookup_nodup h1) (clusterLookup_nodup h1) _ []).1 ⟨w2, h2⟩
  exact h3.perm ((sortBy_perm raw).symm.filterMap _)

theorem finish_again {raw ys : List RC} (hs : ScopeOK ys) (ha : AltsKnown (clusterLookup ys) ys) (hp : raw.Perm ys) :
    ∃ w, finishRCs raw = .ok ys w := by
  have hn : (raw.map RC.qualName).Nodup := (hp.map _).nodup_iff.2 hs.2
  have hsort : sortBy rcLe raw = ys := by
    refine (sorted_unique ((sortBy_perm _).trans hp).symm hs.1 (sortBy_sorted rcLe_total _) ?_).symm
    intro a ha b hb hab hba
    refine inj_of_nodup_map hs.2 ha hb ?_
    unfold rcLe at hab hba
    by_cases h1 : a.baseAddress < b.baseAddress
    · rw [if_neg (show ¬ b.baseAddress < a.baseAddress by omega), if_pos h1] at hba
      cases hba
    · by_cases h2 : b.baseAddress < a.baseAddress
      · rw [if_neg h1, if_pos h2] at hab
        cases hab
      · rw [if_neg h1, if_neg h2] at hab
        rw [if_neg h2, if_neg h1] at hba
        cases hga : a.altGroup with
        | none =>
          cases hgb : b.altGroup with
          | none =>
            rw [hga, hgb] at hab hba
            have hn := strLe_antisymm _ _ hab hba
            cases a <;> cases b <;> simp_all [RC.altGroup, RC.qualName, RC.name]
          | some g =>
            rw [hga, hgb] at hab hba
            simp at hba
        | some g =>
          cases hgb : b.altGroup with
          | none =>
            rw [hga, hgb] at hab hba
            simp at hab
          | some g' =>
            rw [hga, hgb] at hab hba
            simp only at hab hba
            by_cases hg : g = g'
            · rw [if_pos hg] at hab
              rw [if_pos hg.symm] at hba
              have hn := strLe_antisymm _ _ hab hba
              cases a <;> cases b <;> simp_all [RC.altGroup, RC.qualName, RC.name]
            · rw [if_neg hg] at hab
              rw [if_neg (fun h => hg h.symm)] at hba
              exact absurd (strLe_antisymm _ _ hab hba) hg
  unfold finishRCs
  simp only
  rw [hsort]
  obtain ⟨w, hw⟩ := (checkRC_ok (registerLookup_nodup hn) (clusterLookup_nodup hn) ys []).2 (ha.perm (hp.symm.filterMap _))
  exact ⟨_, M.bind_eq_ok.2 ⟨(), w, [], hw, rfl, rfl⟩⟩

end
end Svd
