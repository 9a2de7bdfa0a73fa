import Verif.Lemmas.Ends
import Verif.Props.Content
import Verif.Props.Build
/-
C47: processing ends for every description in which no cluster lies inside itself.
-/
namespace Svd
open Spec

theorem noInside {d : SDevice} (h : NoClusterInItself d) (x : Pos) : ¬ Inside d x x := by
  intro hx
  obtain ⟨p, q, hp, hq, hk⟩ := inside_deeper hx
  rw [declAt_unique hp hq] at hk
  rcases hk with hk | ⟨-, hk⟩
  · omega
  · cases q <;> first | exact h x _ hq hx | cases hk

section
variable {ord : List Nat → List Nat} {d : SDevice}

/-- C47: if no cluster lies inside itself, there is a number of rounds after which processing has ended, and the outcome does
not depend on how many more are allowed.  Missing: descriptions in which a cluster lies inside itself. -/
theorem C47_ends_partial (hord : ∀ l, (ord l).Perm l) (h : NoClusterInItself d) :
    ∃ N r, r ≠ .err .outOfFuel ∧ ∀ fuel, N ≤ fuel → processDevice ord fuel d = r := by
  have key : ∃ N, processDevice ord N d ≠ .err .outOfFuel := by
    cases hi : initialization d with
    | err e =>
      refine ⟨0, fun hc => ?_⟩
      obtain ⟨g, w, h1, -⟩ := C47_only_main_loop hc
      rw [hi] at h1
      cases h1
    | ok g w =>
      obtain ⟨lab, h1, -⟩ := lab_initialization hi
      obtain ⟨N, hN⟩ := rounds_end (noInside h) hord (prev := []) ⟨inv_initialization hi, ac_initialization hi, h1⟩
      refine ⟨N, fun hc => ?_⟩
      obtain ⟨g', w', h2, h3⟩ := C47_only_main_loop hc
      rw [hi] at h2
      injection h2 with h2
      subst h2
      exact hN N (Nat.le_refl _) h3
  obtain ⟨N, hN⟩ := key
  refine ⟨N, _, hN, fun fuel hf => ?_⟩
  obtain ⟨k, rfl⟩ := Nat.exists_eq_add_of_le hf
  exact C47_more_rounds hN k

end

/-! ### when does no cluster lie inside itself? -/

/-- Both positions hold clusters. -/
def Clusters (d : SDevice) (x y : Pos) : Prop := (∃ c, DeclAt d x (.clu c)) ∧ ∃ c, DeclAt d y (.clu c)

theorem between {d : SDevice} {x y z : Pos} (h : Clusters d x z) (h1 : DeeperKind d x y) (h2 : DeeperKind d y z) : ∃ c, DeclAt d y (.clu c) := by
  obtain ⟨⟨cx, hx⟩, cz, hz⟩ := h
  obtain ⟨p, q, hp, hq, hk⟩ := h1
  obtain ⟨q', r, hq', hr, hk'⟩ := h2
  rw [declAt_unique hp hx] at hk
  rw [declAt_unique hr hz, declAt_unique hq' hq] at hk'
  cases q with
  | clu c => exact ⟨c, hq⟩
  | _ => simp [Parsed.level, kindRank] at hk hk'

section
variable {d : SDevice} (ρ : Pos → Int) (hown : ∀ x y, Clusters d x y → OwnChild d x y → ρ y < ρ x)
  (href : ∀ x y, Clusters d x y → Refers d x y → ρ y ≤ ρ x)

theorem refers_cluster {d : SDevice} {x b : Pos} (h : Refers d x b) (hx : ∃ c, DeclAt d x (.clu c)) : Clusters d x b := by
  obtain ⟨p, q, h1, h2, h3⟩ := refers_kind h
  obtain ⟨c, hc⟩ := id hx
  rw [declAt_unique h1 hc] at h3
  refine ⟨hx, ?_⟩
  cases q <;> first | exact ⟨_, h2⟩ | cases h3

include hown href

mutual
theorem rank_hasChild {x y : Pos} : HasChild d x y → Clusters d x y → ρ y < ρ x
  | .own h, hc => hown x y hc h
  | .inherited h1 h2, hc => by
    have h3 := refers_cluster h1 hc.1
    have h4 := rank_hasChild h2 ⟨h3.2, hc.2⟩
    have h5 := href _ _ h3 h1
    omega
  | .nested h, hc => rank_nested h hc
theorem rank_nested {x y : Pos} : Nested d x y → Clusters d x y → ρ y < ρ x
  | .here h1 h2 h3, hc => by
    have h4 := refers_cluster h1 hc.1
    have h5 := rank_inside h3 ⟨h4.2, hc.2⟩
    have h6 := href _ _ h4 h1
    omega
  | .inherited h1 h2, hc => by
    have h3 := refers_cluster h1 hc.1
    have h4 := rank_nested h2 ⟨h3.2, hc.2⟩
    have h5 := href _ _ h3 h1
    omega
theorem rank_inside {x y : Pos} : Inside d x y → Clusters d x y → ρ y < ρ x
  | .one h, hc => rank_hasChild h hc
  | .more h1 h2, hc => by
    have h3 := between hc (hasChild_deeper h1) (inside_deeper h2)
    have h4 := rank_hasChild h1 ⟨hc.1, h3⟩
    have h5 := rank_inside h2 ⟨h3, hc.2⟩
    omega
end

/-- It is enough to rank the clusters: what is declared in a cluster lower, what it is derived from not higher. -/
theorem noClusterInItself_of_rank : NoClusterInItself d := by
  intro x c hx hi
  have := rank_inside ρ hown href hi ⟨⟨c, hx⟩, c, hx⟩
  omega

end

/-- If no cluster is derived, none lies inside itself. -/
theorem noClusterInItself_of_underived {d : SDevice} (h : NoDerivedCluster d) : NoClusterInItself d := by
  refine noClusterInItself_of_rank (fun x => - (x.length : Int)) ?_ ?_
  · rintro x y - ⟨k, p, rfl, -⟩
    simp
    omega
  · rintro x y ⟨⟨c, hx⟩, -⟩ hr
    cases hr with
    | intro h1 h2 _ _ _ =>
      rw [declAt_unique h1 hx] at h2
      simp only [Parsed.derivedFrom] at h2
      rw [h x c hx] at h2
      cases h2

/-- C47: processing ends for every description in which no cluster is derived. -/
theorem C47_no_derived_cluster_partial {ord : List Nat → List Nat} {d : SDevice} (hord : ∀ l, (ord l).Perm l) (h : NoDerivedCluster d) :
    ∃ N r, r ≠ .err .outOfFuel ∧ ∀ fuel, N ≤ fuel → processDevice ord fuel d = r :=
  C47_ends_partial hord (noClusterInItself_of_underived h)

/-! ### a check -/

theorem walk_called {d : SDevice} {x t : Pos} {ns : List Str} : Walk d x ns t → Called d t (ns.getLastD [])
  | .last h => h
  | .down _ _ h3 => by
    have := walk_called h3
    rename_i y n ns' _ _
    cases ns' with
    | nil => cases h3
    | cons m ms => simpa [List.getLastD_cons] using this

theorem refers_called {d : SDevice} {x b : Pos} {p : Parsed} (h : Refers d x b) (hp : DeclAt d x p) :
    ∃ path, p.derivedFrom = some path ∧ Called d b (lastName path) := by
  cases h with
  | intro h1 h2 _ _ hpn h5 =>
    rw [declAt_unique h1 hp] at h2
    rw [← pathNames_split hpn] at h5
    refine ⟨_, h2, ?_⟩
    rw [lastName_eq]
    exact walk_called h5

theorem replaceGo_absent {pat new : Str} (c : Char) (hc : c ∈ pat) : ∀ (s : Str), c ∉ s → replaceGo pat new 0 s = s
  | [], _ => rfl
  | x :: xs, h => by
    unfold replaceGo
    rw [if_neg, replaceGo_absent c hc xs fun h1 => h (List.mem_cons_of_mem _ h1)]
    intro h1
    exact h ((List.isPrefixOf_iff_prefix.1 h1).subset hc)

theorem instance_plain {t n : Str} (h : InstanceName t n) (ht : '%' ∉ t) : n = t := by
  rcases h with h | ⟨idx, h | h⟩
  · exact h
  · rw [h, fillList_eq]; exact replaceGo_absent '%' (by decide) t ht
  · rw [h, fillArray_eq]; exact replaceGo_absent '%' (by decide) t ht

/-- The cluster declared at a position. -/
def cluAt (d : SDevice) (x : Pos) : Option SCluster :=
  match treeAt (declTree d) x with
  | some (.node (.clu c) _) => some c
  | _ => none

theorem cluAt_eq {d : SDevice} {x : Pos} {c : SCluster} (h : DeclAt d x (.clu c)) : cluAt d x = some c := by
  obtain ⟨ts, h⟩ := h
  unfold cluAt
  rw [h]

/-- The clusters declared in a cluster have a lower rank. -/
def ownLower (d : SDevice) (ρ : Str → Nat) (y : Pos) : Bool :=
  match cluAt d y, cluAt d y.dropLast with
  | some c, some b => decide (ρ c.name < ρ b.name)
  | _, _ => true

/-- The clusters called as the base of a cluster do not have a higher rank. -/
def baseLower (d : SDevice) (ρ : Str → Nat) (x y : Pos) : Bool :=
  match cluAt d x, cluAt d y with
  | some c, some b => (c.derivedFrom.map fun path => decide (b.name ≠ lastName path ∧ '%' ∉ b.name) || decide (ρ b.name ≤ ρ c.name)).getD true
  | _, _ => true

/-- A check, for ranks of the clusters by name, that no cluster lies inside itself. -/
def ranked (d : SDevice) (ρ : Str → Nat) : Bool :=
  (posIn (declTree d)).all fun x => ownLower d ρ x && (posIn (declTree d)).all (baseLower d ρ x)

theorem noClusterInItself_of_ranked {d : SDevice} (ρ : Str → Nat) (h : ranked d ρ = true) : NoClusterInItself d := by
  have hin : ∀ {x p}, DeclAt d x p → x ∈ posIn (declTree d) := fun ⟨ts, h⟩ => treeAt_posIn _ _ h
  have h1 := fun x hx => List.all_eq_true.1 h x hx
  refine noClusterInItself_of_rank (fun x => ((cluAt d x).map fun c => (ρ c.name : Int)).getD 0) ?_ ?_
  · rintro x y ⟨⟨b, hb⟩, c, hc⟩ ⟨k, p, rfl, -⟩
    have h2 := (Bool.and_eq_true _ _ ▸ h1 _ (hin hc)).1
    unfold ownLower at h2
    simp only [List.dropLast_concat, cluAt_eq hb, cluAt_eq hc, decide_eq_true_eq] at h2 ⊢
    simpa using h2
  · rintro x y ⟨⟨c, hc⟩, b, hb⟩ hr
    have h2 := List.all_eq_true.1 (Bool.and_eq_true _ _ ▸ h1 _ (hin hc)).2 _ (hin hb)
    unfold baseLower at h2
    obtain ⟨path, hp, q, hq, hn⟩ := refers_called hr hc
    rw [declAt_unique hq hb] at hn
    simp only [Parsed.derivedFrom] at hp
    simp only [cluAt_eq hb, cluAt_eq hc, hp, Option.map_some, Option.getD_some, Bool.or_eq_true, decide_eq_true_eq] at h2 ⊢
    rcases h2 with ⟨h2, h3⟩ | h2
    · exact absurd (instance_plain hn h3).symm h2
    · exact_mod_cast h2

/-- C47: clusters derived from clusters that contain derived clusters meet the hypothesis (in the order in which each of them is
declared before or after its base). -/
theorem C47_ends_sample (b : Bool) : NoClusterInItself (Sample.strayDev b) :=
  noClusterInItself_of_ranked (fun n => if n = s%"M" ∨ n = s%"V" then 1 else 0) (by cases b <;> decide +kernel)

end Svd
