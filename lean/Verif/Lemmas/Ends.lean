import Verif.Lemmas.LabVisit
import Verif.Lemmas.Paths
import Verif.Lemmas.Fuel
import Mathlib.Data.Multiset.DershowitzManna
/-
The main loop of the resolver ends if no cluster lies inside itself: each processed node is replaced by nodes that lie inside
it, so the multiset of the depths of the unprocessed nodes decreases.
-/
namespace Svd
open Graph Spec

/-! ### depth of a position -/

mutual
/-- All positions of a tree. -/
def posIn : DTree → List Pos
  | .node _ ts => [] :: posInL 0 ts
def posInL : Nat → List DTree → List Pos
  | _, [] => []
  | k, t :: ts => (posIn t).map (k :: ·) ++ posInL (k + 1) ts
end

theorem posInL_mem {x : Pos} : ∀ {ts : List DTree} {k j : Nat} {t : DTree}, ts[j]? = some t → x ∈ posIn t → (k + j) :: x ∈ posInL k ts
  | [], _, _, _, h, _ => by simp at h
  | u :: us, k, 0, t, h, hx => by
    simp only [List.getElem?_cons_zero, Option.some.injEq] at h
    subst h
    simp only [posInL, List.mem_append, List.mem_map]
    exact Or.inl ⟨x, hx, by simp⟩
  | u :: us, k, j + 1, t, h, hx => by
    simp only [List.getElem?_cons_succ] at h
    simp only [posInL, List.mem_append]
    right
    have := posInL_mem (k := k + 1) h hx
    rwa [show k + 1 + j = k + (j + 1) by omega] at this

theorem treeAt_posIn : ∀ (x : Pos) (t : DTree) {u : DTree}, treeAt t x = some u → x ∈ posIn t
  | [], .node q us, u, h => by simp [posIn]
  | k :: x, .node q us, u, h => by
    simp only [treeAt] at h
    cases hk : us[k]? with
    | none => rw [hk] at h; simp at h
    | some t =>
      rw [hk, Option.bind_some] at h
      simp only [posIn, List.mem_cons]
      right
      have := posInL_mem (k := 0) hk (treeAt_posIn x t h)
      simpa using this

theorem inside_trans {d : SDevice} {x y z : Pos} : Inside d x y → Inside d y z → Inside d x z
  | .one h, h' => .more h h'
  | .more h1 h2, h' => .more h1 (inside_trans h2 h')

open Classical in
/-- The number of positions inside. -/
noncomputable def depth (d : SDevice) (x : Pos) : Nat := (posIn (declTree d)).countP fun y => decide (Inside d x y)

theorem countP_lt {α : Type} {p q : α → Bool} : ∀ {l : List α}, (∀ a ∈ l, p a = true → q a = true) → (∃ a ∈ l, q a = true ∧ p a = false) →
    l.countP p < l.countP q
  | [], _, h => by obtain ⟨a, ha, -⟩ := h; cases ha
  | x :: xs, h, h' => by
    have hx := h x List.mem_cons_self
    have hle : xs.countP p ≤ xs.countP q := List.countP_mono_left fun a ha => h a (List.mem_cons_of_mem _ ha)
    obtain ⟨a, ha, h1, h2⟩ := h'
    rcases List.mem_cons.1 ha with rfl | ha
    · rw [List.countP_cons_of_pos h1, List.countP_cons_of_neg (by simp [h2])]
      omega
    · have := countP_lt (fun a ha => h a (List.mem_cons_of_mem _ ha)) ⟨a, ha, h1, h2⟩
      rw [List.countP_cons, List.countP_cons]
      cases hp : p x with
      | false => simp; omega
      | true => rw [hx hp]; omega

open Classical in
theorem inside_depth {d : SDevice} (hn : ∀ x, ¬ Inside d x x) {x y : Pos} (h : Inside d x y) : depth d y < depth d x := by
  unfold depth
  refine countP_lt ?_ ⟨y, ?_, ?_, ?_⟩
  · intro z _ hz
    exact decide_eq_true (inside_trans h (of_decide_eq_true hz))
  · obtain ⟨p, q, -, ⟨ts, hq⟩, -⟩ := inside_deeper h
    exact treeAt_posIn _ _ hq
  · exact decide_eq_true h
  · exact decide_eq_false (hn y)

/-! ### the measure -/

/-- The depths of the unprocessed nodes. -/
noncomputable def meas (d : SDevice) (g : Graph) (lab : Nat → Pos) : Multiset Nat := ↑(g.unprocessed.map fun k => depth d (lab k))

theorem unprocessed_iff {g : Graph} {k : Nat} : k ∈ g.unprocessed ↔ ∃ e, g.elem? k = some e ∧ e.isProcessed = false := by
  constructor
  · intro h
    unfold Graph.unprocessed at h
    have h1 := (List.mem_filter.1 h).2
    unfold Graph.isUnprocessed at h1
    cases he : g.elem? k with
    | none => rw [he] at h1; cases h1
    | some e => rw [he] at h1; exact ⟨e, rfl, by simpa using h1⟩
  · rintro ⟨e, he, hp⟩
    exact mem_unprocessed he hp

theorem nodup_unprocessed (g : Graph) : g.unprocessed.Nodup := by
  unfold Graph.unprocessed
  exact (nodup_rangeFrom _ 0).1.sublist List.filter_sublist

theorem meas_step {d : SDevice} (hn : ∀ x, ¬ Inside d x x) {g g' : Graph} {lab lab' : Nat → Pos} {i : Nat}
    (hi : i ∈ g.unprocessed) (ha : ∀ k, (g.node? k).isSome → lab' k = lab k) (hs : LabStep d i g g' lab') :
    Multiset.IsDershowitzMannaLT (meas d g' lab') (meas d g lab) := by
  have hil : (g.node? i).isSome := by
    obtain ⟨e, he, -⟩ := unprocessed_iff.1 hi
    exact IsE.some ⟨e, he⟩
  let old := fun k => (g.node? k).isSome
  let A := g'.unprocessed.filter old
  let B := g'.unprocessed.filter fun k => !old k
  have hA : ∀ k ∈ A, k ∈ g.unprocessed ∧ k ≠ i := by
    intro k hk
    obtain ⟨h1, h2⟩ := List.mem_filter.1 hk
    obtain ⟨e, he, hp⟩ := unprocessed_iff.1 h1
    have hki : k ≠ i := by
      rintro rfl
      obtain ⟨e', he', hp'⟩ := hs.self
      rw [he] at he'
      injection he' with he'
      rw [he', hp'] at hp
      cases hp
    refine ⟨unprocessed_iff.2 ⟨e, ?_, hp⟩, hki⟩
    unfold Graph.elem? at he ⊢
    rw [← hs.old k h2 hki]
    exact he
  have hnd : (i :: A).Nodup := List.nodup_cons.2 ⟨fun h => (hA i h).2 rfl, (nodup_unprocessed g').sublist List.filter_sublist⟩
  have hsub : (↑(i :: A) : Multiset Nat) ≤ ↑g.unprocessed := by
    refine Multiset.coe_le.2 (List.subperm_of_subset hnd ?_)
    intro k hk
    rcases List.mem_cons.1 hk with rfl | hk
    · exact hi
    · exact (hA k hk).1
  obtain ⟨C, hC⟩ := Multiset.le_iff_exists_add.1 hsub
  refine ⟨↑(A.map fun k => depth d (lab k)), ↑(B.map fun k => depth d (lab' k)), depth d (lab i) ::ₘ C.map (fun k => depth d (lab k)), ?_, ?_, ?_, ?_⟩
  · simp
  · have h1 : (↑(A.map fun k => depth d (lab k)) : Multiset Nat) = ↑(A.map fun k => depth d (lab' k)) := by
      congr 1
      refine List.map_congr_left fun k hk => ?_
      rw [ha k (List.mem_filter.1 hk).2]
    rw [h1, Multiset.coe_add, ← List.map_append]
    unfold meas
    refine Multiset.coe_eq_coe.2 (List.Perm.map _ ?_)
    exact (List.filter_append_perm _ _).symm
  · unfold meas
    rw [← Multiset.map_coe, hC, Multiset.map_add, ← Multiset.cons_coe, Multiset.map_cons, Multiset.map_coe,
      Multiset.cons_add, Multiset.add_cons]
  · intro y hy
    obtain ⟨k, hk, rfl⟩ := List.mem_map.1 (Multiset.mem_coe.1 hy)
    obtain ⟨h1, h2⟩ := List.mem_filter.1 hk
    obtain ⟨e, he, hp⟩ := unprocessed_iff.1 h1
    refine ⟨depth d (lab i), Multiset.mem_cons_self _ _, ?_⟩
    rw [← ha i hil]
    refine inside_depth hn (hs.new k e ?_ he hp)
    cases hnk : g.node? k with
    | none => rfl
    | some n => simp [old, hnk] at h2

/-! ### placeholders -/

theorem resolvePlaceholder_elem {d : SDevice} {g g' : Graph} {k : Nat} {ws : List Warn} (hi : Inv d g)
    (hr : resolvePlaceholder g k = .ok g' ws) : g'.nodes.length = g.nodes.length ∧ ∀ j, g'.elem? j = g.elem? j := by
  obtain ⟨path, hn, hc⟩ := resolvePlaceholder_cases hr
  rcases hc with rfl | ⟨i, e, b, w, h1, h2, h3, h4⟩
  · exact ⟨rfl, fun _ => rfl⟩
  · obtain ⟨hw, hnode, hedge⟩ := removePlaceholder_wf hi.wf (i := k) (by rw [hn]; rfl)
    have hg := (rawAddEdge_nodes h4).1
    have hlen : (g.removePlaceholder k).nodes.length = g.nodes.length := by
      simp [Graph.removePlaceholder, Graph.removeNode]
    refine ⟨by rw [← hlen, hg], fun j => ?_⟩
    have h5 : g'.node? j = (g.removePlaceholder k).node? j := by unfold Graph.node?; rw [hg]
    have h6 := hnode j
    unfold Graph.elem?
    rw [h5, h6]
    by_cases hj : j = k
    · subst hj
      rw [if_pos rfl, hn]
    · rw [if_neg hj]

theorem unprocessed_congr {g g' : Graph} (hl : g'.nodes.length = g.nodes.length) (he : ∀ j, g'.elem? j = g.elem? j) :
    g'.unprocessed = g.unprocessed := by
  unfold Graph.unprocessed Graph.isUnprocessed
  rw [hl]
  simp only [he]

/-- The state with its labels. -/
structure LabAt (d : SDevice) (g : Graph) (lab : Nat → Pos) : Prop where
  inv : Inv d g
  ac : Acyclic g.edges
  lab : Lab d g lab

theorem at_resolvePlaceholders {d : SDevice} {lab : Nat → Pos} {phs : List Nat} : ∀ {g g' : Graph} {ws : List Warn},
    LabAt d g lab → resolvePlaceholders g phs = .ok g' ws → LabAt d g' lab ∧ meas d g' lab = meas d g lab := by
  induction phs with
  | nil =>
    intro g g' ws h hr
    simp only [resolvePlaceholders, M.pure_eq_ok] at hr
    obtain ⟨rfl, -⟩ := hr
    exact ⟨h, rfl⟩
  | cons k ks ih =>
    intro g g' ws h hr
    simp only [resolvePlaceholders, M.bind_eq_ok] at hr
    obtain ⟨g1, w1, w2, h1, h2, -⟩ := hr
    obtain ⟨h3, h4⟩ := resolvePlaceholder_elem h.inv h1
    obtain ⟨h5, h6⟩ := ih ⟨inv_resolvePlaceholder h.inv h1, ac_resolvePlaceholder h.ac h1, lab_resolvePlaceholder h.inv h.lab h1⟩ h2
    refine ⟨h5, h6.trans ?_⟩
    unfold meas
    rw [unprocessed_congr h3 h4]

/-! ### one round -/

theorem topoGo_sub {g : Graph} : ∀ {f : Nat} {rem : List Nat}, (g.topoGo f rem).Nodup ∧ ∀ k ∈ g.topoGo f rem, k ∈ rem
  | 0, rem => by simp [Graph.topoGo]
  | f + 1, rem => by
    unfold Graph.topoGo
    dsimp only
    split
    · simp
    · rename_i n hn
      have hmem : n ∈ rem := by
        split at hn
        · rename_i m hm
          injection hn with hn
          subst hn
          exact (List.mem_filter.1 (List.mem_of_find?_eq_some hm)).1
        · exact (List.mem_filter.1 (List.mem_of_head? hn)).1
      obtain ⟨h1, h2⟩ := topoGo_sub (g := g) (f := f) (rem := rem.filter (· != n))
      refine ⟨List.nodup_cons.2 ⟨fun h => ?_, h1⟩, fun k hk => ?_⟩
      · have := (List.mem_filter.1 (h2 _ h)).2
        simp at this
      · rcases List.mem_cons.1 hk with rfl | hk
        · exact hmem
        · exact (List.mem_filter.1 (h2 _ hk)).1

theorem sorted_sub {g : Graph} : (sortedProcessable g).Nodup ∧ ∀ k ∈ sortedProcessable g, k ∈ g.unprocessed := by
  obtain ⟨h1, h2⟩ := topoGo_sub (g := g) (f := ((processableNodes g).filter g.isUnprocessed).length) (rem := (processableNodes g).filter g.isUnprocessed)
  refine ⟨h1, fun k hk => ?_⟩
  have h3 := (List.mem_filter.1 (h2 k hk)).2
  rw [unprocessed_iff]
  unfold Graph.isUnprocessed at h3
  cases he : g.elem? k with
  | none => rw [he] at h3; cases h3
  | some e => rw [he] at h3; exact ⟨e, rfl, by simpa using h3⟩

theorem at_processNodes {d : SDevice} (hn : ∀ x, ¬ Inside d x x) {ord : List Nat → List Nat} (hord : ∀ l, (ord l).Perm l) {is : List Nat} :
    ∀ {g g' : Graph} {lab : Nat → Pos} {ws : List Warn}, LabAt d g lab → is.Nodup → (∀ k ∈ is, k ∈ g.unprocessed) →
    processNodes ord g is = .ok g' ws → ∃ lab', LabAt d g' lab' ∧
      ((is = [] ∧ meas d g' lab' = meas d g lab) ∨ Multiset.IsDershowitzMannaLT (meas d g' lab') (meas d g lab)) := by
  induction is with
  | nil =>
    intro g g' lab ws h _ _ hr
    simp only [processNodes, M.pure_eq_ok] at hr
    obtain ⟨rfl, -⟩ := hr
    exact ⟨lab, h, Or.inl ⟨rfl, rfl⟩⟩
  | cons i is ih =>
    intro g g' lab ws h hnd hun hr
    simp only [processNodes, M.bind_eq_ok] at hr
    obtain ⟨g1, w1, w2, h1, h2, -⟩ := hr
    obtain ⟨lab1, h3, h4, h5, -⟩ := lab_processNode hord h.inv h.ac h.lab h1
    obtain ⟨hnd1, hnd2⟩ := List.nodup_cons.1 hnd
    have hd := meas_step hn (hun i List.mem_cons_self) h4 h5
    obtain ⟨lab2, h6, h7⟩ := ih (g := g1) (lab := lab1) ⟨(inv_processNode h.inv h1).1, ac_processNode h.ac h1, h3⟩ hnd2 (by
      intro k hk
      obtain ⟨e, he, hp⟩ := unprocessed_iff.1 (hun k (List.mem_cons_of_mem _ hk))
      refine unprocessed_iff.2 ⟨e, ?_, hp⟩
      have := h5.old k (IsE.some ⟨e, he⟩) (fun hki => hnd1 (hki ▸ hk))
      unfold Graph.elem? at he ⊢
      rw [this]
      exact he) h2
    refine ⟨lab2, h6, Or.inr ?_⟩
    rcases h7 with ⟨-, h7⟩ | h7
    · rw [h7]; exact hd
    · exact h7.trans hd

theorem rounds_end {d : SDevice} (hn : ∀ x, ¬ Inside d x x) {ord : List Nat → List Nat} (hord : ∀ l, (ord l).Perm l) :
    ∀ {g : Graph} {lab : Nat → Pos} {prev : List Nat}, LabAt d g lab → ∃ N, ∀ f, N ≤ f → rounds ord f g prev ≠ .err .outOfFuel := by
  have key : ∀ m : Multiset Nat, ∀ {g : Graph} {lab : Nat → Pos} {prev : List Nat}, meas d g lab = m → LabAt d g lab →
      ∃ N, ∀ f, N ≤ f → rounds ord f g prev ≠ .err .outOfFuel := by
    intro m
    induction m using (Multiset.wellFounded_isDershowitzMannaLT (α := Nat)).induction with
    | _ m ih =>
      intro g lab prev hm h
      cases h1 : resolvePlaceholders g g.placeholders with
      | err e =>
        refine ⟨1, fun f hf hc => ?_⟩
        obtain ⟨f, rfl⟩ : ∃ k, f = k + 1 := ⟨f - 1, by omega⟩
        simp only [rounds, h1, M.bind] at hc
        injection hc with hc
        subst hc
        exact (rsat_resolvePlaceholders g _).err h1 |>.ne.2 rfl
      | ok g1 w1 =>
        obtain ⟨h2, h3⟩ := at_resolvePlaceholders h h1
        obtain ⟨s1, s2⟩ := sorted_sub (g := g1)
        by_cases hs : sortedProcessable g1 = []
        · refine ⟨1, fun f hf hc => ?_⟩
          obtain ⟨f, rfl⟩ : ∃ k, f = k + 1 := ⟨f - 1, by omega⟩
          simp only [rounds, h1, M.bind, hs, if_true, M.pure] at hc
          cases hc
        by_cases hp : sortedProcessable g1 = prev
        · refine ⟨1, fun f hf hc => ?_⟩
          obtain ⟨f, rfl⟩ : ∃ k, f = k + 1 := ⟨f - 1, by omega⟩
          simp only [rounds, h1, M.bind, if_neg hs, if_pos hp, M.throw] at hc
          cases hc
        cases h4 : processNodes ord g1 (sortedProcessable g1) with
        | err e =>
          refine ⟨1, fun f hf hc => ?_⟩
          obtain ⟨f, rfl⟩ : ∃ k, f = k + 1 := ⟨f - 1, by omega⟩
          simp only [rounds, h1, M.bind, if_neg hs, if_neg hp, h4] at hc
          injection hc with hc
          subst hc
          exact (rsat_processNodes ord g1 _).err h4 |>.ne.2 rfl
        | ok g2 w2 =>
          obtain ⟨lab2, h5, h6⟩ := at_processNodes hn hord h2 s1 s2 h4
          have h7 : Multiset.IsDershowitzMannaLT (meas d g2 lab2) m := by
            rcases h6 with ⟨h6, -⟩ | h6
            · exact absurd h6 hs
            · rw [← hm, ← h3]; exact h6
          obtain ⟨N, hN⟩ := ih _ h7 (prev := sortedProcessable g1) rfl h5
          refine ⟨N + 1, fun f hf hc => ?_⟩
          obtain ⟨f, rfl⟩ : ∃ k, f = k + 1 := ⟨f - 1, by omega⟩
          refine hN f (by omega) ?_
          simp only [rounds, h1, M.bind, if_neg hs, if_neg hp, h4] at hc
          cases h8 : rounds ord f g2 (sortedProcessable g1) with
          | ok a w => rw [h8] at hc; cases hc
          | err e => rw [h8] at hc; exact hc
  intro g lab prev h
  exact key _ rfl h

end Svd
