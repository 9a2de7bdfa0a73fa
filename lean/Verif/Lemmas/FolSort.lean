import Verif.Lemmas.FolPhase
/-
References that can be followed: which nodes a round processes, and in which order.
-/
namespace Svd
open Graph Spec

/-! ### acyclic graphs -/

open Classical in
/-- The number of edges that lead to `k`. -/
noncomputable def ancestry (es : List Edge) (k : Nat) : Nat := es.countP fun e => decide (Reach es e.dst k)

theorem ancestry_lt {es : List Edge} (h : Acyclic es) {e : Edge} (he : e ∈ es) : ancestry es e.src < ancestry es e.dst := by
  unfold ancestry
  refine countP_lt (fun a ha => ?_) ⟨e, he, ?_, ?_⟩
  · simp only [decide_eq_true_eq]
    exact fun h1 => h1.trans (Or.inr (.edge he))
  · simp only [decide_eq_true_eq]
    exact Or.inl rfl
  · simp only [decide_eq_false_iff_not]
    rintro (h1 | h1)
    · exact h e.src (by have := Spec.Conn.edge he; rwa [h1] at this)
    · exact h e.src (.step he h1)

/-- Upwards along the edges of an acyclic graph one arrives. -/
theorem up_induct {es : List Edge} (h : Acyclic es) {Q : Nat → Prop} (hs : ∀ k, (∀ e ∈ es, e.dst = k → Q e.src) → Q k) : ∀ k, Q k := by
  have : ∀ n k, ancestry es k < n → Q k := by
    intro n
    induction n with
    | zero => intro k hk; omega
    | succ n ih =>
      intro k hk
      refine hs k fun e he hd => ih _ ?_
      have := ancestry_lt h he
      rw [hd] at this
      omega
  exact fun k => this _ k (Nat.lt_succ_self _)

theorem minimal_in {es : List Edge} (h : Acyclic es) {S : List Nat} (hne : S ≠ []) : ∃ n ∈ S, ∀ e ∈ es, e.dst = n → e.src ∉ S := by
  by_contra hc
  have hc : ∀ n ∈ S, ∃ e ∈ es, e.dst = n ∧ e.src ∈ S := by
    intro n hn
    by_contra h1
    exact hc ⟨n, hn, fun e he hd hs => h1 ⟨e, he, hd, hs⟩⟩
  have : ∀ k, k ∉ S := up_induct h fun k hk hS => by
    obtain ⟨e, h1, h2, h3⟩ := hc k hS
    exact hk e h1 h2 h3
  obtain ⟨x, xs, rfl⟩ := List.exists_cons_of_ne_nil hne
  exact this x (by simp)

/-! ### the order of the nodes -/

theorem topo_pick {g : Graph} {rem : List Nat} {n : Nat}
    (h : (match (rem.filter fun n => !g.edges.any fun e => e.dst == n && rem.contains e.src).find? (fun n => !g.hasIncoming n .derive) with
      | some n => some n
      | none => (rem.filter fun n => !g.edges.any fun e => e.dst == n && rem.contains e.src).head?) = some n) :
    n ∈ rem ∧ ∀ e ∈ g.edges, e.dst = n → e.src ∉ rem := by
  have hm : n ∈ rem.filter fun n => !g.edges.any fun e => e.dst == n && rem.contains e.src := by
    split at h
    · rename_i m hm
      injection h with h
      subst h
      exact List.mem_of_find?_eq_some hm
    · exact List.mem_of_head? h
  simp only [List.mem_filter, Bool.not_eq_true', List.any_eq_false, Bool.and_eq_true, beq_iff_eq, List.contains_iff_mem, not_and] at hm
  exact ⟨hm.1, fun e he hd => hm.2 e he hd⟩

theorem topoGo_complete {g : Graph} (h : Acyclic g.edges) : ∀ {f : Nat} {rem : List Nat}, rem.length ≤ f → ∀ k ∈ rem, k ∈ g.topoGo f rem
  | 0, rem, hl, k, hk => by
    have : rem = [] := List.length_eq_zero_iff.1 (by omega)
    rw [this] at hk
    cases hk
  | f + 1, rem, hl, k, hk => by
    unfold Graph.topoGo
    dsimp only
    split
    · rename_i hnone
      exfalso
      obtain ⟨n, h1, h2⟩ := minimal_in h (S := rem) (by rintro rfl; cases hk)
      have hm : n ∈ rem.filter fun n => !g.edges.any fun e => e.dst == n && rem.contains e.src := by
        simp only [List.mem_filter, Bool.not_eq_true', List.any_eq_false, Bool.and_eq_true, beq_iff_eq, List.contains_iff_mem, not_and]
        exact ⟨h1, fun e he hd => h2 e he hd⟩
      split at hnone
      · cases hnone
      · rw [List.head?_eq_none_iff.1 hnone] at hm
        cases hm
    · rename_i n hn
      obtain ⟨hm, -⟩ := topo_pick hn
      by_cases hkn : k = n
      · rw [hkn]; simp
      · refine List.mem_cons_of_mem _ (topoGo_complete h ?_ k ?_)
        · have : (rem.filter (· != n)).length < rem.length := by
            refine List.length_filter_lt_length_iff_exists.2 ⟨n, hm, by simp⟩
          omega
        · simp [hk, hkn]

theorem topoGo_order {g : Graph} : ∀ {f : Nat} {rem l1 l2 : List Nat} {i : Nat}, g.topoGo f rem = l1 ++ i :: l2 →
    ∀ e ∈ g.edges, e.dst = i → e.src ∈ rem → e.src ∈ l1
  | 0, rem, l1, l2, i, h, e, he, hd, hs => by
    simp [Graph.topoGo] at h
  | f + 1, rem, l1, l2, i, h, e, he, hd, hs => by
    unfold Graph.topoGo at h
    dsimp only at h
    split at h
    · simp at h
    · rename_i n hn
      obtain ⟨hm, hno⟩ := topo_pick hn
      cases l1 with
      | nil =>
        simp only [List.nil_append, List.cons.injEq] at h
        exact absurd hs (hno e he (hd.trans h.1.symm))
      | cons x l1 =>
        simp only [List.cons_append, List.cons.injEq] at h
        obtain ⟨rfl, h⟩ := h
        by_cases hx : e.src = n
        · rw [hx]; simp
        · exact List.mem_cons_of_mem _ (topoGo_order h e he hd (by simp [hs, hx]))

/-! ### the nodes of a round -/

theorem hasIncoming_pl {g : Graph} {k : Nat} : g.hasIncoming k .placeholder = true ↔ ∃ h, Pl g h k := by
  unfold Graph.hasIncoming Graph.inEdges Pl
  simp only [List.any_eq_true, List.mem_filter, beq_iff_eq]
  constructor
  · rintro ⟨⟨s, t, ty⟩, ⟨h1, h2⟩, h3⟩
    simp only at h2 h3
    subst h2 h3
    exact ⟨s, h1⟩
  · rintro ⟨h, h1⟩
    exact ⟨_, ⟨h1, rfl⟩, rfl⟩

theorem sorted_mem {g : Graph} (hac : Acyclic g.edges) {k : Nat} : k ∈ sortedProcessable g ↔ k ∈ processableNodes g ∧ g.isUnprocessed k = true := by
  unfold sortedProcessable Graph.topoSort
  dsimp only
  constructor
  · intro h
    have := topoGo_sub.2 k h
    simpa using this
  · intro h
    exact topoGo_complete hac (Nat.le_refl _) k (by simpa using h)

theorem sorted_order {g : Graph} {l1 l2 : List Nat} {i : Nat} (h : sortedProcessable g = l1 ++ i :: l2) {e : Edge} (he : e ∈ g.edges)
    (hd : e.dst = i) (hs : e.src ∈ sortedProcessable g) : e.src ∈ l1 := by
  unfold sortedProcessable Graph.topoSort at h hs
  exact topoGo_order h e he hd (topoGo_sub.2 _ hs)

theorem processable_no_pl {g : Graph} {k : Nat} (h : k ∈ processableNodes g) (j : Nat) : ¬ Pl g j k := by
  intro hp
  have hin := hasIncoming_pl.2 ⟨j, hp⟩
  unfold processableNodes at h
  simp only [List.mem_filter, List.contains_iff_mem, mem_closure] at h
  obtain ⟨-, s, ⟨-, h1⟩, h2⟩ := h
  rcases h2 with rfl | h2
  · rw [hin] at h1
    cases h1
  · obtain ⟨e, h3, rfl, -⟩ := conn_last h2
    simp only [List.mem_filter, Bool.and_eq_true] at h3
    rw [hin] at h3
    exact absurd h3.2.2 (by simp)

theorem processable_root {g : Graph} {a k : Nat} {e : ElemNode} (he : g.elem? k = some e) (hp : e.isProcessed = false)
    (hr : (⟨a, k, .childR⟩ : Edge) ∈ g.edges) (hn : ∀ j, ¬ Pl g j k) : k ∈ processableNodes g := by
  have hlt : k < g.nodes.length := node?_lt (elem?_node?.1 he)
  have hno : g.hasIncoming k .placeholder = false := by
    cases hh : g.hasIncoming k .placeholder with
    | false => rfl
    | true => obtain ⟨j, hj⟩ := hasIncoming_pl.1 hh; exact (hn j hj).elim
  unfold processableNodes
  simp only [List.mem_filter, List.contains_iff_mem, mem_closure]
  refine ⟨by rw [rangeFrom_zero]; simpa using hlt, k, ⟨?_, by rw [hno]; rfl⟩, Or.inl rfl⟩
  unfold Graph.unprocessedRoots
  simp only [List.mem_filter]
  refine ⟨unprocessed_iff.2 ⟨e, he, hp⟩, ?_⟩
  unfold Graph.hasIncoming Graph.inEdges
  simp only [List.any_eq_true, List.mem_filter, beq_iff_eq]
  exact ⟨_, ⟨hr, rfl⟩, rfl⟩

theorem processable_child {g : Graph} {a k : Nat} {e : ElemNode} (he : g.elem? k = some e) (ha : a ∈ processableNodes g) (hc : Ch g a k)
    (hn : ∀ j, ¬ Pl g j k) : k ∈ processableNodes g := by
  have hlt : k < g.nodes.length := node?_lt (elem?_node?.1 he)
  have hno : g.hasIncoming k .placeholder = false := by
    cases hh : g.hasIncoming k .placeholder with
    | false => rfl
    | true => obtain ⟨j, hj⟩ := hasIncoming_pl.1 hh; exact (hn j hj).elim
  unfold processableNodes at ha ⊢
  simp only [List.mem_filter, List.contains_iff_mem, mem_closure] at ha ⊢
  obtain ⟨-, s, h1, h2⟩ := ha
  refine ⟨by rw [rangeFrom_zero]; simpa using hlt, s, h1, h2.trans (Or.inr ?_)⟩
  have hel : g.isElem k = true := by unfold Graph.isElem; rw [he]; rfl
  rcases hc with hc | hc
  · exact Spec.Conn.edge (e := ⟨a, k, .childU⟩) (by simp [hc, hel, hno, isChildEdge])
  · exact Spec.Conn.edge (e := ⟨a, k, .childR⟩) (by simp [hc, hel, hno, isChildEdge])

end Svd
