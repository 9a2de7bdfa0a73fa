import Verif.Lemmas.Flat
/-
A device without derivedFrom is processed in one round, in the order of declaration.
-/
namespace Svd
open Graph Spec

theorem mem_flat_edge {L : List (Nat × Parsed)} {g : Graph} (h : Flat L g) {e : Edge} (he : e ∈ g.edges) :
    e.ty = .childR ∨ e.ty = .childU := by
  have := (h.mem e he).2.2
  by_cases h0 : e.src = 0
  · rw [if_pos h0] at this; exact Or.inl this
  · rw [if_neg h0] at this; exact Or.inr this

theorem flat_incoming {L : List (Nat × Parsed)} {g : Graph} (h : Flat L g) (i : Nat) :
    g.hasIncoming i .placeholder = false ∧ g.hasIncoming i .derive = false := by
  constructor <;>
  · unfold Graph.hasIncoming
    rw [List.any_eq_false]
    intro e he
    have := mem_flat_edge h (List.mem_filter.1 he).1
    rcases this with h1 | h1 <;> simp [h1]

theorem flat_unprocessed {L : List (Nat × Parsed)} {g : Graph} (h : Flat L g) {i : Nat} (hi : i < L.length) :
    g.isUnprocessed i = decide (1 ≤ i) := by
  obtain ⟨x, hx⟩ : ∃ x, L[i]? = some x := ⟨_, List.getElem?_eq_getElem hi⟩
  unfold Graph.isUnprocessed
  rw [h.node? hx]
  simp only [initNode]
  by_cases h0 : 1 ≤ i
  · simp only [h0, decide_true, isDevice_false (h.inner i x h0 hx).1, Bool.not_false]
  · have : i = 0 := by omega
    subst this
    rw [h.root] at hx
    cases hx
    rfl

theorem flat_reach {L : List (Nat × Parsed)} {g : Graph} (h : Flat L g) (es : List Edge)
    (hes : ∀ e ∈ g.edges, e ∈ es) {i : Nat} (hi : 1 ≤ i) (hl : i < L.length) :
    ∃ s ∈ g.unprocessedRoots, Reach es s i := by
  induction i using Nat.strongRecOn with
  | ind i ih =>
    obtain ⟨x, hx⟩ : ∃ x, L[i]? = some x := ⟨_, List.getElem?_eq_getElem hl⟩
    obtain ⟨e, he, h1, h2⟩ := h.all i x hi hx
    have hlt := (h.inner i x hi hx).2.2
    by_cases h0 : x.1 = 0
    · refine ⟨i, ?_, Or.inl rfl⟩
      unfold Graph.unprocessedRoots Graph.unprocessed
      rw [List.mem_filter, List.mem_filter, rangeFrom_zero, List.mem_range]
      refine ⟨⟨?_, ?_⟩, ?_⟩
      · rw [h.nodes, List.length_map]; exact hl
      · rw [flat_unprocessed h hl]; simpa using hi
      · unfold Graph.hasIncoming
        rw [List.any_eq_true]
        refine ⟨e, List.mem_filter.2 ⟨he, by simp [h2]⟩, ?_⟩
        have := (h.mem e he).2.2
        rw [h1, if_pos h0] at this
        simp [this]
    · obtain ⟨s, hs, hr⟩ := ih x.1 hlt (by omega) (by omega)
      exact ⟨s, hs, hr.trans (Or.inr (h1 ▸ h2 ▸ .edge (hes e he)))⟩

theorem topoGo_range {L : List (Nat × Parsed)} {g : Graph} (h : Flat L g) (m : Nat) : ∀ (k f : Nat), 1 ≤ k → m ≤ f →
    topoGo g f (List.range' k m) = List.range' k m := by
  induction m with
  | zero =>
    intro k f _ _
    cases f with
    | zero => rfl
    | succ f => simp [topoGo]
  | succ m ih =>
    intro k f hk hf
    obtain ⟨f, rfl⟩ : ∃ f', f = f' + 1 := ⟨f - 1, by omega⟩
    have hc : ((List.range' k (m + 1)).filter fun n => !g.edges.any fun e => e.dst == n && (List.range' k (m + 1)).contains e.src) =
        k :: ((List.range' (k + 1) m).filter fun n => !g.edges.any fun e => e.dst == n && (List.range' k (m + 1)).contains e.src) := by
      conv => lhs; rw [List.range'_succ]
      rw [List.filter_cons_of_pos]
      · rw [← List.range'_succ]
      · rw [← List.range'_succ]
        simp only [Bool.not_eq_true', List.any_eq_false]
        intro e he
        simp only [Bool.and_eq_true, beq_iff_eq, List.contains_iff_mem, not_and]
        intro hd hs
        rw [List.mem_range'] at hs
        obtain ⟨j, -, hj⟩ := hs
        obtain ⟨h1, ⟨p, h2⟩, -⟩ := h.mem e he
        have := (h.inner e.dst _ h1 h2).2.2
        simp only at this
        omega
    rw [topoGo, hc]
    simp only [List.find?_cons, (flat_incoming h k).2, Bool.not_false]
    have : (List.range' k (m + 1)).filter (· != k) = List.range' (k + 1) m := by
      rw [List.range'_succ, List.filter_cons_of_neg (by simp), List.filter_eq_self.2]
      intro a ha
      rw [List.mem_range'] at ha
      obtain ⟨j, -, hj⟩ := ha
      simp only [bne_iff_ne, ne_eq]
      omega
    rw [this, ih (k + 1) f (by omega) (by omega), List.range'_succ]

theorem flat_order {L : List (Nat × Parsed)} {g : Graph} (h : Flat L g) :
    sortedProcessable g = List.range' 1 (L.length - 1) := by
  have hlen : g.nodes.length = L.length := by rw [h.nodes, List.length_map]
  have hpos : 0 < L.length := (List.getElem?_eq_some_iff.1 h.root).1
  unfold sortedProcessable topoSort
  have hrem : (processableNodes g).filter g.isUnprocessed = List.range' 1 (L.length - 1) := by
    unfold processableNodes
    simp only [List.filter_filter, rangeFrom_zero, hlen]
    have hr : List.range L.length = 0 :: List.range' 1 (L.length - 1) := by
      rw [List.range_eq_range']
      conv => lhs; rw [show L.length = (L.length - 1) + 1 by omega]
      rw [List.range'_succ]
    rw [hr, List.filter_cons_of_neg]
    · rw [List.filter_eq_self]
      intro i hi
      rw [List.mem_range'] at hi
      obtain ⟨j, hj, hij⟩ := hi
      have hlt : i < L.length := by omega
      simp only [Bool.and_eq_true]
      refine ⟨?_, ?_⟩
      · rw [flat_unprocessed h hlt]
        simp only [decide_eq_true_eq]; omega
      · rw [List.contains_iff_mem, mem_closure]
        obtain ⟨s, hs, hr⟩ := flat_reach h (g.edges.filter fun e => isChildEdge e && g.isElem e.dst && !g.hasIncoming e.dst .placeholder)
          (fun e he => by
            rw [List.mem_filter]
            refine ⟨he, ?_⟩
            obtain ⟨h1, ⟨p, h2⟩, -⟩ := h.mem e he
            simp only [Bool.and_eq_true]
            refine ⟨⟨?_, ?_⟩, ?_⟩
            · rcases mem_flat_edge h he with h3 | h3 <;> simp [isChildEdge, h3]
            · simp [Graph.isElem, h.node? h2]
            · simp [(flat_incoming h e.dst).1]) (i := i) (by omega) hlt
        exact ⟨s, List.mem_filter.2 ⟨hs, by simp [(flat_incoming h s).1]⟩, hr⟩
    · simp only [Bool.and_eq_true, not_and]
      intro hc
      rw [flat_unprocessed h hpos] at hc
      simp at hc
  simp only [hrem]
  exact topoGo_range h _ 1 _ (by omega) (by simp)

end Svd
