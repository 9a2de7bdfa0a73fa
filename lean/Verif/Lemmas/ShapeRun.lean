import Verif.Lemmas.Shape
import Verif.Lemmas.FlatOrder
/-
Running the resolver rounds on a device without derivedFrom.
-/
namespace Svd
open Graph Spec

/-- The processing of one element without derivedFrom, as far as its errors and warnings are concerned. -/
def stepM (p : Parsed) : M Unit := if p.isEnum then M.pure () else M.bind (expandM p) fun _ => M.pure ()

theorem setElem_plain {g : Graph} {i : Nat} {e : ElemNode} (h : Plain g) (hi : i < g.nodes.length) : Plain (g.setElem i e) := by
  obtain ⟨e0, he0⟩ := h.elem i hi
  have hs : (g.node? i).isSome := by rw [elem?_node?.1 he0]; rfl
  constructor
  · exact h.free
  · exact h.phs
  · intro j hj
    simp only [Graph.setElem, List.length_set] at hj
    rw [setElem_elem? hs]
    split
    · exact ⟨_, rfl⟩
    · exact h.elem j hj
  · exact h.types
  · intro e he
    simp only [Graph.setElem, List.length_set]
    exact h.valid e he

/-- `_update_node` without base. -/
theorem updateNode_none {ord : List Nat → List Nat} {g : Graph} {i : Nat} {e : ElemNode} (h : Plain g) (he : g.elem? i = some e)
    (hp : e.processed = none) (x : Processed) (t : Bool) :
    ∃ g', updateNode ord g i none x t = .ok g' [] ∧ Plain g' ∧ ends g' = ends g ∧ g'.nodes.length = g.nodes.length ∧
      ∀ j, g'.elem? j = if j = i then some { e with isProcessed := true, processed := some x, isDimTemplate := e.isDimTemplate || t }
        else g.elem? j := by
  have hn : (g.node? i).isSome := by rw [elem?_node?.1 he]; rfl
  obtain ⟨n, hn'⟩ := Option.isSome_iff_exists.1 hn
  have hlt := node?_lt hn'
  unfold updateNode
  simp only [adoptBase, M.pure_bind, he, hp, Option.isSome_none, Bool.false_eq_true, if_false]
  refine ⟨_, rfl, resolveChildEdges_plain (setElem_plain h hlt), ?_, ?_, ?_⟩
  · rw [resolveChildEdges_ends]; rfl
  · rw [(resolveChildEdges_nodes (i := i)).1]
    simp [Graph.setElem]
  · intro j
    rw [elem?_congr (resolveChildEdges_nodes (i := i)).1, setElem_elem? hn]

theorem processDimable_none (ord : List Nat → List Nat) (g : Graph) (i : Nat) (p : Parsed) :
    processDimable ord g i p none none = M.bind (expandM p) fun y =>
      match y.2 with
      | [] => M.throw (.resolve 504)
      | x :: _ => if y.1 then updateDimNode ord g i none (y.2.map (·.clearDim)) (x.withName p.name)
          else updateNode ord g i none x false := by
  unfold processDimable expandM
  rw [M.bind_assoc]
  congr 1
  funext a
  obtain ⟨d, ns, ds⟩ := a
  simp only
  rw [M.bind_assoc]
  congr 1
  funext xs
  cases xs with
  | nil => rfl
  | cons x xs => rw [if_neg (by simp), M.pure_bind]

theorem expandM_ne {p : Parsed} {y : Bool × List Processed} {w : List Warn} (h : expandM p = .ok y w) : y.2 ≠ [] := by
  unfold expandM at h
  simp only [M.bind_eq_ok] at h
  obtain ⟨a, w1, w2, -, ⟨xs, w3, w4, -, h2, -⟩, -⟩ := h
  split at h2
  · simp [M.throw] at h2
  · rename_i hx
    rw [M.pure_eq_ok] at h2
    rw [← h2.1]
    exact hx

theorem initNode_done {p : Parsed} {y : Bool × List Processed} {w : List Warn} (h : expandM p = .ok y w) :
    isDimB p = y.1 ∧ (y.1 = true → headsOf p = y.2.map (·.clearDim)) ∧ (y.1 = false → headsOf p = y.2) ∧
    ∃ x xs, y.2 = x :: xs ∧ doneNode p = { initNode p with
      isProcessed := true, processed := some (if y.1 then x.withName p.name else x), isDimTemplate := y.1 } := by
  have hO : expandO p = some y := by unfold expandO; rw [h]
  have hne := expandM_ne h
  obtain ⟨d, xs⟩ := y
  cases xs with
  | nil => exact absurd rfl hne
  | cons x xs =>
    unfold isDimB headsOf doneNode
    rw [hO]
    cases d <;> simp [initNode]

/-- Processing the next element. -/
theorem Shape.step {L : List (Nat × Parsed)} {k : Nat} {org : Nat → Nat} {g : Graph} (ord : List Nat → List Nat)
    (h : Shape L k org g) (hL : LOK L) {q : Nat} {p : Parsed} (hb : L[k + 1]? = some (q, p)) :
    (∃ e, stepM p = .err e ∧ processNode ord g (k + 1) = .err e) ∨
    (∃ w g' org', stepM p = .ok () w ∧ processNode ord g (k + 1) = .ok g' w ∧ Shape L (k + 1) org' g') := by
  have hel := h.node (k + 1) _ hb
  rw [if_neg (by omega)] at hel
  obtain ⟨hdev, hder, hq⟩ := hL.inner (k + 1) _ (by omega) hb
  simp only at hdev hder hq
  have hbl := (List.getElem?_eq_some_iff.1 hb).1
  have hlen := h.len
  have hpr : (initNode p).parsed = p := rfl
  unfold processNode stepM
  simp only [hel, hpr, hdev, if_false, hder, M.pure_bind]
  by_cases hen : p.isEnum = true
  · simp only [hen, if_true]
    refine Or.inr ⟨[], ?_⟩
    have hn : (g.node? (k + 1)).isSome := by rw [elem?_node?.1 hel]; rfl
    have hn2 : ((g.setElem (k + 1) (initNode p)).node? (k + 1)).isSome := by
      have := setElem_elem? (j := k + 1) (e := initNode p) hn
      rw [if_pos rfl] at this
      rw [elem?_node?.1 this]; rfl
    have hd : doneNode p = { initNode p with isProcessed := true } := by
      cases p <;> simp [Parsed.isEnum] at hen
      rfl
    have hnd : isDimB p = false := by
      cases p <;> simp [Parsed.isEnum] at hen
      rfl
    have hr : processEnumNode ord g (k + 1) none =
        .ok ((g.setElem (k + 1) (initNode p)).setElem (k + 1) { initNode p with isProcessed := true }) [] := by
      unfold processEnumNode
      simp only [hel, adoptedParsed, adoptBase, M.pure_bind]
      have h1 : ({ initNode p with parsed := (initNode p).parsed } : ElemNode) = initNode p := rfl
      rw [h1, setElem_elem? hn, if_pos rfl]
      rfl
    refine ⟨_, org, rfl, hr, h.set hL hb hnd ?_ ?_ ?_ ?_⟩
    · refine setElem_plain (setElem_plain h.plain (by omega)) ?_
      simp only [Graph.setElem, List.length_set]; omega
    · rfl
    · simp [Graph.setElem]
    · intro j
      rw [setElem_elem? hn2, setElem_elem? hn, hd]
      split
      · rfl
      · rfl
  · rw [Bool.not_eq_true] at hen
    simp only [hen, Bool.false_eq_true, if_false, processDimable_none]
    cases hx : expandM p with
    | err e => exact Or.inl ⟨e, rfl, rfl⟩
    | ok y w =>
      right
      obtain ⟨hd1, hd2, hd3, x, xs, hd4, hd5⟩ := initNode_done hx
      refine ⟨w, ?_⟩
      suffices hs : ∃ g' org', (match y.2 with
          | [] => M.throw (.resolve 504)
          | x :: _ => if y.1 then updateDimNode ord g (k + 1) none (y.2.map Processed.clearDim) (x.withName p.name)
              else updateNode ord g (k + 1) none x false) = .ok g' [] ∧ Shape L (k + 1) org' g' by
        obtain ⟨g', org', h1, h2⟩ := hs
        refine ⟨g', org', ?_, ?_, h2⟩
        · simp [M.bind, M.pure]
        · simp only [M.bind]
          rw [h1]
          simp
      cases hdim : y.1 with
      | false =>
        rw [hdim] at hd1 hd5
        simp only [hd4, Bool.false_eq_true, if_false] at hd5 ⊢
        obtain ⟨g', h1, h2, h3, h4, h5⟩ := updateNode_none (ord := ord) h.plain hel rfl x false
        refine ⟨g', org, h1, h.set hL hb hd1 h2 h3 h4 ?_⟩
        intro j
        rw [h5 j, hd5]
        rfl
      | true =>
        rw [hdim] at hd1 hd5 hd2
        have hheads := hd2 rfl
        simp only [hd4, if_true] at hd5 ⊢
        rw [← hd4, ← hheads]
        obtain ⟨g1, h1, h2, h3, h4, h5⟩ := updateNode_none (ord := ord) h.plain hel rfl (x.withName p.name) true
        unfold updateDimNode
        rw [h1]
        simp only [M.bind]
        have h5' := h5 (k + 1)
        rw [if_pos rfl] at h5'
        rw [h5']
        simp only
        rw [h2.parents]
        have hins : ins g1 (k + 1) = ins g (k + 1) := by unfold ins; rw [h3]
        rw [hins]
        generalize hpairs : ((ins g (k + 1)).flatMap fun par => (headsOf p).map fun x => (par, x)) = pairs
        let r : Nat → Nat := fun j => if j < g.nodes.length then org j else k + 1
        have hlev : (initNode p).level = levelOf p := rfl
        have hrank1 : ∀ e ∈ g1.edges, r e.src < r e.dst := by
          intro e he
          have hm : (e.src, e.dst) ∈ ends g1 := mem_ends.2 ⟨e, he, rfl, rfl⟩
          rw [h3] at hm
          have hv := h.plain.lt hm
          simp only [r, hv.1, hv.2, if_true]
          exact h.rank hL hm
        have hpm : ∀ y ∈ pairs, y.1 < g.nodes.length ∧ org y.1 = q := by
          rintro ⟨a, z⟩ hy
          rw [← hpairs] at hy
          simp only [List.mem_flatMap, List.mem_map, Prod.mk.injEq] at hy
          obtain ⟨par, hp, _, -, rfl, -⟩ := hy
          have hm := mem_ins.1 hp
          have hv := (h.plain.lt hm).1
          obtain ⟨-, p', h6⟩ := (h.low par (k + 1) hbl hv).1 hm
          rw [hb] at h6
          simp only [Option.some.injEq, Prod.mk.injEq] at h6
          exact ⟨hv, h6.1.symm⟩
        have hadd := addInstances_eq r (levelOf p) p pairs g1 h2.free hrank1 (by
          intro y hy j hj
          have := hpm y hy
          simp only [r, this.1, if_true, show ¬ j < g.nodes.length by omega, if_false, this.2]
          exact hq)
        rw [hlev, hpr, hadd]
        simp only [h4]
        generalize hjs : List.range' g.nodes.length pairs.length = js
        have hjm : ∀ j, j ∈ js ↔ g.nodes.length ≤ j ∧ j < g.nodes.length + pairs.length := by
          intro j; subst hjs; rw [List.mem_range'_1]
        generalize hg2 : ({ g1 with
          nodes := g1.nodes ++ pairs.map fun x => some (Node.elem (instNode (levelOf p) p x.2))
          edges := ((pairs.zip js).map fun y => (⟨y.1.1, y.2, .childR⟩ : Edge)).reverse ++ g1.edges } : Graph) = g2
        have hg2n : g2.nodes = g1.nodes ++ pairs.map fun x => some (Node.elem (instNode (levelOf p) p x.2)) := by rw [← hg2]
        have hg2e : g2.edges = ((pairs.zip js).map fun y => (⟨y.1.1, y.2, .childR⟩ : Edge)).reverse ++ g1.edges := by rw [← hg2]
        have hg2l : g2.nodes.length = g.nodes.length + pairs.length := by
          rw [hg2n, List.length_append, List.length_map, h4]
        have hnewedge : ∀ e ∈ ((pairs.zip js).map fun y => (⟨y.1.1, y.2, .childR⟩ : Edge)).reverse,
            e.src < g.nodes.length ∧ org e.src = q ∧ e.dst ∈ js ∧ e.ty = .childR := by
          intro e he
          rw [List.mem_reverse, List.mem_map] at he
          obtain ⟨y, hy, rfl⟩ := he
          obtain ⟨h6, h7⟩ := List.of_mem_zip hy
          exact ⟨(hpm _ h6).1, (hpm _ h6).2, h7, rfl⟩
        have helold : ∀ j, j < g.nodes.length → g2.elem? j = g1.elem? j := by
          intro j hj
          unfold Graph.elem? Graph.node?
          rw [hg2n, List.getElem?_append_left (by omega)]
        have helnew : ∀ (t : Nat) y, pairs[t]? = some y → g2.elem? (g.nodes.length + t) = some (instNode (levelOf p) p y.2) := by
          intro t y hy
          unfold Graph.elem? Graph.node?
          rw [hg2n, List.getElem?_append_right (by omega), h4, Nat.add_sub_cancel_left, List.getElem?_map, hy]
          rfl
        have hpl2 : Plain g2 := by
          constructor
          · rw [← hg2]; exact h2.free
          · rw [← hg2]; exact h2.phs
          · intro j hj
            rw [hg2l] at hj
            by_cases hjl : j < g.nodes.length
            · rw [helold j hjl]; exact h2.elem j (by omega)
            · obtain ⟨y, hy⟩ : ∃ y, pairs[j - g.nodes.length]? = some y := ⟨_, List.getElem?_eq_getElem (by omega)⟩
              have h6 := helnew _ _ hy
              rw [show g.nodes.length + (j - g.nodes.length) = j by omega] at h6
              exact ⟨_, h6⟩
          · intro e he
            rw [hg2e, List.mem_append] at he
            rcases he with he | he
            · simp [isChildEdge, (hnewedge e he).2.2.2]
            · exact h2.types e he
          · intro e he
            rw [hg2e, List.mem_append] at he
            rw [hg2l]
            rcases he with he | he
            · have h6 := hnewedge e he
              have h7 := (hjm _).1 h6.2.2.1
              omega
            · have := h2.valid e he
              omega
        have hrank2 : ∀ e ∈ g2.edges, r e.src < r e.dst := by
          intro e he
          rw [hg2e, List.mem_append] at he
          rcases he with he | he
          · have h6 := hnewedge e he
            have h7 := (hjm _).1 h6.2.2.1
            simp only [r, h6.1, if_true, show ¬ e.dst < g.nodes.length by omega, if_false, h6.2.1]
            exact hq
          · exact hrank1 e he
        have hends2 : ends g2 = ((pairs.zip js).map fun y => (y.1.1, y.2)).reverse ++ ends g := by
          rw [← h3]
          unfold ends
          rw [hg2e, List.map_append, List.map_reverse, List.map_map]
          rfl
        have houts2 : outs g2 (k + 1) = outs g (k + 1) := by
          unfold outs
          rw [hends2, List.filter_append, List.filter_eq_nil_iff.2, List.nil_append]
          rintro ⟨a, j⟩ hm
          rw [List.mem_reverse, List.mem_map] at hm
          obtain ⟨y, hy, h6⟩ := hm
          have h7 := hpm _ (List.of_mem_zip hy).1
          simp only [Prod.mk.injEq] at h6
          simp only [beq_iff_eq]
          intro hc
          have h8 : y.1.1 = k + 1 := by omega
          rw [h8, h.self _ hbl] at h7
          omega
        have hlink := linkInstances_eq r (k + 1) (outs g (k + 1)) js g2 hrank2 hpl2 houts2 (by
          intro j hj
          have h6 := (hjm j).1 hj
          refine ⟨by omega, by omega, ?_⟩
          intro c hc
          have hm := mem_outs.1 hc
          have h7 := h.rank hL hm
          have h8 := (h.plain.lt hm).2
          rw [h.self _ hbl] at h7
          simp only [r, h8, if_true, show ¬ j < g.nodes.length by omega, if_false]
          exact h7)
        rw [hlink]
        refine ⟨_, _, rfl, h.expand hL hb hd1 (pairs := pairs) (js := js) hpairs.symm hjs.symm ?_ ?_ ?_ ?_ ?_⟩
        · have hvo : ∀ c ∈ outs g (k + 1), c < g2.nodes.length := by
            intro c hc
            have := (h.plain.lt (mem_outs.1 hc)).2
            omega
          constructor
          · exact hpl2.free
          · exact hpl2.phs
          · exact hpl2.elem
          · intro e he
            simp only [List.mem_append, List.mem_reverse, List.mem_flatMap, List.mem_map] at he
            rcases he with ⟨j, _, c, _, rfl⟩ | he
            · rfl
            · exact hpl2.types e he
          · intro e he
            simp only [List.mem_append, List.mem_reverse, List.mem_flatMap, List.mem_map] at he
            rcases he with ⟨j, hj, c, hc, rfl⟩ | he
            · have := (hjm j).1 hj
              exact ⟨by simp only; omega, hvo c hc⟩
            · exact hpl2.valid e he
        · rw [← hends2]
          unfold ends
          simp only [List.map_append, List.map_reverse, List.map_flatMap, List.map_map]
          rfl
        · exact hg2l
        · intro j hj
          have h6 := helold j hj
          have h7 : ({ g2 with edges := (js.flatMap fun j => (outs g (k + 1)).map fun c => (⟨j, c, .childR⟩ : Edge)).reverse ++ g2.edges } : Graph).elem? j =
            g2.elem? j := rfl
          rw [h7, h6, h5 j, hd5]
          rfl
        · intro t y hy
          exact helnew t y hy

/-- The processing of all elements. -/
def stepsM : List (Nat × Parsed) → M Unit
  | [] => M.pure ()
  | x :: xs => M.bind (stepM x.2) fun _ => stepsM xs

theorem Shape.run {L : List (Nat × Parsed)} (ord : List Nat → List Nat) (hL : LOK L) (m : Nat) : ∀ (k : Nat) (org : Nat → Nat) (g : Graph),
    Shape L k org g → k + m + 1 = L.length →
    (∃ e, stepsM (L.drop (k + 1)) = .err e ∧ processNodes ord g (List.range' (k + 1) m) = .err e) ∨
    (∃ w g' org', stepsM (L.drop (k + 1)) = .ok () w ∧ processNodes ord g (List.range' (k + 1) m) = .ok g' w ∧
      Shape L (k + m) org' g') := by
  induction m with
  | zero =>
    intro k org g h hk
    right
    refine ⟨[], g, org, ?_, rfl, h⟩
    rw [List.drop_eq_nil_of_le (by omega)]
    rfl
  | succ m ih =>
    intro k org g h hk
    have hlt : k + 1 < L.length := by omega
    have hb : L[k + 1]? = some (L[k + 1].1, L[k + 1].2) := List.getElem?_eq_getElem hlt
    rw [List.drop_eq_getElem_cons hlt, List.range'_succ]
    simp only [stepsM, processNodes]
    rcases h.step ord hL hb with ⟨e, h1, h2⟩ | ⟨w, g1, org1, h1, h2, h3⟩
    · left
      exact ⟨e, by rw [h1]; rfl, by rw [h2]; rfl⟩
    · rw [h1, h2]
      simp only [M.bind]
      rcases ih (k + 1) org1 g1 h3 (by omega) with ⟨e, h4, h5⟩ | ⟨w2, g2, org2, h4, h5, h6⟩
      · left
        exact ⟨e, by rw [h4], by rw [h5]⟩
      · right
        refine ⟨w ++ w2, g2, org2, by rw [h4], by rw [h5], ?_⟩
        rw [show k + (m + 1) = k + 1 + m by omega]
        exact h6

theorem doneNode_processed (p : Parsed) : (doneNode p).isProcessed = true := by
  unfold doneNode
  split <;> rfl

theorem Shape.allDone {L : List (Nat × Parsed)} {k : Nat} {org : Nat → Nat} {g : Graph} (h : Shape L k org g)
    (hk : k + 1 = L.length) (i : Nat) : g.isUnprocessed i = false := by
  unfold Graph.isUnprocessed
  by_cases hi : i < g.nodes.length
  · by_cases hl : i < L.length
    · have h1 := h.node i _ (List.getElem?_eq_getElem hl)
      rw [if_pos (by omega)] at h1
      rw [h1]
      simp [doneNode_processed]
    · obtain ⟨q, p, x, -, -, -, -, h5, -⟩ := h.inst i (by omega) hi
      rw [h5]
      rfl
  · have : g.elem? i = none := by
      unfold Graph.elem? Graph.node?
      rw [List.getElem?_eq_none (by omega)]
      rfl
    rw [this]

/-- The rounds end after the second one. -/
theorem flat_rounds {L : List (Nat × Parsed)} {g : Graph} (ord : List Nat → List Nat) (h : Flat L g) (f : Nat) :
    (∃ e, stepsM (L.drop 1) = .err e ∧ rounds ord (f + 2) g [] = .err e) ∨
    (∃ w g' org k, stepsM (L.drop 1) = .ok () w ∧ rounds ord (f + 2) g [] = .ok g' w ∧ Shape L k org g' ∧ k + 1 = L.length) := by
  have h0 := (List.getElem?_eq_some_iff.1 h.root).1
  have hrun := Shape.run ord h.ok (L.length - 1) 0 id g (shape_init h) (by omega)
  rw [rounds, h.phs]
  simp only [resolvePlaceholders, M.pure_bind, flat_order h]
  by_cases hN : L.length = 1
  · right
    rw [hN]
    refine ⟨[], g, id, 0, ?_, ?_, shape_init h, by omega⟩
    · rw [List.drop_eq_nil_of_le (by omega)]; rfl
    · rfl
  · have hne : List.range' 1 (L.length - 1) ≠ [] := by
      intro hc
      have := congrArg List.length hc
      simp at this
      omega
    rw [if_neg hne, if_neg hne]
    rcases hrun with ⟨e, h1, h2⟩ | ⟨w, g1, org1, h1, h2, h3⟩
    · left
      exact ⟨e, h1, by rw [h2]; rfl⟩
    · right
      refine ⟨w, g1, org1, _, h1, ?_, h3, by omega⟩
      rw [h2]
      simp only [M.bind]
      rw [rounds, h3.plain.phs]
      have hs : sortedProcessable g1 = [] := by
        unfold sortedProcessable Graph.topoSort
        have : (processableNodes g1).filter g1.isUnprocessed = [] := by
          rw [List.filter_eq_nil_iff]
          intro i _
          rw [h3.allDone (by omega) i]
          simp
        rw [this]
        rfl
      simp [resolvePlaceholders, hs, M.pure, M.bind]

end Svd
