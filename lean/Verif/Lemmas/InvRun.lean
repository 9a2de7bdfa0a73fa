import Verif.Lemmas.InvStep
/- The invariant holds for the final graph of the resolver. -/
namespace Svd
open Graph Spec

theorem createAll_ok {p : Parsed} {b : Option Processed} {k : Nat} {names : List Str} {ds : List (Option Str)}
    {xs : List Processed} {ws : List Warn} (h : createAll p b k names ds = .ok xs ws) :
    xs.length = min names.length ds.length ∧
    ∀ j x, xs[j]? = some x → ∃ n disp w, names[j]? = some n ∧ ds[j]? = some disp ∧
      createDimable (k + j) n disp p b = .ok x w := by
  induction names generalizing k ds xs ws with
  | nil =>
    simp only [createAll, M.pure_eq_ok] at h
    obtain ⟨rfl, -⟩ := h
    simp
  | cons n ns ih =>
    cases ds with
    | nil =>
      simp only [createAll, M.pure_eq_ok] at h
      obtain ⟨rfl, -⟩ := h
      simp
    | cons d ds =>
      simp only [createAll, M.bind_eq_ok, M.pure_eq_ok] at h
      obtain ⟨x, w1, w2, h1, ⟨xs', w3, w4, h2, ⟨rfl, -⟩, -⟩, -⟩ := h
      obtain ⟨l, ih⟩ := ih h2
      refine ⟨by simp only [List.length_cons, l]; omega, ?_⟩
      intro j y hy
      cases j with
      | zero =>
        simp only [List.getElem?_cons_zero, Option.some.injEq] at hy
        subst hy
        exact ⟨n, d, w1, rfl, rfl, h1⟩
      | succ j =>
        simp only [List.getElem?_cons_succ] at hy ⊢
        obtain ⟨n', d', w', a, b', c⟩ := ih j y hy
        exact ⟨n', d', w', a, b', by rw [← c]; congr 1; omega⟩

theorem createDimable_name {i : Nat} {n : Str} {disp : Option Str} {p : Parsed} {b : Option Processed} {x : Processed}
    {ws : List Warn} (h : createDimable i n disp p b = .ok x ws) : x.name = n := by
  unfold createDimable at h
  split at h
  all_goals first
    | (simp only [M.pure_eq_ok] at h; obtain ⟨rfl, -⟩ := h; rfl)
    | (simp only [M.bind_eq_ok, M.pure_eq_ok, processField] at h
       obtain ⟨y, w1, w2, ⟨z, w3, w4, -, ⟨rfl, -⟩, -⟩, ⟨rfl, -⟩, -⟩ := h
       rfl)
    | simp at h

theorem extractDim_nodim {ty : Level} {name : Str} {pd : SDim} {pdisp : Option Str} {bd : Option IDim}
    {bdisp : Option Str} {ns : List Str} {ds : List (Option Str)} {ws : List Warn}
    (h : extractDim ty name pd pdisp bd bdisp = .ok (false, ns, ds) ws) : ns = [name] := by
  unfold extractDim at h
  simp only at h
  split at h
  · simp at h
  · simp only [M.bind_eq_ok] at h
    obtain ⟨dim', w1, w2, h1, h2, -⟩ := h
    generalize (if ty = .register then orIfNone pdisp bdisp else none) = disp at h2
    split at h2
    · simp at h2
    · simp only [M.bind_eq_ok, M.pure_eq_ok, Prod.mk.injEq] at h2
      obtain ⟨⟨ns', ds'⟩, w3, w4, h3, ⟨⟨h4, rfl, rfl⟩, -⟩, -⟩ := h2
      cases dim' with
      | some _ => simp at h4
      | none =>
        simp only [processDim, M.pure_eq_ok, Prod.mk.injEq] at h3
        exact h3.1.1.symm

theorem extractDim_marked {ty : Level} {name : Str} {pd : SDim} {pdisp : Option Str} {bd : Option IDim} {bdisp : Option Str} {ns : List Str}
    {ds : List (Option Str)} {ws : List Warn} (h : extractDim ty name pd pdisp bd bdisp = .ok (true, ns, ds) ws) : hasSub lstMark name = true := by
  unfold extractDim at h
  simp only at h
  split at h
  · simp at h
  · simp only [M.bind_eq_ok] at h
    obtain ⟨dim', w1, w2, h1, h2, -⟩ := h
    generalize (if ty = Level.register then orIfNone pdisp bdisp else none) = disp at h2
    split at h2
    · simp at h2
    · simp only [M.bind_eq_ok, M.pure_eq_ok, Prod.mk.injEq] at h2
      obtain ⟨-, -, -, -, ⟨⟨h4, -, -⟩, -⟩, -⟩ := h2
      cases hm : hasSub lstMark name with
      | true => rfl
      | false =>
        exfalso
        rw [hm] at h1
        cases hd : orIfNone pd.dim (bd.bind (·.dim)) with
        | none =>
          rw [hd] at h1
          simp only [Option.isSome_none, Bool.false_and, Bool.false_eq_true, if_false, M.pure_eq_ok] at h1
          rw [← h1.1] at h4
          simp at h4
        | some n =>
          rw [hd] at h1
          simp only [Option.isSome_some, Bool.not_false, Bool.and_self, if_true, M.bind_eq_ok, M.pure_eq_ok] at h1
          obtain ⟨-, -, -, -, ⟨h5, -⟩, -⟩ := h1
          rw [← h5] at h4
          simp at h4

theorem extractDimOf_marked {p : Parsed} {b : Option Processed} {ns : List Str} {ds : List (Option Str)}
    {ws : List Warn} (h : extractDimOf p b = .ok (true, ns, ds) ws) : hasSub lstMark p.name = true := by
  unfold extractDimOf at h
  simp only at h
  split at h
  · exact extractDim_marked h
  · exact extractDim_marked h
  · exact extractDim_marked h
  · exact extractDim_marked h
  · simp at h

theorem extractDimOf_nodim {p : Parsed} {b : Option Processed} {ns : List Str} {ds : List (Option Str)}
    {ws : List Warn} (h : extractDimOf p b = .ok (false, ns, ds) ws) : ns = [p.name] := by
  unfold extractDimOf at h
  simp only at h
  split at h
  · exact extractDim_nodim h
  · exact extractDim_nodim h
  · exact extractDim_nodim h
  · exact extractDim_nodim h
  · simp at h

theorem clearDim_name (x : Processed) : x.clearDim.name = x.name := by cases x <;> rfl
theorem withName_name (x : Processed) (n : Str) : (x.withName n).name = n := by cases x <;> rfl

/-- What `processDimable` does. -/
theorem processDimable_ok {ord : List Nat → List Nat} {g g' : Graph} {i : Nat} {p : Parsed} {bn : Option Nat}
    {b : Option Processed} {ws : List Warn} (h : processDimable ord g i p bn b = .ok g' ws) :
    (∃ x w, Yields p b x ∧ x.name = p.name ∧ updateNode ord g i bn x false = .ok g' w) ∨
    (∃ xs t w, (∀ y ∈ xs, Yields p b y) ∧ Yields p b t ∧ t.name = p.name ∧
      updateDimNode ord g i bn xs t = .ok g' w) := by
  unfold processDimable at h
  simp only [M.bind_eq_ok] at h
  obtain ⟨⟨isDim, names, ds⟩, w1, w2, h1, ⟨xs, w3, w4, h2, h3, -⟩, -⟩ := h
  obtain ⟨-, hall⟩ := createAll_ok h2
  simp only [Nat.zero_add] at hall
  split at h3
  · simp at h3
  · rename_i x rest
    obtain ⟨n0, d0, w0, hn0, hd0, hc0⟩ := hall 0 x rfl
    cases isDim with
    | false =>
      left
      simp only [Bool.false_eq_true, if_false] at h3
      refine ⟨x, w4, ⟨false, names, ds, w1, 0, n0, d0, x, w0, h1, hn0, hd0, hc0, Or.inl ⟨rfl, rfl, rfl⟩⟩, ?_, h3⟩
      rw [createDimable_name hc0]
      rw [extractDimOf_nodim h1] at hn0
      simpa using hn0.symm
    | true =>
      right
      simp only [if_true] at h3
      refine ⟨_, _, w4, ?_, ⟨true, names, ds, w1, 0, n0, d0, x, w0, h1, hn0, hd0, hc0,
        Or.inr (Or.inr ⟨rfl, rfl, rfl⟩)⟩, withName_name _ _, h3⟩
      intro y hy
      obtain ⟨z, hz, rfl⟩ := List.mem_map.1 hy
      obtain ⟨j, hj⟩ := List.getElem?_of_mem hz
      obtain ⟨n, d, w, a, b', c⟩ := hall j z hj
      exact ⟨true, names, ds, w1, j, n, d, z, w, h1, a, b', c, Or.inr (Or.inl ⟨rfl, rfl⟩)⟩

theorem yields_level {p : Parsed} {b : Option Processed} {y : Processed} (h : Yields p b y) :
    p.level ≠ .enumcont ∧ p.level ≠ .device := by
  obtain ⟨_, _, _, _, _, _, _, _, _, h, -⟩ := h
  cases p <;> simp [extractDimOf] at h <;> simp [Parsed.level]

/-- Node `i` changed only its status. -/
def SameBut (i : Nat) (g g' : Graph) : Prop := ∀ j, j ≠ i → ∀ n, g.node? j = some n → g'.node? j = some n

theorem inv_processEnumNode {d : SDevice} {ord : List Nat → List Nat} {g g' : Graph} {i : Nat} {e : ElemNode}
    {bn : Option Nat} {ws : List Warn} (h : Inv d g) (hr : processEnumNode ord g i bn = .ok g' ws)
    (hi : g.elem? i = some e) (hlvl : e.level = .enumcont)
    (hb : ∀ b, bn = some b → ∃ eb, g.elem? b = some eb ∧ eb.level = e.level) : Inv d g' ∧ SameBut i g g' := by
  unfold processEnumNode at hr
  simp only [hi, M.bind_eq_ok] at hr
  obtain ⟨g1, w1, w2, h1, h2, -⟩ := hr
  have he := h.nodes.elem hi
  obtain ⟨q, hq, hdecl, hqlvl⟩ : ∃ q, adoptedParsed g e bn = q ∧ Declared d q ∧ e.level = q.level := by
    refine ⟨_, rfl, ?_⟩
    unfold adoptedParsed
    cases bn with
    | none => exact ⟨he.1, he.2.1⟩
    | some b =>
      obtain ⟨eb, h3, h4⟩ := hb b rfl
      have := h.nodes.elem h3
      simp only [h3]
      exact ⟨this.1, by rw [← h4]; exact this.2.1⟩
  rw [hq] at h1
  have hnp : e.processed = none := by
    cases hp : e.processed with
    | none => rfl
    | some x =>
      obtain ⟨-, -, ch, hm⟩ := he.2.2.2.1 x hp
      have : Yields e.parsed none x ∨ ∃ b, Yields e.parsed (some b) x := by
        cases hm with
        | base _ _ h => exact Or.inl h
        | derive _ _ _ _ h => exact Or.inr ⟨_, h⟩
      have hl := he.2.1
      rcases this with h | ⟨b, h⟩
      · exact absurd (hl ▸ hlvl) (yields_level h).1
      · exact absurd (hl ▸ hlvl) (yields_level h).1
  have i1 : Inv d (g.setElem i { e with parsed := q }) :=
    inv_setElem h hi rfl rfl (fun hh => absurd hlvl hh)
      ⟨hdecl, hqlvl, fun _ hh => absurd hlvl hh, fun x hx => by simp [hnp] at hx, fun _ _ hh => absurd hlvl hh⟩
  have hi' : (g.node? i).isSome := by rw [elem?_node?.1 hi]; rfl
  have e1 : (g.setElem i { e with parsed := q }).elem? i = some { e with parsed := q } := by
    rw [setElem_elem? hi', if_pos rfl]
  obtain ⟨a, b⟩ := inv_adoptBase i1 h1 e1
  have e2 := b.elem e1
  simp only [e2, M.pure_eq_ok] at h2
  obtain ⟨rfl, -⟩ := h2
  have hi2 : (g1.node? i).isSome := by rw [elem?_node?.1 e2]; rfl
  refine ⟨inv_setElem a e2 rfl rfl (fun hh => absurd hlvl hh)
      ⟨hdecl, hqlvl, fun _ hh => absurd hlvl hh, fun x hx => by simp [hnp] at hx, fun _ _ hh => absurd hlvl hh⟩, ?_⟩
  intro j hj n hn
  rw [(setElem_wf a.wf hi2).2, if_neg hj]
  apply b
  rw [(setElem_wf h.wf hi').2, if_neg hj]
  exact hn

theorem baseElementNode_edge {g : Graph} {i b : Nat} (h : g.baseElementNode i = some b) : ⟨b, i, .derive⟩ ∈ g.edges := by
  unfold Graph.baseElementNode at h
  rw [Option.map_eq_some_iff] at h
  obtain ⟨e, he, rfl⟩ := h
  have h1 := List.mem_of_find?_eq_some he
  have h2 := List.find?_some he
  obtain ⟨h3, h4⟩ := inEdges_mem h1
  simp only [beq_iff_eq] at h2
  cases e
  simp only at h2 h4 h3
  subst h2; subst h4; exact h3

theorem derivedFromBase_ok {g : Graph} {i b : Nat} {e eb : ElemNode} {ws : List Warn}
    (h : derivedFromBase g i e = .ok (b, eb) ws) :
    g.baseElementNode i = some b ∧ g.elem? b = some eb ∧ e.level = eb.level := by
  unfold derivedFromBase at h
  split at h
  · simp at h
  · rename_i b' hb
    split at h
    · simp at h
    · rename_i eb' he
      split at h
      · simp at h
      · rename_i hl
        simp only [M.pure_eq_ok, Prod.mk.injEq] at h
        obtain ⟨⟨rfl, rfl⟩, -⟩ := h
        exact ⟨hb, he, Decidable.of_not_not hl⟩

theorem isEnum_level (p : Parsed) : p.isEnum = true ↔ p.level = .enumcont := by cases p <;> simp [Parsed.isEnum, Parsed.level]

/-- The base of a node. -/
theorem processNode_cases {ord : List Nat → List Nat} {g g' : Graph} {i : Nat} {ws : List Warn}
    (h : processNode ord g i = .ok g' ws) :
    ∃ e bn bp w, g.elem? i = some e ∧ e.parsed ≠ .device ∧
      ((e.parsed.derivedFrom = none ∧ bn = none ∧ bp = none) ∨
       (∃ path b eb, e.parsed.derivedFrom = some path ∧ g.baseElementNode i = some b ∧ g.elem? b = some eb ∧
          e.level = eb.level ∧ bn = some b ∧ bp = eb.processed ∧ (e.parsed.isEnum = true ∨ eb.processed.isSome))) ∧
      ((e.parsed.isEnum = true ∧ processEnumNode ord g i bn = .ok g' w) ∨
       (e.parsed.isEnum = false ∧ processDimable ord g i e.parsed bn bp = .ok g' w)) := by
  unfold processNode at h
  split at h
  · simp at h
  · rename_i e he
    split at h
    · simp at h
    · rename_i hdev
      simp only [M.bind_eq_ok] at h
      obtain ⟨⟨bn, bp⟩, w1, w2, h1, h2, -⟩ := h
      refine ⟨e, bn, bp, w2, he, hdev, ?_, ?_⟩
      · split at h1
        · rename_i hd
          simp only [M.pure_eq_ok, Prod.mk.injEq] at h1
          exact Or.inl ⟨hd, h1.1.1.symm, h1.1.2.symm⟩
        · rename_i path hd
          right
          simp only [M.bind_eq_ok] at h1
          obtain ⟨⟨b, eb⟩, w3, w4, h3, h4, -⟩ := h1
          obtain ⟨a1, a2, a3⟩ := derivedFromBase_ok h3
          split at h4
          · simp at h4
          · rename_i hc
            simp only [M.pure_eq_ok, Prod.mk.injEq] at h4
            refine ⟨path, b, eb, hd, a1, a2, a3, h4.1.1.symm, h4.1.2.symm, ?_⟩
            simp only [Bool.and_eq_true, not_and, Bool.not_eq_true'] at hc
            cases hp : eb.processed with
            | some _ => exact Or.inr rfl
            | none => left; simpa [hp] using hc
      · simp only at h2
        split at h2
        · rename_i hen
          exact Or.inl ⟨hen, h2⟩
        · rename_i hen
          exact Or.inr ⟨by simpa using hen, h2⟩

theorem inv_processNode {d : SDevice} {ord : List Nat → List Nat} {g g' : Graph} {i : Nat} {ws : List Warn}
    (h : Inv d g) (hr : processNode ord g i = .ok g' ws) : Inv d g' ∧ SameBut i g g' := by
  obtain ⟨e, bn, bp, w, he, hdev, hbase, hcase⟩ := processNode_cases hr
  have hnode := h.nodes.elem he
  rcases hcase with ⟨hen, hp⟩ | ⟨hen, hp⟩
  · have hl : e.level = .enumcont := by rw [hnode.2.1]; exact (isEnum_level _).1 hen
    refine inv_processEnumNode h hp he hl ?_
    rintro b rfl
    rcases hbase with ⟨-, h1, -⟩ | ⟨path, b', eb, -, -, h3, h4, h5, -, -⟩
    · simp at h1
    · simp only [Option.some.injEq] at h5
      subst h5
      exact ⟨eb, h3, h4.symm⟩
  · have hl : e.level ≠ .enumcont := by
      rw [hnode.2.1]; intro hh; rw [(isEnum_level _).2 hh] at hen; cases hen
    -- every element made here is `Made`
    have made : ∀ y, Yields e.parsed bp y → ∃ ch, Made d (e.parsed :: ch) y := by
      intro y hy
      rcases hbase with ⟨h1, -, rfl⟩ | ⟨path, b, eb, h1, h2, h3, h4, -, rfl, h6⟩
      · exact ⟨[], .base hnode.1 h1 hy⟩
      · have h7 : eb.processed.isSome := by
          rcases h6 with h6 | h6
          · rw [h6] at hen; cases hen
          · exact h6
        obtain ⟨x, hx⟩ := Option.isSome_iff_exists.1 h7
        have hb := h.nodes.elem h3
        obtain ⟨hname, -, ch, hm⟩ := hb.2.2.2.1 x hx
        obtain ⟨s, t, hs, ht, hE⟩ := h.edges _ (baseElementNode_edge h2)
        obtain ⟨es, ed, rfl, rfl, -, hlast⟩ := hE
        simp only at hs ht
        rw [elem?_node?.1 h3] at hs
        rw [elem?_node?.1 he] at ht
        simp only [Option.some.injEq, Node.elem.injEq] at hs ht
        subst hs; subst ht
        obtain ⟨path', hp1, hp2⟩ := hlast hl
        rw [h1] at hp1
        simp only [Option.some.injEq] at hp1
        subst hp1
        rw [hx] at hy
        refine ⟨_, .derive hnode.1 h1 hm ?_ hy⟩
        rw [hname] at hp2
        simpa using hp2
    rcases processDimable_ok hp with ⟨x, w', hy, hn, hu⟩ | ⟨xs, t, w', hys, hy, hn, hu⟩
    · have hnone : e.processed = none := by
        obtain ⟨g1, e1, h1, h2, h3, -⟩ := updateNode_ok hu
        obtain ⟨-, hx⟩ := inv_adoptBase h h1 he
        have := hx.elem he
        rw [h2] at this
        simp only [Option.some.injEq] at this
        subst this; exact h3
      obtain ⟨a, b, -, -⟩ := inv_updateNode h hu he ⟨hnode.1, hnode.2.1, by simp, fun y hy' => (by
        simp only [Option.some.injEq] at hy'
        subst hy'
        exact ⟨by rw [hn]; exact hnode.2.2.1 hnone hl, rfl, made _ hy⟩), by simp⟩
      exact ⟨a, b⟩
    · have hnone : e.processed = none := by
        obtain ⟨g0, e0, _, _, h0, _⟩ := updateDimNode_ok hu
        obtain ⟨g1, e1, h1, h2, h3, -⟩ := updateNode_ok h0
        obtain ⟨-, hx⟩ := inv_adoptBase h h1 he
        have := hx.elem he
        rw [h2] at this
        simp only [Option.some.injEq] at this
        subst this; exact h3
      obtain ⟨a, b, -, -⟩ := inv_updateDimNode h hu he ⟨hnode.1, hnode.2.1, by simp, fun y hy' => (by
          simp only [Option.some.injEq] at hy'
          subst hy'
          exact ⟨by rw [hn]; exact hnode.2.2.1 hnone hl, rfl, made _ hy⟩), by simp⟩
        (fun y hy' => ⟨hnode.1, hnode.2.1, by simp, fun z hz => (by
          simp only [Option.some.injEq] at hz
          subst hz
          exact ⟨rfl, rfl, made _ (hys _ hy')⟩), by simp⟩)
      exact ⟨a, b⟩

/-! ### placeholders -/

theorem inv_rawAddEdge {d : SDevice} {g g' : Graph} {x : Exn} {a b : Nat} {ty : EdgeT} {ws : List Warn} (h : Inv d g)
    (hr : g.rawAddEdge x a b ty = .ok g' ws) (hok : EOKi g a b ty) : Inv d g' := by
  obtain ⟨s, t, h1, h2, h3⟩ := hok
  obtain ⟨a1, a2⟩ := rawAddEdge_wf h.wf hr (by rw [h1]; rfl) (by rw [h2]; rfl)
  obtain ⟨rfl, -, -⟩ := rawAddEdge_nodes hr
  refine ⟨a1, h.nodes.of_nodes rfl, h.edges.ext a2 ?_⟩
  intro e he
  rcases List.mem_cons.1 he with rfl | he
  · exact Or.inr ⟨s, t, h1, h2, h3⟩
  · exact Or.inl he

theorem mem_dedup {l : List Nat} {x : Nat} : x ∈ dedup l ↔ x ∈ l := by
  induction l with
  | nil => simp [dedup]
  | cons y ys ih =>
    simp only [dedup, List.mem_cons, List.mem_filter, ih]
    constructor
    · rintro (h | ⟨h, -⟩)
      · exact Or.inl h
      · exact Or.inr h
    · rintro (h | h)
      · exact Or.inl h
      · by_cases hxy : x = y
        · exact Or.inl hxy
        · exact Or.inr ⟨h, by simpa using hxy⟩

theorem mem_successors {g : Graph} {i c : Nat} : c ∈ g.successors i ↔ ∃ e ∈ g.edges, e.src = i ∧ e.dst = c := by
  unfold Graph.successors Graph.outEdges
  rw [mem_dedup]
  simp only [List.mem_map, List.mem_filter, beq_iff_eq, and_assoc]

theorem mem_predecessors {g : Graph} {i p : Nat} : p ∈ g.predecessors i ↔ ∃ e ∈ g.edges, e.dst = i ∧ e.src = p := by
  unfold Graph.predecessors Graph.inEdges
  rw [mem_dedup]
  simp only [List.mem_map, List.mem_filter, beq_iff_eq, and_assoc]

theorem placeholderCoParent_ok {g : Graph} {ph p : Nat} {ws : List Warn}
    (h : g.placeholderCoParent ph = .ok (some p) ws) :
    ∃ c, c ∈ g.successors ph ∧ p ∈ g.predecessors c ∧ g.isElem p = true := by
  unfold Graph.placeholderCoParent at h
  split at h
  · simp at h
  · rename_i c hc
    split at h
    · simp at h
    · rename_i p' hp
      simp only [M.pure_eq_ok, Option.some.injEq] at h
      obtain ⟨rfl, -⟩ := h
      have : p' ∈ (g.predecessors c).filter g.isElem := by rw [hp]; simp
      rw [List.mem_filter] at this
      exact ⟨c, by rw [hc]; simp, this.1, this.2⟩
    · simp at h
  · simp at h

theorem inv_ensure {d : SDevice} {phs : List Nat} {g g' : Graph} {ws : List Warn} (h : Inv d g)
    (hr : ensurePlaceholderParents g phs = .ok g' ws) : Inv d g' := by
  induction phs generalizing g ws with
  | nil =>
    simp only [ensurePlaceholderParents, M.pure_eq_ok] at hr
    obtain ⟨rfl, -⟩ := hr
    exact h
  | cons ph phs ih =>
    simp only [ensurePlaceholderParents, M.bind_eq_ok] at hr
    obtain ⟨o, w1, w2, h1, ⟨g1, w3, w4, h2, h3, -⟩, -⟩ := hr
    refine ih ?_ h3
    cases o with
    | none =>
      simp only [M.pure_eq_ok] at h2
      obtain ⟨rfl, -⟩ := h2
      exact h
    | some p =>
      obtain ⟨c, hc, -, hp⟩ := placeholderCoParent_ok h1
      unfold Graph.isElem at hp
      obtain ⟨ep, hep⟩ := Option.isSome_iff_exists.1 hp
      obtain ⟨e, he, rfl, -⟩ := mem_successors.1 hc
      obtain ⟨n, hn⟩ := Option.isSome_iff_exists.1 (h.wf.edges_valid e he).1
      exact inv_rawAddEdge h h2 ⟨.elem ep, n, elem?_node?.1 hep, hn, trivial⟩

theorem inv_initialization {d : SDevice} {g : Graph} {ws : List Warn} (hr : initialization d = .ok g ws) : Inv d g := by
  unfold initialization at hr
  simp only [M.bind_eq_ok] at hr
  obtain ⟨g1, w1, w2, h1, h2, -⟩ := hr
  exact inv_ensure (inv_constructGraph h1) h2

theorem inv_removePlaceholder {d : SDevice} {g : Graph} {ph : Nat} (h : Inv d g) (hp : (g.node? ph).isSome) :
    Inv d (g.removePlaceholder ph) := by
  obtain ⟨h1, h2, h3⟩ := removePlaceholder_wf h.wf hp
  refine ⟨h1, h.nodes.setNodes (i := ph) (o := none) (by simp) rfl, ?_⟩
  intro e he
  rw [h3, List.mem_filter] at he
  obtain ⟨he, hne⟩ := he
  simp only [Bool.and_eq_true, bne_iff_ne, ne_eq] at hne
  obtain ⟨s, t, a, b, c⟩ := h.edges e he
  exact ⟨s, t, by rw [h2, if_neg hne.1]; exact a, by rw [h2, if_neg hne.2]; exact b, c⟩

theorem placeholderChild_ok {g : Graph} {ph c : Nat} {ws : List Warn} (h : g.placeholderChild ph = .ok c ws) :
    ⟨ph, c, .placeholder⟩ ∈ g.edges ∧ g.isElem c = true := by
  unfold Graph.placeholderChild at h
  split at h
  · rename_i c' hc
    simp only [M.pure_eq_ok] at h
    obtain ⟨rfl, -⟩ := h
    have : c' ∈ ((g.outEdges ph).filter fun e => g.isElem e.dst && e.ty == .placeholder).map (·.dst) := by
      rw [hc]; simp
    obtain ⟨e, he, rfl⟩ := List.mem_map.1 this
    obtain ⟨h1, h2⟩ := List.mem_filter.1 he
    obtain ⟨h3, h4⟩ := outEdges_mem h1
    simp only [Bool.and_eq_true, beq_iff_eq] at h2
    refine ⟨?_, h2.1⟩
    have : e = ⟨ph, e.dst, .placeholder⟩ := by cases e; simp only at h4 h2; simp [h4, h2]
    rw [← this]; exact h3
  · simp at h
  · simp at h

theorem splitC_ne_nil (c : Char) (s : Str) : splitC c s ≠ [] := by
  induction s with
  | nil => simp [splitC]
  | cons d s ih =>
    simp only [splitC]
    split
    · simp
    · split <;> simp

theorem nameOf_elem {g : Graph} {i : Nat} {e : ElemNode} (h : g.elem? i = some e) : g.nameOf i = e.name := by
  unfold Graph.nameOf; rw [h]; rfl

theorem hasLevel_elem {g : Graph} {i : Nat} {l : Level} (h : g.hasLevel i l = true) :
    ∃ e, g.elem? i = some e ∧ e.level = l := by
  unfold Graph.hasLevel at h
  split at h
  · rename_i e he
    exact ⟨e, he, by simpa using h⟩
  · cases h

/-- The cases of `resolvePlaceholder`. -/
theorem resolvePlaceholder_cases {g g' : Graph} {ph : Nat} {ws : List Warn} (h : resolvePlaceholder g ph = .ok g' ws) :
    ∃ path, g.node? ph = some (.ph path) ∧
      (g' = g ∨ ∃ derived e base w, g.placeholderChild ph = .ok derived [] ∧ g.elem? derived = some e ∧
        pathResolving g derived e.level path = .ok (some base) w ∧
        (g.removePlaceholder ph).rawAddEdge .cycle base derived .derive = .ok g' []) := by
  unfold resolvePlaceholder at h
  split at h
  · rename_i path hph
    refine ⟨path, hph, ?_⟩
    simp only [M.bind_eq_ok] at h
    obtain ⟨par, w1, w2, h1, h2, -⟩ := h
    split at h2
    · simp only [M.pure_eq_ok] at h2
      exact Or.inl h2.1.symm
    · simp only [M.bind_eq_ok] at h2
      obtain ⟨derived, w3, w4, h3, h4, -⟩ := h2
      split at h4
      · simp at h4
      · rename_i e he
        simp only [M.bind_eq_ok] at h4
        obtain ⟨o, w5, w6, h5, h6, -⟩ := h4
        split at h6
        · simp only [M.pure_eq_ok] at h6
          exact Or.inl h6.1.symm
        · rename_i base
          right
          refine ⟨derived, e, base, w5, ?_, he, h5, ?_⟩
          · unfold Graph.placeholderChild at h3 ⊢
            split at h3
            · simp only [M.pure_eq_ok] at h3
              rw [h3.1]; rfl
            · simp at h3
            · simp at h3
          · unfold Graph.rawAddEdge at h6 ⊢
            split at h6
            · simp at h6
            · rename_i hc
              rw [if_neg hc]
              simp only [M.pure_eq_ok] at h6
              rw [h6.1]; rfl
  · simp at h

theorem inv_resolvePlaceholder {d : SDevice} {g g' : Graph} {ph : Nat} {ws : List Warn} (h : Inv d g)
    (hr : resolvePlaceholder g ph = .ok g' ws) : Inv d g' := by
  obtain ⟨path, hph, rfl | ⟨derived, e, base, w, h1, h2, h3, h4⟩⟩ := resolvePlaceholder_cases hr
  · exact h
  · have hp : (g.node? ph).isSome := by rw [hph]; rfl
    have hrem := inv_removePlaceholder h hp
    have hn := (removePlaceholder_wf h.wf hp).2.1
    have hedge := (placeholderChild_ok h1).1
    obtain ⟨s, t, hs, ht, hE⟩ := h.edges _ hedge
    simp only at hs ht
    rw [hph] at hs
    rw [elem?_node?.1 h2] at ht
    simp only [Option.some.injEq] at hs ht
    subst hs; subst ht
    obtain ⟨ed, hed, hdf⟩ := hE
    simp only [Node.elem.injEq] at hed
    subst hed
    obtain ⟨hpath, hlvl⟩ := pathResolving_ok h3
    obtain ⟨eb, heb, hebl⟩ := hasLevel_elem hlvl
    have hne : ∀ j e', g.elem? j = some e' → j ≠ ph := by
      rintro j e' hj rfl
      rw [elem?_node?.1 hj] at hph
      simp at hph
    refine inv_rawAddEdge hrem h4 ⟨.elem eb, .elem e, ?_, ?_, ?_⟩
    · rw [hn, if_neg (hne _ _ heb)]; exact elem?_node?.1 heb
    · rw [hn, if_neg (hne _ _ h2)]; exact elem?_node?.1 h2
    · refine ⟨eb, e, rfl, rfl, hebl, fun hl => ⟨path, hdf hl, ?_⟩⟩
      have : g.nameOf base = (splitC '.' path).getLast? := by
        rcases hpath with h' | h' <;> exact (NamedPath.last_name h').1
      rw [nameOf_elem heb] at this
      rw [this, lastPart, lastName_eq, List.getLastD_eq_getLast?]
      cases hl : (splitC '.' path).getLast? with
      | none => exact absurd (List.getLast?_eq_none_iff.1 hl) (splitC_ne_nil _ _)
      | some x => rfl

theorem inv_resolvePlaceholders {d : SDevice} {phs : List Nat} {g g' : Graph} {ws : List Warn} (h : Inv d g)
    (hr : resolvePlaceholders g phs = .ok g' ws) : Inv d g' := by
  induction phs generalizing g ws with
  | nil =>
    simp only [resolvePlaceholders, M.pure_eq_ok] at hr
    obtain ⟨rfl, -⟩ := hr
    exact h
  | cons ph phs ih =>
    simp only [resolvePlaceholders, M.bind_eq_ok] at hr
    obtain ⟨g1, w1, w2, h1, h2, -⟩ := hr
    exact ih (inv_resolvePlaceholder h h1) h2

theorem inv_processNodes {d : SDevice} {ord : List Nat → List Nat} {is : List Nat} {g g' : Graph} {ws : List Warn}
    (h : Inv d g) (hr : processNodes ord g is = .ok g' ws) : Inv d g' := by
  induction is generalizing g ws with
  | nil =>
    simp only [processNodes, M.pure_eq_ok] at hr
    obtain ⟨rfl, -⟩ := hr
    exact h
  | cons i is ih =>
    simp only [processNodes, M.bind_eq_ok] at hr
    obtain ⟨g1, w1, w2, h1, h2, -⟩ := hr
    exact ih (inv_processNode h h1).1 h2

theorem inv_rounds {d : SDevice} {ord : List Nat → List Nat} {fuel : Nat} {g g' : Graph} {prev : List Nat}
    {ws : List Warn} (h : Inv d g) (hr : rounds ord fuel g prev = .ok g' ws) : Inv d g' := by
  induction fuel generalizing g prev ws with
  | zero => simp [rounds] at hr
  | succ f ih =>
    simp only [rounds, M.bind_eq_ok] at hr
    obtain ⟨g1, w1, w2, h1, h2, -⟩ := hr
    have i1 := inv_resolvePlaceholders h h1
    split at h2
    · simp only [M.pure_eq_ok] at h2
      obtain ⟨rfl, -⟩ := h2
      exact i1
    · split at h2
      · simp at h2
      · simp only [M.bind_eq_ok] at h2
        obtain ⟨g2, w3, w4, h3, h4, -⟩ := h2
        exact ih (inv_processNodes i1 h3) h4

end Svd
