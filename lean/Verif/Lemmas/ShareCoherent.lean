import Verif.Lemmas.SharedEnd
import Verif.Lemmas.ShareRun
import Verif.Lemmas.FinRun
import Verif.Lemmas.Exact
/-
The graph at the end of the main loop, when every `derivedFrom` leads to one declaration: nodes at the same place of the
description, with the same elements around them, look the same, so that objects that are shared are given the same size.
-/
namespace Svd
open Graph Spec M

/-! ### what is handed down is determined by the declarations -/

/-- The attributes handed down, from a declaration and those of its base. -/
def statP : Parsed → Option (Props × Option WriteConstraint) → Props × Option WriteConstraint
  | .periph p, o => (mergeProps p.props (o.map (·.1)), none)
  | .clu c, o => (mergeProps c.props (o.map (·.1)), none)
  | .reg r, o => (mergeProps r.props (o.map (·.1)), orIfNone r.writeConstraint (o.bind (·.2)))
  | _, _ => ({}, none)

theorem statOf_created {i : Nat} {n : Str} {disp : Option Str} {p : Parsed} {b : Option Processed} {x : Processed} {w : List Warn}
    (h : createDimable i n disp p b = .ok x w) : statOf x = statP p (b.map statOf) := by
  unfold createDimable at h
  split at h
  all_goals first
    | (rw [M.pure_eq_ok] at h; obtain ⟨rfl, -⟩ := h; rfl)
    | (simp only [M.bind_eq_ok, M.pure_eq_ok] at h; obtain ⟨y, w1, w2, -, ⟨rfl, -⟩, -⟩ := h; rfl)
    | cases h

theorem statOf_clearDim (x : Processed) : statOf x.clearDim = statOf x := by cases x <;> rfl
theorem statOf_withName (x : Processed) (n : Str) : statOf (x.withName n) = statOf x := by cases x <;> rfl

theorem statOf_yields {p : Parsed} {b : Option Processed} {y : Processed} (h : Yields p b y) : statOf y = statP p (b.map statOf) := by
  obtain ⟨isDim, names, ds, w, i, n, disp, x, w', -, -, -, h1, h2⟩ := h
  rw [← statOf_created h1]
  rcases h2 with ⟨-, -, rfl⟩ | ⟨-, rfl⟩ | ⟨-, -, rfl⟩
  · rfl
  · exact statOf_clearDim _
  · exact statOf_withName _ _

theorem statOf_made {d : SDevice} {ps : List Parsed} {h : Processed} (m : Made d ps h) : ∀ {h'}, Made d ps h' → statOf h = statOf h' := by
  induction m with
  | base h1 h2 h3 =>
    intro h' m'
    cases m' with
    | base k1 k2 k3 => rw [statOf_yields h3, statOf_yields k3]
  | derive h1 h2 h3 h4 h5 ih =>
    intro h' m'
    cases m' with
    | derive k1 k2 k3 k4 k5 =>
      rw [statOf_yields h5, statOf_yields k5]
      simp only [Option.map_some]
      rw [ih k3]

theorem declsAt_unique {d : SDevice} {l : List Pos} {ps : List Parsed} (h : DeclsAt d l ps) : ∀ {qs}, DeclsAt d l qs → ps = qs := by
  induction h with
  | nil => intro qs h'; cases h'; rfl
  | cons h1 h2 ih =>
    intro qs h'
    cases h' with
    | cons k1 k2 => rw [declAt_unique h1 k1, ih k2]

theorem statOf_along {d : SDevice} {l : List Pos} {h h' : Processed} (m : MadeAlong d l h) (m' : MadeAlong d l h') : statOf h = statOf h' := by
  obtain ⟨ps, h1, h2⟩ := m
  obtain ⟨qs, h3, h4⟩ := m'
  cases declsAt_unique h1 h3
  exact statOf_made h2 h4

theorem sizeOfP_stat (x : Processed) : sizeOfP x = (statOf x).1.size := by cases x <;> rfl

theorem chain_unique {d : SDevice} (hu : ∀ x b b', Refers d x b → Refers d x b' → b = b') {x : Pos} {l : List Pos} (h : Chain d x l) :
    ∀ {k}, Chain d x k → l = k := by
  induction h with
  | root h1 h2 =>
    intro k hk
    cases hk with
    | root => rfl
    | step h3 h4 =>
      obtain ⟨p, path, h5, h6⟩ := refers_derived h3
      rw [declAt_unique h5 h1, h2] at h6
      cases h6
  | step h1 h2 ih =>
    intro k hk
    cases hk with
    | root h3 h4 =>
      obtain ⟨p, path, h5, h6⟩ := refers_derived h1
      rw [declAt_unique h5 h3, h4] at h6
      cases h6
    | step h3 h4 =>
      cases hu _ _ _ h1 h3
      rw [ih h4]

/-! ### the tidy graph -/

variable {d : SDevice} {g : Graph} {lab : Nat → Pos}

theorem Tidy.isChild (hb : ∀ x, ¬ Precedes d x x) (T : Tidy d g lab) : ∀ e ∈ g.edges, isChildEdge e = true := by
  intro e he
  have hc := T.edges e he
  obtain ⟨a, b, ty⟩ := e
  cases ty with
  | childU => rfl
  | childR => rfl
  | derive => exact absurd hc (de_not T.at_.lab hb he).1
  | placeholder =>
    exfalso
    obtain ⟨⟨ea, ha⟩, eb, hb'⟩ := T.at_.lab.tch _ _ hc
    rcases T.at_.lab.tpl _ _ he with ⟨-, pth, h⟩ | ⟨⟨pth, h⟩, -⟩
    · have := elem?_node?.1 hb'
      rw [h] at this
      cases this
    · have := elem?_node?.1 ha
      rw [h] at this
      cases this

theorem Tidy.successors (hb : ∀ x, ¬ Precedes d x x) (T : Tidy d g lab) (S : Single g) (i : Nat) : g.successors i = kidsIn g.edges i := by
  have h1 : (g.outEdges i).map (·.dst) = kidsIn g.edges i := by
    unfold kidsIn chs Graph.outEdges
    rw [List.filter_eq_self.2 (T.isChild hb), List.filter_map, List.map_map]
    rfl
  have h2 : (kidsIn g.edges i).Nodup := by
    unfold kidsIn
    have h3 : ((chs g.edges).filter fun p => p.1 == i).Nodup := S.filter _
    refine List.Pairwise.map _ ?_ (List.Pairwise.and_mem.1 h3)
    intro a b h4 h5
    obtain ⟨k1, k2, k3⟩ := h4
    rw [List.mem_filter, beq_iff_eq] at k1 k2
    exact k3 (Prod.ext (k1.2.trans k2.2.symm) h5)
  unfold Graph.successors
  rw [h1, dedup_nodup h2]

theorem Tidy.nodeOK (T : Tidy d g lab) {i : Nat} {e : ElemNode} (he : g.elem? i = some e) :
    (∀ x, e.processed = some x → procLevel x = e.level) ∧ (e.level ≠ .device → e.level ≠ .enumcont → ∃ x, e.processed = some x) := by
  have hn := T.at_.inv.nodes.elem he
  refine ⟨fun y hy => ?_, fun h4 h5 => Option.isSome_iff_exists.1 (hn.2.2.2.2 (T.all _ _ he) h4 h5)⟩
  obtain ⟨-, -, ch, hm⟩ := hn.2.2.2.1 y hy
  have := made_kind hm
  rw [hn.2.1]
  cases y <;> exact this.symm

/-- Elements declared at one place are of one kind and hand down the same. -/
theorem Tidy.alike (hu : ∀ x b b', Refers d x b → Refers d x b' → b = b') (T : Tidy d g lab) {a b : Nat} {ea eb : ElemNode}
    (ha : g.elem? a = some ea) (hb : g.elem? b = some eb) (hl : lab a = lab b) :
    ea.level = eb.level ∧ ea.processed.map statOf = eb.processed.map statOf := by
  have hlev : ea.level = eb.level := by
    obtain ⟨p, hp⟩ := T.at_.lab.node a ea ha
    obtain ⟨q, hq⟩ := T.at_.lab.node b eb hb
    rw [hp.level, hq.level]
    have := hp.decl
    rw [hl] at this
    rw [declAt_unique this hq.decl]
  refine ⟨hlev, ?_⟩
  by_cases hd : ea.level = .device ∨ ea.level = .enumcont
  · have none_ : ∀ {i e}, g.elem? i = some e → (e.level = .device ∨ e.level = .enumcont) → e.processed = none := by
      intro i e he h
      cases hp : e.processed with
      | none => rfl
      | some x =>
        have := (T.nodeOK he).1 x hp
        rcases h with h | h <;> rw [h] at this <;> cases x <;> cases this
    rw [none_ ha hd, none_ hb (hlev ▸ hd)]
  · rw [not_or] at hd
    obtain ⟨x, hx⟩ := (T.nodeOK ha).2 hd.1 hd.2
    obtain ⟨y, hy⟩ := (T.nodeOK hb).2 (hlev ▸ hd.1) (hlev ▸ hd.2)
    obtain ⟨l, hl1, -⟩ := T.at_.lab.cont a ea (by simp) ha hd.2
    obtain ⟨k, hk1, -⟩ := T.at_.lab.cont b eb (by simp) hb (hlev ▸ hd.2)
    have h1 := hl1.done (T.all _ _ ha)
    have h2 := hk1.done (T.all _ _ hb)
    rw [hl] at h1
    cases chain_unique hu h1 h2
    rw [hx, hy, Option.map_some, Option.map_some, statOf_along (hl1.made x hx) (hk1.made y hy)]

/-- Elements declared at one place have children declared at the same places. -/
theorem Tidy.kids (hu : ∀ x b b', Refers d x b → Refers d x b' → b = b') (hb : ∀ x, ¬ Precedes d x x) (T : Tidy d g lab) {a b c : Nat}
    {ea eb : ElemNode} (ha : g.elem? a = some ea) (hb' : g.elem? b = some eb) (hl : lab a = lab b) (hc : Ch g a c) :
    ∃ c', Ch g b c' ∧ lab c' = lab c ∧ (ea.level ≠ .field → Svd.live g c' = true) := by
  have hlev := (T.alike hu ha hb' hl).1
  obtain ⟨ei, ec, h1, h2, h3⟩ := T.elem hc
  rw [ha] at h1
  cases h1
  have hle : ea.level ≠ .enumcont := by
    intro h
    rw [h] at h3
    cases ec.level <;> cases h3
  obtain ⟨l, hl1, hl2⟩ := T.at_.lab.cont a ea (by simp) ha hle
  obtain ⟨k, hk1, hk2⟩ := T.at_.lab.cont b eb (by simp) hb' (hlev ▸ hle)
  have h4 := hl1.done (T.all _ _ ha)
  have h5 := hk1.done (T.all _ _ hb')
  rw [hl] at h4
  cases chain_unique hu h4 h5
  have hin : InChain d l (lab c) := (hl2.sub c hc).resolve_right (not_nested hb)
  rcases hk2.all _ hin with ⟨z, -, h1, h2⟩ | ⟨c', e', k1, k2, k3, k4⟩
  · exact (not_endless hb h1 (.one h2)).elim
  · rcases k4 with k4 | k4 | ⟨k, hs, k5, k6⟩
    · rw [T.all _ _ k2] at k4; cases k4
    · refine ⟨c', k1, k3, fun hnf => ?_⟩
      obtain ⟨ei, ec, h5, h6, h7⟩ := T.elem k1
      rw [hb'] at h5
      rw [k2] at h6
      cases h5
      cases h6
      rw [k4, ← hlev] at h7
      exfalso
      revert h7 hnf
      cases ea.level <;> simp [childKind]
    · obtain ⟨p, b, -, -, isDim, names, ds, w, xs, w', -, -, hne, rfl⟩ := k5
      cases xs with
      | nil => exact absurd rfl hne
      | cons x xs =>
        obtain ⟨j, h7, ej, h8, h81, -, h9, -⟩ := k6 _ (by rw [List.map_cons]; exact List.mem_cons_self)
        refine ⟨j, h7, h81, fun _ => ?_⟩
        unfold Svd.live
        rw [h8]
        simp [h9]

theorem Tidy.device (T : Tidy d g lab) {i : Nat} {e : ElemNode} (he : g.elem? i = some e) (hl : e.level = .device) : i = 0 := by
  rcases T.up i ⟨e, he⟩ with h | ⟨a, h⟩
  · exact h
  · obtain ⟨ea, ei, h1, h2, h3⟩ := T.elem h
    rw [he] at h2
    cases h2
    rw [hl] at h3
    exfalso
    revert h3
    cases ea.level <;> simp [childKind]

theorem Tidy.zero (T : Tidy d g lab) {a : Nat} : ¬ Ch g a 0 := by
  intro h
  obtain ⟨e, he, hl⟩ := T.at_.lab.root.2
  obtain ⟨ea, ei, h1, h2, h3⟩ := T.elem h
  rw [he] at h2
  cases h2
  rw [hl] at h3
  revert h3
  cases ea.level <;> simp [childKind]

end Svd
