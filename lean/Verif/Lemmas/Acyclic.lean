import Verif.Spec.Resolve
import Verif.Lemmas.InvRun
/- The resolver graph has no cycle. -/
namespace Svd
open Spec Graph

/-- A directed path, possibly empty. -/
def Reach (es : List Edge) (a b : Nat) : Prop := a = b ∨ Conn es a b

theorem Spec.Conn.trans {es : List Edge} {a b c : Nat} (h1 : Conn es a b) (h2 : Conn es b c) : Conn es a c := by
  induction h1 with
  | edge h => exact .step h h2
  | step h _ ih => exact .step h (ih h2)

theorem Reach.trans {es : List Edge} {a b c : Nat} (h1 : Reach es a b) (h2 : Reach es b c) : Reach es a c := by
  rcases h1 with rfl | h1
  · exact h2
  · rcases h2 with rfl | h2
    · exact Or.inr h1
    · exact Or.inr (h1.trans h2)

theorem Spec.Conn.mono {es es' : List Edge} (h : ∀ e ∈ es, ∃ e' ∈ es', e'.src = e.src ∧ e'.dst = e.dst) {a b : Nat}
    (hc : Conn es a b) : Conn es' a b := by
  induction hc with
  | @edge e he =>
    obtain ⟨e', h1, h2, h3⟩ := h e he
    rw [← h2, ← h3]; exact .edge h1
  | @step e b he _ ih =>
    obtain ⟨e', h1, h2, h3⟩ := h e he
    rw [← h2]
    exact .step h1 (h3 ▸ ih)

theorem conn_nil {a b : Nat} (h : Conn [] a b) : False := by
  induction h with
  | edge h => cases h
  | step h _ _ => cases h

theorem Reach.mono {es es' : List Edge} (h : ∀ e ∈ es, e ∈ es') {a b : Nat} (hc : Reach es a b) : Reach es' a b := by
  rcases hc with rfl | hc
  · exact Or.inl rfl
  · exact Or.inr (hc.mono fun e he => ⟨e, h e he, rfl, rfl⟩)

theorem Spec.Conn.closed {es : List Edge} {T : List Nat} (h : ∀ e ∈ es, e.src ∈ T → e.dst ∈ T) {a b : Nat}
    (hc : Conn es a b) (ha : a ∈ T) : b ∈ T := by
  induction hc with
  | edge he => exact h _ he ha
  | step he _ ih => exact ih (h _ he ha)

theorem Reach.closed {es : List Edge} {T : List Nat} (h : ∀ e ∈ es, e.src ∈ T → e.dst ∈ T) {a b : Nat}
    (hc : Reach es a b) (ha : a ∈ T) : b ∈ T := by
  rcases hc with rfl | hc
  · exact ha
  · exact hc.closed h ha

theorem mem_closure {es : List Edge} {S : List Nat} {x : Nat} : x ∈ closure es S ↔ ∃ s ∈ S, Reach es s x := by
  induction es generalizing S x with
  | nil =>
    simp only [closure]
    constructor
    · intro h; exact ⟨x, h, Or.inl rfl⟩
    · rintro ⟨s, hs, rfl | h⟩
      · exact hs
      · exact (conn_nil h).elim
  | cons e es ih =>
    have closed : ∀ T : List Nat, ∀ e ∈ es, e.src ∈ closure es T → e.dst ∈ closure es T := by
      intro T e' he h
      rw [ih] at h ⊢
      obtain ⟨s, hs, h⟩ := h
      exact ⟨s, hs, h.trans (Or.inr (.edge he))⟩
    have sub : ∀ T : List Nat, ∀ s ∈ T, s ∈ closure es T := fun T s hs => ih.2 ⟨s, hs, Or.inl rfl⟩
    simp only [closure]
    split
    · rename_i hc
      simp only [Bool.and_eq_true, List.contains_iff_mem] at hc
      constructor
      · intro h
        obtain ⟨s, hs, h⟩ := ih.1 h
        have hm : ∀ {a b}, Reach es a b → Reach (e :: es) a b := fun h => h.mono (fun _ h => by simp [h])
        rcases List.mem_cons.1 hs with rfl | hs
        · obtain ⟨r, hr, h1⟩ := ih.1 hc.1
          exact ⟨r, hr, (hm h1).trans (Reach.trans (Or.inr (Conn.edge (e := e) (by simp))) (hm h))⟩
        · obtain ⟨r, hr, h1⟩ := ih.1 hs
          exact ⟨r, hr, (hm h1).trans (hm h)⟩
      · rintro ⟨s, hs, h⟩
        refine h.closed (T := closure es (e.dst :: closure es S)) ?_ (sub _ _ (by simp [sub S s hs]))
        intro e' he' hx
        rcases List.mem_cons.1 he' with rfl | he'
        · exact sub _ _ (by simp)
        · exact closed _ e' he' hx
    · rename_i hc
      simp only [Bool.and_eq_true, List.contains_iff_mem, Bool.not_eq_true', not_and, Bool.not_eq_false] at hc
      constructor
      · intro h
        obtain ⟨s, hs, h⟩ := ih.1 h
        exact ⟨s, hs, h.mono (fun _ h => by simp [h])⟩
      · rintro ⟨s, hs, h⟩
        refine h.closed (T := closure es S) ?_ (sub S s hs)
        intro e' he' hx
        rcases List.mem_cons.1 he' with rfl | he'
        · simpa using hc hx
        · exact closed _ e' he' hx

theorem hasPath_iff {es : List Edge} {a b : Nat} : hasPath es a b = true ↔ Reach es a b := by
  unfold hasPath
  rw [List.contains_iff_mem, mem_closure]
  simp

theorem Spec.Acyclic.mono {es es' : List Edge} (h : Acyclic es')
    (hs : ∀ e ∈ es, ∃ e' ∈ es', e'.src = e.src ∧ e'.dst = e.dst) : Acyclic es :=
  fun i hc => h i (hc.mono hs)

theorem conn_cons {es : List Edge} {a b : Nat} {ty : EdgeT} (hn : ¬ Reach es b a) {x y : Nat}
    (h : Conn (⟨a, b, ty⟩ :: es) x y) : Conn es x y ∨ (Reach es x a ∧ Reach es b y) := by
  induction h with
  | @edge e he =>
    rcases List.mem_cons.1 he with rfl | he
    · exact Or.inr ⟨Or.inl rfl, Or.inl rfl⟩
    · exact Or.inl (.edge he)
  | @step e z he _ ih =>
    rcases List.mem_cons.1 he with rfl | he
    · rcases ih with h | ⟨h1, h2⟩
      · exact Or.inr ⟨Or.inl rfl, Or.inr h⟩
      · exact absurd h1 hn
    · rcases ih with h | ⟨h1, h2⟩
      · exact Or.inl (.step he h)
      · exact Or.inr ⟨Reach.trans (Or.inr (.edge he)) h1, h2⟩

theorem Spec.Acyclic.cons {es : List Edge} (h : Acyclic es) {a b : Nat} {ty : EdgeT} (hn : ¬ Reach es b a) :
    Acyclic (⟨a, b, ty⟩ :: es) := by
  intro i hc
  rcases conn_cons hn hc with hc | ⟨h1, h2⟩
  · exact h i hc
  · exact hn (h2.trans h1)

theorem ac_rawAddEdge {g g' : Graph} {x : Exn} {a b : Nat} {ty : EdgeT} {ws : List Warn} (h : Acyclic g.edges)
    (hr : g.rawAddEdge x a b ty = .ok g' ws) : Acyclic g'.edges := by
  unfold rawAddEdge at hr
  split at hr
  · simp at hr
  · rename_i hn
    simp only [M.pure_eq_ok] at hr
    obtain ⟨rfl, -⟩ := hr
    exact h.cons (fun hh => hn (hasPath_iff.2 hh))

theorem addNode_edges (g : Graph) (n : Node) : (g.addNode n).1.edges = g.edges := by
  unfold addNode
  split <;> rfl

theorem ac_addElementChild {g g' : Graph} {p i : Nat} {e : ElemNode} {ty : EdgeT} {ws : List Warn}
    (h : Acyclic g.edges) (hr : g.addElementChild p e ty = .ok (g', i) ws) : Acyclic g'.edges := by
  unfold addElementChild at hr
  simp only [M.bind_eq_ok, M.pure_eq_ok, Prod.mk.injEq] at hr
  obtain ⟨g2, w1, w2, h1, ⟨⟨rfl, -⟩, -⟩, -⟩ := hr
  exact ac_rawAddEdge (by rw [addNode_edges]; exact h) h1

theorem ac_addPlaceholder {g g' : Graph} {path : Str} {i : Nat} {ws : List Warn} (h : Acyclic g.edges)
    (hr : g.addPlaceholder path i = .ok g' ws) : Acyclic g'.edges := by
  unfold addPlaceholder at hr
  simp only [M.bind_eq_ok, M.pure_eq_ok] at hr
  obtain ⟨g2, w1, w2, h1, ⟨rfl, -⟩, -⟩ := hr
  have := ac_rawAddEdge (by rw [addNode_edges]; exact h) h1
  exact this

theorem ac_addChildToGraph {g g' : Graph} {p i : Nat} {e : ElemNode} {ws : List Warn} (h : Acyclic g.edges)
    (hr : addChildToGraph g p e = .ok (g', i) ws) : Acyclic g'.edges := by
  unfold addChildToGraph at hr
  simp only [M.bind_eq_ok] at hr
  obtain ⟨⟨g1, j⟩, w1, w2, h1, h2, -⟩ := hr
  have a1 := ac_addElementChild h h1
  split at h2
  · simp only [M.pure_eq_ok, Prod.mk.injEq] at h2
    obtain ⟨⟨rfl, -⟩, -⟩ := h2
    exact a1
  · simp only [M.bind_eq_ok, M.pure_eq_ok, Prod.mk.injEq] at h2
    obtain ⟨g2, w1, w2, h3, ⟨⟨rfl, -⟩, -⟩, -⟩ := h2
    exact ac_addPlaceholder a1 h3

theorem ac_constrEnums {p : Nat} {cs : List SEnumContainer} {g g' : Graph} {ws : List Warn} (h : Acyclic g.edges)
    (hr : constrEnums p g cs = .ok g' ws) : Acyclic g'.edges := by
  induction cs generalizing g ws with
  | nil =>
    simp only [constrEnums, M.pure_eq_ok] at hr
    obtain ⟨rfl, -⟩ := hr; exact h
  | cons c cs ih =>
    simp only [constrEnums, M.bind_eq_ok] at hr
    obtain ⟨⟨g1, i⟩, w1, w2, h1, h2, -⟩ := hr
    exact ih (ac_addChildToGraph h h1) h2

theorem ac_constrFields {p : Nat} {cs : List SField} {g g' : Graph} {ws : List Warn} (h : Acyclic g.edges)
    (hr : constrFields p g cs = .ok g' ws) : Acyclic g'.edges := by
  induction cs generalizing g ws with
  | nil =>
    simp only [constrFields, M.pure_eq_ok] at hr
    obtain ⟨rfl, -⟩ := hr; exact h
  | cons c cs ih =>
    simp only [constrFields, M.bind_eq_ok] at hr
    obtain ⟨⟨g1, i⟩, w1, w2, h1, ⟨g2, w3, w4, h2, h3, -⟩, -⟩ := hr
    exact ih (ac_constrEnums (ac_addChildToGraph h h1) h2) h3

mutual
theorem ac_constrRC {p : Nat} {g g' : Graph} {ws : List Warn} : (x : SRC) → (h : Acyclic g.edges) →
    (hr : constrRC p g x = .ok g' ws) → Acyclic g'.edges
  | .clu c ch, h, hr => by
    simp only [constrRC, M.bind_eq_ok] at hr
    obtain ⟨⟨g1, i⟩, w1, w2, h1, h2, -⟩ := hr
    exact ac_constrRCs ch (ac_addChildToGraph h h1) h2
  | .reg r, h, hr => by
    simp only [constrRC, M.bind_eq_ok] at hr
    obtain ⟨⟨g1, i⟩, w1, w2, h1, h2, -⟩ := hr
    exact ac_constrFields (ac_addChildToGraph h h1) h2
theorem ac_constrRCs {p : Nat} {g g' : Graph} {ws : List Warn} : (xs : List SRC) → (h : Acyclic g.edges) →
    (hr : constrRCs p g xs = .ok g' ws) → Acyclic g'.edges
  | [], h, hr => by
    simp only [constrRCs, M.pure_eq_ok] at hr
    obtain ⟨rfl, -⟩ := hr; exact h
  | x :: xs, h, hr => by
    simp only [constrRCs, M.bind_eq_ok] at hr
    obtain ⟨g1, w1, w2, h1, h2, -⟩ := hr
    exact ac_constrRCs xs (ac_constrRC x h h1) h2
end

theorem ac_constrPeripherals {p : Nat} {cs : List SPeriphT} {g g' : Graph} {ws : List Warn} (h : Acyclic g.edges)
    (hr : constrPeripherals p g cs = .ok g' ws) : Acyclic g'.edges := by
  induction cs generalizing g ws with
  | nil =>
    simp only [constrPeripherals, M.pure_eq_ok] at hr
    obtain ⟨rfl, -⟩ := hr; exact h
  | cons c cs ih =>
    simp only [constrPeripherals, M.bind_eq_ok] at hr
    obtain ⟨⟨g1, i⟩, w1, w2, h1, ⟨g2, w3, w4, h2, h3, -⟩, -⟩ := hr
    exact ih (ac_constrRCs _ (ac_addChildToGraph h h1) h2) h3

theorem acyclic_nil : Acyclic [] := by
  intro i h
  exact conn_nil h

theorem ac_ensure {phs : List Nat} {g g' : Graph} {ws : List Warn} (h : Acyclic g.edges)
    (hr : ensurePlaceholderParents g phs = .ok g' ws) : Acyclic g'.edges := by
  induction phs generalizing g ws with
  | nil =>
    simp only [ensurePlaceholderParents, M.pure_eq_ok] at hr
    obtain ⟨rfl, -⟩ := hr; exact h
  | cons ph phs ih =>
    simp only [ensurePlaceholderParents, M.bind_eq_ok] at hr
    obtain ⟨o, w1, w2, -, ⟨g1, w3, w4, h2, h3, -⟩, -⟩ := hr
    refine ih ?_ h3
    cases o with
    | none =>
      simp only [M.pure_eq_ok] at h2
      obtain ⟨rfl, -⟩ := h2; exact h
    | some p => exact ac_rawAddEdge h h2

theorem ac_initialization {d : SDevice} {g : Graph} {ws : List Warn} (hr : initialization d = .ok g ws) :
    Acyclic g.edges := by
  simp only [initialization, constructGraph, M.bind_eq_ok] at hr
  obtain ⟨g1, w1, w2, h1, h2, -⟩ := hr
  refine ac_ensure (ac_constrPeripherals ?_ h1) h2
  exact acyclic_nil

theorem Spec.Acyclic.sub {es es' : List Edge} (h : Acyclic es') (hs : ∀ e ∈ es, e ∈ es') : Acyclic es :=
  h.mono fun e he => ⟨e, hs e he, rfl, rfl⟩

theorem ac_resolvePlaceholder {g g' : Graph} {ph : Nat} {ws : List Warn} (h : Acyclic g.edges)
    (hr : resolvePlaceholder g ph = .ok g' ws) : Acyclic g'.edges := by
  obtain ⟨path, hph, hc⟩ := resolvePlaceholder_cases hr
  rcases hc with rfl | ⟨derived, e, base, w, -, -, -, h4⟩
  · exact h
  · refine ac_rawAddEdge ?_ h4
    refine h.sub ?_
    intro e he
    simp only [removePlaceholder, removeNode, List.mem_filter] at he
    exact he.1

theorem ac_addEdges {g g' : Graph} {es : List Edge} {ws : List Warn} (h : Acyclic g.edges)
    (hr : g.addEdges es = .ok g' ws) : Acyclic g'.edges := by
  induction es generalizing g ws with
  | nil =>
    simp only [addEdges, M.pure_eq_ok] at hr
    obtain ⟨rfl, -⟩ := hr; exact h
  | cons e es ih =>
    simp only [addEdges, M.bind_eq_ok] at hr
    obtain ⟨g1, w1, w2, h1, h2, -⟩ := hr
    exact ih (ac_rawAddEdge h h1) h2

theorem replicateNodes_edges {g g' : Graph} {m m' : List (Nat × Nat)} {is : List Nat} {ws : List Warn}
    (hr : g.replicateNodes m is = .ok (g', m') ws) : g'.edges = g.edges := by
  induction is generalizing g m ws with
  | nil =>
    simp only [replicateNodes, M.pure_eq_ok, Prod.mk.injEq] at hr
    obtain ⟨⟨rfl, -⟩, -⟩ := hr; rfl
  | cons i is ih =>
    simp only [replicateNodes] at hr
    split at hr
    · simp at hr
    · have := ih hr
      rw [this]
      split <;> simp [addNode_edges]

theorem ac_replicateEdges {m : List (Nat × Nat)} {sel is : List Nat} {g g' : Graph} {ws : List Warn}
    (h : Acyclic g.edges) (hr : replicateEdges m sel g is = .ok g' ws) : Acyclic g'.edges := by
  induction is generalizing g ws with
  | nil =>
    simp only [replicateEdges, M.pure_eq_ok] at hr
    obtain ⟨rfl, -⟩ := hr; exact h
  | cons i is ih =>
    simp only [replicateEdges, M.bind_eq_ok] at hr
    obtain ⟨g1, w1, w2, h1, ⟨g2, w3, w4, h2, h3, -⟩, -⟩ := hr
    exact ih (ac_addEdges (ac_addEdges h h1) h2) h3

theorem ac_adoptBase {ord : List Nat → List Nat} {g g' : Graph} {i : Nat} {base : Option Nat} {ws : List Warn}
    (h : Acyclic g.edges) (hr : adoptBase ord g i base = .ok g' ws) : Acyclic g'.edges := by
  unfold adoptBase at hr
  split at hr
  · simp only [M.pure_eq_ok] at hr
    obtain ⟨rfl, -⟩ := hr; exact h
  · simp only [M.bind_eq_ok] at hr
    obtain ⟨g1, w1, w2, h1, h2, -⟩ := hr
    have a1 : Acyclic g1.edges := by
      have := (removeEdge_ok h1).1
      subst this
      exact h.sub fun e he => eraseEdge_sub he
    unfold replicateDescendants at h2
    simp only [M.bind_eq_ok] at h2
    obtain ⟨⟨g2, m⟩, w3, w4, h3, ⟨g3, w5, w6, h4, h5, -⟩, -⟩ := h2
    refine ac_addEdges (ac_replicateEdges ?_ h4) h5
    simp only
    rw [replicateNodes_edges h3]
    exact a1

theorem ac_updateNode {ord : List Nat → List Nat} {g g' : Graph} {i : Nat} {base : Option Nat} {p : Processed}
    {t : Bool} {ws : List Warn} (h : Acyclic g.edges) (hr : updateNode ord g i base p t = .ok g' ws) :
    Acyclic g'.edges := by
  obtain ⟨g1, e, h1, -, -, rfl⟩ := updateNode_ok hr
  refine (ac_adoptBase h h1).mono ?_
  intro e' he'
  obtain ⟨e2, h2, h3, h4, -⟩ := resolveChildEdges_mem he'
  exact ⟨e2, h2, h3, h4⟩

theorem ac_addInstances {lvl : Level} {parsed : Parsed} {g g' : Graph} {xs : List (Nat × Processed)} {js : List Nat}
    {ws : List Warn} (h : Acyclic g.edges) (hr : addInstances lvl parsed g xs = .ok (g', js) ws) :
    Acyclic g'.edges := by
  induction xs generalizing g js ws with
  | nil =>
    simp only [addInstances, M.pure_eq_ok, Prod.mk.injEq] at hr
    obtain ⟨⟨rfl, -⟩, -⟩ := hr; exact h
  | cons x xs ih =>
    obtain ⟨par, x⟩ := x
    simp only [addInstances, M.bind_eq_ok, M.pure_eq_ok, Prod.mk.injEq] at hr
    obtain ⟨⟨g1, j⟩, w1, w2, h1, ⟨⟨g2, js'⟩, w3, w4, h2, ⟨⟨rfl, -⟩, -⟩, -⟩, -⟩ := hr
    exact ih (ac_addElementChild h h1) h2

theorem ac_linkChildren {j : Nat} {g g' : Graph} {cs : List Nat} {ws : List Warn} (h : Acyclic g.edges)
    (hr : linkChildren j g cs = .ok g' ws) : Acyclic g'.edges := by
  induction cs generalizing g ws with
  | nil =>
    simp only [linkChildren, M.pure_eq_ok] at hr
    obtain ⟨rfl, -⟩ := hr; exact h
  | cons c cs ih =>
    simp only [linkChildren, M.bind_eq_ok] at hr
    obtain ⟨g1, w1, w2, h1, h2, -⟩ := hr
    exact ih (ac_rawAddEdge h h1) h2

theorem ac_linkInstances {i : Nat} {g g' : Graph} {js : List Nat} {ws : List Warn} (h : Acyclic g.edges)
    (hr : linkInstances i g js = .ok g' ws) : Acyclic g'.edges := by
  induction js generalizing g ws with
  | nil =>
    simp only [linkInstances, M.pure_eq_ok] at hr
    obtain ⟨rfl, -⟩ := hr; exact h
  | cons c cs ih =>
    simp only [linkInstances, M.bind_eq_ok] at hr
    obtain ⟨g1, w1, w2, h1, h2, -⟩ := hr
    exact ih (ac_linkChildren h h1) h2

theorem ac_processNode {ord : List Nat → List Nat} {g g' : Graph} {i : Nat} {ws : List Warn} (h : Acyclic g.edges)
    (hr : processNode ord g i = .ok g' ws) : Acyclic g'.edges := by
  obtain ⟨e, bn, bp, w, he, hdev, hbase, hcase⟩ := processNode_cases hr
  rcases hcase with ⟨-, hp⟩ | ⟨-, hp⟩
  · unfold processEnumNode at hp
    simp only [he, M.bind_eq_ok] at hp
    obtain ⟨g1, w1, w2, h1, h2, -⟩ := hp
    have a1 := ac_adoptBase (g := g.setElem i _) h h1
    split at h2
    · simp at h2
    · simp only [M.pure_eq_ok] at h2
      obtain ⟨rfl, -⟩ := h2
      exact a1
  · rcases processDimable_ok hp with ⟨x, w', hy, hn, hu⟩ | ⟨xs, t, w', hys, hy, hn, hu⟩
    · exact ac_updateNode h hu
    · obtain ⟨g1, e1, g2, js, h1, -, h3, h4⟩ := updateDimNode_ok hu
      exact ac_linkInstances (ac_addInstances (ac_updateNode h h1) h3) h4

end Svd
