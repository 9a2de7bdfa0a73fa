import Verif.Lemmas.Traverse
import Verif.Lemmas.FinErr
import Verif.Props.Resolve
/-
Only the main loop of the resolver can fail to end.
-/
namespace Svd
open Graph Spec M

theorem conn_trans {es : List Edge} {a b c : Nat} (e : Edge) (he : e ∈ es) (ha : e.src = a) (hb : e.dst = b) (h : Conn es b c) :
    Conn es a c := by
  subst ha; subst hb
  exact .step he h

theorem parents_edge_lt {g : Graph} {i p : Nat} (h : p ∈ g.elementParents i) : p < g.nodes.length ∧ ∃ e ∈ g.edges, e.src = p ∧ e.dst = i := by
  unfold Graph.elementParents Graph.inEdges at h
  rw [List.mem_map] at h
  obtain ⟨e, he, rfl⟩ := h
  simp only [List.mem_filter, Bool.and_eq_true, beq_iff_eq] at he
  obtain ⟨⟨h1, h2⟩, h3⟩ := he
  refine ⟨?_, e, h1, rfl, h2⟩
  have h4 := h3.1
  unfold Graph.isElem at h4
  cases hn : g.node? e.src with
  | none =>
    exfalso
    unfold Graph.elem? at h4
    rw [hn] at h4
    simp at h4
  | some n => exact node?_lt hn

theorem nf_parentSize {g : Graph} (hac : Acyclic g.edges) : ∀ (f i : Nat) (path : List Nat), i < g.nodes.length → path.Nodup →
    (∀ x ∈ path, x < g.nodes.length ∧ Conn g.edges i x) → g.nodes.length ≤ f + path.length → NSat (parentSize g f i) := by
  intro f
  induction f with
  | zero =>
    intro i path hi hn hp hl
    exfalso
    have := nodup_bounded (l := i :: path) (n := g.nodes.length) (by
      rw [List.nodup_cons]
      exact ⟨fun hc => hac i (hp i hc).2, hn⟩) (by
      intro x hx
      rcases List.mem_cons.1 hx with rfl | hx
      · exact hi
      · exact (hp x hx).1)
    simp only [List.length_cons] at this
    omega
  | succ f ih =>
    intro i path hi hn hp hl
    have hrec : ∀ p ∈ g.elementParents i, NSat (parentSize g f p) := by
      intro p hpm
      obtain ⟨h1, e, he, h2, h3⟩ := parents_edge_lt hpm
      refine ih p (i :: path) h1 ?_ ?_ (by simp only [List.length_cons]; omega)
      · rw [List.nodup_cons]
        exact ⟨fun hc => hac i (hp i hc).2, hn⟩
      · intro x hx
        rcases List.mem_cons.1 hx with rfl | hx
        · refine ⟨hi, ?_⟩
          rw [← h2, ← h3]
          exact .edge he
        · exact ⟨(hp x hx).1, conn_trans e he h2 h3 (hp x hx).2⟩
    rw [parentSize]
    split
    · exact sat_pure _
    · rename_i p ps heq
      have hr := hrec p (by rw [heq]; simp)
      split
      · exact sat_pure _
      · refine sat_bind (rsat_procOf _ _) fun x => ?_
        cases x <;> dsimp only <;> first | exact sat_throw trivial | (split <;> first | exact sat_pure _ | exact hr)

theorem nf_parentSize_top {g : Graph} (hac : Acyclic g.edges) (i : Nat) : NSat (parentSize g (g.nodes.length + 1) i) := by
  rw [parentSize]
  split
  · exact sat_pure _
  · rename_i p ps heq
    obtain ⟨h1, -⟩ := parents_edge_lt (g := g) (i := i) (p := p) (by rw [heq]; simp)
    have hr := nf_parentSize hac g.nodes.length p [] h1 (by simp) (by simp) (by simp)
    split
    · exact sat_pure _
    · refine sat_bind (rsat_procOf _ _) fun x => ?_
      cases x <;> dsimp only <;> first | exact sat_throw trivial | (split <;> first | exact sat_pure _ | exact hr)

theorem finalizeNode_edges {s s' : FinState} {i : Nat} {cs : List Nat} {w : List Warn} (h : finalizeNode s i cs = .ok s' w) :
    s'.g.edges = s.g.edges := by
  unfold finalizeNode at h
  split at h
  · simp [M.throw] at h
  split at h
  · rw [M.pure_eq_ok] at h; rw [h.1]
  split at h
  · simp only [M.bind_eq_ok, M.pure_eq_ok] at h
    obtain ⟨_, _, _, _, ⟨rfl, -⟩, -⟩ := h
    rfl
  · unfold finalizeContainerNode at h
    simp only [M.bind_eq_ok, M.pure_eq_ok] at h
    obtain ⟨p, w1, w2, h2, ⟨m, w3, w4, h3, ⟨xs, w5, w6, h4, ⟨rfl, -⟩, -⟩, -⟩, -⟩ := h
    rfl
  · unfold finalizeContainerNode at h
    simp only [M.bind_eq_ok, M.pure_eq_ok] at h
    obtain ⟨p, w1, w2, h2, ⟨m, w3, w4, h3, ⟨xs, w5, w6, h4, ⟨rfl, -⟩, -⟩, -⟩, -⟩ := h
    rfl
  · simp only [M.bind_eq_ok, M.pure_eq_ok] at h
    obtain ⟨_, _, _, _, ⟨_, _, _, _, ⟨rfl, -⟩, -⟩, -⟩ := h
    rfl
  · unfold finalizeFieldNode at h
    rw [M.bind_eq_ok] at h
    obtain ⟨p, w1, w2, -, h2, -⟩ := h
    split at h2
    · simp only [M.bind_eq_ok] at h2
      obtain ⟨_, _, _, -, h3, -⟩ := h2
      split at h3
      · simp [M.throw] at h3
      split at h3
      · simp [M.throw] at h3
      split at h3
      · simp [M.throw] at h3
      rw [M.pure_eq_ok] at h3
      rw [← h3.1]
    · simp [M.throw] at h2
  · simp [M.throw] at h

theorem nf_bottomUp {g : Graph} (hac : Acyclic g.edges) : ∀ (f : Nat) (q done : List Nat) (s : FinState), Trav g q done → s.g.edges = g.edges →
    g.nodes.length + 1 ≤ f + done.length → NSat (bottomUp g f q done s) := by
  intro f
  induction f with
  | zero =>
    intro q done s ht hs hf
    have : done.length ≤ g.nodes.length := nodup_bounded (List.nodup_append.1 ht.nodup).2.1 fun i hi => ht.lt i (by simp [hi])
    omega
  | succ f ih =>
    intro q done s ht hs hf
    cases q with
    | nil => exact sat_pure _
    | cons i q =>
      rw [bottomUp_cons]
      refine sat_bind' ?_ fun s1 w h1 => ?_
      · unfold visit
        split
        · exact sat_pure _
        · exact rsat_finalizeNode (nf_parentSize_top (by rw [hs]; exact hac)) _ _
      · refine ih _ _ _ ht.next ?_ (by simp only [List.length_cons]; omega)
        unfold visit at h1
        split at h1
        · rw [M.pure_eq_ok] at h1; rw [← h1.1]; exact hs
        · rw [finalizeNode_edges h1]; exact hs

/-- Whatever remains after the main loop ends. -/
theorem nf_finalizeProcessing {g : Graph} (hac : Acyclic g.edges) : NSat (finalizeProcessing g) :=
  nf_bottomUp hac _ _ _ _ (Trav.start g) rfl (by simp)

/-- If resolution runs out of fuel, or finds a loop, its main loop does. -/
theorem resolve_rounds {ord : List Nat → List Nat} {fuel : Nat} {d : SDevice} {e : Exn} (h : resolvePeripherals ord fuel d = .err e)
    (he : ¬ NErr e) (hu : e ≠ .unprocessed) : ∃ g w, initialization d = .ok g w ∧ rounds ord fuel g [] = .err e := by
  unfold resolvePeripherals at h
  rw [M.bind_eq_err] at h
  rcases h with h | ⟨g, w, h1, h⟩
  · exact absurd ((rsat_initialization d).err h) he
  refine ⟨g, w, h1, ?_⟩
  rw [M.bind_eq_err] at h
  rcases h with h | ⟨g', w', h2, h⟩
  · exact h
  exfalso
  have hac := C42_acyclic (C42_rounds (.init h1) h2)
  split at h
  · rw [M.bind_eq_err] at h
    rcases h with h | ⟨_, _, _, h⟩
    · exact absurd ((rsat_unresolvedInfo _ _).err h) he
    · cases h
      exact hu rfl
  · rw [M.bind_eq_err] at h
    rcases h with h | ⟨s, _, _, h⟩
    · exact he ((nf_finalizeProcessing hac).err h)
    · split at h
      · cases h
        exact he trivial
      · simp [M.pure] at h

/-- The errors of processing that come from the resolver's loop. -/
theorem process_resolve_err {ord : List Nat → List Nat} {fuel : Nat} {d : SDevice} :
    (processDevice ord fuel d = .err .outOfFuel → resolvePeripherals ord fuel d = .err .outOfFuel) ∧
    (processDevice ord fuel d = .err (.process .wrapLoop) → resolvePeripherals ord fuel d = .err .loop) := by
  constructor
  · intro h
    unfold processDevice at h
    rw [M.bind_eq_err] at h
    rcases h with h | ⟨ps, w, h1, h⟩
    · unfold wrapResolve at h
      split at h <;> simp_all
    · exact absurd ((fsat_finalize _ _).err h) (by intro h; exact h)
  · intro h
    unfold processDevice at h
    rw [M.bind_eq_err] at h
    rcases h with h | ⟨ps, w, h1, h⟩
    · unfold wrapResolve at h
      split at h
      · cases h
      · simp at h
      · assumption
      · simp at h
      · simp at h
      · rename_i e _ _ _ _ heq
        cases h
        exact absurd ((rsat_resolvePeripherals ord fuel d).err heq) (by intro h; exact h)
    · exact absurd ((fsat_finalize _ _).err h) (by intro h; exact h)
end Svd
