import Verif.Lemmas.NotesRun
import Verif.Lemmas.Traverse
import Verif.Lemmas.FinRun
/-
The warnings of the finalisation: those about the containers of the fields.
-/
namespace Svd
open Graph Spec

theorem bottomUp_warns {g : Graph} (P : List Nat → FinState → List Warn → Prop)
    (step : ∀ i q done s s1 w ws, Trav g (i :: q) done → P done s ws → visit g s i = .ok s1 w → P (i :: done) s1 (ws ++ w)) :
    ∀ (f : Nat) (q done : List Nat) (s s' : FinState) (w ws : List Warn), Trav g q done → P done s ws →
      bottomUp g f q done s = .ok s' w → ∃ done', Trav g [] done' ∧ P done' s' (ws ++ w) := by
  intro f
  induction f with
  | zero =>
    intro q done s s' w ws ht hp h
    cases q with
    | nil =>
      simp only [bottomUp, M.pure_eq_ok] at h
      obtain ⟨rfl, rfl⟩ := h
      exact ⟨done, ht, by simpa using hp⟩
    | cons i q => simp [bottomUp, M.throw] at h
  | succ f ih =>
    intro q done s s' w ws ht hp h
    cases q with
    | nil =>
      simp only [bottomUp, M.pure_eq_ok] at h
      obtain ⟨rfl, rfl⟩ := h
      exact ⟨done, ht, by simpa using hp⟩
    | cons i q =>
      rw [bottomUp_cons, M.bind_eq_ok] at h
      obtain ⟨s1, w1, w2, h1, h2, rfl⟩ := h
      rw [← List.append_assoc]
      exact ih _ _ _ _ _ _ ht.next (step i q done s s1 w1 ws ht hp h1) h2

theorem trav_all {g : Graph} (hac : Acyclic g.edges) (he : ∀ e ∈ g.edges, e.dst ∈ g.indices) {done : List Nat} (V : Trav g [] done) :
    ∀ (n i : Nat), i ∈ g.indices → g.edges.length < n + ancestry g.edges i → i ∈ done := by
  intro n
  induction n with
  | zero =>
    intro i hi h
    exfalso
    have : ancestry g.edges i ≤ g.edges.length := List.countP_le_length
    omega
  | succ n ih =>
    intro i hi h
    have := V.all i hi fun c hc => by
      obtain ⟨ed, h1, h2, h3⟩ := mem_successors.1 hc
      have h4 := ancestry_lt hac h1
      have h5 := he ed h1
      rw [h2, h3] at h4
      rw [h3] at h5
      exact ih c h5 (by omega)
    simpa using this

/-- What finalisation leaves alone. -/
def FinSame (g0 g : Graph) : Prop :=
  (∀ i e, g.elem? i = some e → ∃ e0, g0.elem? i = some e0 ∧ e0.parsed = e.parsed ∧ e0.level = e.level ∧ e0.isDimTemplate = e.isDimTemplate) ∧
  ∀ i e0, g0.elem? i = some e0 → ∃ e, g.elem? i = some e ∧ e0.parsed = e.parsed ∧ e0.level = e.level ∧ e0.isDimTemplate = e.isDimTemplate

theorem finSame_set {g0 g : Graph} (h : FinSame g0 g) {i : Nat} {e e' : ElemNode} (he : g.elem? i = some e) (h1 : e'.parsed = e.parsed)
    (h2 : e'.level = e.level) (h3 : e'.isDimTemplate = e.isDimTemplate) : FinSame g0 (g.setElem i e') := by
  have hel : ∀ k, (g.setElem i e').elem? k = if k = i then some e' else g.elem? k := fun k => setElem_elem? (IsE.some ⟨e, he⟩)
  constructor
  · intro k ek hk
    rw [hel] at hk
    split at hk
    · rename_i hki
      injection hk with hk
      subst hk hki
      obtain ⟨e0, k1, k2, k3, k4⟩ := h.1 k e he
      exact ⟨e0, k1, by rw [k2, h1], by rw [k3, h2], by rw [k4, h3]⟩
    · exact h.1 k ek hk
  · intro k e0 hk
    obtain ⟨ek, k1, k2, k3, k4⟩ := h.2 k e0 hk
    rw [hel]
    by_cases hki : k = i
    · subst hki
      rw [if_pos rfl]
      rw [he] at k1
      injection k1 with k1
      subst k1
      exact ⟨e', rfl, by rw [k2, h1], by rw [k3, h2], by rw [k4, h3]⟩
    · rw [if_neg hki]
      exact ⟨ek, k1, k2, k3, k4⟩

/-- The warnings about the containers of a field. -/
def FieldNote (g : Graph) (i : Nat) (w : Warn) : Prop :=
  ∃ e c ec k, g.elem? i = some e ∧ e.isDimTemplate = false ∧ e.level = .field ∧ c ∈ g.successors i ∧ g.elem? c = some ec ∧
    ec.parsed = .enum k ∧ EntriesNote k.values w

theorem mapM_notes {α β : Type} {f : α → M β} {w : Warn} {P : α → Prop} : ∀ (l : List α) {ys : List β} {ws : List Warn},
    M.mapM f l = .ok ys ws → (∀ x ∈ l, ∀ y w', f x = .ok y w' → (w ∈ w' ↔ P x)) → (w ∈ ws ↔ ∃ x ∈ l, P x) := by
  intro l
  induction l with
  | nil =>
    intro ys ws h _
    have : M.mapM f [] = M.pure [] := rfl
    rw [this, M.pure_eq_ok] at h
    obtain ⟨-, rfl⟩ := h
    simp
  | cons x l ih =>
    intro ys ws h hf
    have : M.mapM f (x :: l) = M.bind (f x) fun y => M.bind (M.mapM f l) fun ys => M.pure (y :: ys) := rfl
    rw [this] at h
    simp only [M.bind_eq_ok, M.pure_eq_ok] at h
    obtain ⟨y, w1, w2, h1, ⟨ys', w3, w4, h2, ⟨-, rfl⟩, rfl⟩, rfl⟩ := h
    rw [List.append_nil, List.mem_append, hf x (by simp) y w1 h1, ih h2 fun z hz => hf z (by simp [hz])]
    simp

theorem visit_notes {g : Graph} {s s' : FinState} {i : Nat} {ws : List Warn} (h : FinSame g s.g) (hr : visit g s i = .ok s' ws) :
    FinSame g s'.g ∧ ∀ w, w ∈ ws ↔ FieldNote g i w := by
  unfold visit at hr
  have key : ∀ cs, g.successors i = cs → ∀ e, s.g.elem? i = some e → (e.isDimTemplate = true ∨ e.level ≠ .field) → ∀ w, ¬ FieldNote g i w := by
    rintro cs - e he hc w ⟨e0, c, ec, k, h1, h2, h3, -⟩
    obtain ⟨e', h4, h5, h6, h7⟩ := h.2 i e0 h1
    rw [he] at h4
    injection h4 with h4
    subst h4
    rcases hc with hc | hc
    · rw [← h7, h2] at hc; cases hc
    · exact hc (by rw [← h6, h3])
  split at hr
  · rename_i hs
    simp only [M.pure_eq_ok] at hr
    obtain ⟨rfl, rfl⟩ := hr
    refine ⟨h, fun w => ⟨(fun h => by cases h), ?_⟩⟩
    rintro ⟨_, c, _, _, -, -, -, hc, -⟩
    rw [hs] at hc
    cases hc
  · rename_i c cs hs
    rw [← hs] at hr
    generalize hcs : g.successors i = l at hr
    unfold finalizeNode at hr
    split at hr
    · cases hr
    · rename_i e he
      have quiet : ∀ (hl : e.isDimTemplate = true ∨ e.level ≠ .field), ws = [] → ∀ w, w ∈ ws ↔ FieldNote g i w := by
        rintro hl rfl w
        exact ⟨(fun h => by cases h), fun hn => absurd hn (key _ rfl e he hl w)⟩
      have box : e.level ≠ .field → finalizeContainerNode s i e l = .ok s' ws → FinSame g s'.g ∧ ∀ w, w ∈ ws ↔ FieldNote g i w := by
        intro hl hr
        have hq := (hush_finalizeContainerNode (fun _ => hush_parentSize _ _ _) _ _ _).nil hr
        refine ⟨?_, quiet (.inr hl) hq⟩
        unfold finalizeContainerNode at hr
        simp only [M.bind_eq_ok, M.pure_eq_ok] at hr
        obtain ⟨p, _, _, -, ⟨sz, _, _, -, ⟨xs, _, _, -, ⟨rfl, -⟩, -⟩, -⟩, -⟩ := hr
        exact finSame_set h he rfl rfl rfl
      split at hr
      · rename_i ht
        simp only [M.pure_eq_ok] at hr
        obtain ⟨rfl, rfl⟩ := hr
        exact ⟨h, quiet (.inl ht) rfl⟩
      · rename_i ht
        split at hr
        · rename_i hl
          simp only [M.bind_eq_ok, M.pure_eq_ok] at hr
          obtain ⟨ps, w1, w2, h1, ⟨rfl, rfl⟩, rfl⟩ := hr
          have := (hush_collect s (pickPeripheral s) (fun i p => by unfold pickPeripheral; sats) _).nil h1
          subst this
          exact ⟨h, quiet (.inr (by rw [hl]; simp)) rfl⟩
        · rename_i hl
          exact box (by rw [hl]; simp) hr
        · rename_i hl
          exact box (by rw [hl]; simp) hr
        · rename_i hl
          simp only [M.bind_eq_ok, M.pure_eq_ok] at hr
          obtain ⟨_, w0, _, h0, ⟨fs, w1, w2, h1, ⟨rfl, rfl⟩, rfl⟩, rfl⟩ := hr
          have := (hush_collect s (pickField s) (fun i p => by unfold pickField; sats) _).nil h1
          subst this
          have := (hush_procOf _ _).nil h0
          subst this
          exact ⟨h, quiet (.inr (by rw [hl]; simp)) rfl⟩
        · rename_i hl
          unfold finalizeFieldNode at hr
          simp only [M.bind_eq_ok] at hr
          obtain ⟨p, w1, w2, h1, h2, rfl⟩ := hr
          have := (hush_procOf _ _).nil h1
          subst this
          split at h2
          · rename_i f
            simp only [M.bind_eq_ok] at h2
            obtain ⟨conts, w3, w4, h3, h4, rfl⟩ := h2
            have h5 : s' = { s with content := (i, .conts conts) :: s.content } ∧ w4 = [] := by
              split at h4
              · cases h4
              · split at h4
                · cases h4
                · split at h4
                  · cases h4
                  · simp only [M.pure_eq_ok] at h4
                    exact ⟨h4.1.symm, h4.2⟩
            obtain ⟨rfl, rfl⟩ := h5
            refine ⟨h, fun w => ?_⟩
            rw [List.nil_append, List.append_nil]
            rw [mapM_notes (P := fun c => ∃ ec k, g.elem? c = some ec ∧ ec.parsed = .enum k ∧ EntriesNote k.values w) l h3]
            · obtain ⟨e0, k1, k2, k3, k4⟩ := h.1 i e he
              constructor
              · rintro ⟨c, hc, ec, k, n1, n2, n3⟩
                exact ⟨e0, c, ec, k, k1, by rw [k4]; simpa using ht, by rw [k3, hl], by rw [hcs]; exact hc, n1, n2, n3⟩
              · rintro ⟨_, c, ec, k, -, -, -, hc, n1, n2, n3⟩
                exact ⟨c, by rw [← hcs]; exact hc, ec, k, n1, n2, n3⟩
            · intro c hc y w' hy
              split at hy
              · cases hy
              · rename_i ce hce
                split at hy
                · rename_i ec hec
                  rw [container_notes hy]
                  obtain ⟨e0, k1, k2, k3, k4⟩ := h.1 c ce hce
                  constructor
                  · intro hn
                    exact ⟨e0, ec, k1, by rw [k2, hec], hn⟩
                  · rintro ⟨e1, k, n1, n2, n3⟩
                    rw [k1] at n1
                    injection n1 with n1
                    subst n1
                    rw [k2, hec] at n2
                    injection n2 with n2
                    subst n2
                    exact n3
                · cases hy
          · cases h2
        · cases hr

/-- The warnings of the finalisation. -/
theorem finalize_notes {d : SDevice} {g : Graph} {s : FinState} {ws : List Warn} (hi : Inv d g) (hac : Acyclic g.edges)
    (hr : finalizeProcessing g = .ok s ws) (w : Warn) : w ∈ ws ↔ ∃ i, FieldNote g i w := by
  obtain ⟨done, V, -, h1, h2⟩ := bottomUp_warns (g := g)
    (fun done s ws => FinSame g s.g ∧ (∀ w ∈ ws, ∃ i, FieldNote g i w) ∧ ∀ i ∈ done, ∀ w, FieldNote g i w → w ∈ ws) (by
      rintro i q done s s1 w ws - ⟨h1, h2, h3⟩ hv
      obtain ⟨h4, h5⟩ := visit_notes h1 hv
      refine ⟨h4, ?_, ?_⟩
      · intro w' hw'
        rcases List.mem_append.1 hw' with hw' | hw'
        · exact h2 _ hw'
        · exact ⟨i, (h5 _).1 hw'⟩
      · intro j hj w' hn
        rcases List.mem_cons.1 hj with rfl | hj
        · exact List.mem_append_right _ ((h5 _).2 hn)
        · exact List.mem_append_left _ (h3 j hj _ hn)) _ _ _ _ _ _ [] (Trav.start g)
    ⟨⟨fun i e he => ⟨e, he, rfl, rfl, rfl⟩, fun i e he => ⟨e, he, rfl, rfl, rfl⟩⟩, (fun w hw => by cases hw), (fun i hi => by cases hi)⟩ hr
  rw [List.nil_append] at h1 h2
  refine ⟨h1 w, ?_⟩
  rintro ⟨i, hn⟩
  refine h2 i ?_ w hn
  obtain ⟨e, -, -, -, he, -⟩ := hn
  refine trav_all hac (fun ed hed => ?_) V (g.edges.length + 1) i (mem_indices_of he) (by omega)
  obtain ⟨sn, t, hs, ht, -⟩ := hi.edges _ hed
  unfold Graph.indices
  rw [List.mem_filter, rangeFrom_zero, List.mem_range]
  exact ⟨node?_lt ht, by rw [ht]; rfl⟩

end Svd
