import Verif.Lemmas.GraphEq
import Verif.Lemmas.FinState
/-
The bottom-up traversal of the finalisation: every node is handled once, after its successors.
-/
namespace Svd
open Graph

/-- State of the work list. -/
structure Trav (g : Graph) (q done : List Nat) : Prop where
  nodup : (q ++ done).Nodup
  lt : ∀ i ∈ q ++ done, i < g.nodes.length
  qs : ∀ i ∈ q, ∀ c ∈ g.successors i, c ∈ done
  ds : ∀ i ∈ done, ∀ c ∈ g.successors i, c ∈ done
  all : ∀ i, i ∈ g.indices → (∀ c ∈ g.successors i, c ∈ done) → i ∈ q ++ done

/-- The parents that become ready. -/
def ready (g : Graph) (i : Nat) (done : List Nat) : List Nat :=
  (g.indices.filter fun p => (g.successors p).contains i).filter fun p => (g.successors p).all (i :: done).contains

theorem mem_ready {g : Graph} {i p : Nat} {done : List Nat} :
    p ∈ ready g i done ↔ p ∈ g.indices ∧ i ∈ g.successors p ∧ ∀ c ∈ g.successors p, c ∈ i :: done := by
  unfold ready
  rw [List.mem_filter, List.mem_filter]
  simp only [List.contains_iff_mem, List.all_eq_true, and_assoc]

theorem indices_lt {g : Graph} {i : Nat} (h : i ∈ g.indices) : i < g.nodes.length := by
  unfold Graph.indices at h
  rw [List.mem_filter, rangeFrom_zero, List.mem_range] at h
  exact h.1

theorem indices_nodup (g : Graph) : g.indices.Nodup := by
  unfold Graph.indices
  rw [rangeFrom_zero]
  exact List.nodup_range.filter _

theorem Trav.start (g : Graph) : Trav g (g.indices.filter fun i => (g.successors i).isEmpty) [] := by
  constructor
  · rw [List.append_nil]
    exact (indices_nodup g).filter _
  · intro i hi
    rw [List.append_nil, List.mem_filter] at hi
    exact indices_lt hi.1
  · intro i hi c hc
    rw [List.mem_filter, List.isEmpty_iff] at hi
    rw [hi.2] at hc
    exact hc
  · intro i hi; cases hi
  · intro i hi hc
    rw [List.append_nil, List.mem_filter, List.isEmpty_iff]
    refine ⟨hi, ?_⟩
    cases h : g.successors i with
    | nil => rfl
    | cons c cs =>
      have := hc c (by rw [h]; simp)
      cases this

theorem Trav.next {g : Graph} {i : Nat} {q done : List Nat} (h : Trav g (i :: q) done) :
    Trav g (q ++ ready g i done) (i :: done) := by
  have hn := h.nodup
  rw [List.cons_append, List.nodup_cons, List.nodup_append, List.mem_append] at hn
  obtain ⟨hi, hq, hd, hqd⟩ := hn
  have hid : i ∉ done := fun hc => hi (Or.inr hc)
  have hiq : i ∉ q := fun hc => hi (Or.inl hc)
  have hr : ∀ p ∈ ready g i done, p ∉ q ∧ p ∉ done ∧ p ≠ i := by
    intro p hp
    obtain ⟨-, h2, -⟩ := mem_ready.1 hp
    refine ⟨fun hc => hid (h.qs p (by simp [hc]) i h2), fun hc => hid (h.ds p hc i h2), ?_⟩
    rintro rfl
    exact hid (h.qs p (by simp) p h2)
  constructor
  · rw [List.nodup_append, List.nodup_append, List.nodup_cons]
    refine ⟨⟨hq, ((indices_nodup g).filter _).filter _, ?_⟩, ⟨hid, hd⟩, ?_⟩
    · intro a ha b hb hab
      subst hab
      exact (hr a hb).1 ha
    · intro a ha b hb hab
      subst hab
      rw [List.mem_append] at ha
      rcases ha with ha | ha
      · rcases List.mem_cons.1 hb with rfl | hb
        · exact hiq ha
        · exact hqd a ha a hb rfl
      · rcases List.mem_cons.1 hb with rfl | hb
        · exact (hr a ha).2.2 rfl
        · exact (hr a ha).2.1 hb
  · intro a ha
    simp only [List.mem_append, List.mem_cons] at ha
    rcases ha with (ha | ha) | rfl | ha
    · exact h.lt a (by simp [ha])
    · exact indices_lt (mem_ready.1 ha).1
    · exact h.lt a (by simp)
    · exact h.lt a (by simp [ha])
  · intro a ha c hc
    rw [List.mem_append] at ha
    rcases ha with ha | ha
    · exact List.mem_cons_of_mem _ (h.qs a (by simp [ha]) c hc)
    · exact (mem_ready.1 ha).2.2 c hc
  · intro a ha c hc
    rcases List.mem_cons.1 ha with rfl | ha
    · exact List.mem_cons_of_mem _ (h.qs a (by simp) c hc)
    · exact List.mem_cons_of_mem _ (h.ds a ha c hc)
  · intro a ha hc
    by_cases hia : i ∈ g.successors a
    · have : a ∈ ready g i done := mem_ready.2 ⟨ha, hia, hc⟩
      simp [this]
    · have := h.all a ha fun c hcc => by
        rcases List.mem_cons.1 (hc c hcc) with rfl | h1
        · exact absurd hcc hia
        · exact h1
      simp only [List.mem_append, List.mem_cons] at this ⊢
      rcases this with (rfl | h1) | h1
      · simp
      · simp [h1]
      · simp [h1]

/-- What happens to one node. -/
def visit (g : Graph) (s : FinState) (i : Nat) : M FinState :=
  match g.successors i with
  | [] => M.pure s
  | c :: cs => finalizeNode s i (c :: cs)

theorem bottomUp_cons (g : Graph) (f i : Nat) (q done : List Nat) (s : FinState) :
    bottomUp g (f + 1) (i :: q) done s = M.bind (visit g s i) fun s1 => bottomUp g f (q ++ ready g i done) (i :: done) s1 := rfl

theorem bottomUp_trav {g : Graph} (P : List Nat → FinState → Prop)
    (step : ∀ i q done s s1 w, Trav g (i :: q) done → P done s → visit g s i = .ok s1 w → P (i :: done) s1) :
    ∀ (f : Nat) (q done : List Nat) (s s' : FinState) (w : List Warn), Trav g q done → P done s →
      bottomUp g f q done s = .ok s' w → ∃ done', Trav g [] done' ∧ P done' s' := by
  intro f
  induction f with
  | zero =>
    intro q done s s' w ht hp h
    cases q with
    | nil =>
      simp only [bottomUp, M.pure_eq_ok] at h
      exact ⟨done, ht, h.1 ▸ hp⟩
    | cons i q => simp [bottomUp, M.throw] at h
  | succ f ih =>
    intro q done s s' w ht hp h
    cases q with
    | nil =>
      simp only [bottomUp, M.pure_eq_ok] at h
      exact ⟨done, ht, h.1 ▸ hp⟩
    | cons i q =>
      rw [bottomUp_cons, M.bind_eq_ok] at h
      obtain ⟨s1, w1, w2, h1, h2, -⟩ := h
      exact ih _ _ _ _ _ ht.next (step i q done s s1 w1 ht hp h1) h2

theorem nodup_bounded {l : List Nat} {n : Nat} (h : l.Nodup) (hl : ∀ i ∈ l, i < n) : l.length ≤ n := by
  have := List.Nodup.length_le_of_subset (l₁ := l) (l₂ := List.range n)
  simpa using this h (fun i hi => List.mem_range.2 (hl i hi))

/-- If every visit succeeds, so does the traversal. -/
theorem bottomUp_total {g : Graph} (P : List Nat → FinState → Prop)
    (step : ∀ i q done s, Trav g (i :: q) done → P done s → ∃ s1 w, visit g s i = .ok s1 w ∧ P (i :: done) s1) :
    ∀ (f : Nat) (q done : List Nat) (s : FinState), Trav g q done → P done s → g.nodes.length + 1 ≤ f + done.length →
      ∃ s' w, bottomUp g f q done s = .ok s' w := by
  intro f
  induction f with
  | zero =>
    intro q done s ht hp hf
    have : done.length ≤ g.nodes.length := nodup_bounded (List.nodup_append.1 ht.nodup).2.1 fun i hi => ht.lt i (by simp [hi])
    omega
  | succ f ih =>
    intro q done s ht hp hf
    cases q with
    | nil => exact ⟨s, [], by simp [bottomUp, M.pure]⟩
    | cons i q =>
      obtain ⟨s1, w, h1, h2⟩ := step i q done s ht hp
      obtain ⟨s', w', h3⟩ := ih _ _ _ ht.next h2 (by simp only [List.length_cons]; omega)
      refine ⟨s', w ++ w', ?_⟩
      rw [bottomUp_cons, h1]
      simp only [M.bind, h3]

end Svd
