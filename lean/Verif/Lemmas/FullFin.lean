import Verif.Spec.Full
import Verif.Lemmas.LabVisit
import Verif.Lemmas.ShareClass
/-
The content of the nodes at the end of the finalisation.
-/
namespace Svd
open Graph Spec

variable {d : SDevice} {S : Pos → Pos → Prop} {g : Graph} {lab : Nat → Pos} {done : List Nat} {s s1 : FinState} {i : Nat}

/-- The content of a finalised node. -/
structure NodeC (g : Graph) (s : FinState) (i : Nat) (e0 : ElemNode) : Prop where
  fields : e0.level = .register → Picked g s (pickField s) i (s.fields i) ∧ SortedBy fieldKey (s.fields i)
  rcs : e0.level = .peripheral ∨ e0.level = .cluster → Picked g s (pickRC s) i (s.rcs i) ∧ SortedBy ircKey (s.rcs i)
  size : e0.level = .peripheral ∨ e0.level = .cluster → g.successors i ≠ [] →
    ∃ e x m, s.g.elem? i = some e ∧ e.processed = some (x.withSize m) ∧ (procLevel x = .peripheral ∨ procLevel x = .cluster) ∧ m ≠ -1

structure FC (g : Graph) (done : List Nat) (s : FinState) : Prop where
  cont : ∀ i ∈ done, live g i = true → ∀ e0, g.elem? i = some e0 → NodeC g s i e0
  root : ∀ ps, s.resolved = some ps → Picked g s (pickPeripheral s) 0 ps ∧ SortedBy periphKey ps ∧ 0 ∈ done

theorem picked_congr {α : Type} {pick pick1 : Nat → Processed → M α} {xs : List α}
    (hl : ∀ c ∈ g.successors i, live s1.g c = live s.g c)
    (hp : ∀ c ∈ g.successors i, ∀ y, PickOf s1 pick1 c y ↔ PickOf s pick c y) (P : Picked g s pick i xs) : Picked g s1 pick1 i xs := by
  refine ⟨fun x hx => ?_, fun c hc hlv => ?_⟩
  · obtain ⟨c, h1, h2, h3⟩ := P.sub x hx
    exact ⟨c, h1, by rw [hl c h1]; exact h2, (hp c h1 x).2 h3⟩
  · obtain ⟨x, h1, h2⟩ := P.all c hc (by rw [← hl c hc]; exact hlv)
    exact ⟨x, h1, (hp c hc x).2 h2⟩

/-- Only the visited node changes. -/
def Steps (s s1 : FinState) (i : Nat) : Prop :=
  ∀ j, j ≠ i → s1.g.elem? j = s.g.elem? j ∧ s1.content.lookup j = s.content.lookup j

theorem Steps.kids (hf : Steps s s1 i) {k : Nat} (hk : ∀ c ∈ g.successors k, c ≠ i) :
    (∀ c ∈ g.successors k, live s1.g c = live s.g c) ∧
    (∀ c ∈ g.successors k, ∀ y, PickOf s1 (pickField s1) c y ↔ PickOf s (pickField s) c y) ∧
    (∀ c ∈ g.successors k, ∀ y, PickOf s1 (pickRC s1) c y ↔ PickOf s (pickRC s) c y) ∧
    ∀ c ∈ g.successors k, ∀ y, PickOf s1 (pickPeripheral s1) c y ↔ PickOf s (pickPeripheral s) c y := by
  have key : ∀ c ∈ g.successors k, _ := fun c hc => hf c (hk c hc)
  refine ⟨fun c hc => ?_, fun c hc y => ?_, fun c hc y => ?_, fun c hc y => ?_⟩
  · unfold live
    rw [(key c hc).1]
  all_goals
    obtain ⟨c1, c2, c3⟩ := pick_congr (s := s) (s' := s1) (key c hc).1 (key c hc).2
    obtain ⟨b1, b2, b3⟩ := pick_congr (s := s1) (s' := s) (key c hc).1.symm (key c hc).2.symm
  · exact ⟨b1 y, c1 y⟩
  · exact ⟨b2 y, c2 y⟩
  · exact ⟨b3 y, c3 y⟩

theorem FC.next (I : FC g done s) {q : List Nat} (T : Trav g (i :: q) done) (hf : Steps s s1 i)
    (hi : live g i = true → ∀ e0, g.elem? i = some e0 → NodeC g s1 i e0)
    (hr : ∀ ps, s1.resolved = some ps → s.resolved = some ps ∨ i = 0 ∧ Picked g s (pickPeripheral s) 0 ps ∧ SortedBy periphKey ps) : FC g (i :: done) s1 := by
  have hd : i ∉ done := T.notin
  have V : ∀ c ∈ g.successors i, c ≠ i := fun c hc h => hd (h ▸ T.qs i (by simp) c hc)
  refine ⟨fun j hj hl e0 he => ?_, fun ps hps => ?_⟩
  · by_cases h : j = i
    · subst h; exact hi hl e0 he
    · have hj' : j ∈ done := by
        rcases List.mem_cons.1 hj with h' | h'
        · exact absurd h' h
        · exact h'
      have N := I.cont j hj' hl e0 he
      obtain ⟨k1, k2, k3, k4⟩ := hf.kids (g := g) (k := j) fun c hc h' => hd (h' ▸ T.ds j hj' c hc)
      obtain ⟨m1, m2⟩ := hf j h
      refine ⟨fun hl => ?_, fun hl => ?_, fun hl hne => ?_⟩
      · rw [show s1.fields j = s.fields j from by rw [fields_eq, fields_eq, m2]]
        exact ⟨picked_congr k1 k2 (N.fields hl).1, (N.fields hl).2⟩
      · rw [show s1.rcs j = s.rcs j from by rw [rcs_eq, rcs_eq, m2]]
        exact ⟨picked_congr k1 k3 (N.rcs hl).1, (N.rcs hl).2⟩
      · rw [m1]; exact N.size hl hne
  · rcases hr ps hps with h | ⟨rfl, h, h'⟩
    · obtain ⟨P, hs, h0⟩ := I.root ps h
      obtain ⟨k1, k2, k3, k4⟩ := hf.kids (g := g) (k := 0) fun c hc h' => hd (h' ▸ T.ds 0 h0 c hc)
      exact ⟨picked_congr k1 k4 P, hs, by simp [h0]⟩
    · obtain ⟨k1, k2, k3, k4⟩ := hf.kids (g := g) (k := 0) V
      exact ⟨picked_congr k1 k4 h, h', by simp⟩

theorem nodeC_nil (h : g.successors i = []) (hk : s.content.lookup i = none) (e0 : ElemNode) : NodeC g s i e0 := by
  refine ⟨fun _ => ?_, fun _ => ?_, fun _ hne => absurd h hne⟩
  · rw [fields_eq, hk]; exact ⟨picked_nil h, by simp [fieldsOf, SortedBy]⟩
  · rw [rcs_eq, hk]; exact ⟨picked_nil h, by simp [rcsOf, SortedBy]⟩

theorem calculateSize_ne {G : Graph} {cs : List Nat} {m : Int} {w : List Warn} (h : calculateSize G cs = .ok m w) : m ≠ -1 := by
  unfold calculateSize at h
  simp only [M.bind_eq_ok] at h
  obtain ⟨zs, w1, w2, -, h2, -⟩ := h
  split at h2
  · simp [M.throw] at h2
  · rename_i hn
    rw [M.pure_eq_ok] at h2
    rw [← h2.1]; exact hn

theorem visit_fc (F : LF d S g lab) (R : ∀ i e, g.elem? i = some e → e.level = .device → i = 0) (I' : FL d S g lab done s) (I : FC g done s)
    {q : List Nat} (T : Trav g (i :: q) done) {w : List Warn} (h : visit g s i = .ok s1 w) : FC g (i :: done) s1 := by
  have hd : i ∉ done := T.notin
  have V : ∀ c ∈ g.successors i, c ∈ done := T.qs i (by simp)
  have hne : ∀ c ∈ g.successors i, c ≠ i := fun c hc h => hd (h ▸ V c hc)
  obtain ⟨hfr, hlk⟩ := I'.fresh i hd
  have hsame : Steps s s i := fun _ _ => ⟨rfl, rfl⟩
  unfold visit at h
  cases ho : g.successors i with
  | nil =>
    rw [ho] at h
    simp only [M.pure_eq_ok] at h
    obtain ⟨rfl, -⟩ := h
    exact I.next T hsame (fun _ e0 _ => nodeC_nil ho hlk e0) (fun ps h => Or.inl h)
  | cons c0 cs0 =>
    rw [ho] at h
    simp only at h
    rw [← ho] at h
    unfold finalizeNode at h
    cases he : g.elem? i with
    | none =>
      rw [hfr, he] at h
      simp [M.throw] at h
    | some e =>
      have hes := hfr.trans he
      rw [hes] at h
      simp only at h
      split at h
      · rename_i ht
        rw [M.pure_eq_ok] at h
        obtain ⟨rfl, -⟩ := h
        refine I.next T hsame (fun hl => ?_) (fun ps h => Or.inl h)
        simp [live, he, ht] at hl
      · have hcont : (e.level = .peripheral ∨ e.level = .cluster) → finalizeContainerNode s i e (g.successors i) = .ok s1 w →
            FC g (i :: done) s1 := by
          intro hlev h
          unfold finalizeContainerNode at h
          simp only [M.bind_eq_ok, M.pure_eq_ok] at h
          obtain ⟨p, w1, w2, h2, ⟨m, w3, w4, h3, ⟨xs, w5, w6, h4, ⟨rfl, -⟩, -⟩, -⟩, -⟩ := h
          obtain ⟨e', h5, h6, -⟩ := procOf_ok h2
          rw [hes] at h5
          cases h5
          have hel : ∀ j, (s.g.setElem i { e with processed := some (p.withSize m) }).elem? j =
              if j = i then some { e with processed := some (p.withSize m) } else s.g.elem? j :=
            fun j => setElem_elem? (by rw [elem?_node?.1 hes]; rfl)
          have hp : procLevel p = .peripheral ∨ procLevel p = .cluster := by rw [F.proc he h6]; exact hlev
          have hst : Steps s { s with g := s.g.setElem i { e with processed := some (p.withSize m) }, content := (i, .rcs (sortBy ircLe xs)) :: s.content } i := by
            intro j hj
            refine ⟨?_, lookup_ne hj⟩
            show (s.g.setElem i _).elem? j = _
            rw [hel, if_neg hj]
          have hst' : Steps { s with g := s.g.setElem i { e with processed := some (p.withSize m) } }
              { s with g := s.g.setElem i { e with processed := some (p.withSize m) }, content := (i, .rcs (sortBy ircLe xs)) :: s.content } i :=
            fun j hj => ⟨rfl, lookup_ne hj⟩
          refine I.next T hst (fun hl e0 h0 => ?_) (fun ps h => Or.inl h)
          rw [he] at h0
          cases h0
          refine ⟨fun hh => ?_, fun _ => ?_, fun _ _ => ?_⟩
          · rw [hh] at hlev; simp at hlev
          · rw [rcs_eq]
            simp only [List.lookup_cons_self, rcsOf]
            obtain ⟨k1, k2, k3, k4⟩ := hst'.kids (g := g) (k := i) hne
            have P := picked_collect (fun _ _ _ _ h => pickRC_nw h) h4 (sortBy_perm (le := ircLe) xs)
            exact ⟨picked_congr k1 k3 P, sorted_irc xs⟩
          · exact ⟨_, p, m, by show (s.g.setElem i _).elem? i = _; rw [hel, if_pos rfl], rfl, hp, calculateSize_ne h3⟩
        split at h
        · rename_i hl
          simp only [M.bind_eq_ok, M.pure_eq_ok] at h
          obtain ⟨ps, w1, w2, h1, ⟨rfl, -⟩, -⟩ := h
          have hi0 := R i e he hl
          refine I.next T (fun _ _ => ⟨rfl, rfl⟩) (fun hlv e0 h0 => ?_) (fun ps' hps => Or.inr ?_)
          · rw [he] at h0
            cases h0
            refine ⟨fun hh => ?_, fun hh => ?_, fun hh _ => ?_⟩ <;> rw [hl] at hh <;> simp at hh
          · cases hps
            subst hi0
            exact ⟨rfl, picked_collect (fun _ _ _ _ h => pickPeripheral_nw h) h1 (sortBy_perm ps), sorted_ip ps⟩
        · rename_i hl
          exact hcont (Or.inl hl) h
        · rename_i hl
          exact hcont (Or.inr hl) h
        · rename_i hl
          simp only [M.bind_eq_ok, M.pure_eq_ok] at h
          obtain ⟨_, _, _, -, ⟨fs, w1, w2, h2, ⟨rfl, -⟩, -⟩, -⟩ := h
          have hst : Steps s { s with content := (i, .fields (sortBy ifLe fs)) :: s.content } i := fun j hj => ⟨rfl, lookup_ne hj⟩
          refine I.next T hst (fun hlv e0 h0 => ?_) (fun ps h => Or.inl h)
          rw [he] at h0
          cases h0
          refine ⟨fun _ => ?_, fun hh => ?_, fun hh _ => ?_⟩
          · rw [fields_eq]
            simp only [List.lookup_cons_self, fieldsOf]
            obtain ⟨k1, k2, k3, k4⟩ := hst.kids (g := g) (k := i) hne
            exact ⟨picked_congr k1 k2 (picked_collect (fun _ _ _ _ h => pickField_nw h) h2 (sortBy_perm fs)), sorted_if fs⟩
          · rw [hl] at hh; simp at hh
          · rw [hl] at hh; simp at hh
        · rename_i hl
          unfold finalizeFieldNode at h
          simp only [M.bind_eq_ok] at h
          obtain ⟨p, w1, w2, hp, h2, -⟩ := h
          cases p <;> first | (simp [M.throw] at h2; done) | skip
          simp only [M.bind_eq_ok] at h2
          obtain ⟨conts, w3, w4, h3, h4, -⟩ := h2
          split at h4
          · simp [M.throw] at h4
          split at h4
          · simp [M.throw] at h4
          split at h4
          · simp [M.throw] at h4
          rw [M.pure_eq_ok] at h4
          obtain ⟨rfl, -⟩ := h4
          refine I.next T (fun j hj => ⟨rfl, lookup_ne hj⟩) (fun hlv e0 h0 => ?_) (fun ps h => Or.inl h)
          rw [he] at h0
          cases h0
          refine ⟨fun hh => ?_, fun hh => ?_, fun hh _ => ?_⟩ <;> rw [hl] at hh <;> simp at hh
        · simp [M.throw] at h

theorem FC.start : FC g [] { g := g } := ⟨by simp, by simp⟩

/-- The end of the finalisation. -/
theorem finalize_fc (F : LF d S g lab) (R : ∀ i e, g.elem? i = some e → e.level = .device → i = 0) {w : List Warn}
    (h : finalizeProcessing g = .ok s w) : ∃ done, Trav g [] done ∧ FL d S g lab done s ∧ FC g done s := by
  obtain ⟨done', h1, h2⟩ := bottomUp_trav (fun done s => FL d S g lab done s ∧ FC g done s)
    (fun i q done s s1 w T I hv => ⟨visit_fl F I.1 T hv, visit_fc F R I.1 I.2 T hv⟩) _ _ _ _ _ _ (Trav.start g) ⟨FL.start, FC.start⟩ h
  exact ⟨done', h1, h2⟩

end Svd
