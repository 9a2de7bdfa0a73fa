import Verif.Lemmas.UpdTotal
import Verif.Lemmas.Ends
import Verif.Lemmas.Shape
/-
Every placeholder has one edge to it and one edge from it, whatever is copied.
-/
namespace Svd
open Graph Spec

/-- The placeholder edges. -/
def pls (es : List Edge) : List Edge := es.filter fun e => e.ty == .placeholder

theorem mem_pls {es : List Edge} {e : Edge} : e ∈ pls es ↔ e ∈ es ∧ e.ty = .placeholder := by
  unfold pls
  rw [List.mem_filter, beq_iff_eq]

theorem pls_append (a b : List Edge) : pls (a ++ b) = pls a ++ pls b := List.filter_append ..
theorem pls_reverse (a : List Edge) : pls a.reverse = (pls a).reverse := List.filter_reverse ..

structure Held (g : Graph) : Prop where
  nodup : (pls g.edges).Nodup
  inE : ∀ k, IsP g k → ∃ a, Pl g a k
  outE : ∀ k, IsP g k → ∃ b, Pl g k b
  inU : ∀ k a a', IsP g k → Pl g a k → Pl g a' k → a = a'
  outU : ∀ k b b', IsP g k → Pl g k b → Pl g k b' → b = b'

/-- What kinds of nodes the edges connect. -/
structure Typed (g : Graph) : Prop where
  tch : ∀ a b, Ch g a b → IsE g a ∧ IsE g b
  tde : ∀ a b, De g a b → IsE g a ∧ IsE g b
  tpl : ∀ a b, Pl g a b → (IsE g a ∧ IsP g b) ∨ (IsP g a ∧ IsE g b)

theorem LabX.typed {d : SDevice} {g : Graph} {lab : Nat → Pos} {X : Nat → Prop} (h : LabX d g lab X) : Typed g := ⟨h.tch, h.tde, h.tpl⟩

theorem Held.view {g g' : Graph} (h : Held g) (h1 : (pls g'.edges).Nodup) (h2 : ∀ a b, Pl g' a b ↔ Pl g a b) (h3 : ∀ k, IsP g' k ↔ IsP g k) : Held g' := by
  refine ⟨h1, ?_, ?_, ?_, ?_⟩
  · intro k hk
    obtain ⟨a, ha⟩ := h.inE k ((h3 k).1 hk)
    exact ⟨a, (h2 _ _).2 ha⟩
  · intro k hk
    obtain ⟨a, ha⟩ := h.outE k ((h3 k).1 hk)
    exact ⟨a, (h2 _ _).2 ha⟩
  · intro k a a' hk ha ha'
    exact h.inU k a a' ((h3 k).1 hk) ((h2 _ _).1 ha) ((h2 _ _).1 ha')
  · intro k a a' hk ha ha'
    exact h.outU k a a' ((h3 k).1 hk) ((h2 _ _).1 ha) ((h2 _ _).1 ha')

theorem pl_pls {g : Graph} {a b : Nat} : Pl g a b ↔ (⟨a, b, .placeholder⟩ : Edge) ∈ pls g.edges := by
  rw [mem_pls]
  exact ⟨fun h => ⟨h, rfl⟩, fun h => h.1⟩

theorem Held.congr {g g' : Graph} (h : Held g) (h1 : pls g'.edges = pls g.edges) (h3 : ∀ k, IsP g' k ↔ IsP g k) : Held g' :=
  h.view (by rw [h1]; exact h.nodup) (fun a b => by rw [pl_pls, pl_pls, h1]) h3

theorem isP_congr {g g' : Graph} (h : g'.nodes = g.nodes) (k : Nat) : IsP g' k ↔ IsP g k := by
  unfold IsP
  rw [node?_congr h]

/-! ### the calls -/

theorem list_single {α : Type} {l : List α} (h : l.Nodup) {x : α} (hx : x ∈ l) (hu : ∀ y ∈ l, y = x) : l = [x] := by
  cases l with
  | nil => cases hx
  | cons y ys =>
    have hy := hu y (by simp)
    subst hy
    cases ys with
    | nil => rfl
    | cons z zs =>
      have hz := hu z (by simp)
      subst hz
      simp at h

theorem placeholderChild_total {g : Graph} (h : Held g) (T : Typed g) {k : Nat} (hk : IsP g k) :
    ∃ c, g.placeholderChild k = .ok c [] ∧ Pl g k c ∧ IsE g c := by
  obtain ⟨c, hc⟩ := h.outE k hk
  have hce : IsE g c := by
    rcases T.tpl _ _ hc with h1 | h1
    · exact absurd hk (fun hp => isE_notP h1.1 hp)
    · exact h1.2
  have hl : ((g.outEdges k).filter fun e => g.isElem e.dst && e.ty == .placeholder) = [⟨k, c, .placeholder⟩] := by
    apply list_single
    · have : ((g.outEdges k).filter fun e => g.isElem e.dst && e.ty == .placeholder).Sublist (pls g.edges) := by
        unfold Graph.outEdges pls
        rw [List.filter_filter]
        have : (fun e : Edge => (g.isElem e.dst && e.ty == .placeholder) && e.src == k) = fun e => (g.isElem e.dst && e.src == k) && (e.ty == .placeholder) := by
          funext e
          cases g.isElem e.dst <;> cases (e.ty == EdgeT.placeholder) <;> cases (e.src == k) <;> rfl
        rw [this, ← List.filter_filter]
        exact List.filter_sublist
      exact this.nodup h.nodup
    · simp only [List.mem_filter, Graph.outEdges, Bool.and_eq_true, beq_iff_eq]
      exact ⟨⟨hc, trivial⟩, isE_iff.2 hce, trivial⟩
    · intro y hy
      simp only [List.mem_filter, Graph.outEdges, Bool.and_eq_true, beq_iff_eq] at hy
      obtain ⟨⟨h1, h2⟩, h3, h4⟩ := hy
      obtain ⟨a, b, t⟩ := y
      simp only at h2 h3 h4
      subst h2 h4
      rw [h.outU _ b c hk h1 hc]
  refine ⟨c, ?_, hc, hce⟩
  unfold Graph.placeholderChild
  rw [hl]
  rfl

theorem placeholderParent_total {g : Graph} (h : Held g) (T : Typed g) {k : Nat} (hk : IsP g k) :
    ∃ a, g.placeholderParent k = .ok a [] ∧ Pl g a k ∧ IsE g a := by
  obtain ⟨c, hc⟩ := h.inE k hk
  have hce : IsE g c := by
    rcases T.tpl _ _ hc with h1 | h1
    · exact h1.1
    · exact absurd hk (fun hp => isE_notP h1.2 hp)
  have hl : ((g.inEdges k).filter fun e => g.isElem e.src && e.ty == .placeholder) = [⟨c, k, .placeholder⟩] := by
    apply list_single
    · have : ((g.inEdges k).filter fun e => g.isElem e.src && e.ty == .placeholder).Sublist (pls g.edges) := by
        unfold Graph.inEdges pls
        rw [List.filter_filter]
        have : (fun e : Edge => (g.isElem e.src && e.ty == .placeholder) && e.dst == k) = fun e => (g.isElem e.src && e.dst == k) && (e.ty == .placeholder) := by
          funext e
          cases g.isElem e.src <;> cases (e.ty == EdgeT.placeholder) <;> cases (e.dst == k) <;> rfl
        rw [this, ← List.filter_filter]
        exact List.filter_sublist
      exact this.nodup h.nodup
    · simp only [List.mem_filter, Graph.inEdges, Bool.and_eq_true, beq_iff_eq]
      exact ⟨⟨hc, trivial⟩, isE_iff.2 hce, trivial⟩
    · intro y hy
      simp only [List.mem_filter, Graph.inEdges, Bool.and_eq_true, beq_iff_eq] at hy
      obtain ⟨⟨h1, h2⟩, h3, h4⟩ := hy
      obtain ⟨a, b, t⟩ := y
      simp only at h2 h3 h4
      subst h2 h4
      rw [h.inU _ a c hk h1 hc]
  refine ⟨c, ?_, hc, hce⟩
  unfold Graph.placeholderParent
  rw [hl]
  rfl

/-! ### removing a placeholder -/

theorem held_removePlaceholder {g : Graph} (h : Held g) (T : Typed g) {k : Nat} (hk : IsP g k) : Held (g.removePlaceholder k) := by
  have hn : ∀ j, j ≠ k → (g.removePlaceholder k).node? j = g.node? j := by
    intro j hj
    unfold Graph.removePlaceholder Graph.removeNode Graph.node?
    simp only
    rw [List.getElem?_set_ne (fun h => hj h.symm)]
  have hk0 : (g.removePlaceholder k).node? k = none := by
    unfold Graph.removePlaceholder Graph.removeNode Graph.node?
    simp only
    by_cases hlt : k < g.nodes.length
    · rw [List.getElem?_set_self hlt]; rfl
    · rw [List.getElem?_eq_none (by rw [List.length_set]; omega)]; rfl
  have hP : ∀ j, IsP (g.removePlaceholder k) j → j ≠ k ∧ IsP g j := by
    intro j hj
    have : j ≠ k := by
      rintro rfl
      obtain ⟨p, hp⟩ := hj
      rw [hk0] at hp
      cases hp
    refine ⟨this, ?_⟩
    obtain ⟨p, hp⟩ := hj
    exact ⟨p, by rw [← hn j this]; exact hp⟩
  have hpl : ∀ a b, Pl (g.removePlaceholder k) a b ↔ Pl g a b ∧ a ≠ k ∧ b ≠ k := by
    intro a b
    unfold Pl Graph.removePlaceholder Graph.removeNode
    simp only [List.mem_filter, Bool.and_eq_true, bne_iff_ne]
  refine ⟨?_, ?_, ?_, ?_, ?_⟩
  · have : (pls (g.removePlaceholder k).edges).Sublist (pls g.edges) := by
      unfold pls Graph.removePlaceholder Graph.removeNode
      exact List.filter_sublist.filter _
    exact this.nodup h.nodup
  · intro j hj
    obtain ⟨h1, h2⟩ := hP j hj
    obtain ⟨a, ha⟩ := h.inE j h2
    refine ⟨a, (hpl _ _).2 ⟨ha, ?_, h1⟩⟩
    rintro rfl
    rcases T.tpl _ _ ha with h3 | h3
    · exact isE_notP h3.1 hk
    · exact isE_notP h3.2 h2
  · intro j hj
    obtain ⟨h1, h2⟩ := hP j hj
    obtain ⟨a, ha⟩ := h.outE j h2
    refine ⟨a, (hpl _ _).2 ⟨ha, h1, ?_⟩⟩
    rintro rfl
    rcases T.tpl _ _ ha with h3 | h3
    · exact isE_notP h3.1 h2
    · exact isE_notP h3.2 hk
  · intro j a a' hj ha ha'
    exact h.inU j a a' (hP j hj).2 ((hpl _ _).1 ha).1 ((hpl _ _).1 ha').1
  · intro j a a' hj ha ha'
    exact h.outU j a a' (hP j hj).2 ((hpl _ _).1 ha).1 ((hpl _ _).1 ha').1

/-! ### copying -/

theorem map_nodup {α β : Type} {f : α → β} {l : List α} (h : l.Nodup) (hf : ∀ x ∈ l, ∀ y ∈ l, f x = f y → x = y) : (l.map f).Nodup := by
  induction l with
  | nil => simp
  | cons x xs ih =>
    rw [List.nodup_cons] at h
    rw [List.map_cons, List.nodup_cons]
    refine ⟨?_, ih h.2 fun a ha b hb => hf a (by simp [ha]) b (by simp [hb])⟩
    intro hm
    obtain ⟨y, hy, he⟩ := List.mem_map.1 hm
    have := hf y (by simp [hy]) x (by simp) he
    subst this
    exact h.1 hy

theorem pls_addEdges {g g' : Graph} {es : List Edge} {ws : List Warn} (h : g.addEdges es = .ok g' ws) (h1 : (pls g.edges).Nodup)
    (h2 : (pls es).Nodup) (h3 : ∀ e ∈ es, e.ty = .placeholder → e ∉ g.edges) : (pls g'.edges).Nodup := by
  rw [(addEdges_nodes h).2.2.2.1, pls_append, pls_reverse, List.nodup_append]
  refine ⟨nodup_rev h2, h1, ?_⟩
  rintro a ha b hb rfl
  rw [List.mem_reverse, mem_pls] at ha
  exact h3 a ha.1 ha.2 (mem_pls.1 hb).1

theorem pls_replicateEdges {m : List (Nat × Nat)} {sel : List Nat} (hinj : ∀ i j, i ∈ sel → j ∈ sel → mapIdx m i = mapIdx m j → i = j)
    {is : List Nat} : ∀ {g g' : Graph} {ws : List Warn}, replicateEdges m sel g is = .ok g' ws → is.Nodup → (∀ i ∈ is, i ∈ sel) →
      (pls g.edges).Nodup → (∀ i ∈ is, ∀ e ∈ g.edges, e.ty = .placeholder → e.src ≠ mapIdx m i) → (pls g'.edges).Nodup := by
  induction is with
  | nil =>
    intro g g' ws hr _ _ h _
    simp only [Graph.replicateEdges, M.pure_eq_ok] at hr
    obtain ⟨rfl, -⟩ := hr
    exact h
  | cons i is ih =>
    intro g g' ws hr hnd hsel h hno
    simp only [Graph.replicateEdges, M.bind_eq_ok] at hr
    obtain ⟨g1, w1, w2, h1, ⟨g2, w3, w4, h2, h3, rfl⟩, rfl⟩ := hr
    rw [List.nodup_cons] at hnd
    have n1 : (pls g1.edges).Nodup := by
      refine pls_addEdges h1 h ?_ ?_
      · have he : pls (((g.outEdges i).filter fun e => sel.contains e.dst).map fun e => (⟨mapIdx m i, mapIdx m e.dst, e.ty⟩ : Edge)) =
            ((((g.outEdges i).filter fun e => sel.contains e.dst).filter fun e => e.ty == .placeholder).map fun e => (⟨mapIdx m i, mapIdx m e.dst, e.ty⟩ : Edge)) := by
          unfold pls
          rw [List.filter_map]
          rfl
        rw [he]
        apply map_nodup
        · have hs : (((g.outEdges i).filter fun e => sel.contains e.dst).filter fun e => e.ty == .placeholder).Sublist (pls g.edges) := by
            unfold pls
            refine List.Sublist.filter _ ?_
            refine List.filter_sublist.trans ?_
            exact List.filter_sublist
          exact hs.nodup h
        · intro x hx y hy hxy
          simp only [List.mem_filter, List.contains_iff_mem, Graph.outEdges, beq_iff_eq] at hx hy
          obtain ⟨⟨⟨hx1, hx2⟩, hx3⟩, hx4⟩ := hx
          obtain ⟨⟨⟨hy1, hy2⟩, hy3⟩, hy4⟩ := hy
          injection hxy with q1 q2 q3
          have := hinj _ _ hx3 hy3 q2
          obtain ⟨a, b, t⟩ := x
          obtain ⟨a', b', t'⟩ := y
          simp only at hx2 hy2 this q3
          subst hx2 this q3
          rw [hy2]
      · intro e he hty hc
        obtain ⟨e0, -, rfl⟩ := List.mem_map.1 he
        exact hno i (by simp) _ hc hty rfl
    have n2 : (pls g2.edges).Nodup := by
      have he : ∀ e ∈ ((g1.inEdges i).filter fun e => e.ty == .derive).map (fun e => (⟨e.src, mapIdx m i, e.ty⟩ : Edge)), e.ty = .derive := by
        intro e he
        obtain ⟨e0, h4, rfl⟩ := List.mem_map.1 he
        simpa using (List.mem_filter.1 h4).2
      refine pls_addEdges h2 n1 ?_ ?_
      · have : pls (((g1.inEdges i).filter fun e => e.ty == .derive).map (fun e => (⟨e.src, mapIdx m i, e.ty⟩ : Edge))) = [] := by
          rw [List.eq_nil_iff_forall_not_mem]
          intro e h4
          rw [mem_pls] at h4
          have := he e h4.1
          rw [h4.2] at this
          cases this
        rw [this]
        simp
      · intro e h4 h5
        have := he e h4
        rw [h5] at this
        cases this
    refine ih h3 hnd.2 (fun j hj => hsel j (by simp [hj])) n2 ?_
    intro j hj e he hty hs
    rcases (addEdges_mem h2).1 he with h4 | h4
    · rcases (addEdges_mem h1).1 h4 with h5 | h5
      · exact hno j (by simp [hj]) e h5 hty hs
      · obtain ⟨e0, -, rfl⟩ := List.mem_map.1 h5
        have := hinj _ _ (hsel i (by simp)) (hsel j (by simp [hj])) hs
        subst this
        exact hnd.1 hj
    · obtain ⟨e0, h6, rfl⟩ := List.mem_map.1 h4
      have : e0.ty = .derive := by simpa using (List.mem_filter.1 h6).2
      simp only at hty
      rw [this] at hty
      cases hty

theorem pls_replicate {ord : List Nat → List Nat} (hord : ∀ l, (ord l).Perm l) {g g' : Graph} {src tgt : Nat} {ws : List Warn} (h : WF g)
    (T : Typed g) (ht : (g.node? tgt).isSome) (hr : g.replicateDescendants ord src tgt = .ok g' ws) (hn : (pls g.edges).Nodup) :
    (pls g'.edges).Nodup := by
  have hmem : ∀ i, i ∈ ord (g.descendants src) ↔ i ∈ g.descendants src := fun i => (hord _).mem_iff
  have hlive : ∀ i, i ∈ ord (g.descendants src) → (g.node? i).isSome := fun i hi => descendants_live h ((hmem i).1 hi)
  unfold Graph.replicateDescendants at hr
  simp only [M.bind_eq_ok] at hr
  obtain ⟨⟨g1, m⟩, w1, w2, h1, ⟨g2, w3, w4, h2, h3, rfl⟩, rfl⟩ := hr
  obtain ⟨a1, b1, c1, d1, -⟩ := replicateNodes_wf h h1 (by simp)
  have cm : CopyMap g1 m := replicateNodes_copy h h1 (by intro p hp; cases hp)
  obtain ⟨m2, q1, q2, q3, q4, q5⟩ := replicateNodes_effect h h1
  simp only [List.nil_append] at q1
  subst q1
  have hnd : (ord (g.descendants src)).Nodup := by
    rw [(hord _).nodup_iff]
    unfold Graph.descendants
    exact (nodup_rangeFrom _ _).1.filter _
  have hφ : ∀ i, i ∈ ord (g.descendants src) → (i, mapIdx m i) ∈ m := by
    intro i hi
    rw [← q2] at hi
    obtain ⟨⟨a, b⟩, hp, rfl⟩ := List.mem_map.1 hi
    have := lookup_of_nodup (by rw [q2]; exact hnd) hp
    unfold Graph.mapIdx
    simp only [this, Option.getD_some]
    exact hp
  have hfresh : ∀ i, i ∈ ord (g.descendants src) → g.node? (mapIdx m i) = none := fun i hi => q4 _ (hφ i hi)
  have hinj : ∀ i j, i ∈ ord (g.descendants src) → j ∈ ord (g.descendants src) → mapIdx m i = mapIdx m j → i = j := by
    intro i j hi hj hij
    have h4 := hφ i hi
    have h5 := hφ j hj
    rw [hij] at h4
    have := inj_of_nodup_map q3 h4 h5 rfl
    injection this
  have hnsel : ∀ i ∈ ord (g.descendants src), mapIdx m i ∉ ord (g.descendants src) := by
    intro i hi hc
    have h4 := hfresh i hi
    have h5 := hlive _ hc
    rw [h4] at h5
    cases h5
  have n2 : (pls g2.edges).Nodup := by
    refine pls_replicateEdges hinj h2 hnd (fun i hi => hi) (by rw [d1]; exact hn) ?_
    intro i hi e he _ hs
    rw [d1] at he
    have := (h.edges_valid e he).1
    rw [hs, hfresh i hi] at this
    cases this
  have e2 := @replicateEdges_mem m _ _ g1 g2 w3 h2 (fun i hi => hi) hnsel
  have k2 : ∀ x : Edge, x.dst ∈ ord (g.descendants src) → x ∈ g2.edges → x ∈ g.edges := by
    intro x hx
    rw [e2, d1]
    rintro (h4 | ⟨i, hi, ⟨e0, h4, h5, h6, h7⟩ | ⟨e0, h4, h5, h6, h7⟩⟩)
    · exact h4
    · subst h7; exact absurd hx (hnsel _ h6)
    · subst h7; exact absurd hx (hnsel _ hi)
  have hnode : ∀ j, j ∈ ord (g.descendants src) → g2.node? (mapIdx m j) = g.node? j := by
    intro j hj
    rw [node?_congr (replicateEdges_nodes h2).1, cm.node]
    obtain ⟨n, hn⟩ := Option.isSome_iff_exists.1 (hlive j hj)
    rw [hn, b1 _ _ hn]
  let tyOf : Nat → EdgeT := fun c => match g2.node? c with
      | some (.ph _) => .placeholder
      | _ => if (match g.elem? src with | some e => e.isProcessed | none => false) then .childR else .childU
  have htyOf : ∀ c, tyOf c = .placeholder → ∃ p, g2.node? c = some (.ph p) := by
    intro c hc
    simp only [tyOf] at hc
    split at hc
    · exact ⟨_, by assumption⟩
    · generalize (match g.elem? src with | some e => e.isProcessed | none => false) = b at hc
      cases b <;> simp at hc
  have hpl : ∀ e ∈ (g2.outEdges src).filter (fun e => (ord (g.descendants src)).contains e.dst), tyOf (mapIdx m e.dst) = .placeholder →
      e ∈ g2.edges ∧ e.src = src ∧ e.dst ∈ ord (g.descendants src) ∧ e.ty = .placeholder := by
    intro e he hty
    simp only [List.mem_filter, List.contains_iff_mem, Graph.outEdges, beq_iff_eq] at he
    obtain ⟨⟨h4, h5⟩, h6⟩ := he
    refine ⟨h4, h5, h6, ?_⟩
    obtain ⟨p, hp⟩ := htyOf _ hty
    rw [hnode _ h6] at hp
    have hv := edge_view (k2 e h6 h4)
    rcases hv with hv | hv | hv
    · exact absurd ⟨p, hp⟩ (fun hP => isE_notP (T.tch _ _ hv).2 hP)
    · exact absurd ⟨p, hp⟩ (fun hP => isE_notP (T.tde _ _ hv).2 hP)
    · by_contra hne
      have h7 := k2 e h6 h4
      obtain ⟨a, b, t⟩ := e
      cases t with
      | childU => exact absurd ⟨p, hp⟩ (fun hP => isE_notP (T.tch _ _ (Or.inl h7)).2 hP)
      | childR => exact absurd ⟨p, hp⟩ (fun hP => isE_notP (T.tch _ _ (Or.inr h7)).2 hP)
      | derive => exact absurd ⟨p, hp⟩ (fun hP => isE_notP (T.tde _ _ h7).2 hP)
      | placeholder => exact hne rfl
  have h3 : g2.addEdges (((g2.outEdges src).filter fun e => (ord (g.descendants src)).contains e.dst).map fun e =>
      (⟨tgt, mapIdx m e.dst, tyOf (mapIdx m e.dst)⟩ : Edge)) = .ok g' w4 := h3
  refine pls_addEdges h3 n2 ?_ ?_
  · have he : pls (((g2.outEdges src).filter fun e => (ord (g.descendants src)).contains e.dst).map fun e =>
        (⟨tgt, mapIdx m e.dst, tyOf (mapIdx m e.dst)⟩ : Edge)) =
        ((((g2.outEdges src).filter fun e => (ord (g.descendants src)).contains e.dst).filter fun e => tyOf (mapIdx m e.dst) == .placeholder).map fun e =>
          (⟨tgt, mapIdx m e.dst, tyOf (mapIdx m e.dst)⟩ : Edge)) := by
      unfold pls
      rw [List.filter_map]
      rfl
    rw [he]
    have hx' : ∀ x ∈ (((g2.outEdges src).filter fun e => (ord (g.descendants src)).contains e.dst).filter fun e => tyOf (mapIdx m e.dst) == .placeholder),
        x ∈ g2.edges ∧ x.src = src ∧ x.dst ∈ ord (g.descendants src) ∧ x.ty = .placeholder := by
      intro x hx
      obtain ⟨hx1, hx2⟩ := List.mem_filter.1 hx
      exact hpl x hx1 (by simpa using hx2)
    apply map_nodup
    · have hs : (((g2.outEdges src).filter fun e => (ord (g.descendants src)).contains e.dst).filter fun e => tyOf (mapIdx m e.dst) == .placeholder).Sublist (pls g2.edges) := by
        have e0 : (((g2.outEdges src).filter fun e => (ord (g.descendants src)).contains e.dst).filter fun e => tyOf (mapIdx m e.dst) == .placeholder) =
            (((g2.outEdges src).filter fun e => (ord (g.descendants src)).contains e.dst).filter fun e => tyOf (mapIdx m e.dst) == .placeholder).filter fun e => e.ty == .placeholder := by
          symm
          rw [List.filter_eq_self]
          intro x hx
          rw [(hx' x hx).2.2.2]
          rfl
        rw [e0]
        unfold pls
        refine List.Sublist.filter _ ?_
        refine List.filter_sublist.trans (List.filter_sublist.trans ?_)
        exact List.filter_sublist
      exact hs.nodup n2
    · intro x hx y hy hxy
      obtain ⟨-, hx2, hx3, hx4⟩ := hx' x hx
      obtain ⟨-, hy2, hy3, hy4⟩ := hx' y hy
      injection hxy with q1 q2 q3
      have := hinj _ _ hx3 hy3 q2
      obtain ⟨a, b, t⟩ := x
      obtain ⟨a', b', t'⟩ := y
      simp only at hx2 hy2 this hx4 hy4
      subst hx2 this hx4 hy4
      rw [hy2]
  · intro e he hty hc
    obtain ⟨e0, h4, rfl⟩ := List.mem_map.1 he
    obtain ⟨-, -, h6, -⟩ := hpl e0 h4 hty
    rcases e2.1 hc with h5 | ⟨i, hi, ⟨e1, h7, h8, h9, h10⟩ | ⟨e1, h7, h8, h9, h10⟩⟩
    · rw [d1] at h5
      have := (h.edges_valid _ h5).2
      simp only at this
      rw [hfresh _ h6] at this
      cases this
    · injection h10 with h10 _
      rw [h10, hfresh i hi] at ht
      cases ht
    · injection h10 with _ _ h10
      rw [h10] at hty
      cases hty

end Svd
