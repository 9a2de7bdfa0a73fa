import Verif.Lemmas.FullFin
/-
Content and sizes of the resolved device, for descriptions whose references can be followed.
-/
namespace Svd
open Graph Spec

variable {d : SDevice} {g : Graph} {lab : Nat → Pos} {done : List Nat} {s : FinState} {i : Nat}

theorem Tidy.lf (hb : ∀ x, ¬ Precedes d x x) (T : Tidy d g lab) : LF d (Nested d) g lab := by
  refine ⟨T.at_.inv, fun i c hd => ?_, T.at_.lab, T.all, fun _ _ h => h, fun _ _ => nested_kind⟩
  exact absurd (T.edges _ hd) (de_not T.at_.lab hb hd).1

theorem parentSize_more (G : Graph) : ∀ (f i : Nat) (z : Int) (w : List Warn), parentSize G f i = .ok z w → parentSize G (f + 1) i = .ok z w := by
  intro f
  induction f with
  | zero => intro i z w h; simp [parentSize, M.throw] at h
  | succ f ih =>
    intro i z w h
    rw [parentSize] at h ⊢
    cases hp : G.elementParents i with
    | nil => rw [hp] at h; exact h
    | cons p ps =>
      rw [hp] at h
      simp only at h ⊢
      split at h
      · rename_i hl; rw [if_pos hl]; exact h
      · rename_i hl
        rw [if_neg hl]
        rw [M.bind_eq_ok] at h ⊢
        obtain ⟨x, w1, w2, h1, h2, h3⟩ := h
        refine ⟨x, w1, w2, h1, ?_, h3⟩
        cases x with
        | periph q =>
          simp only at h2 ⊢
          cases hq : q.props.size with
          | none => rw [hq] at h2; exact ih _ _ _ h2
          | some v => rw [hq] at h2; exact h2
        | clu q =>
          simp only at h2 ⊢
          cases hq : q.props.size with
          | none => rw [hq] at h2; exact ih _ _ _ h2
          | some v => rw [hq] at h2; exact h2
        | reg _ => exact h2
        | field _ => exact h2

section
variable {obj cls : Nat → Nat} {E : Nat → Int} {hgt : Nat → Nat}

theorem size0_eq {e : ElemNode} {h : Processed} (he : g.elem? i = some e) (hp : e.processed = some h) : size0 g i = sizeOfP h := by
  unfold size0 head0
  rw [he]
  simp [hp]

/-- The size in force inside a cluster. -/
theorem Coherent.encl (C : Coherent g obj cls E hgt) {a : Nat} (ha : BoxLike g a) (hi : BoxLike g i) (hc : i ∈ g.successors a) :
    E i = (size0 g i).getD (E a) := by
  cases h0 : size0 g i with
  | some z => exact (C.enc i hi).1 z h0
  | none =>
    have h1 := (C.enc i hi).2 h0
    have hp := (C.parent a i).1 hc
    cases hps : g.elementParents i with
    | nil => rw [hps] at hp; cases hp
    | cons p rest =>
      have hpi : i ∈ g.successors p := (C.parent p i).2 (by rw [hps]; simp)
      have hcl := C.up a p i i hc hpi rfl
      obtain ⟨ep, ei, hep, hei, -⟩ := C.child p i hpi
      have hpb := C.like_eq hep hcl ha
      obtain ⟨⟨ea, hea, hla⟩, -⟩ := ha
      obtain ⟨⟨ep', hep', hlp⟩, -⟩ := id hpb
      rw [hep] at hep'
      cases hep'
      have hsz := C.size_eq hea hep hcl (by rcases hla with h | h <;> rw [h] <;> simp)
      have hnd : ep.level ≠ .device := by rcases hlp with h | h <;> rw [h] <;> simp
      obtain ⟨qp, hqp⟩ := C.has p ep hep hnd (by rcases hlp with h | h <;> rw [h] <;> simp)
      have hbox := box_head (C.kind p ep qp hep hqp) hlp
      cases hn : g.nodes.length with
      | zero =>
        have := node?_lt (elem?_node?.1 hep)
        omega
      | succ f =>
        rw [hn] at h1
        rw [parentSize_box hps hep hnd hqp hbox] at h1
        rw [← size0_eq hep hqp] at h1
        have hEa := C.encC a p ⟨⟨ea, hea, hla⟩, fun h => by rw [h] at hc; cases hc⟩ hpb hcl
        show E i = E a
        rw [hEa]
        cases hz : size0 g p with
        | some z =>
          rw [hz] at h1
          simp only [M.ok.injEq] at h1
          rw [(C.enc p hpb).1 z hz, h1.1]
        | none =>
          rw [hz] at h1
          simp only at h1
          have h2 := parentSize_more g _ _ _ _ h1
          rw [← hn, (C.enc p hpb).2 hz] at h2
          simp only [M.ok.injEq, and_true] at h2
          exact h2.symm

/-- The size in force inside a peripheral. -/
theorem Coherent.enclP (C : Coherent g obj cls E hgt) {a : Nat} {ea : ElemNode} (ha : g.elem? a = some ea) (hl : ea.level = .device) (hi : BoxLike g i)
    (hc : i ∈ g.successors a) : E i = (size0 g i).getD 32 := by
  cases h0 : size0 g i with
  | some z => exact (C.enc i hi).1 z h0
  | none =>
    have h1 := (C.enc i hi).2 h0
    have hp := (C.parent a i).1 hc
    cases hps : g.elementParents i with
    | nil => rw [hps] at hp; cases hp
    | cons p rest =>
      have hpi : i ∈ g.successors p := (C.parent p i).2 (by rw [hps]; simp)
      obtain ⟨ep, ei, hep, hei, -⟩ := C.child p i hpi
      have hcl := C.up a p i i hc hpi rfl
      have hlev := (C.data a p ea ep ha hep hcl).1
      cases hn : g.nodes.length with
      | zero =>
        have := node?_lt (elem?_node?.1 hep)
        omega
      | succ f =>
        rw [hn, parentSize, hps] at h1
        simp only at h1
        rw [if_pos (by unfold Graph.hasLevel; rw [hep]; simp [← hlev, hl]), M.pure_eq_ok] at h1
        show E i = 32
        rw [h1.1]

end

/-- What is known at the end of the finalisation. -/
structure Ended (d : SDevice) (g : Graph) (lab : Nat → Pos) (cls : Nat → Nat) (E : Nat → Int) (hgt : Nat → Nat) (S : Nat → Int) (s : FinState) : Prop where
  acyclic : ∀ x, ¬ Precedes d x x
  tidy : Tidy d g lab
  co : Coherent g id cls E hgt
  fl : ∃ done, FL d (Nested d) g lab done s ∧ ∀ i e, g.elem? i = some e → i ∈ done
  cont : ∀ i e, g.elem? i = some e → live g i = true → NodeC g s i e
  root : ∀ ps, s.resolved = some ps → Picked g s (pickPeripheral s) 0 ps ∧ SortedBy periphKey ps
  elem : ∀ i e, g.elem? i = some e → s.g.elem? i = some { e with processed := headIn g (fun _ => True) S i e.processed }
  form : ∀ j, Boxed g j → S j = boxSize g S E j

section
variable {cls : Nat → Nat} {E : Nat → Int} {hgt : Nat → Nat} {S : Nat → Int}

theorem live_elem (h : live g i = true) : ∃ e, g.elem? i = some e ∧ e.isDimTemplate = false := by
  unfold live at h
  cases hg : g.elem? i with
  | none => rw [hg] at h; simp at h
  | some e => rw [hg] at h; exact ⟨e, rfl, by simpa using h⟩

/-- The size of a picked child. -/
theorem Ended.size (X : Ended d g lab cls E hgt S s) {c : Nat} {y : IRC} (h : PickOf s (pickRC s) c y) : givenSize y = fsize g S c := by
  obtain ⟨es, h1, h2⟩ := pickRC_head h
  obtain ⟨done, I, -⟩ := X.fl
  obtain ⟨e, h3, -⟩ := I.back _ _ h1
  have h4 := X.elem c e h3
  rw [h1] at h4
  injection h4 with h4
  subst h4
  simp only at h2
  have hg : givenSize y = sizeOfP (headOf y) := by cases y <;> rfl
  rw [hg]
  unfold fsize
  by_cases hb : Boxed g c
  · rw [if_pos hb]
    rw [headIn_some hb trivial] at h2
    obtain ⟨p, h5, h6⟩ := Option.map_eq_some_iff.1 h2
    rw [← h6, sizeOfP_withSize]
    have := X.tidy.lf X.acyclic |>.proc h3 h5
    intro hf
    obtain ⟨e', h7, -, h8⟩ := boxed_level hb
    rw [h3] at h7
    cases h7
    rw [hf] at this
    rw [← this] at h8
    simp at h8
  · rw [if_neg hb]
    rw [headIn_none (fun h => hb h.1)] at h2
    rw [size0_eq h3 h2]

/-- The size of a node with content. -/
theorem Ended.sized (X : Ended d g lab cls E hgt S s) {e : ElemNode} {encl : Int} (he : g.elem? i = some e) (hlv : live g i = true) (hl : e.level = .peripheral ∨ e.level = .cluster)
    (hE : BoxLike g i → E i = (size0 g i).getD encl) :
    SizedBy (size0 g i) encl (s.rcs i) (if g.successors i = [] then size0 g i else some (S i)) := by
  have N := X.cont i e he hlv
  obtain ⟨P, -⟩ := N.rcs hl
  have T := X.tidy
  by_cases hn : g.successors i = []
  · rw [if_pos hn]
    refine ⟨fun _ => rfl, fun h => ?_⟩
    obtain ⟨y, hy⟩ := List.exists_mem_of_ne_nil _ h
    obtain ⟨c, h1, -⟩ := P.sub y hy
    rw [hn] at h1
    cases h1
  · rw [if_neg hn]
    obtain ⟨c0, hc0⟩ := List.exists_mem_of_ne_nil _ hn
    have hb : Boxed g i := ⟨hlv, ⟨e, he, hl⟩, hn⟩
    obtain ⟨done, I, -⟩ := X.fl
    have hval : ∀ c y, PickOf s (pickRC s) c y → countsAs ((size0 g i).getD encl) y = valIn g S E i c := by
      intro c y hy
      unfold countsAs valIn
      rw [X.size hy, ← hE hb.like]
      cases fsize g S c <;> rfl
    refine ⟨fun h => ?_, fun _ => ⟨S i, rfl, fun y hy => ?_, ?_⟩⟩
    · obtain ⟨l, -, -, h3⟩ := T.live X.acyclic he (T.succ.1 hc0)
      obtain ⟨j, ej, h4, h5, h6⟩ := h3 (by rcases hl with h | h <;> rw [h] <;> simp)
      obtain ⟨x, h7, -⟩ := P.all j (T.succ.2 h4) (by rw [I.liveEq]; simp [live, h5, h6])
      rw [h] at h7
      cases h7
    · obtain ⟨c, h1, h2, h3⟩ := P.sub y hy
      rw [hval c y h3, X.form i hb]
      refine (le_maxList _ _).2 _ (List.mem_map.2 ⟨c, List.mem_filter.2 ⟨h1, ?_⟩, rfl⟩)
      rw [← I.liveEq]; exact h2
    · obtain ⟨e1, x, m, h1, h2, h3, h4⟩ := N.size hl hn
      have h5 := X.elem i e he
      rw [h1] at h5
      injection h5 with h5
      subst h5
      simp only at h2
      rw [headIn_some hb trivial] at h2
      obtain ⟨p, h6, h7⟩ := Option.map_eq_some_iff.1 h2
      have hm : S i = m := by
        have h8 := congrArg sizeOfP h7
        have hp := X.tidy.lf X.acyclic |>.proc he h6
        rw [sizeOfP_withSize _ (by rw [hp]; rcases hl with h | h <;> rw [h] <;> simp), sizeOfP_withSize _ (by rcases h3 with h | h <;> rw [h] <;> simp)] at h8
        exact Option.some.inj h8
      rcases maxList_mem (-1) (((g.successors i).filter (Svd.live g)).map (valIn g S E i)) with h | h
      · rw [← boxSize, ← X.form i hb, hm] at h
        exact absurd h h4
      · rw [← boxSize, ← X.form i hb] at h
        obtain ⟨c, h8, h9⟩ := List.mem_map.1 h
        obtain ⟨h10, h11⟩ := List.mem_filter.1 h8
        obtain ⟨y, h12, h13⟩ := P.all c h10 (by rw [I.liveEq]; exact h11)
        exact ⟨y, h12, by rw [hval c y h13]; exact h9⟩

theorem headIn_clu {c : IClusterHd} {h0 : Processed} (X : Ended d g lab cls E hgt S s) {e : ElemNode} (he : g.elem? i = some e) (hlv : live g i = true) (hp : e.processed = some h0)
    (h : headIn g (fun _ => True) S i e.processed = some (.clu c)) :
    ∃ hd, h0 = .clu hd ∧ c = { hd with props := { hd.props with size := if g.successors i = [] then size0 g i else some (S i) } } := by
  have hk := X.tidy.lf X.acyclic |>.proc he hp
  by_cases hb : Boxed g i
  · rw [headIn_some hb trivial, hp] at h
    rw [if_neg hb.2.2]
    cases h0 <;> simp [Processed.withSize] at h
    exact ⟨_, rfl, h.symm⟩
  · rw [headIn_none (fun h => hb h.1), hp] at h
    cases h
    refine ⟨c, rfl, ?_⟩
    have hn : g.successors i = [] := by
      by_contra hn
      exact hb ⟨hlv, ⟨e, he, Or.inr hk.symm⟩, hn⟩
    rw [if_pos hn, size0_eq he hp]
    exact (clu_self c rfl).symm

theorem headIn_periph {c : IPeripheralHd} {h0 : Processed} (X : Ended d g lab cls E hgt S s) {e : ElemNode} (he : g.elem? i = some e) (hlv : live g i = true) (hp : e.processed = some h0)
    (h : headIn g (fun _ => True) S i e.processed = some (.periph c)) :
    ∃ hd, h0 = .periph hd ∧ c = { hd with props := { hd.props with size := if g.successors i = [] then size0 g i else some (S i) } } := by
  have hk := X.tidy.lf X.acyclic |>.proc he hp
  by_cases hb : Boxed g i
  · rw [headIn_some hb trivial, hp] at h
    rw [if_neg hb.2.2]
    cases h0 <;> simp [Processed.withSize] at h
    exact ⟨_, rfl, h.symm⟩
  · rw [headIn_none (fun h => hb h.1), hp] at h
    cases h
    refine ⟨c, rfl, ?_⟩
    have hn : g.successors i = [] := by
      by_contra hn
      exact hb ⟨hlv, ⟨e, he, Or.inl hk.symm⟩, hn⟩
    rw [if_pos hn, size0_eq he hp]
    exact (periph_self c rfl).symm

end
end Svd
