import Verif.Lemmas.SpinRun
/-
A run of the resolver's main loop that does not end: the nodes of a round are processed.
-/
namespace Svd
open Graph Spec

section
variable {g g' : Graph} {i bb z h k q z' h' k' q' : Nat} {e : ElemNode} {p : Processed}

theorem Took.live (K : Took g g' i bb z h k q z' h' k' q' e p) {j : Nat} (hj : (g.node? j).isSome) : j ≠ z' ∧ j ≠ h' ∧ j ≠ k' ∧ j ≠ q' := by
  refine ⟨?_, ?_, ?_, ?_⟩ <;> rintro rfl
  · rw [K.cz.2] at hj; cases hj
  · rw [K.chh.2] at hj; cases hj
  · rw [K.ck.2] at hj; cases hj
  · rw [K.cq.2] at hj; cases hj

theorem Took.elem (K : Took g g' i bb z h k q z' h' k' q' e p) {j : Nat} {x : ElemNode} (hj : j ≠ i) (hx : g.elem? j = some x) : g'.elem? j = some x :=
  elem?_node?.2 (K.old j _ hj (elem?_node?.1 hx))

theorem Took.name (K : Took g g' i bb z h k q z' h' k' q' e p) {j : Nat} (he : g.elem? i = some e) (hj : IsE g j) : g'.nameOf j = g.nameOf j := by
  unfold Graph.nameOf
  by_cases hji : j = i
  · subst hji
    rw [K.own, he]
    rfl
  · obtain ⟨x, hx⟩ := hj
    rw [K.elem hji hx, hx]

theorem Took.done (K : Took g g' i bb z h k q z' h' k' q' e p) {j : Nat} (hj : IsE g j) (hji : j ≠ i) : g'.isProcessed j = g.isProcessed j := by
  obtain ⟨x, hx⟩ := hj
  unfold Graph.isProcessed
  rw [K.elem hji hx, hx]

/-- The child edges at an old node other than the processed one stay. -/
theorem Took.chAt (K : Took g g' i bb z h k q z' h' k' q' e p) {a : Nat} (ha : (g.node? a).isSome) (hai : a ≠ i) (b : Nat) : Ch g' a b ↔ Ch g a b := by
  rw [K.ch]
  constructor
  · rintro (h1 | ⟨h1, -⟩ | ⟨h1, -⟩)
    · exact h1
    · exact absurd h1 hai
    · exact absurd h1 (K.live ha).1
  · exact Or.inl

theorem Took.plAt (K : Took g g' i bb z h k q z' h' k' q' e p) {a : Nat} (ha : (g.node? a).isSome) (hai : a ≠ i) (b : Nat) : Pl g' a b ↔ Pl g a b := by
  rw [K.pl]
  have hl := K.live ha
  constructor
  · rintro (h1 | ⟨h1, -⟩ | ⟨h1, -⟩ | ⟨h1, -⟩ | ⟨h1, -⟩)
    · exact h1
    · exact absurd h1 hai
    · exact absurd h1 hl.2.1
    · exact absurd h1 hl.1
    · exact absurd h1 hl.2.2.2
  · exact Or.inl

/-- The placeholder edges into an old node stay. -/
theorem Took.plTo (K : Took g g' i bb z h k q z' h' k' q' e p) {b : Nat} (hb : (g.node? b).isSome) (a : Nat) : Pl g' a b ↔ Pl g a b := by
  rw [K.pl]
  have hl := K.live hb
  constructor
  · rintro (h1 | ⟨-, h1⟩ | ⟨-, h1⟩ | ⟨-, h1⟩ | ⟨-, h1⟩)
    · exact h1
    · exact absurd h1 hl.2.1
    · exact absurd h1 hl.1
    · exact absurd h1 hl.2.2.2
    · exact absurd h1 hl.2.2.1
  · exact Or.inl

theorem Tree.took {a0 z0 h0 k0 q0 : Nat} (ty : Typed g) (T : Tree g a0 z0 h0 k0 q0) (K : Took g g' i bb z h k q z' h' k' q' e p) (hi : IsE g i) (ha : a0 ≠ i) (hz : z0 ≠ i) (hk : k0 ≠ i) :
    Tree g' a0 z0 h0 k0 q0 := by
  obtain ⟨t1, t2, t3, t4, t5⟩ := T.kinds ty
  have hhi : h0 ≠ i := by rintro rfl; exact isE_notP hi t3
  have hqi : q0 ≠ i := by rintro rfl; exact isE_notP hi t5
  have s3 : (g.node? h0).isSome := by obtain ⟨x, hx⟩ := t3; rw [hx]; rfl
  have s5 : (g.node? q0).isSome := by obtain ⟨x, hx⟩ := t5; rw [hx]; rfl
  exact ⟨fun x => (K.chAt t1.some ha x).trans (T.ch x), fun x => (K.plAt t1.some ha x).trans (T.pl x), fun x => (K.chAt t2.some hz x).trans (T.zch x),
    fun x => (K.plAt t2.some hz x).trans (T.zpl x), fun x => (K.plAt s3 hhi x).trans (T.hpl x), fun x h1 => T.kch x ((K.chAt t4.some hk x).1 h1),
    fun x h1 => T.kpl x ((K.plAt t4.some hk x).1 h1), fun x => (K.plAt s5 hqi x).trans (T.qpl x), fun x h1 => T.zde x ((K.de _ _).1 h1).1,
    fun x h1 => T.kde x ((K.de _ _).1 h1).1⟩

theorem Frame.took (F : Frame g) (K : Took g g' i bb z h k q z' h' k' q' e p) (he : g.elem? i = some e) (h0 : i ≠ 0) (h1 : i ≠ 1) (h2 : i ≠ 2) (h3 : i ≠ 3) (h5 : i ≠ 5) :
    Frame g' := by
  have Fi := F.fit
  have hi : IsE g i := ⟨e, he⟩
  obtain ⟨t1, t2, t3, t4, t5⟩ := F.tree.kinds Fi.ty
  have e0 := (Fi.ty.tch _ _ ((F.top.top 1).2 rfl)).1
  have e1 := (Fi.ty.tch _ _ F.c12).1
  have p4 : (4 : Nat) ≠ i := by rintro rfl; exact isE_notP hi t3
  have p6 : (6 : Nat) ≠ i := by rintro rfl; exact isE_notP hi t5
  refine ⟨K.fit, ⟨fun j => (K.chAt e0.some (Ne.symm h0) j).trans (F.top.top j), by rw [K.name he e1]; exact F.top.name⟩, by rw [K.done e1 (Ne.symm h1)]; exact F.e1,
    K.elem (Ne.symm h2) F.e2, (K.chAt e1.some (Ne.symm h1) 2).2 F.c12, ?_, F.tree.took Fi.ty K hi (Ne.symm h2) (Ne.symm h3) (Ne.symm h5), K.elem (Ne.symm h3) F.e3,
    K.old _ _ p4 F.n4, K.elem (Ne.symm h5) F.e5, K.old _ _ p6 F.n6⟩
  intro j hj hm
  rw [K.chAt e1.some (Ne.symm h1)] at hj
  rw [K.name he (Fi.ty.tch _ _ hj).2] at hm
  exact F.m j hj hm

theorem Took.distinct (F : Fit g) (K : Took g g' i bb z h k q z' h' k' q' e p) (T : Tree g bb z h k q) :
    (IsE g' z' ∧ IsP g' h' ∧ IsE g' k' ∧ IsP g' q') ∧ z' ≠ k' ∧ z' ≠ h' ∧ z' ≠ q' ∧ k' ≠ h' ∧ k' ≠ q' ∧ h' ≠ q' := by
  obtain ⟨t1, t2, t3, t4, t5⟩ := T.kinds F.ty
  have isE : ∀ a b, g'.node? a = g.node? b → (IsE g' a ↔ IsE g b) ∧ (IsP g' a ↔ IsP g b) := by
    intro a b hab
    unfold IsE IsP
    constructor
    · constructor
      · rintro ⟨x, hx⟩; exact ⟨x, elem?_node?.2 (hab ▸ elem?_node?.1 hx)⟩
      · rintro ⟨x, hx⟩; exact ⟨x, elem?_node?.2 (hab ▸ elem?_node?.1 hx)⟩
    · rw [hab]
  have ez : IsE g' z' := (isE _ _ K.cz.1).1.2 t2
  have ph : IsP g' h' := (isE _ _ K.chh.1).2.2 t3
  have ek : IsE g' k' := (isE _ _ K.ck.1).1.2 t4
  have pq : IsP g' q' := (isE _ _ K.cq.1).2.2 t5
  have zk : z' ≠ k' := fun h1 => acyclic_loop K.fit.ac (i := z') ((K.ch _ _).2 (Or.inr (Or.inr ⟨rfl, h1⟩)))
  refine ⟨⟨ez, ph, ek, pq⟩, zk, ?_, ?_, ?_, ?_, ?_⟩
  · rintro h1; rw [h1] at ez; exact isE_notP ez ph
  · rintro h1; rw [h1] at ez; exact isE_notP ez pq
  · rintro h1; rw [h1] at ek; exact isE_notP ek ph
  · rintro h1; rw [h1] at ek; exact isE_notP ek pq
  · intro h1
    have a1 : Pl g' h' z' := (K.pl _ _).2 (Or.inr (Or.inr (Or.inl ⟨rfl, rfl⟩)))
    have a2 : Pl g' h' k' := (K.pl _ _).2 (Or.inr (Or.inr (Or.inr (Or.inr ⟨h1, rfl⟩))))
    exact zk (K.fit.held.outU _ _ _ ph a1 a2)

theorem Took.noCh (F : Fit g) {a b : Nat} (ha : g.node? a = none) : ¬ Ch g a b := by
  intro hab
  have := (F.ty.tch _ _ hab).1.some
  rw [ha] at this; cases this

theorem Took.noPl (F : Fit g) {a b : Nat} (ha : g.node? a = none) : ¬ Pl g a b ∧ ¬ Pl g b a := by
  constructor
  · intro hab
    have := (F.wf.edges_valid _ hab).1
    simp only at this
    rw [ha] at this; cases this
  · intro hab
    have := (F.wf.edges_valid _ hab).2
    simp only at this
    rw [ha] at this; cases this

/-- The copies. -/
theorem Took.sub (F : Fit g) (K : Took g g' i bb z h k q z' h' k' q' e p) (T : Tree g bb z h k q) (hi : IsE g i) :
    (∀ x, Ch g' z' x ↔ x = k') ∧ (∀ x, Pl g' z' x ↔ x = q') ∧ (∀ x, Pl g' h' x ↔ x = z') ∧ (∀ x, ¬ Ch g' k' x) ∧ (∀ x, ¬ Pl g' k' x) ∧
      (∀ x, Pl g' q' x ↔ x = k') ∧ (∀ x, Pl g' x z' ↔ x = h') ∧ (∀ x, Pl g' x k' ↔ x = q') := by
  obtain ⟨-, zk, zh, zq, kh, kq, hq⟩ := K.distinct F T
  obtain ⟨iz, ih, ik, iq⟩ := K.live hi.some
  refine ⟨fun x => ?_, fun x => ?_, fun x => ?_, fun x h1 => ?_, fun x h1 => ?_, fun x => ?_, fun x => ?_, fun x => ?_⟩
  · rw [K.ch]; have := Took.noCh F (b := x) K.cz.2; grind only
  · rw [K.pl]; have := Took.noPl F (b := x) K.cz.2; grind only
  · rw [K.pl]; have := Took.noPl F (b := x) K.chh.2; grind only
  · rw [K.ch] at h1; have := Took.noCh F (b := x) K.ck.2; grind only
  · rw [K.pl] at h1; have := Took.noPl F (b := x) K.ck.2; grind only
  · rw [K.pl]; have := Took.noPl F (b := x) K.cq.2; grind only
  · rw [K.pl]; have := Took.noPl F (b := x) K.cz.2; grind only
  · rw [K.pl]; have := Took.noPl F (b := x) K.ck.2; grind only

/-- The copy is of the same form. -/
theorem Took.copy (F : Fit g) (K : Took g g' i bb z h k q z' h' k' q' e p) (T : Tree g bb z h k q) (he : g.elem? i = some e) (hc : ∀ x, ¬ Ch g i x) (hp : ∀ x, ¬ Pl g i x) :
    Tree g' i z' h' k' q' := by
  obtain ⟨-, zk, zh, zq, kh, kq, hq⟩ := K.distinct F T
  have hi : IsE g i := ⟨e, he⟩
  obtain ⟨iz, ih, ik, iq⟩ := K.live hi.some
  obtain ⟨s1, s2, s3, s4, s5, s6, -, -⟩ := K.sub F T hi
  have nD : ∀ a b, g.node? b = none → ¬ De g a b := by
    intro a b ha hab
    have := (F.ty.tde _ _ hab).2.some
    rw [ha] at this; cases this
  refine ⟨fun x => ?_, fun x => ?_, s1, s2, s3, s4, s5, s6, fun x h1 => ?_, fun x h1 => ?_⟩
  · rw [K.ch]; have := hc x; grind only
  · rw [K.pl]; have := hp x; grind only
  · exact nD _ _ K.cz.2 ((K.de _ _).1 h1).1
  · exact nD _ _ K.ck.2 ((K.de _ _).1 h1).1

theorem Stuck.took (F : Fit g) (K : Took g g' i bb z h k q z' h' k' q' e p) (he : g.elem? i = some e) {r o d : Nat} (S : Stuck g r o d) (ho : o ≠ i) : Stuck g' r o d := by
  have hod := F.ty.tch _ _ S.od
  have hi : IsE g i := ⟨e, he⟩
  have hr : (g.node? r).isSome := (F.wf.edges_valid _ S.op).2
  have hri : r ≠ i := by
    rintro rfl
    rcases F.ty.tpl _ _ S.op with h1 | h1
    · exact isE_notP hi h1.2
    · exact isE_notP hod.1 h1.1
  refine ⟨(K.plAt hod.1.some ho r).2 S.op, (K.plAt hr hri d).2 S.pd, (K.chAt hod.1.some ho d).2 S.od, ?_⟩
  rcases S.why with h1 | ⟨h1, h2⟩
  · left; rw [K.done hod.1 ho]; exact h1
  · right
    refine ⟨K.old _ _ hri h1, fun j hj hjd => ?_⟩
    rw [K.chAt hod.1.some ho] at hj
    rw [K.name he (F.ty.tch _ _ hj).2]
    exact h2 j hj hjd
end

theorem two_list {l : List Nat} {y c : Nat} (hn : l.Nodup) (hm : ∀ j, j ∈ l ↔ j = y ∨ j = c) (hyc : y ≠ c) : l = [y, c] ∨ l = [c, y] := by
  cases l with
  | nil => have := (hm y).2 (Or.inl rfl); cases this
  | cons a l =>
    obtain ⟨h1, h2⟩ := List.nodup_cons.1 hn
    have ha := (hm a).1 (by simp)
    rcases ha with rfl | rfl
    · left
      have : l = [c] := by
        refine list_single h2 ?_ ?_
        · have := (hm c).2 (Or.inr rfl)
          rcases List.mem_cons.1 this with h3 | h3
          · exact absurd h3.symm hyc
          · exact h3
        · intro x hx
          rcases (hm x).1 (by simp [hx]) with h3 | h3
          · exact absurd (h3 ▸ hx) h1
          · exact h3
      rw [this]
    · right
      have : l = [y] := by
        refine list_single h2 ?_ ?_
        · have := (hm y).2 (Or.inl rfl)
          rcases List.mem_cons.1 this with h3 | h3
          · exact absurd h3 hyc
          · exact h3
        · intro x hx
          rcases (hm x).1 (by simp [hx]) with h3 | h3
          · exact h3
          · exact absurd (h3 ▸ hx) h1
      rw [this]

theorem Mid.ready {g : Graph} {prev : List Nat} {b y c k q : Nat} (S : Mid g prev b y c k q) : sortedProcessable g = [y, c] := by
  have yc : y ≠ c := by
    rintro rfl
    have := S.ey
    rw [S.ec] at this
    injection this with this
    revert this
    decide
  have Fi := S.frame.fit
  have py := processable_root S.ey rfl S.ly S.py
  have pc := processable_root S.ec rfl S.lc S.pc
  have uy : g.isUnprocessed y = true := by unfold Graph.isUnprocessed; rw [S.ey]; rfl
  have uc : g.isUnprocessed c = true := by unfold Graph.isUnprocessed; rw [S.ec]; rfl
  have hm : ∀ j, j ∈ sortedProcessable g ↔ j = y ∨ j = c := by
    intro j
    rw [sorted_mem Fi.ac]
    constructor
    · rintro ⟨h1, h2⟩
      unfold Graph.isUnprocessed at h2
      cases he : g.elem? j with
      | none => rw [he] at h2; cases h2
      | some e =>
        rw [he] at h2
        rcases S.wait j e he (by simpa using h2) with h3 | h3 | ⟨p, h3⟩
        · exact Or.inl h3
        · exact Or.inr h3
        · exact absurd h3 (processable_no_pl h1 p)
    · rintro (rfl | rfl)
      · exact ⟨py, uy⟩
      · exact ⟨pc, uc⟩
  rcases two_list sorted_sub.1 hm yc with h1 | h1
  · exact h1
  · exfalso
    have hrem : y ∈ (processableNodes g).filter g.isUnprocessed := List.mem_filter.2 ⟨py, uy⟩
    have := topoGo_order (l1 := []) (l2 := [y]) (i := c) (by
      have := h1
      unfold sortedProcessable Graph.topoSort at this
      exact this) ⟨y, c, .derive⟩ ((S.de y c).2 (Or.inr ⟨rfl, rfl⟩)) rfl hrem
    cases this

set_option maxHeartbeats 4000000 in
theorem Mid.step {ord : List Nat → List Nat} (hord : ∀ l, (ord l).Perm l) {g : Graph} {prev : List Nat} {b y c k q : Nat} (S : Mid g prev b y c k q) :
    ∃ g4 z2 h2 k2 q2, processNodes ord g [y, c] = .ok g4 [] ∧ Spin g4 [y, c] c k q z2 h2 k2 q2 := by
  have F := S.frame
  have Fi := F.fit
  have T := F.tree
  have hby : Ch g b y := Or.inr S.ly
  have hbc : Ch g b c := Or.inr S.lc
  have hck : Ch g c k := (S.ck k).2 rfl
  obtain ⟨t2, t3, t4, t5, t6⟩ := T.kinds Fi.ty
  have uy : g.isProcessed y = false := (done_raw S.ey).trans rfl
  have uc : g.isProcessed c = false := (done_raw S.ec).trans rfl
  have u2 : g.isProcessed 2 = true := (done_raw F.e2).trans rfl
  have u3 : g.isProcessed 3 = false := (done_raw F.e3).trans rfl
  have diff : ∀ {i j}, g.isProcessed i = false → g.isProcessed j = true → i ≠ j := by
    rintro i j h1 h2 rfl
    rw [h1] at h2
    cases h2
  have ch35 : Ch g 3 5 := (T.zch 5).2 rfl
  have y3 : y ≠ 3 := by rintro rfl; exact S.y1 _ ch35
  have y5 : y ≠ 5 := by rintro rfl; exact diff u3 S.eb (Fi.one _ _ _ ch35 hby)
  have b2 : b ≠ 2 := by rintro rfl; exact y3 ((T.ch y).1 hby)
  have c3 : c ≠ 3 := by rintro rfl; exact b2 (Fi.one _ _ _ hbc ((T.ch 3).2 rfl))
  have c5 : c ≠ 5 := by rintro rfl; exact diff u3 S.eb (Fi.one _ _ _ ch35 hbc)
  have y0 : y ≠ 0 := by rintro rfl; exact S.y1 _ ((F.top.top 1).2 rfl)
  have c0 : c ≠ 0 := by
    rintro rfl
    have h1 := (F.top.top k).1 hck
    subst h1
    exact S.k1 _ F.c12
  have y1 := diff uy F.e1
  have c1 := diff uc F.e1
  have y2 := diff uy u2
  have c2 := diff uc u2
  have yc : y ≠ c := by
    rintro rfl
    have := S.ey
    rw [S.ec] at this
    injection this with this
    revert this
    decide
  have ky : k ≠ y := by rintro rfl; exact diff uc S.eb (Fi.one _ _ _ hck hby)
  have kc : k ≠ c := by rintro rfl; exact acyclic_loop Fi.ac hck
  have pq : IsP g q := ⟨_, S.nq⟩
  have iy : IsE g y := ⟨_, S.ey⟩
  have ic : IsE g c := ⟨_, S.ec⟩
  have ik : IsE g k := ⟨_, S.ek⟩
  have qy : q ≠ y := by rintro rfl; exact isE_notP iy pq
  have qc : q ≠ c := by rintro rfl; exact isE_notP ic pq
  have sq : (g.node? q).isSome := by rw [S.nq]; rfl
  have q4 : q ≠ 4 := by rintro rfl; exact c2 (Fi.held.inU _ _ _ t4 ((S.cq 4).2 rfl) ((T.pl 4).2 rfl))
  -- `y`
  obtain ⟨g3, z1, h1, k1, q1, r1, K1⟩ := took hord (.clu prcK) Fi S.ey rfl ((S.de 2 y).2 (Or.inl ⟨rfl, rfl⟩)) (fun h => y3 ((T.ch y).1 h))
    (fun x h => absurd h (S.y1 x)) T
  have P1 : processNode ord g y = .ok g3 [] := by
    rw [process_K S.ey (b := 2) (fun a => ?_) F.e2, r1]
    rw [S.de]
    constructor
    · rintro (h | h)
      · exact h.1
      · exact absurd h.2 yc
    · rintro rfl; exact Or.inl ⟨rfl, rfl⟩
  have F3 := F.took K1 S.ey y0 y1 y2 y3 y5
  have Fi3 := F3.fit
  have T3 := K1.copy Fi T S.ey S.y1 S.y2
  obtain ⟨⟨ez1, ph1, ek1, pq1⟩, d1⟩ := K1.distinct Fi T
  have ec3 : g3.elem? c = some rawZ := K1.elem (Ne.symm yc) S.ec
  have ek3 : g3.elem? k = some rawK := K1.elem ky S.ek
  have ey3 : g3.elem? y = some doneK := K1.own
  have ic3 : IsE g3 c := ⟨_, ec3⟩
  have ik3 : IsE g3 k := ⟨_, ek3⟩
  have iy3 : IsE g3 y := ⟨_, ey3⟩
  have nq3 : g3.node? q = some (.ph (s%"P.M")) := K1.old _ _ qy S.nq
  have sq3 : (g3.node? q).isSome := by rw [nq3]; rfl
  have de3 : ∀ a a', De g3 a a' ↔ a = y ∧ a' = c := by
    intro a a'
    rw [K1.de, S.de]
    constructor
    · rintro ⟨h | h, h'⟩
      · exact absurd h h'
      · exact h
    · rintro ⟨rfl, rfl⟩
      exact ⟨Or.inr ⟨rfl, rfl⟩, fun h => y2 h.1⟩
  have ch3 : ∀ j, Ch g3 c j ↔ j = k := fun j => (K1.chAt ic.some (Ne.symm yc) j).trans (S.ck j)
  have pl3 : ∀ j, Pl g3 c j ↔ j = q := fun j => (K1.plAt ic.some (Ne.symm yc) j).trans (S.cq j)
  -- `c`
  obtain ⟨g4, z2, h2, k2, q2, r2, K2⟩ := took hord (.clu prcZ) Fi3 ec3 rfl ((de3 y c).2 ⟨rfl, rfl⟩) (fun h => (K1.live ic.some).1 ((T3.ch c).1 h))
    (fun x _ h => yc ((de3 _ _).1 h).1.symm) T3
  have P2 : processNode ord g3 c = .ok g4 [] := by
    rw [process_Z ec3 (b := y) (fun a => ?_) ey3, r2]
    rw [de3]
    exact ⟨fun h => h.1, fun h => ⟨h, rfl⟩⟩
  have F4 := F3.took K2 ec3 c0 c1 c2 c3 c5
  obtain ⟨⟨ez2, ph2, ek2, pq2⟩, d2⟩ := K2.distinct Fi3 T3
  obtain ⟨s1, s2, s3, s4, s5, s6, s7, s8⟩ := K2.sub Fi3 T3 ic3
  have ey4 : g4.elem? y = some doneK := K2.elem yc ey3
  have ec4 : g4.elem? c = some doneZ := K2.own
  have hc2 : Ch g4 c k := (K2.ch _ _).2 (Or.inl ((ch3 k).2 rfl))
  have hz2 : Ch g4 c z2 := (K2.ch _ _).2 (Or.inr (Or.inl ⟨rfl, rfl⟩))
  have nz2 : g4.node? z2 = some (.elem rawZ) := by rw [K2.cz.1, K1.cz.1]; exact elem?_node?.1 F.e3
  have nk2 : g4.node? k2 = some (.elem rawK) := by rw [K2.ck.1, K1.ck.1]; exact elem?_node?.1 F.e5
  have nh2 : g4.node? h2 = some (.ph (s%"K")) := by rw [K2.chh.1, K1.chh.1]; exact F.n4
  have nq2 : g4.node? q2 = some (.ph (s%"P.M")) := by rw [K2.cq.1, K1.cq.1]; exact F.n6
  have ek4 : g4.elem? k = some rawK := K2.elem kc ek3
  have eE : ∀ {G : Graph} {j}, IsE G j → IsP G j → False := fun h1 h2 => isE_notP h1 h2
  -- nodes of the copy in `y`
  have z1c : z1 ≠ c := Ne.symm (K1.live ic.some).1
  have h1c : h1 ≠ c := Ne.symm (K1.live ic.some).2.1
  have k1c : k1 ≠ c := Ne.symm (K1.live ic.some).2.2.1
  have q1c : q1 ≠ c := Ne.symm (K1.live ic.some).2.2.2
  have T4 : Tree g4 y z1 h1 k1 q1 := T3.took Fi3.ty K2 ic3 yc z1c k1c
  have Q : processNodes ord g [y, c] = .ok g4 [] := by
    unfold processNodes
    rw [P1]
    show M.bind (M.pure g3) _ = _
    rw [M.pure_bind]
    unfold processNodes
    rw [P2]
    rfl
  refine ⟨g4, z2, h2, k2, q2, Q, ⟨F4, ?_, (done_raw ec4).trans rfl, ek4, elem?_node?.2 nz2, elem?_node?.2 nk2, K2.old _ _ qc nq3, nh2, nq2,
    K2.cr _ hc2, K2.cr _ hz2, ?_, ?_, ?_, s7, s1, s2, s8, ?_, ?_, s4, s5, ?_, ?_, ?_, ?_, ?_⟩⟩
  · intro a a' h
    rw [K2.de, de3] at h
    exact h.2 h.1
  · exact (K2.pl _ _).2 (Or.inl ((pl3 q).2 rfl))
  · exact (K2.pl _ _).2 (Or.inr (Or.inl ⟨rfl, rfl⟩))
  · intro j
    exact (K2.plTo ik3.some j).trans ((K1.plTo ik.some j).trans (S.qk j))
  · intro j h
    exact S.k1 j ((K1.chAt ik.some ky j).1 ((K2.chAt ik3.some kc j).1 h))
  · intro j h
    exact S.k2 j ((K1.plAt ik.some ky j).1 ((K2.plAt ik3.some kc j).1 h))
  · intro j h
    rw [K2.ch] at h
    rcases h with h | ⟨-, rfl⟩ | ⟨h, -⟩
    · have := (ch3 j).1 h
      subst this
      refine ⟨?_, fun _ => rfl⟩
      unfold Graph.nameOf
      rw [ek4]
      decide
    · unfold Graph.nameOf
      rw [elem?_node?.2 nz2]
      exact ⟨by decide, fun h => absurd h (by decide)⟩
    · exact absurd h (K2.live ic3.some).1
  · intro j e he hu
    have hj : (g4.node? j).isSome := by rw [elem?_node?.1 he]; rfl
    rcases K2.only j hj with h3 | rfl | rfl | rfl | rfl
    · have jc : j ≠ c := by
        rintro rfl
        rw [ec4] at he
        injection he with he
        subst he
        cases hu
      have jy : j ≠ y := by
        rintro rfl
        rw [ey4] at he
        injection he with he
        subst he
        cases hu
      obtain ⟨n, hn⟩ := Option.isSome_iff_exists.1 h3
      have hn4 := K2.old _ _ jc hn
      rw [elem?_node?.1 he] at hn4
      injection hn4 with hn4
      subst hn4
      have up : ∀ p, Pl g3 p j → ∃ p, Pl g4 p j := fun p hp => ⟨p, (K2.pl _ _).2 (Or.inl hp)⟩
      rcases K1.only j h3 with h5 | rfl | rfl | rfl | rfl
      · obtain ⟨n, hn5⟩ := Option.isSome_iff_exists.1 h5
        have hn3 := K1.old _ _ jy hn5
        rw [hn] at hn3
        injection hn3 with hn3
        subst hn3
        rcases S.wait j e (elem?_node?.2 hn5) hu with h6 | h6 | ⟨p, h6⟩
        · exact absurd h6 jy
        · exact absurd h6 jc
        · exact up p ((K1.pl _ _).2 (Or.inl h6))
      · exact up h1 ((T3.hpl j).2 rfl)
      · exact (eE ⟨_, elem?_node?.2 hn⟩ ph1).elim
      · exact up q1 ((T3.qpl j).2 rfl)
      · exact (eE ⟨_, elem?_node?.2 hn⟩ pq1).elim
    · exact ⟨h2, (s3 j).2 rfl⟩
    · exact (eE ⟨_, he⟩ ph2).elim
    · exact ⟨q2, (s6 j).2 rfl⟩
    · exact (eE ⟨_, he⟩ pq2).elim
  · intro p hp
    obtain ⟨path, hn⟩ := hp
    rcases K2.only p (by rw [hn]; rfl) with h3 | rfl | rfl | rfl | rfl
    · obtain ⟨n, hn3⟩ := Option.isSome_iff_exists.1 h3
      have pc : p ≠ c := by
        rintro rfl
        rw [elem?_node?.1 ec4] at hn
        injection hn with hn
        cases hn
      have py : p ≠ y := by
        rintro rfl
        rw [elem?_node?.1 ey4] at hn
        injection hn with hn
        cases hn
      have hn4 := K2.old _ _ pc hn3
      rw [hn] at hn4
      injection hn4 with hn4
      subst hn4
      rcases K1.only p h3 with h5 | rfl | rfl | rfl | rfl
      · obtain ⟨n, hn5⟩ := Option.isSome_iff_exists.1 h5
        have hn6 := K1.old _ _ py hn5
        rw [hn3] at hn6
        injection hn6 with hn6
        subst hn6
        by_cases hpq : p = q
        · exact Or.inl hpq
        · rcases S.dead p ⟨_, hn5⟩ with h6 | ⟨o, d, h6⟩
          · exact absurd h6 hpq
          · refine Or.inr (Or.inr (Or.inr ⟨o, d, ?_⟩))
            have oy : o ≠ y := by rintro rfl; exact S.y2 _ h6.op
            have oc : o ≠ c := by rintro rfl; exact hpq ((S.cq p).1 h6.op)
            exact (h6.took Fi K1 S.ey oy).took Fi3 K2 ec3 oc
      · exact (eE ez1 ⟨_, hn3⟩).elim
      · refine Or.inr (Or.inr (Or.inr ⟨y, z1, (T4.pl p).2 rfl, (T4.hpl z1).2 rfl, (T4.ch z1).2 rfl, Or.inr ⟨?_, ?_⟩⟩))
        · exact K2.old _ _ pc (by rw [K1.chh.1]; exact F.n4)
        · intro j hj hjz
          exact absurd ((T4.ch j).1 hj) hjz
      · exact (eE ek1 ⟨_, hn3⟩).elim
      · refine Or.inr (Or.inr (Or.inr ⟨z1, k1, (T4.zpl p).2 rfl, (T4.qpl k1).2 rfl, (T4.zch k1).2 rfl, Or.inl ?_⟩))
        have : g4.elem? z1 = some rawZ := K2.elem z1c (elem?_node?.2 (by rw [K1.cz.1]; exact elem?_node?.1 F.e3))
        exact (done_raw this).trans rfl
    · exact (eE ez2 ⟨_, hn⟩).elim
    · exact Or.inr (Or.inl rfl)
    · exact (eE ek2 ⟨_, hn⟩).elim
    · exact Or.inr (Or.inr (Or.inl rfl))
  · obtain ⟨L, hL⟩ := S.first
    obtain ⟨La, hLa⟩ := K1.phs
    obtain ⟨Lb, hLb⟩ := K2.phs
    have hqL : q ∈ L := by
      have : q ∈ g.placeholders := (Fi.listed.2 q).2 pq
      rw [hL] at this
      exact (List.mem_cons.1 this).resolve_left q4
    obtain ⟨A, B, hAB⟩ := List.append_of_mem hqL
    have hhL : h2 ∈ Lb := by
      have h5 : h2 ∈ g4.placeholders := (K2.fit.listed.2 h2).2 ph2
      rw [hLb] at h5
      rcases List.mem_append.1 h5 with h6 | h6
      · obtain ⟨path, h7⟩ := (Fi3.listed.2 h2).1 h6
        rw [K2.chh.2] at h7
        cases h7
      · exact h6
    obtain ⟨C, D, hCD⟩ := List.append_of_mem hhL
    refine ⟨A, B ++ La ++ C, D, ?_⟩
    rw [hLb, hLa, hL, hAB, hCD]
    simp
  · intro i hi
    simp only [List.mem_cons, List.not_mem_nil, or_false] at hi
    rcases hi with rfl | rfl
    · exact (done_raw ey4).trans rfl
    · exact (done_raw ec4).trans rfl

theorem Spin.endless {ord : List Nat → List Nat} (hord : ∀ l, (ord l).Perm l) (fuel : Nat) : ∀ {g : Graph} {prev : List Nat} {b y x c h k q : Nat},
    Spin g prev b y x c h k q → rounds ord fuel g prev = .err .outOfFuel := by
  induction fuel with
  | zero => intro g prev b y x c h k q _; rfl
  | succ f ih =>
    intro g prev b y x c h k q S
    obtain ⟨g2, hr, M2⟩ := S.resolve
    obtain ⟨g4, z2, h2, k2, q2, hp, S'⟩ := M2.step hord
    unfold rounds
    rw [hr]
    show M.bind (M.pure g2) _ = _
    rw [M.pure_bind]
    simp only [M2.ready]
    rw [if_neg (by simp), if_neg, hp]
    · show M.bind (M.pure g4) _ = _
      rw [M.pure_bind]
      exact ih S'
    · intro h1
      have h3 := M2.prev y (by rw [← h1]; simp)
      rw [done_raw M2.ey] at h3
      cases h3

end Svd
