import Verif.Lemmas.Tidy
import Verif.Model.Heap
/-
Which nodes refer to the same object, during the main loop.
-/
namespace Svd
open Graph Spec

/-- The children of a node, newest first. -/
def kidsIn (es : List Edge) (a : Nat) : List Nat := ((chs es).filter fun p => p.1 == a).map (·.2)

theorem mem_kidsIn {es : List Edge} {a b : Nat} : b ∈ kidsIn es a ↔ (a, b) ∈ chs es := by
  unfold kidsIn
  simp only [List.mem_map, List.mem_filter, beq_iff_eq]
  constructor
  · rintro ⟨⟨x, y⟩, ⟨h1, h2⟩, h3⟩
    simp only at h2 h3
    rw [← h2, ← h3]
    exact h1
  · intro h
    exact ⟨(a, b), ⟨h, rfl⟩, rfl⟩

theorem ch_kidsIn {g : Graph} {a b : Nat} : b ∈ kidsIn g.edges a ↔ Ch g a b := by rw [mem_kidsIn, ch_chs]

theorem kidsIn_append (xs ys : List Edge) (a : Nat) : kidsIn (xs ++ ys) a = kidsIn xs a ++ kidsIn ys a := by
  unfold kidsIn
  rw [chs_append, List.filter_append, List.map_append]

theorem kidsIn_reverse (xs : List Edge) (a : Nat) : kidsIn xs.reverse a = (kidsIn xs a).reverse := by
  unfold kidsIn
  rw [chs_reverse, List.filter_reverse, List.map_reverse]

theorem kidsIn_nil {es : List Edge} {a : Nat} (h : ∀ e ∈ es, isChildEdge e = true → e.src ≠ a) : kidsIn es a = [] := by
  rw [List.eq_nil_iff_forall_not_mem]
  intro b hb
  obtain ⟨e, he, h1, -, h2⟩ := mem_chs.1 (mem_kidsIn.1 hb)
  exact h e he h2 h1

theorem kidsIn_addEdges {g g' : Graph} {es : List Edge} {ws : List Warn} {a : Nat} (h : g.addEdges es = .ok g' ws)
    (hn : ∀ e ∈ es, isChildEdge e = true → e.src ≠ a) : kidsIn g'.edges a = kidsIn g.edges a := by
  rw [(addEdges_nodes h).2.2.2.1, kidsIn_append, kidsIn_reverse, kidsIn_nil hn]
  rfl

theorem kidsIn_replicateEdges {m : List (Nat × Nat)} {sel : List Nat} {a : Nat} {is : List Nat} : ∀ {g g' : Graph} {ws : List Warn},
    replicateEdges m sel g is = .ok g' ws → (∀ i ∈ is, mapIdx m i ≠ a) → kidsIn g'.edges a = kidsIn g.edges a := by
  induction is with
  | nil =>
    intro g g' ws hr _
    simp only [replicateEdges, M.pure_eq_ok] at hr
    rw [hr.1]
  | cons i is ih =>
    intro g g' ws hr hn
    simp only [replicateEdges, M.bind_eq_ok] at hr
    obtain ⟨g1, w1, w2, h1, ⟨g2, w3, w4, h2, h3, -⟩, -⟩ := hr
    rw [ih h3 (fun j hj => hn j (List.mem_cons_of_mem _ hj)), kidsIn_addEdges h2, kidsIn_addEdges h1]
    · intro e he _
      obtain ⟨e0, -, rfl⟩ := List.mem_map.1 he
      exact hn i (by simp)
    · intro e he hc
      obtain ⟨e0, h0, rfl⟩ := List.mem_map.1 he
      have h0 := (List.mem_filter.1 h0).2
      simp only [beq_iff_eq] at h0
      rw [h0] at hc
      cases hc

theorem kidsIn_replicate {ord : List Nat → List Nat} (hord : ∀ l, (ord l).Perm l) {g g' : Graph} {src tgt a : Nat} {ws : List Warn} (h : WF g)
    (hr : g.replicateDescendants ord src tgt = .ok g' ws) (ha : (g.node? a).isSome) (hne : a ≠ tgt) : kidsIn g'.edges a = kidsIn g.edges a := by
  unfold Graph.replicateDescendants at hr
  simp only [M.bind_eq_ok] at hr
  obtain ⟨⟨g1, m⟩, w1, w2, h1, ⟨g2, w3, w4, h2, h3, rfl⟩, rfl⟩ := hr
  obtain ⟨a1, b1, c1, d1, -⟩ := replicateNodes_wf h h1 (by simp)
  obtain ⟨m2, q1, q2, q3, q4, q5⟩ := replicateNodes_effect h h1
  simp only [List.nil_append] at q1
  subst q1
  have hnd : (ord (g.descendants src)).Nodup := by
    rw [(hord _).nodup_iff]
    unfold Graph.descendants
    exact (nodup_rangeFrom _ _).1.filter _
  rw [kidsIn_addEdges h3, kidsIn_replicateEdges h2, d1]
  · intro i hi hc
    rw [← q2] at hi
    obtain ⟨⟨x, b⟩, hp, rfl⟩ := List.mem_map.1 hi
    have := lookup_of_nodup (by rw [q2]; exact hnd) hp
    unfold Graph.mapIdx at hc
    simp only [this, Option.getD_some] at hc
    have := q4 _ hp
    simp only at this
    rw [hc] at this
    rw [this] at ha
    cases ha
  · intro e he _
    obtain ⟨e0, -, rfl⟩ := List.mem_map.1 he
    exact fun h => hne h.symm

theorem chs_erase {a b : Nat} : ∀ {es : List Edge}, (∀ e ∈ es, e.src = a → e.dst = b → isChildEdge e = false) → chs (eraseEdge a b es) = chs es
  | [], _ => rfl
  | e :: es, h => by
    rw [eraseEdge]
    split
    · rename_i hc
      simp only [Bool.and_eq_true, beq_iff_eq] at hc
      rw [chs_cons_neg (h e (by simp) hc.1 hc.2)]
    · cases hc : isChildEdge e with
      | true => rw [chs_cons_pos hc, chs_cons_pos hc, chs_erase fun x hx => h x (List.mem_cons_of_mem _ hx)]
      | false => rw [chs_cons_neg hc, chs_cons_neg hc, chs_erase fun x hx => h x (List.mem_cons_of_mem _ hx)]

theorem kidsIn_erase {g : Graph} {a b k : Nat} (h : ¬ Ch g a b) : kidsIn (eraseEdge a b g.edges) k = kidsIn g.edges k := by
  unfold kidsIn
  rw [chs_erase]
  intro e he h1 h2
  cases hc : isChildEdge e with
  | false => rfl
  | true => exact absurd (ch_iff.2 ⟨e, he, h1, h2, hc⟩) h

theorem kidsIn_adoptBase {ord : List Nat → List Nat} (hord : ∀ l, (ord l).Perm l) {g g' : Graph} {i k : Nat} {bn : Option Nat} {ws : List Warn} (hw : WF g)
    (hb : ∀ b, bn = some b → ¬ Ch g b i) (hr : adoptBase ord g i bn = .ok g' ws) (hk : (g.node? k).isSome) (hne : k ≠ i) :
    kidsIn g'.edges k = kidsIn g.edges k := by
  cases bn with
  | none =>
    simp only [adoptBase, M.pure_eq_ok] at hr
    rw [hr.1]
  | some b =>
    simp only [adoptBase, M.bind_eq_ok] at hr
    obtain ⟨g1, w1, w2, h1, h2, -⟩ := hr
    obtain ⟨rfl, -, -⟩ := removeEdge_ok h1
    have hw1 : WF { g with edges := eraseEdge b i g.edges } := hw.of_eq rfl rfl (fun e he => Or.inl (eraseEdge_sub he))
    rw [kidsIn_replicate hord hw1 h2 hk hne]
    exact kidsIn_erase (hb b rfl)

/-- Only the edges of the node itself change their type. -/
theorem kidsIn_resolveChildEdges {i k : Nat} {cs : List Nat} (hk : k ≠ i) : ∀ {g : Graph}, kidsIn (resolveChildEdges i g cs).edges k = kidsIn g.edges k := by
  have one : ∀ (c : Nat) (es : List Edge), kidsIn (retypeEdge i c .childR es) k = kidsIn es k := by
    intro c es
    induction es with
    | nil => rfl
    | cons e es ih =>
      rw [retypeEdge]
      split
      · rename_i hc
        simp only [Bool.and_eq_true, beq_iff_eq] at hc
        have h1 : kidsIn [(⟨i, c, .childR⟩ : Edge)] k = [] := kidsIn_nil (by simpa using fun _ h => hk h.symm)
        have h2 : kidsIn [e] k = [] := kidsIn_nil (by simpa using fun _ h => hk (by rw [← h, hc.1]))
        rw [show e :: es = [e] ++ es from rfl, kidsIn_append, h2]
        refine (kidsIn_append [(⟨_, _, .childR⟩ : Edge)] es k).trans ?_
        congr 1
        refine kidsIn_nil ?_
        intro x hx _ h
        simp only [List.mem_singleton] at hx
        subst hx
        simp only at h
        exact hk (by rw [← h]; exact hc.1)
      · rw [show e :: es = [e] ++ es from rfl, kidsIn_append, ← ih]
        exact kidsIn_append [e] _ k
  induction cs with
  | nil => intro g; rfl
  | cons c cs ih =>
    intro g
    rw [resolveChildEdges, ih]
    exact one c g.edges

theorem kidsIn_updateNode {ord : List Nat → List Nat} (hord : ∀ l, (ord l).Perm l) {g g' : Graph} {i k : Nat} {bn : Option Nat} {p : Processed} {t : Bool}
    {ws : List Warn} (hw : WF g) (hb : ∀ b, bn = some b → ¬ Ch g b i) (hr : updateNode ord g i bn p t = .ok g' ws) (hk : (g.node? k).isSome) (hne : k ≠ i) :
    kidsIn g'.edges k = kidsIn g.edges k := by
  obtain ⟨g1, e1, h1, h2, h3, rfl⟩ := updateNode_ok hr
  rw [kidsIn_resolveChildEdges hne]
  have := kidsIn_adoptBase (k := k) hord hw hb h1 hk hne
  exact this

/-! ### instances of a dim element -/

theorem addInstances_chs {lvl : Level} {p : Parsed} {xs : List (Nat × Processed)} : ∀ {g g' : Graph} {js : List Nat} {ws : List Warn},
    addInstances lvl p g xs = .ok (g', js) ws → chs g'.edges = ((js.zip xs).map fun y => (y.2.1, y.1)).reverse ++ chs g.edges := by
  induction xs with
  | nil =>
    intro g g' js ws hr
    simp only [addInstances, M.pure_eq_ok, Prod.mk.injEq] at hr
    obtain ⟨⟨rfl, rfl⟩, -⟩ := hr
    rfl
  | cons x xs ih =>
    intro g g' js ws hr
    obtain ⟨par, x⟩ := x
    simp only [addInstances, M.bind_eq_ok, M.pure_eq_ok, Prod.mk.injEq] at hr
    obtain ⟨⟨g1, j⟩, w1, w2, h1, ⟨⟨g2, js2⟩, w3, w4, h2, ⟨⟨rfl, rfl⟩, -⟩, -⟩, -⟩ := hr
    obtain ⟨h3, h4, -, -⟩ := addElementChild_ok h1
    rw [ih h2, h4]
    show _ ++ chs (_ :: (g.addNode _).1.edges) = _
    rw [chs_cons_pos rfl, addNode_edges]
    simp

theorem linkInstances_kids {i : Nat} {js : List Nat} : ∀ {g g' : Graph} {ws : List Warn}, linkInstances i g js = .ok g' ws → i ∉ js → js.Nodup →
    ∀ k, kidsIn g'.edges k = if k ∈ js then (g.elementChildren i).reverse ++ kidsIn g.edges k else kidsIn g.edges k := by
  induction js with
  | nil =>
    intro g g' ws hr _ _ k
    simp only [linkInstances, M.pure_eq_ok] at hr
    rw [hr.1]
    rfl
  | cons j js ih =>
    intro g g' ws hr hi hnd k
    simp only [linkInstances, M.bind_eq_ok] at hr
    obtain ⟨g1, w1, w2, h1, h2, -⟩ := hr
    obtain ⟨n1, -, f1, e1, -⟩ := linkChildren_nodes h1
    rw [List.nodup_cons] at hnd
    have hij : i ≠ j := fun h => hi (by simp [h])
    have hel : g1.elementChildren i = g.elementChildren i := by
      unfold Graph.elementChildren Graph.outEdges
      have hE : ∀ k, g1.isElem k = g.isElem k := by
        intro k
        unfold Graph.isElem Graph.elem?
        rw [node?_congr n1]
      rw [e1, List.filter_append, List.filter_append, List.map_append]
      have : ((g.elementChildren i).map fun c => (⟨j, c, .childR⟩ : Edge)).reverse.filter (fun e => e.src == i) = [] := by
        rw [List.filter_eq_nil_iff]
        intro e he
        obtain ⟨c, -, rfl⟩ := List.mem_map.1 (List.mem_reverse.1 he)
        simpa using fun h => hij h.symm
      rw [this]
      simp only [List.filter_nil, List.map_nil, List.nil_append]
      congr 1
      exact List.filter_congr fun e _ => by rw [hE]
    rw [ih h2 (fun h => hi (by simp [h])) hnd.2 k, hel, e1, kidsIn_append]
    have hall : ∀ cs : List Nat, kidsIn ((cs.map fun c => (⟨j, c, .childR⟩ : Edge)).reverse) k = if k = j then cs.reverse else [] := by
      intro cs
      split
      · rename_i h
        subst h
        rw [kidsIn_reverse]
        congr 1
        induction cs with
        | nil => rfl
        | cons c cs ih =>
          rw [List.map_cons]
          refine (kidsIn_append [_] _ k).trans ?_
          rw [ih]
          unfold kidsIn
          rw [chs_cons_pos rfl]
          simp [chs]
      · rename_i h
        refine kidsIn_nil ?_
        intro e he _ hc
        obtain ⟨c, -, rfl⟩ := List.mem_map.1 (List.mem_reverse.1 he)
        exact h hc.symm
    rw [hall]
    by_cases hk : k = j
    · subst hk
      rw [if_neg hnd.1, if_pos rfl, if_pos (by simp)]
    · by_cases hm : k ∈ js
      · rw [if_pos hm, if_neg hk, if_pos (by simp [hm])]
        rfl
      · rw [if_neg hm, if_neg hk, if_neg (by simp [hm, hk])]
        rfl

/-- The nodes made for one parent. -/
theorem zip_block {α : Type} {a : Nat} (xs : List α) {pars : List Nat} : ∀ {js : List Nat}, pars.Nodup → js.length = (pars.flatMap fun p => xs.map fun x => (p, x)).length →
    (((js.zip (pars.flatMap fun p => xs.map fun x => (p, x))).filter fun y => y.2.1 == a).map (·.1)) =
      if a ∈ pars then (js.drop (pars.idxOf a * xs.length)).take xs.length else [] := by
  induction pars with
  | nil => intro js _ _; simp
  | cons p pars ih =>
    intro js hn hl
    rw [List.nodup_cons] at hn
    rw [List.flatMap_cons] at hl ⊢
    rw [List.length_append, List.length_map] at hl
    have hjs : js = js.take xs.length ++ js.drop xs.length := (List.take_append_drop _ _).symm
    have h1 : (js.take xs.length).length = (xs.map fun x => (p, x)).length := by
      rw [List.length_take, List.length_map]; omega
    have h2 : (js.drop xs.length).length = (pars.flatMap fun p => xs.map fun x => (p, x)).length := by
      rw [List.length_drop]; omega
    have hz : js.zip ((xs.map fun x => (p, x)) ++ (pars.flatMap fun p => xs.map fun x => (p, x))) =
        (js.take xs.length).zip (xs.map fun x => (p, x)) ++ (js.drop xs.length).zip (pars.flatMap fun p => xs.map fun x => (p, x)) := by
      conv => lhs; rw [hjs]
      exact List.zip_append h1
    rw [hz, List.filter_append, List.map_append, ih hn.2 h2]
    have hsrc : ∀ y ∈ (js.take xs.length).zip (xs.map fun x => (p, x)), y.2.1 = p := by
      intro y hy
      obtain ⟨j, q⟩ := y
      obtain ⟨x, -, h⟩ := List.mem_map.1 (List.of_mem_zip hy).2
      simp only
      rw [← h]
    by_cases hp : p = a
    · subst hp
      rw [if_neg hn.1, if_pos (by simp), List.append_nil, List.idxOf_cons_self, Nat.zero_mul, List.drop_zero]
      rw [List.filter_eq_self.2 (fun y hy => by simpa using hsrc y hy)]
      exact List.map_fst_zip (Nat.le_of_eq h1)
    · rw [List.filter_eq_nil_iff.2 (fun y hy => by simp only [beq_iff_eq]; rw [hsrc y hy]; exact hp)]
      by_cases hm : a ∈ pars
      · rw [if_pos hm, if_pos (by simp [hm]), List.drop_drop]
        have : (p :: pars).idxOf a = pars.idxOf a + 1 := by
          rw [List.idxOf_cons, beq_eq_false_iff_ne.2 hp]
          rfl
        rw [this, Nat.add_mul, Nat.one_mul, Nat.add_comm]
        rfl
      · rw [if_neg hm, if_neg (by simp [hm]; exact fun h => hp h.symm)]
        rfl

/-! ### the invariant -/

/-- The nodes that refer to the same object: they have the same data and the same objects below them; a node that is not
processed shares with nothing; and their parents have a child in common. -/
structure Shares (g : Graph) (obj : Nat → Nat) : Prop where
  same : ∀ a b, obj a = obj b → g.elem? a = g.elem? b
  kids : ∀ a b, obj a = obj b → (kidsIn g.edges a).map obj = (kidsIn g.edges b).map obj
  own : ∀ a b, obj a = obj b → ¬ Done g a → a = b
  idem : ∀ a, obj (obj a) = obj a
  kin : ∀ a b, obj a = obj b → a = b ∨ ∃ p p' c, Ch g p a ∧ Ch g p' b ∧ Ch g p c ∧ Ch g p' c

theorem Shares.both {g : Graph} {obj : Nat → Nat} (S : Shares g obj) {a b : Nat} (h : obj a = obj b) : a = b ∨ (Done g a ∧ Done g b) := by
  by_cases ha : Done g a
  · by_cases hb : Done g b
    · exact Or.inr ⟨ha, hb⟩
    · exact Or.inl (S.own b a h.symm hb).symm
  · exact Or.inl (S.own a b h ha)

theorem Shares.self {g : Graph} {obj : Nat → Nat} (S : Shares g obj) {a : Nat} (h : ¬ Done g a) : obj a = a :=
  (S.own a (obj a) (S.idem a).symm h).symm

theorem shares_id (g : Graph) : Shares g id :=
  ⟨fun a b h => congrArg g.elem? (show a = b from h), fun a b h => congrArg (fun k => (kidsIn g.edges k).map id) (show a = b from h), fun _ _ h _ => h, fun _ => rfl, fun _ _ h => Or.inl h⟩

theorem Shares.grow {g g' : Graph} {obj : Nat → Nat} (S : Shares g obj) (h1 : ∀ a, Done g a → g'.elem? a = g.elem? a)
    (h2 : ∀ a, Done g a → kidsIn g'.edges a = kidsIn g.edges a) (h3 : ∀ a b, Ch g a b → Ch g' a b) : Shares g' obj := by
  refine ⟨?_, ?_, ?_, S.idem, ?_⟩
  · intro a b h
    rcases S.both h with rfl | ⟨ha, hb⟩
    · rfl
    · rw [h1 a ha, h1 b hb, S.same a b h]
  · intro a b h
    rcases S.both h with rfl | ⟨ha, hb⟩
    · rfl
    · rw [h2 a ha, h2 b hb, S.kids a b h]
  · intro a b h hn
    refine S.own a b h fun hd => hn ?_
    obtain ⟨e, he, hp⟩ := hd
    exact ⟨e, by rw [h1 a ⟨e, he, hp⟩]; exact he, hp⟩
  · intro a b h
    rcases S.kin a b h with h | ⟨p, p', c, k1, k2, k3, k4⟩
    · exact Or.inl h
    · exact Or.inr ⟨p, p', c, h3 _ _ k1, h3 _ _ k2, h3 _ _ k3, h3 _ _ k4⟩

/-! ### positions in a list without repetitions -/

theorem share_in {obj : Nat → Nat} {n : Nat} {js : List Nat} (hnd : js.Nodup) {p : Nat} (hp : p < js.length) (hn : 0 < n) :
    ∃ h : p % n < js.length, shareInstances obj n js (js[p]) = js[p % n] := by
  have hlt : p % n < js.length := Nat.lt_of_le_of_lt (Nat.mod_le _ _) hp
  refine ⟨hlt, ?_⟩
  unfold shareInstances
  rw [if_pos (by simp), hnd.idxOf_getElem]
  rw [List.getElem?_eq_getElem hlt]
  rfl

theorem share_out {obj : Nat → Nat} {n : Nat} {js : List Nat} {a : Nat} (h : a ∉ js) : shareInstances obj n js a = obj a := by
  unfold shareInstances
  rw [if_neg (by simpa using h)]

/-- The objects of the nodes made for one parent. -/
theorem share_block {obj : Nat → Nat} {n m : Nat} {js : List Nat} (hnd : js.Nodup) (hm : m * n + n ≤ js.length) :
    ((js.drop (m * n)).take n).map (shareInstances obj n js) = js.take n := by
  apply List.ext_getElem
  · rw [List.length_map, List.length_take, List.length_take, List.length_drop]
    omega
  · intro q h1 h2
    rw [List.getElem_map, List.getElem_take, List.getElem_drop, List.getElem_take]
    rw [List.length_take] at h2
    have hq : q < n := by omega
    obtain ⟨h3, h4⟩ := share_in (obj := obj) hnd (p := m * n + q) (by omega) (show 0 < n by omega)
    rw [h4]
    congr 1
    rw [Nat.add_comm, Nat.add_mul_mod_self_right, Nat.mod_eq_of_lt hq]

theorem pairs_get {α : Type} (xs : List α) {pars : List Nat} : ∀ {p a : Nat} {x : α}, (pars.flatMap fun k => xs.map fun x => (k, x))[p]? = some (a, x) →
    xs[p % xs.length]? = some x ∧ a ∈ pars := by
  induction pars with
  | nil => intro p a x h; simp at h
  | cons k pars ih =>
    intro p a x h
    rw [List.flatMap_cons] at h
    by_cases hp : p < xs.length
    · rw [List.getElem?_append_left (by rw [List.length_map]; exact hp), List.getElem?_map] at h
      obtain ⟨y, h1, h2⟩ := Option.map_eq_some_iff.1 h
      injection h2 with h2 h3
      rw [Nat.mod_eq_of_lt hp, ← h3, ← h2]
      exact ⟨h1, by simp⟩
    · rw [List.getElem?_append_right (by rw [List.length_map]; omega), List.length_map] at h
      obtain ⟨h1, h2⟩ := ih h
      have : (p - xs.length) % xs.length = p % xs.length := by
        rw [← Nat.mod_eq_sub_mod (by omega)]
      rw [this] at h1
      exact ⟨h1, by simp [h2]⟩

theorem Single.parents {g : Graph} (h : Single g) (i : Nat) : (g.elementParents i).Nodup := by
  have h1 : ((chs g.edges).filter fun p => p.2 == i).Nodup := h.filter _
  have h2 : (((chs g.edges).filter fun p => p.2 == i).map (·.1)).Nodup := by
    refine map_nodup h1 fun x hx y hy hxy => ?_
    have e1 := (List.mem_filter.1 hx).2
    have e2 := (List.mem_filter.1 hy).2
    simp only [beq_iff_eq] at e1 e2
    exact Prod.ext hxy (e1.trans e2.symm)
  refine List.Sublist.nodup ?_ h2
  unfold Graph.elementParents Graph.inEdges chs
  rw [List.filter_map, List.map_map, List.filter_filter, List.filter_filter]
  refine List.Sublist.map _ ?_
  refine List.monotone_filter_right _ fun e he => ?_
  simp only [Bool.and_eq_true, Function.comp] at he ⊢
  exact ⟨he.2, he.1.2⟩

theorem length_pairs {α : Type} (xs : List α) (pars : List Nat) : (pars.flatMap fun k => xs.map fun x => (k, x)).length = pars.length * xs.length := by
  induction pars with
  | nil => simp
  | cons k pars ih => rw [List.flatMap_cons, List.length_append, List.length_map, ih, List.length_cons, Nat.add_mul, Nat.one_mul, Nat.add_comm]

set_option maxHeartbeats 1000000 in
theorem shares_instances {g1 g2 g3 : Graph} {obj : Nat → Nat} {i : Nat} {e : ElemNode} {xs : List Processed} {js : List Nat} {w w' : List Warn}
    (hw : WF g1) (tch : ∀ a b, Ch g1 a b → IsE g1 a ∧ IsE g1 b) (Sg : Single g1) (S : Shares g1 obj) (hi : ∀ b, obj b = obj i → b = i)
    (hEi : IsE g1 i) (ha : addInstances e.level e.parsed g1 ((g1.elementParents i).flatMap fun par => xs.map fun x => (par, x)) = .ok (g2, js) w)
    (hl : linkInstances i g2 js = .ok g3 w') :
    Shares g3 (shareInstances obj xs.length js) ∧
      (∀ a b, shareInstances obj xs.length js a = shareInstances obj xs.length js b → a = b ∨ obj a = obj b ∨ (a ∈ js ∧ b ∈ js)) ∧
      ∀ j ∈ js, g1.node? j = none ∧ ∃ p, Ch g1 p i ∧ Ch g3 p j := by
  have hlive : ∀ x ∈ (g1.elementParents i).flatMap (fun par => xs.map fun x => (par, x)), (g1.node? x.1).isSome := by
    intro x hx
    obtain ⟨par, hpar, hx⟩ := List.mem_flatMap.1 hx
    obtain ⟨y, -, rfl⟩ := List.mem_map.1 hx
    obtain ⟨ed, h2, rfl, -, -, -⟩ := elementParents_edge hpar
    exact (hw.edges_valid _ h2).1
  obtain ⟨hw2, hx2, hf, hel, hlen, hold, hed⟩ := addInstances_effect (e := e) hw ha hlive
  have hnd := addInstances_nodup (e := e) hw ha hlive
  have hpars := Sg.parents i
  have mpar : ∀ p, p ∈ g1.elementParents i ↔ Ch g1 p i := fun p => mem_parents_iff tch
  have notIn : ∀ k, (g1.node? k).isSome → k ∉ js := by
    intro k hk hc
    rw [hf k hc] at hk
    cases hk
  have hij : i ∉ js := notIn i hEi.some
  obtain ⟨n3, -, e3⟩ := linkInstances_effect (C := fun c => c ∈ g2.elementChildren i) hl hij (fun c => Iff.rfl)
  have k3 := linkInstances_kids hl hij hnd
  have hch2 := addInstances_chs ha
  generalize hps : (g1.elementParents i).flatMap (fun par => xs.map fun x => (par, x)) = pairs at *
  generalize hn : xs.length = n at *
  have hlen' : js.length = (g1.elementParents i).length * n := by rw [hlen, ← hps, length_pairs, hn]
  have npos : ∀ j ∈ js, 0 < n := by
    intro j hj
    have := List.length_pos_of_mem hj
    rw [hlen'] at this
    exact Nat.pos_of_mul_pos_left this
  have elem3 : ∀ k, g3.elem? k = g2.elem? k := fun k => by unfold Graph.elem?; rw [node?_congr n3]
  have selfJ : ∀ j ∈ js, obj j = j := by
    intro j hj
    refine S.self ?_
    rintro ⟨ej, h1, -⟩
    have := IsE.some ⟨ej, h1⟩
    rw [hf j hj] at this
    cases this
  have objOut : ∀ k, k ∉ js → obj k ∉ js := by
    intro k hk hc
    have h1 := selfJ _ hc
    have : obj k = k := S.own (obj k) k h1 (by
      rintro ⟨ej, h1, -⟩
      have := IsE.some ⟨ej, h1⟩
      rw [hf _ hc] at this
      cases this)
    exact hk (by rw [← this]; exact hc)
  have inJ : ∀ j ∈ js, ∃ (p : Nat) (hp : p < js.length) (hm : p % n < js.length), j = js[p] ∧ shareInstances obj n js j = js[p % n] := by
    intro j hj
    obtain ⟨p, hp, rfl⟩ := List.getElem_of_mem hj
    obtain ⟨hm, h⟩ := share_in (obj := obj) hnd hp (npos _ hj)
    exact ⟨p, hp, hm, rfl, h⟩
  have mixed : ∀ a b, a ∈ js → b ∉ js → shareInstances obj n js a ≠ shareInstances obj n js b := by
    intro a b h1 h2 h
    obtain ⟨p, hp, hm, -, h3⟩ := inJ a h1
    rw [h3, share_out h2] at h
    exact objOut b h2 (by rw [← h]; exact List.getElem_mem _)
  have nodeJ : ∀ (p : Nat) (hp : p < js.length), ∃ a x, xs[p % n]? = some x ∧ a ∈ g1.elementParents i ∧ (js[p], (a, x)) ∈ js.zip pairs := by
    intro p hp
    have hp' : p < pairs.length := by rw [← hlen]; exact hp
    obtain ⟨a, x, hq⟩ : ∃ a x, pairs[p] = (a, x) := ⟨_, _, rfl⟩
    have h1 : ((g1.elementParents i).flatMap fun par => xs.map fun x => (par, x))[p]? = some (a, x) := by
      rw [hps, List.getElem?_eq_getElem hp', hq]
    obtain ⟨h2, h3⟩ := pairs_get xs h1
    rw [hn] at h2
    refine ⟨a, x, h2, h3, ?_⟩
    have hz : p < (js.zip pairs).length := by rw [List.length_zip]; omega
    have : (js.zip pairs)[p] = (js[p], pairs[p]) := List.getElem_zip
    rw [hq] at this
    rw [← this]
    exact List.getElem_mem _
  have parJ : ∀ j ∈ js, ∃ p, Ch g1 p i ∧ Ch g3 p j := by
    intro j hj
    obtain ⟨p, hp, -, rfl, -⟩ := inJ j hj
    obtain ⟨a, x, -, h1, h2⟩ := nodeJ p hp
    exact ⟨a, (mpar a).1 h1, Or.inr ((e3 _).2 (Or.inl ((hed _).2 (Or.inr ⟨_, _, _, h2, rfl⟩))))⟩
  have mono : ∀ a b, Ch g1 a b → Ch g3 a b := by
    rintro a b (h | h)
    · exact Or.inl ((e3 _).2 (Or.inl ((hed _).2 (Or.inl h))))
    · exact Or.inr ((e3 _).2 (Or.inl ((hed _).2 (Or.inl h))))
  have doneJ : ∀ j ∈ js, Done g3 j := by
    intro j hj
    obtain ⟨p, hp, -, rfl, -⟩ := inJ j hj
    obtain ⟨a, x, -, h1, h2⟩ := nodeJ p hp
    exact ⟨_, by rw [elem3]; exact hel _ _ _ h2, rfl⟩
  have elemO : ∀ k, k ∉ js → g3.elem? k = g1.elem? k := by
    intro k hk
    rw [elem3]
    unfold Graph.elem?
    rw [hold k hk]
  have kidsO : ∀ k, k ∉ js → kidsIn g3.edges k =
      (if k ∈ g1.elementParents i then (js.drop ((g1.elementParents i).idxOf k * n)).take n else []).reverse ++ kidsIn g1.edges k := by
    intro k hk
    rw [k3 k, if_neg hk]
    have := zip_block (a := k) xs (js := js) hpars (by rw [hlen, ← hps])
    rw [hps, hn] at this
    rw [← this]
    unfold kidsIn
    rw [hch2, List.filter_append, List.map_append, List.filter_reverse, List.map_reverse, List.filter_map, List.map_map]
    rfl
  have kidsJ : ∀ j ∈ js, kidsIn g3.edges j = (g2.elementChildren i).reverse := by
    intro j hj
    rw [k3 j, if_pos hj]
    have : kidsIn g2.edges j = [] := by
      rw [List.eq_nil_iff_forall_not_mem]
      intro c hc
      obtain ⟨ed, q1, q2, -, -⟩ := ch_iff.1 (ch_kidsIn.1 hc)
      rcases (hed ed).1 q1 with q3 | ⟨j', a, x, q3, rfl⟩
      · have := (hw.edges_valid _ q3).1
        rw [q2, hf j hj] at this
        cases this
      · simp only at q2
        subst q2
        have := hlive _ (List.of_mem_zip q3).2
        rw [hf _ hj] at this
        cases this
    rw [this, List.append_nil]
  have kidsMap : ∀ k, k ∉ js → (kidsIn g3.edges k).map (shareInstances obj n js) =
      (if k ∈ g1.elementParents i then js.take n else []).reverse ++ (kidsIn g1.edges k).map obj := by
    intro k hk
    rw [kidsO k hk, List.map_append, List.map_reverse]
    congr 1
    · congr 1
      split
      · rename_i hm
        refine share_block hnd ?_
        have := List.idxOf_lt_length_of_mem hm
        rw [hlen']
        calc _ = ((g1.elementParents i).idxOf k + 1) * n := by rw [Nat.add_mul, Nat.one_mul]
          _ ≤ _ := Nat.mul_le_mul_right _ this
      · rfl
    · refine List.map_congr_left fun c hc => share_out (notIn c ?_)
      exact (tch _ _ (ch_kidsIn.1 hc)).2.some
  refine ⟨⟨?_, ?_, ?_, ?_, ?_⟩, ?_, ?_⟩
  · -- the data
    intro a b h
    by_cases hA : a ∈ js <;> by_cases hB : b ∈ js
    · obtain ⟨p, hp, hp', rfl, h1⟩ := inJ a hA
      obtain ⟨q, hq, hq', rfl, h2⟩ := inJ b hB
      rw [h1, h2] at h
      have hpq : p % n = q % n := (List.Nodup.getElem_inj_iff hnd).1 h
      obtain ⟨a, x, y1, -, y2⟩ := nodeJ p hp
      obtain ⟨a', x', z1, -, z2⟩ := nodeJ q hq
      rw [← hpq, y1] at z1
      injection z1 with z1
      rw [elem3, elem3, hel _ _ _ y2, hel _ _ _ z2, z1]
    · exact absurd h (mixed a b hA hB)
    · exact absurd h.symm (mixed b a hB hA)
    · rw [share_out hA, share_out hB] at h
      rw [elemO a hA, elemO b hB, S.same a b h]
  · intro a b h
    by_cases hA : a ∈ js <;> by_cases hB : b ∈ js
    · rw [kidsJ a hA, kidsJ b hB]
    · exact absurd h (mixed a b hA hB)
    · exact absurd h.symm (mixed b a hB hA)
    · rw [share_out hA, share_out hB] at h
      rw [kidsMap a hA, kidsMap b hB, S.kids a b h]
      have key : ∀ a b, obj a = obj b → a ∈ g1.elementParents i → b ∈ g1.elementParents i := by
        intro a b h hm
        rw [mpar] at hm ⊢
        have h1 : obj i ∈ (kidsIn g1.edges a).map obj := List.mem_map_of_mem (ch_kidsIn.2 hm)
        rw [S.kids a b h] at h1
        obtain ⟨c, hc, hc'⟩ := List.mem_map.1 h1
        have := hi c hc'
        subst this
        exact ch_kidsIn.1 hc
      by_cases hm : a ∈ g1.elementParents i
      · rw [if_pos hm, if_pos (key a b h hm)]
      · rw [if_neg hm, if_neg fun hb => hm (key b a h.symm hb)]
  · intro a b h hD
    by_cases hA : a ∈ js
    · exact absurd (doneJ a hA) hD
    by_cases hB : b ∈ js
    · exact absurd h.symm (mixed b a hB hA)
    rw [share_out hA, share_out hB] at h
    refine S.own a b h fun hd => hD ?_
    obtain ⟨ea, h1, h2⟩ := hd
    exact ⟨ea, by rw [elemO a hA]; exact h1, h2⟩
  · intro a
    by_cases hA : a ∈ js
    · obtain ⟨p, hp, hp', rfl, h1⟩ := inJ a hA
      rw [h1]
      obtain ⟨h2, h3⟩ := share_in (obj := obj) hnd hp' (npos _ hA)
      rw [h3]
      congr 1
      exact Nat.mod_mod _ _
    · rw [share_out hA, share_out (objOut a hA), S.idem]
  · intro a b h
    by_cases hA : a ∈ js <;> by_cases hB : b ∈ js
    · obtain ⟨p, h1, h2⟩ := parJ a hA
      obtain ⟨q, h3, h4⟩ := parJ b hB
      exact Or.inr ⟨p, q, i, h2, h4, mono _ _ h1, mono _ _ h3⟩
    · exact absurd h (mixed a b hA hB)
    · exact absurd h.symm (mixed b a hB hA)
    · rw [share_out hA, share_out hB] at h
      rcases S.kin a b h with h | ⟨p, p', c, k1, k2, k3, k4⟩
      · exact Or.inl h
      · exact Or.inr ⟨p, p', c, mono _ _ k1, mono _ _ k2, mono _ _ k3, mono _ _ k4⟩
  · intro a b h
    by_cases hA : a ∈ js <;> by_cases hB : b ∈ js
    · exact Or.inr (Or.inr ⟨hA, hB⟩)
    · exact absurd h (mixed a b hA hB)
    · exact absurd h.symm (mixed b a hB hA)
    · rw [share_out hA, share_out hB] at h
      exact Or.inr (Or.inl h)
  · exact fun j hj => ⟨hf j hj, parJ j hj⟩

end Svd
