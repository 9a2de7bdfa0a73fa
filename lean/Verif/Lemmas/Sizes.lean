import Verif.Lemmas.FinState
import Verif.Lemmas.TreeInv
import Verif.Lemmas.Inherit
import Verif.Props.Resolve
/-
The sizes of containers assigned by the bottom-up finalisation, for arbitrary graphs.
-/
namespace Svd
open Graph Spec

/-- The size of an intermediate element. -/
def Processed.size? : Processed → Option Int
  | .periph p => p.props.size
  | .clu c => c.props.size
  | .reg r => r.props.size
  | .field _ => none

/-- The size of an intermediate register or cluster. -/
def IRC.size? : IRC → Option Int
  | .reg r _ => r.props.size
  | .clu c _ => c.props.size

/-- `m` bounds the usable sizes of the elements `xs`, and is the size of one of them, or 0 for one of an unusable size,
or one of them has no size. -/
def Covers (m : Int) (xs : List IRC) : Prop :=
  (∀ x ∈ xs, ∀ s, x.size? = some s → s % 8 = 0 → s ≤ m) ∧
  ∃ x ∈ xs, x.size? = some m ∨ x.size? = none ∨ ∃ s, x.size? = some s ∧ s % 8 ≠ 0

/-- Every cluster of the tree that has children covers them. -/
inductive SizedT : IRC → Prop
  | reg {r fs} : SizedT (.reg r fs)
  | leaf {c} : SizedT (.clu c [])
  | clu {c xs m} : c.props.size = some m → Covers m xs → (∀ x ∈ xs, SizedT x) → SizedT (.clu c xs)

/-- The same for peripherals. -/
def SizedP (p : IPeripheral) : Prop :=
  (∀ x ∈ p.rcs, SizedT x) ∧ (p.rcs = [] ∨ ∃ m, p.hd.props.size = some m ∧ Covers m p.rcs)

structure SizeInv (s : FinState) : Prop where
  content : ∀ i xs, s.content.lookup i = some (.rcs xs) → (∀ x ∈ xs, SizedT x) ∧
    ∃ e p m, s.g.elem? i = some e ∧ e.processed = some p ∧ p.size? = some m ∧ Covers m xs
  resolved : ∀ ps, s.resolved = some ps → ∀ p ∈ ps, SizedP p

theorem SizeInv.rcs {s : FinState} (h : SizeInv s) {i : Nat} {e : ElemNode} {p : Processed} (he : s.g.elem? i = some e)
    (hp : e.processed = some p) :
    (∀ x ∈ s.rcs i, SizedT x) ∧ (s.rcs i = [] ∨ ∃ m, p.size? = some m ∧ Covers m (s.rcs i)) := by
  unfold FinState.rcs
  split
  · rename_i xs hl
    obtain ⟨h1, e', p', m, h2, h3, h4, h5⟩ := h.content i _ hl
    rw [he] at h2
    cases h2
    rw [hp] at h3
    cases h3
    exact ⟨h1, Or.inr ⟨m, h4, h5⟩⟩
  · exact ⟨by simp, Or.inl rfl⟩

theorem pickRC_sized {s : FinState} (h : SizeInv s) {i : Nat} {e : ElemNode} {p : Processed} {x : IRC} {w : List Warn}
    (he : s.g.elem? i = some e) (hp : e.processed = some p) (hk : pickRC s i p = .ok x w) :
    SizedT x ∧ x.size? = p.size? := by
  unfold pickRC at hk
  split at hk
  · simp only [M.pure_eq_ok] at hk
    obtain ⟨rfl, -⟩ := hk
    exact ⟨.reg, rfl⟩
  · rename_i c
    simp only [M.pure_eq_ok] at hk
    obtain ⟨rfl, -⟩ := hk
    refine ⟨?_, rfl⟩
    obtain ⟨h1, h2⟩ := h.rcs he hp
    rcases h2 with h2 | ⟨m, h2, h3⟩
    · rw [h2]; exact .leaf
    · exact .clu h2 h3 h1
  · simp at hk

theorem collect_all {α : Type} {s : FinState} {pick : Nat → Processed → M α} {cs : List Nat} {xs : List α}
    {ws : List Warn} (h : collect s pick cs = .ok xs ws) {i : Nat} (hi : i ∈ cs) {e : ElemNode} {p : Processed}
    (he : s.g.elem? i = some e) (ht : e.isDimTemplate = false) (hp : e.processed = some p) :
    ∃ x ∈ xs, ∃ w, pick i p = .ok x w := by
  unfold collect at h
  obtain ⟨os, hE, rfl⟩ := M.filterMapM_eq_ok.1 h
  clear h
  induction hE with
  | nil => cases hi
  | @cons j y w xs ys ws hx hE ih =>
    rcases List.mem_cons.1 hi with rfl | hi
    · simp only [M.bind_eq_ok] at hx
      obtain ⟨t, w1, w2, h1, h2, -⟩ := hx
      obtain ⟨e1, h3, h4, -⟩ := templateOf_ok h1
      rw [he] at h3
      cases h3
      rw [ht] at h4
      subst h4
      simp only [Bool.false_eq_true, if_false, M.bind_eq_ok, M.pure_eq_ok] at h2
      obtain ⟨p1, w3, w4, h5, ⟨x, w5, w6, h6, ⟨rfl, -⟩, -⟩, -⟩ := h2
      obtain ⟨e2, h7, h8, -⟩ := procOf_ok h5
      rw [he] at h7
      cases h7
      rw [hp] at h8
      cases h8
      exact ⟨x, by simp, w5, h6⟩
    · obtain ⟨x, hx1, r⟩ := ih hi
      refine ⟨x, ?_, r⟩
      rw [List.filterMap_cons]
      cases y with
      | none => exact hx1
      | some y => exact List.mem_cons_of_mem _ hx1

theorem childSize_ok {g : Graph} {i : Nat} {o : Option Int} {ws : List Warn} (h : childSize g i = .ok o ws) :
    ∃ e p, g.elem? i = some e ∧ e.processed = some p ∧
      ((e.isDimTemplate = true ∧ o = none) ∨
       (e.isDimTemplate = false ∧ ∃ s, o = some s ∧
        ((∃ z, p.size? = some z ∧ ((z % 8 = 0 ∧ s = z) ∨ (z % 8 ≠ 0 ∧ s = 0))) ∨
         (p.size? = none ∧ ∃ w, parentSize g (g.nodes.length + 1) i = .ok s w)))) := by
  unfold childSize at h
  simp only [M.bind_eq_ok] at h
  obtain ⟨p, w1, w2, h1, ⟨sz, w3, w4, h2, ⟨t, w5, w6, h3, h4, -⟩, -⟩, -⟩ := h
  obtain ⟨e, he, hp, -⟩ := procOf_ok h1
  obtain ⟨e', he', ht, -⟩ := templateOf_ok h3
  rw [he] at he'
  cases he'
  have hsz : sz = p.size? := by
    cases p <;> simp_all [Processed.size?]
  refine ⟨e, p, he, hp, ?_⟩
  cases t with
  | true =>
    simp only [if_true, M.pure_eq_ok] at h4
    exact Or.inl ⟨ht, h4.1.symm⟩
  | false =>
    refine Or.inr ⟨ht, ?_⟩
    simp only [Bool.false_eq_true, if_false] at h4
    subst hsz
    cases hs : p.size? with
    | some z =>
      rw [hs] at h4
      simp only [M.pure_eq_ok] at h4
      obtain ⟨rfl, -⟩ := h4
      refine ⟨_, rfl, Or.inl ⟨z, rfl, ?_⟩⟩
      by_cases hz : z % 8 = 0
      · left; simp [hz]
      · right; simp [hz]
    | none =>
      rw [hs] at h4
      simp only [M.bind_eq_ok, M.pure_eq_ok] at h4
      obtain ⟨s, w7, w8, h5, ⟨rfl, -⟩, -⟩ := h4
      exact ⟨s, rfl, Or.inr ⟨rfl, _, h5⟩⟩

theorem calculateSize_ok {g : Graph} {cs : List Nat} {m : Int} {ws : List Warn} (h : calculateSize g cs = .ok m ws) :
    (∃ i ∈ cs, ∃ w, childSize g i = .ok (some m) w) ∧
    ∀ i ∈ cs, ∃ o w, childSize g i = .ok o w ∧ ∀ s, o = some s → s ≤ m := by
  unfold calculateSize at h
  simp only [M.bind_eq_ok] at h
  obtain ⟨sizes, w1, w2, h1, h2, -⟩ := h
  split at h2
  · simp at h2
  · rename_i hne
    simp only [M.pure_eq_ok] at h2
    obtain ⟨rfl, -⟩ := h2
    obtain ⟨os, hE, rfl⟩ := M.filterMapM_eq_ok.1 h1
    have hm := (maxList_mem (-1) (os.filterMap id)).resolve_left hne
    refine ⟨?_, ?_⟩
    · generalize maxList (-1) (os.filterMap id) = m at hm
      clear hne h1
      induction hE with
      | nil => cases hm
      | @cons x y w xs ys ws hx hE ih =>
        cases y with
        | none =>
          obtain ⟨i, hi, r⟩ := ih (by simpa using hm)
          exact ⟨i, by simp [hi], r⟩
        | some z =>
          have hm : m = z ∨ some m ∈ ys := by simpa using hm
          rcases hm with rfl | hm
          · exact ⟨x, by simp, _, hx⟩
          · obtain ⟨i, hi, r⟩ := ih (by simpa using hm)
            exact ⟨i, by simp [hi], r⟩
    · have hle := (le_maxList (-1) (os.filterMap id)).2
      generalize maxList (-1) (os.filterMap id) = m at hle
      clear hne h1 hm
      induction hE with
      | nil => intro i hi; cases hi
      | @cons x y w xs ys ws hx hE ih =>
        intro i hi
        rcases List.mem_cons.1 hi with rfl | hi
        · refine ⟨y, _, hx, ?_⟩
          rintro s rfl
          exact hle s (by simp)
        · refine ih ?_ i hi
          intro s hs
          apply hle
          cases y <;> simp at hs ⊢ <;> simp [hs]

theorem withSize_size? {p : Processed} {m : Int} (h : ∀ f, p ≠ .field f) : (p.withSize m).size? = some m := by
  cases p <;> first | rfl | exact absurd rfl (h _)

theorem SizeInv.push {s : FinState} (h : SizeInv s) {i : Nat} {c : Content}
    (hc : ∀ xs, c = .rcs xs → (∀ x ∈ xs, SizedT x) ∧
      ∃ e p m, s.g.elem? i = some e ∧ e.processed = some p ∧ p.size? = some m ∧ Covers m xs) :
    SizeInv { s with content := (i, c) :: s.content } := by
  refine ⟨?_, h.resolved⟩
  intro j xs hx
  rcases lookup_cons_cases hx with ⟨rfl, h1⟩ | hx
  · exact hc xs h1.symm
  · exact h.content j xs hx

theorem finalizeContainerNode_sized {s s' : FinState} (h : SizeInv s) {i : Nat} {e : ElemNode} {cs : List Nat}
    {ws : List Warn} (he : s.g.elem? i = some e) (hf : ∀ f, e.processed ≠ some (.field f)) (hci : i ∉ cs)
    (hr : finalizeContainerNode s i e cs = .ok s' ws) : SizeInv s' := by
  unfold finalizeContainerNode at hr
  simp only [M.bind_eq_ok] at hr
  obtain ⟨p, w1, w2, h1, ⟨m, w3, w4, h2, ⟨xs, w5, w6, h3, h4, -⟩, -⟩, -⟩ := hr
  obtain ⟨e', he', hp, -⟩ := procOf_ok h1
  rw [he] at he'
  cases he'
  have hpf : ∀ f, p ≠ .field f := by
    rintro f rfl
    exact hf f hp
  have hi : (s.g.node? i).isSome := by rw [elem?_node?.1 he]; rfl
  obtain ⟨⟨i0, hi0, w0, hmem⟩, hle⟩ := calculateSize_ok h2
  have hget : ∀ j, (s.g.setElem i { e with processed := some (p.withSize m) }).elem? j =
      if j = i then some { e with processed := some (p.withSize m) } else s.g.elem? j := fun j => setElem_elem? hi
  have hne : ∀ j ∈ cs, j ≠ i := by rintro j hj rfl; exact hci hj
  simp only [M.pure_eq_ok] at h4
  obtain ⟨rfl, -⟩ := h4
  have hsz : ∀ x ∈ xs, ∃ j ∈ cs, ∃ ej pj, s.g.elem? j = some ej ∧ ej.isDimTemplate = false ∧
      ej.processed = some pj ∧ SizedT x ∧ x.size? = pj.size? := by
    intro x hx
    obtain ⟨j, hj, ej, pj, w, h5, h6, h7, h8⟩ := collect_ok h3 hx
    simp only [hget, if_neg (hne j hj)] at h5
    have h9 : pickRC s j pj = .ok x w := h8
    exact ⟨j, hj, ej, pj, h5, h6, h7, pickRC_sized h h5 h7 h9⟩
  have hcov : Covers m xs := by
    refine ⟨?_, ?_⟩
    · intro x hx z hz h8
      obtain ⟨j, hj, ej, pj, q1, q2, q3, -, q5⟩ := hsz x hx
      obtain ⟨o, w, q6, q7⟩ := hle j hj
      obtain ⟨e2, p2, q8, q9, q10⟩ := childSize_ok q6
      rw [q1] at q8; cases q8
      rw [q3] at q9; cases q9
      rcases q10 with ⟨q, -⟩ | ⟨-, z', rfl, ⟨y, q11, q12⟩ | ⟨q11, -⟩⟩
      · rw [q2] at q; cases q
      · rw [q5, q11] at hz
        cases hz
        have := q7 z' rfl
        rcases q12 with ⟨-, rfl⟩ | ⟨q, -⟩
        · exact this
        · exact absurd h8 q
      · rw [q5, q11] at hz; cases hz
    · obtain ⟨e2, p2, q8, q9, q10⟩ := childSize_ok hmem
      rcases q10 with ⟨-, q⟩ | ⟨q1, z', hz', q10⟩
      · cases q
      · cases hz'
        have hg : (s.g.setElem i { e with processed := some (p.withSize m) }).elem? i0 = some e2 := by
          rw [hget, if_neg (hne i0 hi0)]; exact q8
        obtain ⟨x, hx, w, hw⟩ := collect_all h3 hi0 hg q1 q9
        have hw' : pickRC s i0 p2 = .ok x w := hw
        have hxs := (pickRC_sized h q8 q9 hw').2
        refine ⟨x, hx, ?_⟩
        rcases q10 with ⟨y, q11, ⟨-, rfl⟩ | ⟨q12, -⟩⟩ | ⟨q11, -⟩
        · left; rw [hxs, q11]
        · right; right; exact ⟨y, by rw [hxs, q11], q12⟩
        · right; left; rw [hxs, q11]
  refine ⟨?_, h.resolved⟩
  intro j ys hj
  by_cases hji : j = i
  · subst hji
    simp only [List.lookup, beq_self_eq_true, Option.some.injEq, Content.rcs.injEq] at hj
    subst hj
    refine ⟨?_, _, _, m, by rw [hget, if_pos rfl], rfl, withSize_size? hpf, ?_⟩
    · intro x hx
      rw [mem_sortBy] at hx
      obtain ⟨_, _, _, _, _, _, _, q, _⟩ := hsz x hx
      exact q
    · exact ⟨fun x hx => hcov.1 x (by rwa [mem_sortBy] at hx), by
        obtain ⟨x, hx, q⟩ := hcov.2
        exact ⟨x, by rw [mem_sortBy]; exact hx, q⟩⟩
  · have hb : (j == i) = false := by simp [hji]
    simp only [List.lookup, hb] at hj
    obtain ⟨q1, e2, p2, m2, q2, q3, q4, q5⟩ := h.content j ys hj
    refine ⟨q1, e2, p2, m2, ?_, q3, q4, q5⟩
    simp only [hget, if_neg hji]
    exact q2

theorem pickPeripheral_sized {s : FinState} (h : SizeInv s) {i : Nat} {e : ElemNode} {p : Processed} {x : IPeripheral}
    {w : List Warn} (he : s.g.elem? i = some e) (hp : e.processed = some p) (hk : pickPeripheral s i p = .ok x w) :
    SizedP x := by
  unfold pickPeripheral at hk
  split at hk
  · simp only [M.pure_eq_ok] at hk
    obtain ⟨rfl, -⟩ := hk
    exact h.rcs he hp
  · simp at hk

section
variable {d : SDevice} {W : Warn → Prop} {g0 : Graph} {s s' : FinState}

theorem FinInv.container (h : FinInv d W g0 s) (hn : AllN (NodeOK d) g0) {i : Nat} {e : ElemNode}
    (he : s.g.elem? i = some e) (hl : e.level = .peripheral ∨ e.level = .cluster) :
    ∀ f, e.processed ≠ some (.field f) := by
  intro f hf
  obtain ⟨e0, h0, hrel⟩ := h.nodes i e he
  have h1 := hrel.field hf
  have h2 := hn.elem h0
  obtain ⟨-, -, ch, hm⟩ := h2.2.2.2.1 _ h1
  have h3 := made_kind hm
  simp only at h3
  rw [← h2.2.1] at h3
  obtain ⟨o, rfl, -⟩ := hrel
  simp only at hl
  rw [h3] at hl
  simp at hl

theorem finalizeNode_sized (hs : SizeInv s) (h : FinInv d W g0 s) (hn : AllN (NodeOK d) g0) {i : Nat} {cs : List Nat}
    {ws : List Warn} (hci : i ∉ cs) (hr : finalizeNode s i cs = .ok s' ws) : SizeInv s' := by
  unfold finalizeNode at hr
  split at hr
  · simp at hr
  · rename_i e he
    split at hr
    · simp only [M.pure_eq_ok] at hr
      obtain ⟨rfl, -⟩ := hr
      exact hs
    · split at hr
      · simp only [M.bind_eq_ok, M.pure_eq_ok] at hr
        obtain ⟨ps, w1, w2, h1, ⟨rfl, -⟩, -⟩ := hr
        refine ⟨hs.content, ?_⟩
        intro qs hq
        simp only [Option.some.injEq] at hq
        subst hq
        intro q hq
        rw [mem_sortBy] at hq
        obtain ⟨j, -, ej, pj, w, h5, -, h6, h7⟩ := collect_ok h1 hq
        exact pickPeripheral_sized hs h5 h6 h7
      · rename_i hl
        exact finalizeContainerNode_sized hs he (h.container hn he (Or.inl hl)) hci hr
      · rename_i hl
        exact finalizeContainerNode_sized hs he (h.container hn he (Or.inr hl)) hci hr
      · simp only [M.bind_eq_ok, M.pure_eq_ok] at hr
        obtain ⟨p, w1, w2, h1, ⟨fs, w3, w4, h2, ⟨rfl, -⟩, -⟩, -⟩ := hr
        exact hs.push (by intro xs hx; cases hx)
      · unfold finalizeFieldNode at hr
        simp only [M.bind_eq_ok] at hr
        obtain ⟨p, w1, w2, h1, h2, rfl⟩ := hr
        split at h2
        · simp only [M.bind_eq_ok] at h2
          obtain ⟨conts, w3, w4, h3, h4, rfl⟩ := h2
          split at h4
          · simp at h4
          · split at h4
            · simp at h4
            · split at h4
              · simp at h4
              · simp only [M.pure_eq_ok] at h4
                obtain ⟨rfl, rfl⟩ := h4
                exact hs.push (by intro xs hx; cases hx)
        · simp at h2
      · simp at hr

theorem bottomUp_sized (hn : AllN (NodeOK d) g0) (hl : ∀ i, i ∉ g0.successors i) {fuel : Nat} {q done : List Nat}
    {s s' : FinState} {ws : List Warn} (hs : SizeInv s) (h : FinInv d W g0 s)
    (hr : bottomUp g0 fuel q done s = .ok s' ws) (hw : ∀ w ∈ ws, W w) : SizeInv s' := by
  induction fuel generalizing q done s ws with
  | zero =>
    cases q with
    | nil =>
      simp only [bottomUp, M.pure_eq_ok] at hr
      obtain ⟨rfl, -⟩ := hr
      exact hs
    | cons i q => simp [bottomUp] at hr
  | succ f ih =>
    cases q with
    | nil =>
      simp only [bottomUp, M.pure_eq_ok] at hr
      obtain ⟨rfl, -⟩ := hr
      exact hs
    | cons i q =>
      simp only [bottomUp, M.bind_eq_ok] at hr
      obtain ⟨s1, w1, w2, h1, h2, rfl⟩ := hr
      split at h1
      · simp only [M.pure_eq_ok] at h1
        obtain ⟨rfl, -⟩ := h1
        exact ih hs h h2 (fun w hw' => hw w (by simp [hw']))
      · rename_i c cs hcs
        refine ih (finalizeNode_sized hs h hn (by rw [← hcs]; exact hl i) h1)
          (finalizeNode_inv h hn h1 (fun w hw' => hw w (by simp [hw']))) h2 (fun w hw' => hw w (by simp [hw']))
end

/-- The sizes of the intermediate peripherals. -/
theorem resolvePeripherals_sized {ord : List Nat → List Nat} {fuel : Nat} {d : SDevice} {ps : List IPeripheral}
    {ws : List Warn} (h : resolvePeripherals ord fuel d = .ok ps ws) : ∀ p ∈ ps, SizedP p := by
  obtain ⟨g0, g, s, w1, w2, w3, h1, h2, -, h4, h5, rfl⟩ := resolvePeripherals_split h
  have hi := inv_rounds (inv_initialization h1) h2
  have ha := C42_acyclic (C42_rounds (.init h1) h2)
  have h0 : FinInv d (fun _ => True) g { g := g } := by
    refine ⟨fun i e he => ⟨e, he, e.processed, rfl, Or.inl rfl⟩, by simp, by simp⟩
  have hs : SizeInv { g := g } := ⟨by simp, by simp⟩
  refine (bottomUp_sized hi.nodes ?_ hs h0 h4 (fun _ _ => trivial)).resolved ps h5
  intro i hm
  obtain ⟨e, he, q1, q2⟩ := mem_successors.1 hm
  have := Conn.edge he
  rw [q1, q2] at this
  exact ha i this

end Svd
