import Verif.Lemmas.GraphEq
import Verif.Lemmas.Overlap
/-
The resolver graph of a device without derivedFrom after the first `k` elements have been processed.
-/
namespace Svd
open Graph Spec

/-- The elements made from a declared element without derivedFrom (resolver.py:492-504); `true` = by dim. -/
def expandM (p : Parsed) : M (Bool × List Processed) :=
  M.bind (extractDimOf p none) fun x =>
  M.bind (createAll p none 0 x.2.1 x.2.2) fun xs =>
  if xs = [] then M.throw (.resolve 504) else M.pure (x.1, xs)

def expandO (p : Parsed) : Option (Bool × List Processed) :=
  match expandM p with
  | .ok a _ => some a
  | .err _ => none

def isDimB (p : Parsed) : Bool :=
  match expandO p with
  | some (d, _) => d
  | none => false

def headsOf (p : Parsed) : List Processed :=
  match expandO p with
  | some (true, xs) => xs.map (·.clearDim)
  | some (false, xs) => xs
  | none => []

def doneNode (p : Parsed) : ElemNode :=
  match expandO p with
  | some (true, x :: _) => { initNode p with isProcessed := true, processed := some (x.withName p.name), isDimTemplate := true }
  | some (false, x :: _) => { initNode p with isProcessed := true, processed := some x }
  | _ => { initNode p with isProcessed := true }

structure LOK (L : List (Nat × Parsed)) : Prop where
  root : L[0]? = some (0, .device)
  inner : ∀ (i : Nat) x, 1 ≤ i → L[i]? = some x → x.2 ≠ .device ∧ x.2.derivedFrom = none ∧ x.1 < i

theorem Flat.ok {L : List (Nat × Parsed)} {g : Graph} (h : Flat L g) : LOK L := ⟨h.root, h.inner⟩

/-- The instances of `b` below `i`, newest first. -/
def block (L : List (Nat × Parsed)) (org : Nat → Nat) (g : Graph) (i b : Nat) : List Nat :=
  (outs g i).filter fun j => decide (L.length ≤ j) && org j == b

structure Shape (L : List (Nat × Parsed)) (k : Nat) (org : Nat → Nat) (g : Graph) : Prop where
  plain : Plain g
  len : L.length ≤ g.nodes.length
  self : ∀ i, i < L.length → org i = i
  node : ∀ (i : Nat) x, L[i]? = some x → g.elem? i = some (if i ≤ k then doneNode x.2 else initNode x.2)
  inst : ∀ j, L.length ≤ j → j < g.nodes.length → ∃ q p x, 1 ≤ org j ∧ org j ≤ k ∧ L[org j]? = some (q, p) ∧
    isDimB p = true ∧ g.elem? j = some (instNode (levelOf p) p x) ∧ x ∈ headsOf p ∧ ∃ a, (a, j) ∈ ends g
  nodup : (ends g).Nodup
  low : ∀ i c, c < L.length → i < g.nodes.length → ((i, c) ∈ ends g ↔ 1 ≤ c ∧ ∃ p, L[c]? = some (org i, p))
  high : ∀ i j, (i, j) ∈ ends g → L.length ≤ j → ∃ p, L[org j]? = some (org i, p)
  single : ∀ a a' j, L.length ≤ j → (a, j) ∈ ends g → (a', j) ∈ ends g → a = a'
  blocks : ∀ i b p, i < g.nodes.length → 1 ≤ b → b ≤ k → L[b]? = some (org i, p) → isDimB p = true →
    (block L org g i b).reverse.map g.elem? = (headsOf p).map fun x => some (instNode (levelOf p) p x)
  newest : ∀ c q p, 1 ≤ c → L[c]? = some (q, p) → q ≤ k →
    ∃ a rest e, ins g c = a :: rest ∧ g.elem? a = some e ∧ e.isDimTemplate = false

theorem Plain.lt {g : Graph} (h : Plain g) {a b : Nat} (hm : (a, b) ∈ ends g) : a < g.nodes.length ∧ b < g.nodes.length := by
  obtain ⟨e, he, rfl, rfl⟩ := mem_ends.1 hm
  exact h.valid e he

theorem doneNode_template {p : Parsed} (h : isDimB p = false) : (doneNode p).isDimTemplate = false := by
  unfold isDimB at h
  unfold doneNode
  split
  · rename_i x xs hx
    rw [hx] at h
    cases h
  · rfl
  · rfl

section
variable {L : List (Nat × Parsed)} {k : Nat} {org : Nat → Nat} {g : Graph}

theorem Shape.rank (h : Shape L k org g) (hL : LOK L) {i j : Nat} (hm : (i, j) ∈ ends g) : org i < org j := by
  have hv := h.plain.lt hm
  by_cases hj : j < L.length
  · obtain ⟨h1, p, h2⟩ := (h.low i j hj hv.1).1 hm
    rw [h.self j hj]
    exact (hL.inner j _ h1 h2).2.2
  · obtain ⟨p, h1⟩ := h.high i j hm (by omega)
    obtain ⟨_, _, _, h2, -⟩ := h.inst j (by omega) hv.2
    exact (hL.inner _ _ h2 h1).2.2

theorem Shape.org_le (h : Shape L k org g) {i : Nat} (hi : i < g.nodes.length) (hk : k < org i) : i < L.length ∧ org i = i := by
  by_cases hl : i < L.length
  · exact ⟨hl, h.self i hl⟩
  · obtain ⟨_, _, _, -, h2, -⟩ := h.inst i (by omega) hi
    omega

end

theorem shape_init {L : List (Nat × Parsed)} {g : Graph} (h : Flat L g) : Shape L 0 id g := by
  have hlen : g.nodes.length = L.length := by rw [h.nodes, List.length_map]
  have hex : ∀ i, i < L.length → ∃ x, L[i]? = some x := fun i hi => ⟨_, List.getElem?_eq_getElem hi⟩
  have hlow : ∀ i c, c < L.length → i < g.nodes.length → ((i, c) ∈ ends g ↔ 1 ≤ c ∧ ∃ p, L[c]? = some (id i, p)) := by
    intro i c hc hi
    rw [mem_ends]
    constructor
    · rintro ⟨e, he, rfl, rfl⟩
      obtain ⟨h1, h2, -⟩ := h.mem e he
      exact ⟨h1, h2⟩
    · rintro ⟨h1, p, h2⟩
      obtain ⟨e, he, h3, h4⟩ := h.all c _ h1 h2
      exact ⟨e, he, h3, h4⟩
  have hvalid : ∀ e ∈ g.edges, e.src < g.nodes.length ∧ e.dst < g.nodes.length := by
    intro e he
    obtain ⟨h1, ⟨p, h2⟩, -⟩ := h.mem e he
    have h3 := (h.inner e.dst _ h1 h2).2.2
    have h4 := (List.getElem?_eq_some_iff.1 h2).1
    simp only at h3
    omega
  constructor
  · constructor
    · exact h.free
    · exact h.phs
    · intro i hi
      obtain ⟨x, hx⟩ := hex i (by omega)
      exact ⟨_, h.node? hx⟩
    · intro e he
      rcases mem_flat_edge h he with h3 | h3 <;> simp [isChildEdge, h3]
    · exact hvalid
  · omega
  · intro i _; rfl
  · intro i x hx
    rw [h.node? hx]
    by_cases h0 : i ≤ 0
    · have : i = 0 := by omega
      subst this
      rw [h.root] at hx
      cases hx
      rfl
    · rw [if_neg h0]
  · intro j h1 h2; omega
  · exact h.nodup
  · exact hlow
  · intro i j hm hj
    obtain ⟨e, he, rfl, rfl⟩ := mem_ends.1 hm
    have := hvalid e he
    omega
  · intro a a' j hj hm _
    obtain ⟨e, he, rfl, rfl⟩ := mem_ends.1 hm
    have := hvalid e he
    omega
  · intro i b p _ h1 h2; omega
  · intro c q p hc hx hq
    have hq0 : q = 0 := by omega
    subst hq0
    have hcl := (List.getElem?_eq_some_iff.1 hx).1
    have hm : (0, c) ∈ ends g := (hlow 0 c hcl (by omega)).2 ⟨hc, p, hx⟩
    cases hi : ins g c with
    | nil =>
      have := mem_ins.2 hm
      rw [hi] at this
      cases this
    | cons a rest =>
      refine ⟨a, rest, ?_⟩
      have ha : (a, c) ∈ ends g := mem_ins.1 (by rw [hi]; simp)
      have hal : a < g.nodes.length := by
        obtain ⟨e, he, rfl, rfl⟩ := mem_ends.1 ha
        exact (hvalid e he).1
      obtain ⟨y, hy⟩ := hex a (by omega)
      exact ⟨_, rfl, h.node? hy, rfl⟩

/-- Processing an element that is not expanded. -/
theorem Shape.set {L : List (Nat × Parsed)} {k : Nat} {org : Nat → Nat} {g g' : Graph} (h : Shape L k org g) (hL : LOK L)
    {q : Nat} {p : Parsed} (hb : L[k + 1]? = some (q, p)) (hd : isDimB p = false) (hpl : Plain g')
    (hends : ends g' = ends g) (hlen : g'.nodes.length = g.nodes.length)
    (hel : ∀ j, g'.elem? j = if j = k + 1 then some (doneNode p) else g.elem? j) : Shape L (k + 1) org g' := by
  have hbl := (List.getElem?_eq_some_iff.1 hb).1
  have houts : ∀ i, outs g' i = outs g i := fun i => by unfold outs; rw [hends]
  have hins : ∀ i, ins g' i = ins g i := fun i => by unfold ins; rw [hends]
  constructor
  · exact hpl
  · rw [hlen]; exact h.len
  · exact h.self
  · intro i x hx
    rw [hel]
    by_cases hi : i = k + 1
    · subst hi
      rw [hb] at hx
      cases hx
      simp
    · rw [if_neg hi, h.node i x hx]
      by_cases h1 : i ≤ k
      · rw [if_pos h1, if_pos (by omega)]
      · rw [if_neg h1, if_neg (by omega)]
  · intro j hj1 hj2
    rw [hlen] at hj2
    obtain ⟨q', p', x, h1, h2, h3, h4, h5, h6, h7⟩ := h.inst j hj1 hj2
    refine ⟨q', p', x, h1, by omega, h3, h4, ?_, h6, by rw [hends]; exact h7⟩
    rw [hel, if_neg (by omega), h5]
  · rw [hends]; exact h.nodup
  · rw [hends, hlen]; exact h.low
  · rw [hends]; exact h.high
  · rw [hends]; exact h.single
  · intro i b p' hi h1 h2 h3 h4
    rw [hlen] at hi
    by_cases hbk : b = k + 1
    · subst hbk
      rw [hb] at h3
      cases h3
      rw [hd] at h4
      cases h4
    · rw [← h.blocks i b p' hi h1 (by omega) h3 h4]
      unfold block
      rw [houts]
      refine List.map_congr_left fun j hj => ?_
      rw [List.mem_reverse, List.mem_filter] at hj
      have : L.length ≤ j := by
        have := hj.2
        simp only [Bool.and_eq_true, decide_eq_true_eq] at this
        exact this.1
      rw [hel, if_neg (by omega)]
  · intro c q' p' hc hx hq
    have hcl := (List.getElem?_eq_some_iff.1 hx).1
    have hin := (hL.inner c _ hc hx).2.2
    simp only at hin
    rw [hins]
    by_cases hqk : q' = k + 1
    · subst hqk
      have hm : (k + 1, c) ∈ ends g := (h.low (k + 1) c hcl (by have := h.len; omega)).2 ⟨hc, p', by rw [h.self _ hbl]; exact hx⟩
      cases hi : ins g c with
      | nil =>
        have := mem_ins.2 hm
        rw [hi] at this
        cases this
      | cons a rest =>
        refine ⟨a, rest, ?_⟩
        have ha : (a, c) ∈ ends g := mem_ins.1 (by rw [hi]; simp)
        have hal := h.plain.lt ha
        obtain ⟨-, p2, h2⟩ := (h.low a c hcl hal.1).1 ha
        rw [hx] at h2
        simp only [Option.some.injEq, Prod.mk.injEq] at h2
        have h3 := h.org_le hal.1 (by omega)
        have h4 : a = k + 1 := by omega
        subst h4
        refine ⟨_, rfl, ?_, doneNode_template hd⟩
        rw [hel, if_pos rfl]
    · obtain ⟨a, rest, e, h1, h2, h3⟩ := h.newest c q' p' hc hx (by omega)
      refine ⟨a, rest, e, h1, ?_, h3⟩
      rw [hel, if_neg, h2]
      rintro rfl
      have ha : (k + 1, c) ∈ ends g := mem_ins.1 (by rw [h1]; simp)
      obtain ⟨-, p2, h4⟩ := (h.low (k + 1) c hcl (h.plain.lt ha).1).1 ha
      rw [hx, h.self _ hbl] at h4
      simp only [Option.some.injEq, Prod.mk.injEq] at h4
      omega

/-! ### expansion -/

theorem nodup_rev {α : Type} {l : List α} (h : l.Nodup) : l.reverse.Nodup := by
  rw [List.nodup_iff_pairwise_ne] at h ⊢
  rw [List.pairwise_reverse]
  exact h.imp fun hne => Ne.symm hne

theorem nodup_of_map {α β : Type} {l : List α} (f : α → β) (h : (l.map f).Nodup) : l.Nodup := by
  rw [List.nodup_iff_pairwise_ne] at h ⊢
  rw [List.pairwise_map] at h
  exact h.imp fun hne heq => hne (by rw [heq])

theorem nodup_pairs {js cs : List Nat} (hj : js.Nodup) (hc : cs.Nodup) :
    (js.flatMap fun j => cs.map fun c => (j, c)).Nodup := by
  induction js with
  | nil => simp
  | cons j js ih =>
    rw [List.nodup_cons] at hj
    rw [List.flatMap_cons, List.nodup_append]
    refine ⟨?_, ih hj.2, ?_⟩
    · rw [List.nodup_iff_pairwise_ne, List.pairwise_map]
      rw [List.nodup_iff_pairwise_ne] at hc
      exact hc.imp fun hne he => hne (Prod.mk.inj he).2
    · rintro ⟨a, b⟩ h1 ⟨a', b'⟩ h2 heq
      cases heq
      simp only [List.mem_map, Prod.mk.injEq, List.mem_flatMap] at h1 h2
      obtain ⟨c, -, rfl, rfl⟩ := h1
      obtain ⟨j', hj', c', -, rfl, -⟩ := h2
      exact hj.1 hj'

theorem zip_filter {α : Type} (f : α → Bool) (xs : List α) (js : List Nat) (h : xs.length ≤ js.length) :
    ((xs.zip js).filter fun y => f y.1).map (·.1) = xs.filter f := by
  induction xs generalizing js with
  | nil => simp
  | cons x xs ih =>
    cases js with
    | nil => simp at h
    | cons j js =>
      simp only [List.length_cons] at h
      simp only [List.zip_cons_cons, List.filter_cons]
      split
      · simp [ih js (by omega)]
      · exact ih js (by omega)

theorem pairs_filter {α : Type} {pars : List Nat} (hn : pars.Nodup) {i : Nat} (hi : i ∈ pars) (xs : List α) :
    (((pars.flatMap fun par => xs.map fun x => (par, x)).filter fun y => y.1 == i).map (·.2)) = xs := by
  have hnone : ∀ l : List Nat, i ∉ l → ((l.flatMap fun par => xs.map fun x => (par, x)).filter fun y => y.1 == i) = [] := by
    intro l hl
    rw [List.filter_eq_nil_iff]
    rintro ⟨a, x⟩ hm
    simp only [List.mem_flatMap, List.mem_map, Prod.mk.injEq] at hm
    obtain ⟨par, hp, x', -, rfl, rfl⟩ := hm
    simp only [beq_iff_eq]
    rintro rfl
    exact hl hp
  induction pars with
  | nil => cases hi
  | cons p ps ih =>
    rw [List.nodup_cons] at hn
    rw [List.flatMap_cons, List.filter_append, List.map_append]
    by_cases hpi : p = i
    · subst hpi
      rw [hnone ps hn.1, List.filter_eq_self.2]
      · simp [List.map_map, Function.comp_def]
      · rintro ⟨a, x⟩ hm
        simp only [List.mem_map, Prod.mk.injEq] at hm
        obtain ⟨_, -, rfl, -⟩ := hm
        simp
    · have h1 : (List.map (fun x => (p, x)) xs).filter (fun y => y.1 == i) = [] := by
        rw [List.filter_eq_nil_iff]
        rintro ⟨a, x⟩ hm
        simp only [List.mem_map, Prod.mk.injEq] at hm
        obtain ⟨_, -, rfl, -⟩ := hm
        simpa using hpi
      rw [h1]
      simp only [List.map_nil, List.nil_append]
      refine ih hn.2 ?_
      rcases List.mem_cons.1 hi with h2 | h2
      · exact absurd h2.symm hpi
      · exact h2

theorem doneNode_dim {p : Parsed} (h : isDimB p = true) : headsOf p ≠ [] := by
  unfold isDimB at h
  unfold headsOf
  unfold expandO at h ⊢
  unfold expandM at h ⊢
  cases h1 : extractDimOf p none with
  | err e => simp [h1, M.bind] at h
  | ok a w =>
    rw [h1] at h
    simp only [M.bind] at h ⊢
    cases h2 : createAll p none 0 a.2.1 a.2.2 with
    | err e => simp [h2] at h
    | ok xs w2 =>
      rw [h2] at h
      simp only at h ⊢
      by_cases h3 : xs = []
      · simp [h3, M.throw] at h
      · simp only [h3, if_false, M.pure] at h ⊢
        rw [h]
        simpa using h3

/-- Processing an element that is expanded. -/
theorem Shape.expand {L : List (Nat × Parsed)} {k : Nat} {org : Nat → Nat} {g g' : Graph} (h : Shape L k org g) (hL : LOK L)
    {q : Nat} {p : Parsed} (hb : L[k + 1]? = some (q, p)) (hd : isDimB p = true)
    {pairs : List (Nat × Processed)} (hpairs : pairs = (ins g (k + 1)).flatMap fun par => (headsOf p).map fun x => (par, x))
    {js : List Nat} (hjs : js = List.range' g.nodes.length pairs.length) (hpl : Plain g')
    (hends : ends g' = (js.flatMap fun j => (outs g (k + 1)).map fun c => (j, c)).reverse ++
      (((pairs.zip js).map fun y => (y.1.1, y.2)).reverse ++ ends g))
    (hlen : g'.nodes.length = g.nodes.length + pairs.length)
    (hel : ∀ j, j < g.nodes.length → g'.elem? j = if j = k + 1 then some (doneNode p) else g.elem? j)
    (hnew : ∀ (t : Nat) y, pairs[t]? = some y → g'.elem? (g.nodes.length + t) = some (instNode (levelOf p) p y.2)) :
    Shape L (k + 1) (fun j => if j < g.nodes.length then org j else k + 1) g' := by
  have hbl := (List.getElem?_eq_some_iff.1 hb).1
  have hlen0 := h.len
  have hjm : ∀ j, j ∈ js ↔ g.nodes.length ≤ j ∧ j < g.nodes.length + pairs.length := by
    intro j; subst hjs; rw [List.mem_range'_1]
  have hcs : ∀ c, c ∈ outs g (k + 1) ↔ 1 ≤ c ∧ ∃ p', L[c]? = some (k + 1, p') := by
    intro c
    rw [mem_outs]
    constructor
    · intro hm
      by_cases hc : c < L.length
      · have := (h.low (k + 1) c hc (by omega)).1 hm
        rwa [h.self _ hbl] at this
      · obtain ⟨p', h1⟩ := h.high _ _ hm (by omega)
        obtain ⟨_, _, _, h2, h3, -⟩ := h.inst c (by omega) (h.plain.lt hm).2
        have := (hL.inner _ _ h2 h1).2.2
        simp only [h.self _ hbl] at this
        omega
    · rintro ⟨h1, p', h2⟩
      exact (h.low (k + 1) c (List.getElem?_eq_some_iff.1 h2).1 (by omega)).2 ⟨h1, p', by rw [h.self _ hbl]; exact h2⟩
  have hcl : ∀ c, c ∈ outs g (k + 1) → c < L.length := fun c hc => by
    obtain ⟨-, p', h2⟩ := (hcs c).1 hc
    exact (List.getElem?_eq_some_iff.1 h2).1
  have hpm : ∀ i, i ∈ ins g (k + 1) ↔ i < g.nodes.length ∧ org i = q := by
    intro i
    rw [mem_ins]
    constructor
    · intro hm
      have hv := (h.plain.lt hm).1
      obtain ⟨-, p', h1⟩ := (h.low i (k + 1) hbl hv).1 hm
      rw [hb] at h1
      simp only [Option.some.injEq, Prod.mk.injEq] at h1
      exact ⟨hv, h1.1.symm⟩
    · rintro ⟨h1, h2⟩
      exact (h.low i (k + 1) hbl h1).2 ⟨by omega, p, by rw [h2]; exact hb⟩
  have hmA : ∀ a j, (a, j) ∈ ((pairs.zip js).map fun y => (y.1.1, y.2)) → a ∈ ins g (k + 1) ∧ j ∈ js := by
    intro a j hm
    simp only [List.mem_map, Prod.mk.injEq] at hm
    obtain ⟨⟨⟨a', x⟩, j'⟩, hz, rfl, rfl⟩ := hm
    obtain ⟨h1, h2⟩ := List.of_mem_zip hz
    rw [hpairs] at h1
    simp only [List.mem_flatMap, List.mem_map, Prod.mk.injEq] at h1
    obtain ⟨par, hp, x', -, rfl, rfl⟩ := h1
    exact ⟨hp, h2⟩
  have hmB : ∀ j c, (j, c) ∈ (js.flatMap fun j => (outs g (k + 1)).map fun c => (j, c)) ↔ j ∈ js ∧ c ∈ outs g (k + 1) := by
    intro j c
    simp only [List.mem_flatMap, List.mem_map, Prod.mk.injEq]
    constructor
    · rintro ⟨j', h1, c', h2, rfl, rfl⟩; exact ⟨h1, h2⟩
    · rintro ⟨h1, h2⟩; exact ⟨j, h1, c, h2, rfl, rfl⟩
  have hmem : ∀ i j, (i, j) ∈ ends g' ↔ (i ∈ js ∧ j ∈ outs g (k + 1)) ∨
      ((i, j) ∈ (pairs.zip js).map fun y => (y.1.1, y.2)) ∨ (i, j) ∈ ends g := by
    intro i j
    rw [hends]
    simp only [List.mem_append, List.mem_reverse, hmB]
  have hzlen : pairs.length ≤ js.length := by rw [hjs]; simp
  have hsnd : ((pairs.zip js).map fun y => (y.1.1, y.2)).map (·.2) = js := by
    rw [List.map_map]
    have : (Prod.snd ∘ fun (y : (Nat × Processed) × Nat) => (y.1.1, y.2)) = Prod.snd := rfl
    rw [this, List.map_snd_zip]
    rw [hjs]; simp
  have hjn : js.Nodup := by rw [hjs]; exact List.nodup_range'
  have hA : ((pairs.zip js).map fun y => (y.1.1, y.2)).Nodup := by
    refine nodup_of_map (·.2) ?_
    rw [hsnd]; exact hjn
  have hzel : ∀ y ∈ pairs.zip js, g'.elem? y.2 = some (instNode (levelOf p) p y.1.2) := by
    intro y hy
    obtain ⟨t, ht⟩ := List.getElem?_of_mem hy
    rw [List.getElem?_zip_eq_some] at ht
    have h1 := ht.2
    rw [hjs, List.getElem?_range' (List.getElem?_eq_some_iff.1 ht.1).1] at h1
    simp only [Option.some.injEq] at h1
    rw [← h1, Nat.one_mul]
    exact hnew t _ ht.1
  have hinstj : ∀ j ∈ js, ∃ x, g'.elem? j = some (instNode (levelOf p) p x) ∧ x ∈ headsOf p ∧
      ∃ a, (a, j) ∈ (pairs.zip js).map fun y => (y.1.1, y.2) := by
    intro j hj
    have h1 := (hjm j).1 hj
    obtain ⟨y, hy⟩ : ∃ y, pairs[j - g.nodes.length]? = some y := ⟨_, List.getElem?_eq_getElem (by omega)⟩
    have h2 := hnew _ _ hy
    rw [show g.nodes.length + (j - g.nodes.length) = j by omega] at h2
    refine ⟨_, h2, ?_, ?_⟩
    · have hm := List.mem_of_getElem? hy
      rw [hpairs] at hm
      simp only [List.mem_flatMap, List.mem_map] at hm
      obtain ⟨par, -, x, hx, rfl⟩ := hm
      exact hx
    · obtain ⟨t, ht⟩ := List.getElem?_of_mem hj
      have ht' := (List.getElem?_eq_some_iff.1 ht).1
      have htl : t < pairs.length := by rw [hjs] at ht'; simpa using ht'
      refine ⟨pairs[t].1, ?_⟩
      rw [List.mem_map]
      refine ⟨(pairs[t], j), ?_, rfl⟩
      apply List.mem_of_getElem? (i := t)
      rw [List.getElem?_zip_eq_some]
      exact ⟨List.getElem?_eq_getElem htl, ht⟩
  have hqlt : q < k + 1 := (hL.inner (k + 1) _ (by omega) hb).2.2
  have hpne : 0 < pairs.length := by
    obtain ⟨x, xs, hx⟩ : ∃ x xs, headsOf p = x :: xs := by
      cases hh : headsOf p with
      | nil => exact absurd hh (doneNode_dim hd)
      | cons x xs => exact ⟨x, xs, rfl⟩
    have hq : q ∈ ins g (k + 1) := (hpm q).2 ⟨by omega, h.self q (by omega)⟩
    rw [hpairs]
    apply List.length_pos_of_mem (a := (q, x))
    simp only [List.mem_flatMap, List.mem_map, Prod.mk.injEq]
    exact ⟨q, hq, x, by rw [hx]; simp, rfl, rfl⟩
  constructor
  · exact hpl
  · omega
  · intro i hi
    simp only [show i < g.nodes.length by omega, if_true]
    exact h.self i hi
  · intro i x hx
    have hil := (List.getElem?_eq_some_iff.1 hx).1
    rw [hel i (by omega)]
    by_cases hi : i = k + 1
    · subst hi
      rw [hb] at hx
      cases hx
      simp
    · rw [if_neg hi, h.node i x hx]
      by_cases h1 : i ≤ k
      · rw [if_pos h1, if_pos (by omega)]
      · rw [if_neg h1, if_neg (by omega)]
  · intro j hj1 hj2
    by_cases hj : j < g.nodes.length
    · obtain ⟨q', p', x, h1, h2, h3, h4, h5, h6, a, h7⟩ := h.inst j hj1 hj
      simp only [hj, if_true]
      refine ⟨q', p', x, h1, by omega, h3, h4, ?_, h6, a, (hmem a j).2 (Or.inr (Or.inr h7))⟩
      rw [hel j hj, if_neg (by omega), h5]
    · simp only [hj, if_false]
      obtain ⟨x, hx, hxh, a, ha⟩ := hinstj j ((hjm j).2 (by omega))
      exact ⟨q, p, x, by omega, by omega, hb, hd, hx, hxh, a, (hmem a j).2 (Or.inr (Or.inl ha))⟩
  · rw [hends, List.nodup_append]
    refine ⟨nodup_rev (nodup_pairs hjn (outs_nodup h.nodup _)), ?_, ?_⟩
    · rw [List.nodup_append]
      refine ⟨nodup_rev hA, h.nodup, ?_⟩
      rintro ⟨a, j⟩ h1 ⟨a', j'⟩ h2 heq
      cases heq
      rw [List.mem_reverse] at h1
      have h3 := (hjm j).1 (hmA a j h1).2
      have h4 := (h.plain.lt h2).2
      omega
    · rintro ⟨a, j⟩ h1 ⟨a', j'⟩ h2 heq
      cases heq
      rw [List.mem_reverse, hmB] at h1
      have h5 := (hjm a).1 h1.1
      rw [List.mem_append, List.mem_reverse] at h2
      rcases h2 with h2 | h2
      · have h3 := (hpm a).1 (hmA a j h2).1
        omega
      · have h4 := (h.plain.lt h2).1
        omega
  · intro i c hc hi
    rw [hmem]
    by_cases hil : i < g.nodes.length
    · simp only [hil, if_true]
      rw [← h.low i c hc hil]
      constructor
      · rintro (⟨h1, -⟩ | h1 | h1)
        · have := (hjm i).1 h1; omega
        · have := (hjm c).1 (hmA i c h1).2; omega
        · exact h1
      · intro h1; exact Or.inr (Or.inr h1)
    · simp only [hil, if_false]
      rw [← hcs c]
      constructor
      · rintro (⟨-, h1⟩ | h1 | h1)
        · exact h1
        · have := (hpm i).1 (hmA i c h1).1; omega
        · have := (h.plain.lt h1).1; omega
      · intro h1; exact Or.inl ⟨(hjm i).2 (by omega), h1⟩
  · intro i j hm hj
    rw [hmem] at hm
    rcases hm with ⟨-, h1⟩ | h1 | h1
    · have := hcl j h1; omega
    · obtain ⟨h2, h3⟩ := hmA i j h1
      have h4 := (hpm i).1 h2
      have h5 := (hjm j).1 h3
      refine ⟨p, ?_⟩
      simp only [h4.1, if_true, show ¬ j < g.nodes.length by omega, if_false]
      rw [h4.2]; exact hb
    · have hv := h.plain.lt h1
      simp only [hv.1, hv.2, if_true]
      exact h.high i j h1 hj
  · intro a a' j hj h1 h2
    rw [hmem] at h1 h2
    by_cases hjl : j < g.nodes.length
    · have aux : ∀ a, ((a ∈ js ∧ j ∈ outs g (k + 1)) ∨ ((a, j) ∈ (pairs.zip js).map fun y => (y.1.1, y.2)) ∨ (a, j) ∈ ends g) →
          (a, j) ∈ ends g := by
        rintro a (⟨-, h3⟩ | h3 | h3)
        · have := hcl j h3; omega
        · have := (hjm j).1 (hmA a j h3).2; omega
        · exact h3
      exact h.single a a' j hj (aux a h1) (aux a' h2)
    · have aux : ∀ a, ((a ∈ js ∧ j ∈ outs g (k + 1)) ∨ ((a, j) ∈ (pairs.zip js).map fun y => (y.1.1, y.2)) ∨ (a, j) ∈ ends g) →
          (a, j) ∈ (pairs.zip js).map fun y => (y.1.1, y.2) := by
        rintro a (⟨-, h3⟩ | h3 | h3)
        · have := hcl j h3; omega
        · exact h3
        · have := (h.plain.lt h3).2; omega
      have hin := inj_of_nodup_map (x := (a, j)) (y := (a', j)) (f := Prod.snd) (l := (pairs.zip js).map fun y => (y.1.1, y.2)) (by rw [hsnd]; exact hjn)
        (aux a h1) (aux a' h2) rfl
      exact (Prod.mk.inj hin).1
  · intro i b p' hi h1 h2 h3 h4
    by_cases hil : i < g.nodes.length
    · simp only [hil, if_true] at h3
      have houts : outs g' i = ((((pairs.zip js).filter fun y => y.1.1 == i).map (·.2))).reverse ++ outs g i := by
        unfold outs
        rw [hends, List.filter_append, List.filter_append, List.map_append, List.map_append]
        rw [List.filter_eq_nil_iff.2]
        · simp only [List.map_nil, List.nil_append]
          congr 1
          rw [List.filter_reverse, List.map_reverse, List.filter_map, List.map_map]
          rfl
        · rintro ⟨a, c⟩ hm
          rw [List.mem_reverse, hmB] at hm
          have := (hjm a).1 hm.1
          simp only [beq_iff_eq]
          omega
      have hold : ∀ b', ((outs g i).filter fun j => decide (L.length ≤ j) && (if j < g.nodes.length then org j else k + 1) == b') =
          block L org g i b' := by
        intro b'
        unfold block
        apply List.filter_congr
        intro j hj
        have := (h.plain.lt (mem_outs.1 hj)).2
        simp only [this, if_true]
      have hnews : ∀ j ∈ ((((pairs.zip js).filter fun y => y.1.1 == i).map (·.2))).reverse, g.nodes.length ≤ j := by
        intro j hj
        rw [List.mem_reverse, List.mem_map] at hj
        obtain ⟨y, hy, rfl⟩ := hj
        have h5 := (List.mem_filter.1 hy).1
        have := (hjm y.2).1 (List.of_mem_zip h5).2
        omega
      unfold block
      rw [houts, List.filter_append, hold]
      by_cases hbk : b = k + 1
      · subst hbk
        rw [hb] at h3
        cases h3
        have hb0 : block L org g i (k + 1) = [] := by
          unfold block
          rw [List.filter_eq_nil_iff]
          intro j hj hc
          simp only [Bool.and_eq_true, decide_eq_true_eq, beq_iff_eq] at hc
          obtain ⟨_, _, _, -, h6, -⟩ := h.inst j hc.1 (h.plain.lt (mem_outs.1 hj)).2
          omega
        rw [hb0, List.append_nil, List.filter_eq_self.2]
        · rw [List.reverse_reverse, List.map_map]
          have h5 : ((pairs.zip js).filter fun y => y.1.1 == i).map (g'.elem? ∘ (·.2)) =
              (((pairs.zip js).filter fun y => y.1.1 == i).map (·.1)).map fun y => some (instNode (levelOf p) p y.2) := by
            rw [List.map_map]
            refine List.map_congr_left fun y hy => ?_
            exact hzel y (List.mem_filter.1 hy).1
          rw [h5, zip_filter (fun (y : Nat × Processed) => y.1 == i) pairs js hzlen]
          have h6 := pairs_filter (i := i) (ins_nodup h.nodup (k + 1)) ((hpm i).2 ⟨hil, rfl⟩) (headsOf p)
          rw [← hpairs] at h6
          conv => rhs; rw [← h6]
          rw [List.map_map]
          rfl
        · intro j hj
          have := hnews j hj
          simp only [Bool.and_eq_true, decide_eq_true_eq, beq_iff_eq, show ¬ j < g.nodes.length by omega, if_false, and_true]
          omega
      · rw [List.filter_eq_nil_iff.2, List.nil_append, ← h.blocks i b p' hil h1 (by omega) h3 h4]
        · refine List.map_congr_left fun j hj => ?_
          rw [List.mem_reverse] at hj
          unfold block at hj
          rw [List.mem_filter] at hj
          have h7 := (h.plain.lt (mem_outs.1 hj.1)).2
          have h8 := hj.2
          simp only [Bool.and_eq_true, decide_eq_true_eq] at h8
          rw [hel j h7, if_neg (by omega)]
        · intro j hj hc
          have := hnews j hj
          simp only [Bool.and_eq_true, decide_eq_true_eq, beq_iff_eq, show ¬ j < g.nodes.length by omega, if_false] at hc
          omega
    · simp only [hil, if_false] at h3
      have := (hL.inner b _ h1 h3).2.2
      simp only at this
      omega
  · intro c q' p' hc hx hq
    have hcl' := (List.getElem?_eq_some_iff.1 hx).1
    have hinA : (((pairs.zip js).map fun y => (y.1.1, y.2)).reverse.filter fun x => x.2 == c) = [] := by
      rw [List.filter_eq_nil_iff]
      rintro ⟨a, j⟩ hm
      rw [List.mem_reverse] at hm
      have := (hjm j).1 (hmA a j hm).2
      simp only [beq_iff_eq]
      omega
    have hins : ins g' c = (((js.flatMap fun j => (outs g (k + 1)).map fun c => (j, c)).reverse.filter fun x => x.2 == c).map (·.1)) ++
        ins g c := by
      unfold ins
      rw [hends, List.filter_append, List.filter_append, hinA, List.nil_append, List.map_append]
    by_cases hqk : q' = k + 1
    · subst hqk
      have hcc : c ∈ outs g (k + 1) := (hcs c).2 ⟨hc, p', hx⟩
      cases hl : ((js.flatMap fun j => (outs g (k + 1)).map fun c => (j, c)).reverse.filter fun x => x.2 == c) with
      | nil =>
        rw [List.filter_eq_nil_iff] at hl
        have hj : g.nodes.length ∈ js := (hjm _).2 (by omega)
        exact absurd (by simp) (hl (g.nodes.length, c) (by rw [List.mem_reverse, hmB]; exact ⟨hj, hcc⟩))
      | cons a rest =>
        have ha : a ∈ ((js.flatMap fun j => (outs g (k + 1)).map fun c => (j, c)).reverse.filter fun x => x.2 == c) := by
          rw [hl]; simp
        rw [List.mem_filter, List.mem_reverse] at ha
        obtain ⟨x, hx', -⟩ := hinstj a.1 ((hmB a.1 a.2).1 ha.1).1
        refine ⟨a.1, rest.map (·.1) ++ ins g c, _, ?_, hx', rfl⟩
        rw [hins, hl, List.map_cons, List.cons_append]
    · have hbn : ((js.flatMap fun j => (outs g (k + 1)).map fun c => (j, c)).reverse.filter fun x => x.2 == c) = [] := by
        rw [List.filter_eq_nil_iff]
        rintro ⟨a, c'⟩ hm
        rw [List.mem_reverse, hmB] at hm
        simp only [beq_iff_eq]
        rintro rfl
        obtain ⟨-, p2, h5⟩ := (hcs c').1 hm.2
        rw [hx] at h5
        simp only [Option.some.injEq, Prod.mk.injEq] at h5
        omega
      obtain ⟨a, rest, e, h1, h2, h3⟩ := h.newest c q' p' hc hx (by omega)
      have ha : (a, c) ∈ ends g := mem_ins.1 (by rw [h1]; simp)
      refine ⟨a, rest, e, ?_, ?_, h3⟩
      · rw [hins, hbn, List.map_nil, List.nil_append, h1]
      · rw [hel a (h.plain.lt ha).1, if_neg, h2]
        rintro rfl
        obtain ⟨-, p2, h4⟩ := (h.low (k + 1) c hcl' (h.plain.lt ha).1).1 ha
        rw [hx, h.self _ hbl] at h4
        simp only [Option.some.injEq, Prod.mk.injEq] at h4
        omega

end Svd
