import Verif.Lemmas.Acyclic
import Verif.Spec.Origin
import Verif.Spec.Content
/-
The graph built for a device without derivedFrom: the declared elements in preorder, one child edge per element.
-/
namespace Svd
open Graph Spec

mutual
/-- All elements of the tree have no derivedFrom and are not the device. -/
def Own : DTree → Prop
  | .node p ts => p ≠ .device ∧ p.derivedFrom = none ∧ Owns ts
def Owns : List DTree → Prop
  | [] => True
  | t :: ts => Own t ∧ Owns ts
end

def nodeName : Parsed → Option Str
  | .device => some (s%"Device")
  | .periph p => some p.name
  | .clu c => some c.name
  | .reg r => some r.name
  | .field f => some f.name
  | .enum e => e.name

def levelOf : Parsed → Level
  | .device => .device
  | .periph _ => .peripheral
  | .clu _ => .cluster
  | .reg _ => .register
  | .field _ => .field
  | .enum _ => .enumcont

def Parsed.isDevice : Parsed → Bool
  | .device => true
  | _ => false

def initNode (p : Parsed) : ElemNode := ⟨nodeName p, levelOf p, p.isDevice, p, none, false⟩

mutual
/-- Generic form of the graph builder. -/
def addTree (parent : Nat) (g : Graph) : DTree → M Graph
  | .node p ts => M.bind (addChildToGraph g parent (initNode p)) fun (g1, i) => addTrees i g1 ts
def addTrees (parent : Nat) (g : Graph) : List DTree → M Graph
  | [] => M.pure g
  | t :: ts => M.bind (addTree parent g t) fun g1 => addTrees parent g1 ts
end

theorem M.bind_assoc {α β γ : Type} (x : M α) (f : α → M β) (g : β → M γ) :
    M.bind (M.bind x f) g = M.bind x fun a => M.bind (f a) g := by
  cases x with
  | err e => rfl
  | ok a w =>
    simp only [M.bind]
    cases f a with
    | err e => rfl
    | ok b w2 =>
      simp only
      cases g b with
      | err e => rfl
      | ok c w3 => simp

theorem M.pure_bind {α β : Type} (a : α) (f : α → M β) : M.bind (M.pure a) f = f a := by
  simp only [M.bind, M.pure]
  cases f a <;> simp

theorem constrEnums_eq (parent : Nat) (g : Graph) (cs : List SEnumContainer) :
    constrEnums parent g cs = addTrees parent g (cs.map ofEnum) := by
  induction cs generalizing g with
  | nil => rfl
  | cons c cs ih =>
    simp only [constrEnums, List.map_cons, addTrees, ofEnum, addTree, M.bind_assoc, M.pure_bind]
    simp only [ih]
    rfl

theorem constrFields_eq (parent : Nat) (g : Graph) (cs : List SField) :
    constrFields parent g cs = addTrees parent g (cs.map ofField) := by
  induction cs generalizing g with
  | nil => rfl
  | cons c cs ih =>
    simp only [constrFields, List.map_cons, addTrees, ofField, addTree, M.bind_assoc, constrEnums_eq, ih]
    rfl

mutual
theorem constrRC_eq (parent : Nat) (g : Graph) : (x : SRC) → constrRC parent g x = addTree parent g (ofRC x)
  | .clu c ch => by
    simp only [constrRC, ofRC, addTree]
    congr 1
    funext x
    exact constrRCs_eq x.2 x.1 ch
  | .reg r => by
    simp only [constrRC, ofRC, addTree, constrFields_eq]
    rfl
theorem constrRCs_eq (parent : Nat) (g : Graph) : (xs : List SRC) → constrRCs parent g xs = addTrees parent g (ofRCs xs)
  | [] => rfl
  | x :: xs => by
    simp only [constrRCs, ofRCs, addTrees, constrRC_eq parent g x]
    congr 1
    funext g1
    exact constrRCs_eq parent g1 xs
end

theorem constrPeripherals_eq (parent : Nat) (g : Graph) (ps : List SPeriphT) :
    constrPeripherals parent g ps = addTrees parent g (ps.map ofPeriph) := by
  induction ps generalizing g with
  | nil => rfl
  | cons c cs ih =>
    simp only [constrPeripherals, List.map_cons, addTrees, ofPeriph, addTree, M.bind_assoc, constrRCs_eq, ih]
    rfl

/-! ### preorder lists -/

mutual
def sizeT : DTree → Nat
  | .node _ ts => 1 + sizeTs ts
def sizeTs : List DTree → Nat
  | [] => 0
  | t :: ts => sizeT t + sizeTs ts
end

mutual
/-- Preorder list of `(parent index, element)`; the root of the tree gets index `n`. -/
def flatT (par n : Nat) : DTree → List (Nat × Parsed)
  | .node p ts => (par, p) :: flatTs n (n + 1) ts
def flatTs (par n : Nat) : List DTree → List (Nat × Parsed)
  | [] => []
  | t :: ts => flatT par n t ++ flatTs par (n + sizeT t) ts
end

mutual
theorem flatT_length (par n : Nat) : (t : DTree) → (flatT par n t).length = sizeT t
  | .node p ts => by simp only [flatT, sizeT, List.length_cons, flatTs_length n (n + 1) ts]; omega
theorem flatTs_length (par n : Nat) : (ts : List DTree) → (flatTs par n ts).length = sizeTs ts
  | [] => rfl
  | t :: ts => by
    simp only [flatTs, sizeTs, List.length_append, flatT_length par n t, flatTs_length par (n + sizeT t) ts]
end

/-! ### the graph of a preorder list -/

def ends (g : Graph) : List (Nat × Nat) := g.edges.map fun e => (e.src, e.dst)

structure Flat (L : List (Nat × Parsed)) (g : Graph) : Prop where
  nodes : g.nodes = L.map fun x => some (Node.elem (initNode x.2))
  free : g.free = []
  phs : g.placeholders = []
  root : L[0]? = some (0, .device)
  inner : ∀ (i : Nat) x, 1 ≤ i → L[i]? = some x → x.2 ≠ .device ∧ x.2.derivedFrom = none ∧ x.1 < i
  mem : ∀ e ∈ g.edges, 1 ≤ e.dst ∧ (∃ p, L[e.dst]? = some (e.src, p)) ∧ e.ty = if e.src = 0 then .childR else .childU
  all : ∀ (i : Nat) x, 1 ≤ i → L[i]? = some x → ∃ e ∈ g.edges, e.src = x.1 ∧ e.dst = i
  nodup : (ends g).Nodup

theorem reach_src {es : List Edge} {a b : Nat} (h : Reach es a b) (hn : ∀ e ∈ es, e.src ≠ a) : b = a := by
  have := Reach.closed (T := [a]) (fun e he hs => absurd (List.mem_singleton.1 hs) (hn e he)) h (List.mem_singleton.2 rfl)
  exact List.mem_singleton.1 this

theorem isDevice_false {p : Parsed} (h : p ≠ .device) : p.isDevice = false := by
  cases p <;> first | rfl | exact absurd rfl h

theorem Flat.node? {L : List (Nat × Parsed)} {g : Graph} (h : Flat L g) {i : Nat} {x : Nat × Parsed}
    (hi : L[i]? = some x) : g.elem? i = some (initNode x.2) := by
  rw [elem?_node?]
  unfold Graph.node?
  rw [h.nodes, List.getElem?_map, hi]
  rfl

theorem flat_add {L : List (Nat × Parsed)} {g : Graph} (h : Flat L g) {parent : Nat} {p : Parsed}
    (hp : parent < L.length) (hd : p ≠ .device) (hu : p.derivedFrom = none) :
    ∃ g', addChildToGraph g parent (initNode p) = .ok (g', L.length) [] ∧ Flat (L ++ [(parent, p)]) g' := by
  have hlen : g.nodes.length = L.length := by rw [h.nodes, List.length_map]
  have hpos : 0 < L.length := by omega
  obtain ⟨x, hx⟩ : ∃ x, L[parent]? = some x := ⟨_, List.getElem?_eq_getElem hp⟩
  have hpe := h.node? hx
  have hnp : hasPath g.edges L.length parent = false := by
    rw [Bool.eq_false_iff]
    intro hc
    rw [hasPath_iff] at hc
    have := reach_src hc (fun e he hs => by
      obtain ⟨h1, ⟨q, h2⟩, -⟩ := h.mem e he
      have h3 := (h.inner e.dst _ h1 h2).2.2
      have h4 := (List.getElem?_eq_some_iff.1 h2).1
      simp only at h3
      omega)
    omega
  refine ⟨{ g with nodes := g.nodes ++ [some (.elem (initNode p))],
                   edges := ⟨parent, L.length, if parent = 0 then .childR else .childU⟩ :: g.edges }, ?_, ?_⟩
  · unfold addChildToGraph
    rw [hpe]
    simp only [addElementChild, addNode, h.free, rawAddEdge, hlen, hnp]
    have : (initNode x.2).isProcessed = decide (parent = 0) := by
      by_cases h0 : parent = 0
      · subst h0
        rw [h.root] at hx
        cases hx
        rfl
      · simp only [h0, decide_false]
        exact isDevice_false (h.inner parent x (by omega) hx).1
    rw [this]
    have hu' : (initNode p).parsed.derivedFrom = none := hu
    rw [hu']
    by_cases h0 : parent = 0 <;> simp [h0, M.bind, M.pure, h.free]
  · constructor
    · simp [h.nodes]
    · exact h.free
    · exact h.phs
    · rw [List.getElem?_append_left hpos]; exact h.root
    · intro i y hi hy
      by_cases hlt : i < L.length
      · rw [List.getElem?_append_left hlt] at hy
        exact h.inner i y hi hy
      · rw [List.getElem?_append_right (by omega)] at hy
        have hi2 : i - L.length = 0 := by
          have := (List.getElem?_eq_some_iff.1 hy).1
          simp at this; omega
        rw [hi2] at hy
        simp only [List.getElem?_cons_zero, Option.some.injEq] at hy
        subst hy
        exact ⟨hd, hu, by simp only; omega⟩
    · intro e he
      rcases List.mem_cons.1 he with rfl | he
      · refine ⟨hpos, ⟨p, ?_⟩, rfl⟩
        simp
      · obtain ⟨h1, ⟨q, h2⟩, h3⟩ := h.mem e he
        refine ⟨h1, ⟨q, ?_⟩, h3⟩
        rw [List.getElem?_append_left (List.getElem?_eq_some_iff.1 h2).1]
        exact h2
    · intro i y hi hy
      by_cases hlt : i < L.length
      · rw [List.getElem?_append_left hlt] at hy
        obtain ⟨e, he, h1⟩ := h.all i y hi hy
        exact ⟨e, List.mem_cons_of_mem _ he, h1⟩
      · rw [List.getElem?_append_right (by omega)] at hy
        have hi2 : i - L.length = 0 := by
          have := (List.getElem?_eq_some_iff.1 hy).1
          simp at this; omega
        rw [hi2] at hy
        simp only [List.getElem?_cons_zero, Option.some.injEq] at hy
        subst hy
        exact ⟨_, List.mem_cons_self, rfl, by simp only; omega⟩
    · simp only [ends, List.map_cons, List.nodup_cons]
      refine ⟨?_, h.nodup⟩
      intro hc
      obtain ⟨e, he, h1⟩ := List.mem_map.1 hc
      obtain ⟨h2, ⟨q, h3⟩, -⟩ := h.mem e he
      have h4 := (List.getElem?_eq_some_iff.1 h3).1
      have h5 : e.dst = L.length := (Prod.mk.inj h1).2
      omega

mutual
theorem flat_addTree {parent : Nat} : (t : DTree) → {L : List (Nat × Parsed)} → {g : Graph} → Flat L g →
    parent < L.length → Own t → ∃ g', addTree parent g t = .ok g' [] ∧ Flat (L ++ flatT parent L.length t) g'
  | .node p ts, L, g, h, hp, hw => by
    simp only [Own] at hw
    obtain ⟨g1, h1, h2⟩ := flat_add h hp hw.1 hw.2.1
    obtain ⟨g2, h3, h4⟩ := flat_addTrees (parent := L.length) ts h2 (by simp) hw.2.2
    refine ⟨g2, ?_, ?_⟩
    · simp only [addTree, h1, M.bind, h3, List.append_nil]
    · simp only [List.length_append, List.length_singleton, List.append_assoc, List.singleton_append] at h4
      exact h4
theorem flat_addTrees {parent : Nat} : (ts : List DTree) → {L : List (Nat × Parsed)} → {g : Graph} → Flat L g →
    parent < L.length → Owns ts → ∃ g', addTrees parent g ts = .ok g' [] ∧ Flat (L ++ flatTs parent L.length ts) g'
  | [], L, g, h, hp, hw => ⟨g, rfl, by simpa [flatTs] using h⟩
  | t :: ts, L, g, h, hp, hw => by
    simp only [Owns] at hw
    obtain ⟨g1, h1, h2⟩ := flat_addTree t h hp hw.1
    obtain ⟨g2, h3, h4⟩ := flat_addTrees (parent := parent) ts h2 (by simp; omega) hw.2
    refine ⟨g2, ?_, ?_⟩
    · simp only [addTrees, h1, M.bind, h3, List.append_nil]
    · simp only [List.length_append, List.append_assoc, flatT_length] at h4
      exact h4
end

/-! ### the tree of a node -/

/-- `ks` are the children of `a`. -/
def Kids (L : List (Nat × Parsed)) (a : Nat) (ks : List Nat) : Prop :=
  ks.Nodup ∧ ∀ i, i ∈ ks ↔ 1 ≤ i ∧ ∃ p, L[i]? = some (a, p)

mutual
/-- Node `a` and its descendants form the tree. -/
def Rep (L : List (Nat × Parsed)) (a : Nat) : DTree → Prop
  | .node p ts => (∃ q, L[a]? = some (q, p)) ∧ ∃ ks, Kids L a ks ∧ Reps L ks ts
def Reps (L : List (Nat × Parsed)) : List Nat → List DTree → Prop
  | [], [] => True
  | a :: as, t :: ts => Rep L a t ∧ Reps L as ts
  | _, _ => False
end

def startsOf (n : Nat) : List DTree → List Nat
  | [] => []
  | t :: ts => n :: startsOf (n + sizeT t) ts

theorem sizeT_pos (t : DTree) : 0 < sizeT t := by cases t; simp only [sizeT]; omega

theorem mem_startsOf {n i : Nat} {ts : List DTree} (h : i ∈ startsOf n ts) : n ≤ i ∧ i < n + sizeTs ts := by
  induction ts generalizing n with
  | nil => simp [startsOf] at h
  | cons t ts ih =>
    simp only [startsOf, List.mem_cons, sizeTs] at h ⊢
    have := sizeT_pos t
    rcases h with rfl | h
    · omega
    · have := ih h; omega

theorem startsOf_nodup (n : Nat) (ts : List DTree) : (startsOf n ts).Nodup := by
  induction ts generalizing n with
  | nil => simp [startsOf]
  | cons t ts ih =>
    simp only [startsOf, List.nodup_cons]
    refine ⟨fun h => ?_, ih _⟩
    have := mem_startsOf h
    have := sizeT_pos t
    omega

mutual
theorem flatT_parents (par n : Nat) : (t : DTree) → ∀ (k : Nat) x, (flatT par n t)[k]? = some x →
    (k = 0 ∧ x.1 = par) ∨ (0 < k ∧ n ≤ x.1 ∧ x.1 < n + sizeT t)
  | .node p ts, k, x, h => by
    simp only [flatT] at h
    cases k with
    | zero =>
      simp only [List.getElem?_cons_zero, Option.some.injEq] at h
      subst h
      exact Or.inl ⟨rfl, rfl⟩
    | succ k =>
      simp only [List.getElem?_cons_succ] at h
      have := flatTs_parents n (n + 1) ts k x h
      simp only [sizeT]
      refine Or.inr ⟨by omega, ?_⟩
      rcases this with ⟨h1, -⟩ | h1 <;> omega
theorem flatTs_parents (par n : Nat) : (ts : List DTree) → ∀ (k : Nat) x, (flatTs par n ts)[k]? = some x →
    (x.1 = par ∧ n + k ∈ startsOf n ts) ∨ (n ≤ x.1 ∧ x.1 < n + sizeTs ts)
  | [], k, x, h => by simp [flatTs] at h
  | t :: ts, k, x, h => by
    simp only [flatTs] at h
    simp only [startsOf, List.mem_cons, sizeTs]
    by_cases hk : k < sizeT t
    · rw [List.getElem?_append_left (by rw [flatT_length]; exact hk)] at h
      rcases flatT_parents par n t k x h with ⟨h1, h2⟩ | h1
      · exact Or.inl ⟨h2, Or.inl (by omega)⟩
      · exact Or.inr (by omega)
    · rw [List.getElem?_append_right (by rw [flatT_length]; omega), flatT_length] at h
      rcases flatTs_parents par (n + sizeT t) ts (k - sizeT t) x h with ⟨h1, h2⟩ | h1
      · refine Or.inl ⟨h1, Or.inr ?_⟩
        have : n + sizeT t + (k - sizeT t) = n + k := by omega
        rwa [this] at h2
      · exact Or.inr (by omega)
end

/-- The roots of the trees have the given parent. -/
theorem startsOf_parent (par n : Nat) (ts : List DTree) {i : Nat} (h : i ∈ startsOf n ts) :
    ∃ p, (flatTs par n ts)[i - n]? = some (par, p) := by
  induction ts generalizing n with
  | nil => simp [startsOf] at h
  | cons t ts ih =>
    simp only [startsOf, List.mem_cons] at h
    simp only [flatTs]
    rcases h with rfl | h
    · cases t with
      | node p us => exact ⟨p, by simp [flatT]⟩
    · obtain ⟨p, hp⟩ := ih _ h
      have h1 := mem_startsOf h
      refine ⟨p, ?_⟩
      rw [List.getElem?_append_right (by rw [flatT_length]; omega), flatT_length]
      have : i - n - sizeT t = i - (n + sizeT t) := by omega
      rw [this]
      exact hp

/-- `L` contains `seg` at `n`, and no other entry refers into it. -/
def Seg (L : List (Nat × Parsed)) (n : Nat) (seg : List (Nat × Parsed)) : Prop :=
  (∀ k, k < seg.length → L[n + k]? = seg[k]?) ∧
  ∀ (i : Nat) x, L[i]? = some x → n ≤ x.1 → x.1 < n + seg.length → n ≤ i ∧ i < n + seg.length

mutual
theorem rep_seg {L : List (Nat × Parsed)} (hL : ∀ (i : Nat) x, 1 ≤ i → L[i]? = some x → x.1 < i) {par n : Nat} (hn : 1 ≤ n)
    (hpn : par < n) : (t : DTree) → Seg L n (flatT par n t) → Rep L n t
  | .node p ts, h => by
    simp only [Rep]
    have hlen : (flatT par n (.node p ts)).length = 1 + sizeTs ts := by rw [flatT_length]; simp only [sizeT]
    have h0 : L[n]? = some (par, p) := by
      have := h.1 0 (by rw [hlen]; omega)
      simpa [flatT] using this
    have hseg : ∀ k, k < sizeTs ts → L[n + 1 + k]? = (flatTs n (n + 1) ts)[k]? := by
      intro k hk
      have := h.1 (k + 1) (by rw [hlen]; omega)
      simp only [flatT, List.getElem?_cons_succ] at this
      rw [← this]; congr 1; omega
    refine ⟨⟨par, h0⟩, startsOf (n + 1) ts, ⟨startsOf_nodup _ _, ?_⟩, ?_⟩
    · intro i
      constructor
      · intro hi
        have h1 := mem_startsOf hi
        obtain ⟨q, hq⟩ := startsOf_parent n (n + 1) ts hi
        refine ⟨by omega, q, ?_⟩
        rw [← hq, ← hseg (i - (n + 1)) (by omega)]
        congr 1; omega
      · rintro ⟨hi, q, hq⟩
        have h1 := h.2 i _ hq (by simp) (by rw [hlen]; simp only; omega)
        rw [hlen] at h1
        have h2 := hL i _ hi hq
        simp only at h2
        have h3 := hseg (i - (n + 1)) (by omega)
        have h4 : n + 1 + (i - (n + 1)) = i := by omega
        rw [h4, hq] at h3
        rcases flatTs_parents n (n + 1) ts _ _ h3.symm with ⟨-, h5⟩ | h5
        · rwa [h4] at h5
        · simp only at h5; omega
    · refine reps_seg hL (par := n) (by omega) (by omega) ts ⟨fun k hk => hseg k (by rwa [flatTs_length] at hk), ?_⟩
      intro i x hx h1 h2
      rw [flatTs_length] at h2 ⊢
      have h3 := h.2 i x hx (by omega) (by rw [hlen]; omega)
      rw [hlen] at h3
      have h4 := hL i x
      by_cases hi : i = n
      · subst hi
        rw [h0] at hx
        cases hx
        simp only at h1
        omega
      · omega
theorem reps_seg {L : List (Nat × Parsed)} (hL : ∀ (i : Nat) x, 1 ≤ i → L[i]? = some x → x.1 < i) {par n : Nat} (hn : 1 ≤ n)
    (hpn : par < n) : (ts : List DTree) → Seg L n (flatTs par n ts) → Reps L (startsOf n ts) ts
  | [], _ => by simp [startsOf, Reps]
  | t :: ts, h => by
    simp only [startsOf, Reps]
    have hpos := sizeT_pos t
    have hlen : (flatTs par n (t :: ts)).length = sizeT t + sizeTs ts := by rw [flatTs_length]; simp only [sizeTs]
    have hin : ∀ (i : Nat) x, n ≤ i → i < n + (sizeT t + sizeTs ts) → L[i]? = some x →
        (i < n + sizeT t → x.1 < n + sizeT t) ∧ (n + sizeT t ≤ i → x.1 = par ∨ n + sizeT t ≤ x.1) := by
      intro i x h1 h2 hx
      have h3 := h.1 (i - n) (by rw [hlen]; omega)
      have h4 : n + (i - n) = i := by omega
      rw [h4, hx] at h3
      simp only [flatTs] at h3
      constructor
      · intro hk
        rw [List.getElem?_append_left (by rw [flatT_length]; omega)] at h3
        rcases flatT_parents _ _ t _ _ h3.symm with h5 | h5 <;> omega
      · intro hk
        rw [List.getElem?_append_right (by rw [flatT_length]; omega), flatT_length] at h3
        rcases flatTs_parents _ _ ts _ _ h3.symm with h5 | h5 <;> omega
    constructor
    · refine rep_seg hL hn hpn t ⟨?_, ?_⟩
      · intro k hk
        rw [flatT_length] at hk
        rw [h.1 k (by rw [hlen]; omega)]
        simp only [flatTs]
        rw [List.getElem?_append_left (by rw [flatT_length]; omega)]
      · intro i x hx h1 h2
        rw [flatT_length] at h2 ⊢
        have h3 := h.2 i x hx h1 (by rw [hlen]; omega)
        rw [hlen] at h3
        have h4 := (hin i x h3.1 h3.2 hx).2
        omega
    · refine reps_seg hL (par := par) (by omega) (by omega) ts ⟨?_, ?_⟩
      · intro k hk
        rw [flatTs_length] at hk
        have := h.1 (sizeT t + k) (by rw [hlen]; omega)
        rw [← Nat.add_assoc] at this
        rw [this]
        simp only [flatTs]
        rw [List.getElem?_append_right (by rw [flatT_length]; omega), flatT_length]
        congr 1; simp
      · intro i x hx h1 h2
        rw [flatTs_length] at h2 ⊢
        have h3 := h.2 i x hx (by omega) (by rw [hlen]; omega)
        rw [hlen] at h3
        have h4 := (hin i x h3.1 h3.2 hx).1
        omega
end

/-! ### the initial graph of a device -/

theorem owns_map {α : Type} {f : α → DTree} {l : List α} (h : ∀ x ∈ l, Own (f x)) : Owns (l.map f) := by
  induction l with
  | nil => simp [Owns]
  | cons x xs ih =>
    simp only [List.map_cons, Owns]
    exact ⟨h x (by simp), ih fun y hy => h y (by simp [hy])⟩

theorem own_field {f : SField} (h : f.derivedFrom = none) (hc : ∀ c ∈ f.containers, c.derivedFrom = none) :
    Own (ofField f) := by
  simp only [ofField, Own, ne_eq, reduceCtorEq, not_false_eq_true, true_and]
  refine ⟨h, owns_map fun c hcm => ?_⟩
  simp only [ofEnum, Own, Owns, ne_eq, reduceCtorEq, not_false_eq_true, true_and, and_true]
  exact hc c hcm

mutual
theorem own_rc {d : SDevice} (h : Underived d) {p : SPeriphT} (hp : p ∈ d.peripherals) : (x : SRC) →
    SBelow p.rcs x → Own (ofRC x)
  | .clu c ch, hb => by
    simp only [ofRC, Own, ne_eq, reduceCtorEq, not_false_eq_true, true_and]
    refine ⟨h _ (.clu hp hb), own_rcs h hp ch fun x hx => ?_⟩
    exact sbelow_child hb hx
  | .reg r, hb => by
    simp only [ofRC, Own, ne_eq, reduceCtorEq, not_false_eq_true, true_and]
    refine ⟨h _ (.reg hp hb), owns_map fun f hf => own_field (h _ (.field hp hb hf)) fun c hc => ?_⟩
    exact h _ (.enum hp hb hf hc)
theorem own_rcs {d : SDevice} (h : Underived d) {p : SPeriphT} (hp : p ∈ d.peripherals) : (xs : List SRC) →
    (∀ x ∈ xs, SBelow p.rcs x) → Owns (ofRCs xs)
  | [], _ => by simp [ofRCs, Owns]
  | x :: xs, hb => by
    simp only [ofRCs, Owns]
    exact ⟨own_rc h hp x (hb x (by simp)), own_rcs h hp xs fun y hy => hb y (by simp [hy])⟩
theorem sbelow_child {xs ch : List SRC} {c : SCluster} {x : SRC} (h : SBelow xs (.clu c ch)) (hx : x ∈ ch) :
    SBelow xs x := by
  generalize hy : SRC.clu c ch = y at h
  induction h with
  | here hm => subst hy; exact .inside hm (.here hx)
  | inside hm _ ih => exact .inside hm (ih hy)
end

theorem own_device {d : SDevice} (h : Underived d) : Owns (d.peripherals.map ofPeriph) := by
  refine owns_map fun p hp => ?_
  simp only [ofPeriph, Own, ne_eq, reduceCtorEq, not_false_eq_true, true_and]
  exact ⟨h _ (.periph hp), own_rcs h hp p.rcs fun x hx => .here hx⟩

/-- The initial graph of a device without derivedFrom. -/
theorem initial_flat {d : SDevice} (h : Underived d) : ∃ L g ks, initialization d = .ok g [] ∧ Flat L g ∧ Kids L 0 ks ∧
    Reps L ks (d.peripherals.map ofPeriph) := by
  have h0 : Flat [(0, .device)] ({ nodes := [some (.elem ⟨some (s%"Device"), .device, true, .device, none, false⟩)] } : Graph) := by
    constructor
    · rfl
    · rfl
    · rfl
    · rfl
    · intro i x hi hx
      have := (List.getElem?_eq_some_iff.1 hx).1
      simp at this; omega
    · intro e he; simp at he
    · intro i x hi hx
      have := (List.getElem?_eq_some_iff.1 hx).1
      simp at this; omega
    · simp [ends]
  obtain ⟨g, h1, h2⟩ := flat_addTrees (parent := 0) (d.peripherals.map ofPeriph) h0 (by simp) (own_device h)
  simp only [List.length_singleton, List.singleton_append] at h2
  have hin : ∀ (i : Nat) x, 1 ≤ i → ((0, Parsed.device) :: flatTs 0 1 (d.peripherals.map ofPeriph))[i]? = some x → x.1 < i :=
    fun i x hi hx => (h2.inner i x hi hx).2.2
  refine ⟨_, g, startsOf 1 (d.peripherals.map ofPeriph), ?_, h2, ⟨startsOf_nodup _ _, ?_⟩, ?_⟩
  · unfold initialization constructGraph
    rw [constrPeripherals_eq, h1]
    simp only [M.bind, h2.phs, ensurePlaceholderParents, M.pure, List.append_nil]
  · intro i
    constructor
    · intro hi
      have h3 := mem_startsOf hi
      obtain ⟨p, hp⟩ := startsOf_parent 0 1 _ hi
      refine ⟨h3.1, p, ?_⟩
      obtain ⟨j, rfl⟩ : ∃ j, i = j + 1 := ⟨i - 1, by omega⟩
      simpa using hp
    · rintro ⟨hi, p, hp⟩
      obtain ⟨j, rfl⟩ : ∃ j, i = j + 1 := ⟨i - 1, by omega⟩
      simp only [List.getElem?_cons_succ] at hp
      rcases flatTs_parents _ _ _ _ _ hp with ⟨-, h3⟩ | h3
      · rwa [Nat.add_comm] at h3
      · simp only at h3; omega
  · refine reps_seg hin (par := 0) (by omega) (by omega) _ ⟨?_, ?_⟩
    · intro k hk
      rw [Nat.add_comm]
      simp
    · intro i x hx h3 h4
      have h5 := (List.getElem?_eq_some_iff.1 hx).1
      simp only [List.length_cons] at h5
      cases i with
      | zero =>
        simp only [List.getElem?_cons_zero, Option.some.injEq] at hx
        subst hx
        simp at h3
      | succ i => omega

end Svd
