import Verif.Model.Heap
import Verif.Lemmas.FinBuild
import Verif.Lemmas.LabKinds
/-
Sizes computed during the finalisation, when several nodes refer to the same object: what a node of a given kind is
given does not depend on which of the nodes sharing its object have been finalised before.
-/
namespace Svd
open Graph Spec

/-- The attributes a node got when it was processed. -/
def head0 (g : Graph) (i : Nat) : Option Processed := (g.elem? i).bind (·.processed)
/-- The size among them. -/
def size0 (g : Graph) (i : Nat) : Option Int := (head0 g i).bind sizeOfP

/-- The nodes that are given a size by the finalisation. -/
def Boxed (g : Graph) (i : Nat) : Prop :=
  live g i = true ∧ (∃ e, g.elem? i = some e ∧ (e.level = .peripheral ∨ e.level = .cluster)) ∧ g.successors i ≠ []

/-- The attributes of a node that are handed down to what it contains. -/
def statOf : Processed → Props × Option WriteConstraint
  | .periph p => (p.props, none)
  | .clu c => (c.props, none)
  | .reg r => (r.props, r.writeConstraint)
  | .field _ => ({}, none)

open Classical in
/-- The attributes of the nodes when those in `D` have been finalised. -/
noncomputable def headIn (g0 : Graph) (D : Nat → Prop) (S : Nat → Int) (i : Nat) (o : Option Processed) : Option Processed :=
  if Boxed g0 i ∧ D i then o.map (·.withSize (S i)) else o

/-- A graph in which the nodes in `D` have been finalised with the sizes `S`. -/
structure Stage (g0 : Graph) (D : Nat → Prop) (S : Nat → Int) (G : Graph) : Prop where
  edges : G.edges = g0.edges
  len : G.nodes.length = g0.nodes.length
  elem : ∀ i, G.elem? i = (g0.elem? i).map fun e => { e with processed := headIn g0 D S i e.processed }

/-- Peripherals and clusters that contain something, templates included. -/
def BoxLike (g : Graph) (i : Nat) : Prop :=
  (∃ e, g.elem? i = some e ∧ (e.level = .peripheral ∨ e.level = .cluster)) ∧ g.successors i ≠ []

/-- The conditions on the graph at the end of the main loop: `obj` is the object of a node, `cls` groups the nodes that
come from the same place in the description, `E` is the size in force inside a node, and `hgt` is the height of a node
above the leaves. -/
structure Coherent (g : Graph) (obj cls : Nat → Nat) (E : Nat → Int) (hgt : Nat → Nat) : Prop where
  kind : ∀ i e p, g.elem? i = some e → e.processed = some p → procLevel p = e.level
  has : ∀ i e, g.elem? i = some e → e.level ≠ .device → e.level ≠ .enumcont → ∃ p, e.processed = some p
  child : ∀ i c, c ∈ g.successors i →
    ∃ ei ec, g.elem? i = some ei ∧ g.elem? c = some ec ∧ childKind ei.level ec.level = true
  parent : ∀ i c, c ∈ g.successors i ↔ i ∈ g.elementParents c
  root : ∀ i e, g.elem? i = some e → e.level = .device → i = 0
  share : ∀ a b, obj a = obj b → g.elem? a = g.elem? b ∧ cls a = cls b ∧ (g.successors a).map obj = (g.successors b).map obj
  idem : ∀ a, obj (obj a) = obj a
  data : ∀ a b ea eb, g.elem? a = some ea → g.elem? b = some eb → cls a = cls b →
    ea.level = eb.level ∧ ea.processed.map statOf = eb.processed.map statOf
  up : ∀ a b c c', c ∈ g.successors a → c' ∈ g.successors b → cls c = cls c' → cls a = cls b
  empty : ∀ a b ea eb, g.elem? a = some ea → g.elem? b = some eb → cls a = cls b → (g.successors a = [] ↔ g.successors b = [])
  kids : ∀ a b, BoxLike g a → BoxLike g b → cls a = cls b →
    ∀ c ∈ g.successors a, live g c = true → ∃ c' ∈ g.successors b, live g c' = true ∧ cls c' = cls c
  enc : ∀ i, BoxLike g i → (∀ s, size0 g i = some s → E i = s) ∧
    (size0 g i = none → parentSize g g.nodes.length i = .ok (E i) [])
  encC : ∀ a b, BoxLike g a → BoxLike g b → cls a = cls b → E a = E b
  hgtC : ∀ a b, cls a = cls b → hgt a = hgt b
  hgtU : ∀ i c, c ∈ g.successors i → hgt c < hgt i
  hgtX : ∀ i, g.successors i ≠ [] → ∃ c ∈ g.successors i, hgt i = hgt c + 1
  hgtZ : ∀ i, g.successors i = [] → hgt i = 0

section
variable {g0 G G' : Graph} {D D' : Nat → Prop} {S : Nat → Int} {obj cls : Nat → Nat} {E : Nat → Int} {hgt : Nat → Nat}

theorem Stage.succ (h : Stage g0 D S G) (i : Nat) : G.successors i = g0.successors i := by
  unfold Graph.successors Graph.outEdges
  rw [h.edges]

theorem Stage.isElem (h : Stage g0 D S G) (i : Nat) : G.isElem i = g0.isElem i := by
  unfold Graph.isElem
  rw [h.elem]
  cases g0.elem? i <;> rfl

theorem Stage.parents (h : Stage g0 D S G) (i : Nat) : G.elementParents i = g0.elementParents i := by
  unfold Graph.elementParents Graph.inEdges
  rw [h.edges]
  congr 1
  apply List.filter_congr
  intro e _
  rw [h.isElem]

theorem Stage.live (h : Stage g0 D S G) (i : Nat) : Svd.live G i = Svd.live g0 i := by
  unfold Svd.live
  rw [h.elem]
  cases g0.elem? i <;> rfl

theorem Stage.hasLevel (h : Stage g0 D S G) (i : Nat) (l : Level) : G.hasLevel i l = g0.hasLevel i l := by
  unfold Graph.hasLevel
  rw [h.elem]
  cases g0.elem? i <;> rfl

theorem headIn_none {i : Nat} {o : Option Processed} (h : ¬ (Boxed g0 i ∧ D i)) : headIn g0 D S i o = o := by
  unfold headIn
  rw [if_neg h]

theorem headIn_some {i : Nat} {o : Option Processed} (h : Boxed g0 i) (h' : D i) :
    headIn g0 D S i o = o.map (·.withSize (S i)) := by
  unfold headIn
  rw [if_pos ⟨h, h'⟩]

theorem Stage.same (h : Stage g0 D S G) {i : Nat} (hn : ¬ (Boxed g0 i ∧ D i)) : G.elem? i = g0.elem? i := by
  rw [h.elem]
  cases g0.elem? i with
  | none => rfl
  | some e => simp [headIn_none hn]

theorem procOf_congr {i : Nat} (h : G.elem? i = G'.elem? i) : procOf G i = procOf G' i := by
  unfold procOf
  rw [h]

theorem templateOf_congr {i : Nat} (h : G.elem? i = G'.elem? i) : templateOf G i = templateOf G' i := by
  unfold templateOf
  rw [h]

/-- The climb is the same in two graphs that agree on a set of nodes closed under parents. -/
theorem parentSize_congr (hp : ∀ i, G.elementParents i = G'.elementParents i) (hl : ∀ i, G.hasLevel i .device = G'.hasLevel i .device)
    (P : Nat → Prop) (hP : ∀ i p, P i → p ∈ G.elementParents i → P p ∧ G.elem? p = G'.elem? p) :
    ∀ f i, P i → parentSize G f i = parentSize G' f i := by
  intro f
  induction f with
  | zero => intro i _; rfl
  | succ f ih =>
    intro i hi
    simp only [parentSize]
    rw [← hp i]
    cases h : G.elementParents i with
    | nil => rfl
    | cons p rest =>
      obtain ⟨h1, h2⟩ := hP i p hi (by rw [h]; simp)
      simp only
      rw [← hl p, ← procOf_congr h2, ih p h1]

theorem sizeOfP_withSize {p : Processed} (z : Int) (h : procLevel p ≠ .field) : sizeOfP (p.withSize z) = some z := by
  cases p <;> first | rfl | exact absurd rfl h

theorem procLevel_withSize' (p : Processed) (z : Int) : procLevel (p.withSize z) = procLevel p := by
  cases p <;> rfl

open Classical in
/-- The size of a child when everything below the parent has been finalised. -/
noncomputable def fsize (g : Graph) (S : Nat → Int) (c : Nat) : Option Int :=
  if Boxed g c then some (S c) else size0 g c

/-- The size a child counts with. -/
noncomputable def valIn (g : Graph) (S E : Nat → Int) (i c : Nat) : Int :=
  match fsize g S c with
  | some z => usable z
  | none => E i

/-- The size of a node as a function of those of its children. -/
noncomputable def boxSize (g : Graph) (S E : Nat → Int) (i : Nat) : Int :=
  maxList (-1) (((g.successors i).filter (Svd.live g)).map (valIn g S E i))

theorem boxed_level {i : Nat} (h : Boxed g0 i) : ∃ e, g0.elem? i = some e ∧ e.isDimTemplate = false ∧
    (e.level = .peripheral ∨ e.level = .cluster) := by
  obtain ⟨h1, ⟨e, h2, h3⟩, -⟩ := h
  refine ⟨e, h2, ?_, h3⟩
  unfold Svd.live at h1
  rw [h2] at h1
  simpa using h1

/-- The children of a box are registers and clusters. -/
theorem Coherent.kid (C : Coherent g0 obj cls E hgt) {i c : Nat} (hi : Boxed g0 i) (hc : c ∈ g0.successors i) :
    ∃ ec p, g0.elem? c = some ec ∧ ec.processed = some p ∧ ((∃ r, p = .reg r) ∨ ∃ x, p = .clu x) := by
  obtain ⟨ei, ec, h1, h2, h3⟩ := C.child i c hc
  obtain ⟨e, h4, -, h5⟩ := boxed_level hi
  rw [h1] at h4
  cases h4
  have hl : ec.level = .cluster ∨ ec.level = .register := by
    rcases h5 with h5 | h5 <;> rw [h5] at h3 <;> cases h6 : ec.level <;> rw [h6] at h3 <;> simp_all [childKind]
  obtain ⟨p, h6⟩ := C.has c ec h2 (by rcases hl with h | h <;> rw [h] <;> simp) (by rcases hl with h | h <;> rw [h] <;> simp)
  refine ⟨ec, p, h2, h6, ?_⟩
  have h7 := C.kind c ec p h2 h6
  cases p with
  | periph x => rcases hl with h | h <;> rw [h] at h7 <;> cases h7
  | clu x => exact Or.inr ⟨x, rfl⟩
  | reg x => exact Or.inl ⟨x, rfl⟩
  | field x => rcases hl with h | h <;> rw [h] at h7 <;> cases h7

theorem Coherent.childSize_in (C : Coherent g0 obj cls E hgt) (h : Stage g0 D S G) {i c : Nat} (hi : Boxed g0 i)
    (hc : c ∈ g0.successors i) (hD : D c) :
    (Svd.live g0 c = false → childSize G c = .ok none []) ∧
    (Svd.live g0 c = true → (∀ z, fsize g0 S c = some z → childSize G c = .ok (some (usable z)) []) ∧
      (fsize g0 S c = none → childSize G c = M.bind (parentSize G (G.nodes.length + 1) c) fun s => M.pure (some s))) := by
  obtain ⟨ec, p, h1, h2, h3⟩ := C.kid hi hc
  have h4 : G.elem? c = some { ec with processed := headIn g0 D S c ec.processed } := by rw [h.elem, h1]; rfl
  obtain ⟨q, hq, hq2, hq3⟩ : ∃ q, headIn g0 D S c ec.processed = some q ∧ ((∃ r, q = .reg r) ∨ ∃ x, q = .clu x) ∧
      sizeOfP q = fsize g0 S c := by
    unfold fsize
    by_cases hb : Boxed g0 c
    · rw [if_pos hb, headIn_some hb hD, h2]
      refine ⟨_, rfl, ?_, ?_⟩
      · rcases h3 with ⟨r, rfl⟩ | ⟨x, rfl⟩
        · exact Or.inl ⟨_, rfl⟩
        · exact Or.inr ⟨_, rfl⟩
      · apply sizeOfP_withSize
        rcases h3 with ⟨r, rfl⟩ | ⟨x, rfl⟩ <;> simp [procLevel]
    · rw [if_neg hb, headIn_none (fun h => hb h.1), h2]
      refine ⟨_, rfl, h3, ?_⟩
      unfold size0 head0
      rw [h1]
      simp [h2]
  have hproc : procOf G c = .ok q [] := by
    unfold procOf
    rw [h4]
    simp only [hq]
    rfl
  have htmp : templateOf G c = .ok ec.isDimTemplate [] := by
    unfold templateOf
    rw [h4]
    rfl
  have hch : childSize G c = if ec.isDimTemplate then .ok none [] else match fsize g0 S c with
      | some s => .ok (some (usable s)) []
      | none => M.bind (parentSize G (G.nodes.length + 1) c) fun s => M.pure (some s) := by
    unfold childSize
    rw [hproc]
    show M.bind (M.pure q) _ = _
    rw [M.pure_bind]
    rw [htmp]
    rw [← hq3]
    rcases hq2 with ⟨r, rfl⟩ | ⟨x, rfl⟩
    · show M.bind (M.pure _) _ = _
      rw [M.pure_bind]
      show M.bind (M.pure _) _ = _
      rw [M.pure_bind]
      simp only [sizeOfP]
      cases ec.isDimTemplate with
      | true => rfl
      | false =>
        simp only [Bool.false_eq_true, if_false]
        cases r.props.size with
        | none => rfl
        | some z => simp only [usable_ite]; rfl
    · show M.bind (M.pure _) _ = _
      rw [M.pure_bind]
      show M.bind (M.pure _) _ = _
      rw [M.pure_bind]
      simp only [sizeOfP]
      cases ec.isDimTemplate with
      | true => rfl
      | false =>
        simp only [Bool.false_eq_true, if_false]
        cases x.props.size with
        | none => rfl
        | some z => simp only [usable_ite]; rfl
  have hlive : Svd.live g0 c = !ec.isDimTemplate := by
    unfold Svd.live
    rw [h1]
  rw [hch, hlive]
  constructor
  · intro hl
    simp only [Bool.not_eq_false'] at hl
    rw [hl]; rfl
  · intro hl
    simp only [Bool.not_eq_true'] at hl
    rw [hl]
    constructor
    · intro z hz
      rw [hz]; rfl
    · intro hz
      rw [hz]; rfl

theorem maxList_ext {xs ys : List Int} (h : ∀ z, z ∈ xs ↔ z ∈ ys) : maxList (-1) xs = maxList (-1) ys := by
  have h1 := le_maxList (-1) xs
  have h2 := le_maxList (-1) ys
  apply Int.le_antisymm
  · rcases maxList_mem (-1) xs with h3 | h3
    · rw [h3]; exact h2.1
    · exact h2.2 _ ((h _).1 h3)
  · rcases maxList_mem (-1) ys with h3 | h3
    · rw [h3]; exact h1.1
    · exact h1.2 _ ((h _).2 h3)

/-- The sizes agree on nodes of the same class. -/
def Classy (g : Graph) (cls : Nat → Nat) (D : Nat → Prop) (S : Nat → Int) : Prop :=
  ∀ a b, D a → D b → Boxed g a → Boxed g b → cls a = cls b → S a = S b

theorem Coherent.size_eq (C : Coherent g0 obj cls E hgt) {a b : Nat} {ea eb : ElemNode} (ha : g0.elem? a = some ea)
    (hb : g0.elem? b = some eb) (hc : cls a = cls b) (hf : ea.level ≠ .field) : size0 g0 a = size0 g0 b := by
  obtain ⟨h1, h2⟩ := C.data a b ea eb ha hb hc
  unfold size0 head0
  rw [ha, hb]
  simp only [Option.bind_some]
  cases hpa : ea.processed with
  | none =>
    rw [hpa] at h2
    cases hpb : eb.processed with
    | none => rfl
    | some q => rw [hpb] at h2; cases h2
  | some p =>
    rw [hpa] at h2
    cases hpb : eb.processed with
    | none => rw [hpb] at h2; cases h2
    | some q =>
      rw [hpb] at h2
      simp only [Option.map_some, Option.some.injEq] at h2
      have h3 := C.kind a ea p ha hpa
      have h4 := C.kind b eb q hb hpb
      simp only [Option.bind_some]
      have key : ∀ p : Processed, procLevel p ≠ .field → sizeOfP p = (statOf p).1.size := by
        intro p hp
        cases p <;> first | rfl | exact absurd rfl hp
      rw [key p (by rw [h3]; exact hf), key q (by rw [h4, ← h1]; exact hf), h2]

theorem Boxed.like {i : Nat} (h : Boxed g0 i) : BoxLike g0 i := h.2

theorem Coherent.like_eq (C : Coherent g0 obj cls E hgt) {a b : Nat} {eb : ElemNode} (hb : g0.elem? b = some eb) (hc : cls a = cls b)
    (h : BoxLike g0 a) : BoxLike g0 b := by
  obtain ⟨⟨e, h1, h2⟩, h3⟩ := h
  exact ⟨⟨eb, hb, by rw [← (C.data a b e eb h1 hb hc).1]; exact h2⟩, fun h => h3 ((C.empty a b e eb h1 hb hc).2 h)⟩

theorem Coherent.boxed_eq (C : Coherent g0 obj cls E hgt) {a b : Nat} (la : Svd.live g0 a = true)
    (lb : Svd.live g0 b = true) (hc : cls a = cls b) : Boxed g0 a ↔ Boxed g0 b := by
  have one : ∀ a b, Svd.live g0 a = true → Svd.live g0 b = true → cls a = cls b → Boxed g0 a → Boxed g0 b := by
    intro a b la lb hc h
    obtain ⟨eb, h4⟩ : ∃ eb, g0.elem? b = some eb := by
      unfold Svd.live at lb
      cases h4 : g0.elem? b with
      | none => rw [h4] at lb; cases lb
      | some eb => exact ⟨eb, rfl⟩
    exact ⟨lb, C.like_eq h4 hc h.like⟩
  exact ⟨one a b la lb hc, one b a lb la hc.symm⟩

/-- Nodes of the same class have the same size. -/
theorem Coherent.boxSize_eq (C : Coherent g0 obj cls E hgt) (hS : Classy g0 cls D S) {a b : Nat}
    (ba : Boxed g0 a) (bb : Boxed g0 b) (hc : cls a = cls b) (da : ∀ c ∈ g0.successors a, D c) (db : ∀ c ∈ g0.successors b, D c) :
    boxSize g0 S E a = boxSize g0 S E b := by
  have one : ∀ a b, Boxed g0 a → Boxed g0 b → cls a = cls b → (∀ c ∈ g0.successors a, D c) →
      (∀ c ∈ g0.successors b, D c) → ∀ z, z ∈ ((g0.successors a).filter (Svd.live g0)).map (valIn g0 S E a) →
        z ∈ ((g0.successors b).filter (Svd.live g0)).map (valIn g0 S E b) := by
    intro a b ba bb hc da db z hz
    obtain ⟨c, hcm, rfl⟩ := List.mem_map.1 hz
    obtain ⟨h1, h2⟩ := List.mem_filter.1 hcm
    obtain ⟨c', h3, h4, h5⟩ := C.kids a b ba.like bb.like hc c h1 h2
    refine List.mem_map.2 ⟨c', List.mem_filter.2 ⟨h3, h4⟩, ?_⟩
    have hE := C.encC a b ba.like bb.like hc
    have hf : fsize g0 S c' = fsize g0 S c := by
      unfold fsize
      by_cases hb : Boxed g0 c
      · have hb' := (C.boxed_eq h2 h4 h5.symm).1 hb
        rw [if_pos hb, if_pos hb', hS c' c (db c' h3) (da c h1) hb' hb h5]
      · rw [if_neg hb, if_neg (fun h => hb ((C.boxed_eq h2 h4 h5.symm).2 h))]
        obtain ⟨ec, p, h6, h7, h8⟩ := C.kid ba h1
        obtain ⟨ec', p', h6', h7', h8'⟩ := C.kid bb h3
        refine C.size_eq h6' h6 h5 ?_
        rw [← C.kind c' ec' p' h6' h7']
        rcases h8' with ⟨r, rfl⟩ | ⟨x, rfl⟩ <;> simp [procLevel]
    unfold valIn
    rw [hf, hE]
  exact maxList_ext fun z => ⟨one a b ba bb hc da db z, one b a bb ba hc.symm db da z⟩

theorem box_head {ei : ElemNode} {p : Processed} (hp : procLevel p = ei.level) (h2 : ei.level = .peripheral ∨ ei.level = .cluster) :
    (∃ x, p = .periph x) ∨ ∃ x, p = .clu x := by
  cases p with
  | periph x => exact Or.inl ⟨x, rfl⟩
  | clu x => exact Or.inr ⟨x, rfl⟩
  | reg x => rcases h2 with h | h <;> rw [h] at hp <;> cases hp
  | field x => rcases h2 with h | h <;> rw [h] at hp <;> cases hp

/-- What a child without size finds in its first parent. -/
theorem parentSize_box {f c p : Nat} {rest : List Nat} {e : ElemNode} {q : Processed} (hp : G.elementParents c = p :: rest)
    (he : G.elem? p = some e) (hl : e.level ≠ .device) (hq : e.processed = some q)
    (hk : (∃ x, q = .periph x) ∨ ∃ x, q = .clu x) :
    parentSize G (f + 1) c = match sizeOfP q with
      | some s => .ok s []
      | none => parentSize G f p := by
  have hd : G.hasLevel p .device = false := by
    unfold Graph.hasLevel
    rw [he]
    simpa using hl
  have hproc : procOf G p = .ok q [] := by
    unfold procOf
    rw [he]
    simp only [hq]
    rfl
  simp only [parentSize, hp, hd, hproc]
  rcases hk with ⟨x, rfl⟩ | ⟨x, rfl⟩
  · show M.bind (M.pure _) _ = _
    rw [M.pure_bind]
    simp only [sizeOfP]
    cases x.props.size <;> rfl
  · show M.bind (M.pure _) _ = _
    rw [M.pure_bind]
    simp only [sizeOfP]
    cases x.props.size <;> rfl

theorem Coherent.calc (C : Coherent g0 obj cls E hgt) (h : Stage g0 D S G) (hdown : ∀ j, D j → ∀ c ∈ g0.successors j, D c)
    (hform : ∀ j, D j → Boxed g0 j → S j = boxSize g0 S E j) (hS : Classy g0 cls D S)
    {i : Nat} (hi : Boxed g0 i) (hk : ∀ c ∈ g0.successors i, D c) (hD : ∀ j, D j → hgt j ≤ hgt i) :
    calculateSize G (g0.successors i) =
      if boxSize g0 S E i = -1 then .err (.resolve 425) else .ok (boxSize g0 S E i) [] := by
  have hval : ∀ c ∈ g0.successors i, (Svd.live g0 c = false ∧ childSize G c = .ok none []) ∨
      (Svd.live g0 c = true ∧ ∃ v, childSize G c = .ok (some v) [] ∧ (v = valIn g0 S E i c ∨ v = boxSize g0 S E i)) := by
    intro c hc
    obtain ⟨h1, h2⟩ := C.childSize_in h hi hc (hk c hc)
    cases hl : Svd.live g0 c with
    | false => exact Or.inl ⟨rfl, h1 hl⟩
    | true =>
      right
      refine ⟨rfl, ?_⟩
      obtain ⟨h3, h4⟩ := h2 hl
      cases hf : fsize g0 S c with
      | some z => exact ⟨usable z, h3 z hf, Or.inl (by unfold valIn; rw [hf])⟩
      | none =>
        have hv : valIn g0 S E i c = E i := by unfold valIn; rw [hf]
        obtain ⟨p, rest, hp⟩ : ∃ p rest, g0.elementParents c = p :: rest := by
          cases hp : g0.elementParents c with
          | nil => have := (C.parent i c).1 hc; rw [hp] at this; cases this
          | cons p rest => exact ⟨p, rest, rfl⟩
        have hcp : c ∈ g0.successors p := (C.parent p c).2 (by rw [hp]; simp)
        have hcl := C.up p i c c hcp hc rfl
        obtain ⟨ep, -, hep, -, -⟩ := C.child p c hcp
        have bp : BoxLike g0 p := C.like_eq hep hcl.symm hi.like
        have hE := C.encC p i bp hi.like hcl
        have hlev : ep.level = .peripheral ∨ ep.level = .cluster := by
          obtain ⟨⟨e, h1, h2⟩, -⟩ := bp
          rw [hep] at h1
          cases h1
          exact h2
        have hnd : ep.level ≠ .device ∧ ep.level ≠ .enumcont := by
          rcases hlev with h | h <;> rw [h] <;> exact ⟨by simp, by simp⟩
        obtain ⟨q, hq⟩ := C.has p ep hep hnd.1 hnd.2
        have hkd := box_head (C.kind p ep q hep hq) hlev
        have hpG : G.elementParents c = p :: rest := by rw [h.parents, hp]
        rw [h4 hf, hv]
        by_cases hDp : Boxed g0 p ∧ D p
        · obtain ⟨bp', hDp⟩ := hDp
          have heG : G.elem? p = some { ep with processed := some (q.withSize (S p)) } := by
            rw [h.elem, hep, Option.map_some, headIn_some bp' hDp, hq]
            rfl
          have hps := parentSize_box (f := G.nodes.length) hpG heG hnd.1 rfl (by
            rcases hkd with ⟨x, rfl⟩ | ⟨x, rfl⟩
            · exact Or.inl ⟨_, rfl⟩
            · exact Or.inr ⟨_, rfl⟩)
          rw [sizeOfP_withSize (S p) (by rcases hkd with ⟨x, rfl⟩ | ⟨x, rfl⟩ <;> simp [procLevel])] at hps
          rw [hps]
          refine ⟨S p, rfl, Or.inr ?_⟩
          rw [hform p hDp bp']
          exact C.boxSize_eq hS bp' hi hcl (hdown p hDp) hk
        · have heG : G.elem? p = some ep := by rw [h.same hDp, hep]
          have hps := parentSize_box (f := G.nodes.length) hpG heG hnd.1 hq hkd
          obtain ⟨e1, e2⟩ := C.enc p bp
          have hs0 : size0 g0 p = sizeOfP q := by
            unfold size0 head0
            rw [hep]
            simp [hq]
          rw [hps]
          cases hz : sizeOfP q with
          | some z =>
            refine ⟨z, rfl, Or.inl ?_⟩
            rw [← hE, e1 z (by rw [hs0, hz])]
          | none =>
            have hcong := parentSize_congr (G := G) (G' := g0) h.parents (fun i => h.hasLevel i _) (fun x => hgt i ≤ hgt x) (by
              intro x y hx hy
              rw [h.parents] at hy
              have hlt := C.hgtU y x ((C.parent y x).2 hy)
              have : ¬ D y := fun hDy => by have := hD y hDy; omega
              exact ⟨by omega, h.same (fun hh => this hh.2)⟩) G.nodes.length p (by rw [C.hgtC p i hcl]; exact Nat.le_refl _)
            simp only
            rw [hcong, h.len, e2 (by rw [hs0, hz])]
            exact ⟨E p, rfl, Or.inl hE⟩
  obtain ⟨zs, h1, h2⟩ := filterMapM_mem (f := childSize G) (cs := g0.successors i) (by
    intro c hc
    rcases hval c hc with ⟨-, h⟩ | ⟨-, v, h, -⟩
    · exact ⟨_, h⟩
    · exact ⟨_, h⟩)
  have hB := le_maxList (-1) (((g0.successors i).filter (Svd.live g0)).map (valIn g0 S E i))
  have hZ := le_maxList (-1) zs
  have hmax : maxList (-1) zs = boxSize g0 S E i := by
    apply Int.le_antisymm
    · rcases maxList_mem (-1) zs with h3 | h3
      · rw [h3]; exact hB.1
      · obtain ⟨c, hc, hcz⟩ := (h2 _).1 h3
        rcases hval c hc with ⟨-, h⟩ | ⟨hl, v, h, h'⟩
        · rw [h] at hcz; cases hcz
        · rw [h] at hcz
          injection hcz with hcz
          injection hcz with hcz
          rw [← hcz]
          rcases h' with h' | h'
          · rw [h']
            exact hB.2 _ (List.mem_map.2 ⟨c, List.mem_filter.2 ⟨hc, hl⟩, rfl⟩)
          · rw [h']
            exact Int.le_refl _
    · rcases maxList_mem (-1) (((g0.successors i).filter (Svd.live g0)).map (valIn g0 S E i)) with h3 | h3
      · unfold boxSize
        rw [h3]; exact hZ.1
      · obtain ⟨c, hc, hcz⟩ := List.mem_map.1 h3
        obtain ⟨hc1, hl⟩ := List.mem_filter.1 hc
        rcases hval c hc1 with ⟨h, -⟩ | ⟨-, v, h, h'⟩
        · rw [hl] at h; cases h
        · have hv : v = boxSize g0 S E i := by
            rcases h' with h' | h'
            · rw [h', hcz]; rfl
            · exact h'
          rw [← hv]
          exact hZ.2 v ((h2 v).2 ⟨c, hc1, h⟩)
  unfold calculateSize
  rw [h1]
  show M.bind (M.pure zs) _ = _
  rw [M.pure_bind]
  simp only [hmax]
  rfl

end
end Svd
