import Verif.Lemmas.InvRun
import Verif.Lemmas.MadeInv
import Verif.Lemmas.Acyclic
import Verif.Lemmas.Search
import Verif.Lemmas.PathText
import Verif.Spec.Elements
/-
The element graph labelled with positions of the description: which declaration each node belongs to.
-/
namespace Svd
open Graph Spec

/-! ### views of the edges -/

/-- `b` is a child of `a`. -/
def Ch (g : Graph) (a b : Nat) : Prop := (⟨a, b, .childU⟩ : Edge) ∈ g.edges ∨ (⟨a, b, .childR⟩ : Edge) ∈ g.edges
/-- `b` is derived from `a`. -/
def De (g : Graph) (a b : Nat) : Prop := (⟨a, b, .derive⟩ : Edge) ∈ g.edges
/-- A placeholder edge. -/
def Pl (g : Graph) (a b : Nat) : Prop := (⟨a, b, .placeholder⟩ : Edge) ∈ g.edges

def IsE (g : Graph) (i : Nat) : Prop := ∃ e, g.elem? i = some e
def IsP (g : Graph) (i : Nat) : Prop := ∃ path, g.node? i = some (.ph path)

theorem isE_iff {g : Graph} {i : Nat} : g.isElem i = true ↔ IsE g i := by
  unfold Graph.isElem IsE
  exact Option.isSome_iff_exists

theorem isE_notP {g : Graph} {i : Nat} (h : IsE g i) (hp : IsP g i) : False := by
  obtain ⟨e, he⟩ := h
  obtain ⟨p, hp⟩ := hp
  rw [elem?_node?, hp] at he
  cases he

theorem IsE.some {g : Graph} {i : Nat} (h : IsE g i) : (g.node? i).isSome := by
  obtain ⟨e, he⟩ := h
  rw [elem?_node?.1 he]; rfl

theorem ch_edge {g : Graph} {e : Edge} (he : e ∈ g.edges) (hc : isChildEdge e = true) : Ch g e.src e.dst := by
  obtain ⟨a, b, ty⟩ := e
  cases ty with
  | childU => exact Or.inl he
  | childR => exact Or.inr he
  | placeholder => exact absurd hc (by simp [isChildEdge])
  | derive => exact absurd hc (by simp [isChildEdge])

theorem ch_iff {g : Graph} {a b : Nat} : Ch g a b ↔ ∃ e ∈ g.edges, e.src = a ∧ e.dst = b ∧ isChildEdge e = true := by
  constructor
  · rintro (h | h)
    · exact ⟨_, h, rfl, rfl, rfl⟩
    · exact ⟨_, h, rfl, rfl, rfl⟩
  · rintro ⟨e, h1, rfl, rfl, h2⟩
    exact ch_edge h1 h2

/-- Every edge is one of the three. -/
theorem edge_view {g : Graph} {e : Edge} (he : e ∈ g.edges) : Ch g e.src e.dst ∨ De g e.src e.dst ∨ Pl g e.src e.dst := by
  obtain ⟨a, b, ty⟩ := e
  cases ty with
  | childU => exact Or.inl (Or.inl he)
  | childR => exact Or.inl (Or.inr he)
  | placeholder => exact Or.inr (Or.inr he)
  | derive => exact Or.inr (Or.inl he)

/-! ### the invariant -/

/-- The declarations at a list of positions. -/
inductive DeclsAt (d : SDevice) : List Pos → List Parsed → Prop
  | nil : DeclsAt d [] []
  | cons {x p l ps} : DeclAt d x p → DeclsAt d l ps → DeclsAt d (x :: l) (p :: ps)

def MadeAlong (d : SDevice) (l : List Pos) (h : Processed) : Prop := ∃ ps, DeclsAt d l ps ∧ Made d ps h

/-- The heads made from a declaration, given the head of its base. -/
def HeadsFrom (p : Parsed) (b : Option Processed) (hs : List Processed) : Prop :=
  ∃ isDim names ds w xs w', extractDimOf p b = .ok (isDim, names, ds) w ∧ createAll p b 0 names ds = .ok xs w' ∧ xs ≠ [] ∧
    hs = xs.map fun x => if isDim then x.clearDim else x

/-- The head of the base of the element declared at `y` as `p`; `k` is the chain. -/
def BaseHead (d : SDevice) (y : Pos) (k : List Pos) (p : Parsed) (b : Option Processed) : Prop :=
  (p.derivedFrom = none ∧ b = none ∧ k = [y]) ∨
    (∃ path x z l, p.derivedFrom = some path ∧ b = some x ∧ x.name = lastPart path ∧ Refers d y z ∧ Chain d z l ∧ MadeAlong d l x ∧
      k = y :: l)

/-- The heads of the element declared at `y` with the chain `l`. -/
def Stands (d : SDevice) (y : Pos) (l : List Pos) (hs : List Processed) : Prop :=
  ∃ p b, DeclAt d y p ∧ BaseHead d y l p b ∧ HeadsFrom p b hs

structure NodeLab (d : SDevice) (x : Pos) (e : ElemNode) (p : Parsed) : Prop where
  decl : DeclAt d x p
  level : e.level = p.level
  parsed : e.level ≠ .enumcont → e.parsed = p
  enum : ∀ c, p = .enum c → e.name = c.name ∧ ∃ c', e.parsed = .enum c' ∧ (e.isProcessed = true → Takes d x c') ∧
    (e.isProcessed = false → c' = c)
  plain : e.isProcessed = false → e.isDimTemplate = false

/-- A finished element with this head. -/
def Live (g : Graph) (lab : Nat → Pos) (y : Pos) (h : Processed) (j : Nat) : Prop :=
  ∃ ej, g.elem? j = some ej ∧ lab j = y ∧ ej.isProcessed = true ∧ ej.isDimTemplate = false ∧ ej.processed = some h

def PresentIn (d : SDevice) (g : Graph) (lab : Nat → Pos) (i : Nat) (y : Pos) : Prop :=
  ∃ c e, Ch g i c ∧ g.elem? c = some e ∧ lab c = y ∧ (e.isProcessed = false ∨ e.level = .enumcont ∨
    ∃ l hs, Stands d y l hs ∧ ∀ h ∈ hs, ∃ j, Ch g i j ∧ Live g lab y h j)

structure Cont (d : SDevice) (g : Graph) (lab : Nat → Pos) (i : Nat) (l : List Pos) : Prop where
  sub : ∀ c, Ch g i c → InChain d l (lab c) ∨ Nested d (lab i) (lab c)
  all : ∀ y, InChain d l y → (∃ z ∈ l, Endless d z y) ∨ PresentIn d g lab i y

structure ChainOf (d : SDevice) (x : Pos) (e : ElemNode) (l : List Pos) : Prop where
  raw : e.isProcessed = false → l = [x]
  done : e.isProcessed = true → Chain d x l
  made : ∀ h, e.processed = some h → MadeAlong d l h
  inst : ∀ h, e.processed = some h → e.isDimTemplate = false → ∃ hs, Stands d x l hs ∧ h ∈ hs

structure LabX (d : SDevice) (g : Graph) (lab : Nat → Pos) (X : Nat → Prop) : Prop where
  root : lab 0 = [] ∧ ∃ e, g.elem? 0 = some e ∧ e.level = .device
  node : ∀ i e, g.elem? i = some e → ∃ p, NodeLab d (lab i) e p
  tch : ∀ a b, Ch g a b → IsE g a ∧ IsE g b
  tde : ∀ a b, De g a b → IsE g a ∧ IsE g b
  tpl : ∀ a b, Pl g a b → (IsE g a ∧ IsP g b) ∨ (IsP g a ∧ IsE g b)
  leaf : ∀ i e b, g.elem? i = some e → e.level = .enumcont → ¬ Ch g i b ∧ ¬ Pl g i b
  der : ∀ a b, De g a b → Refers d (lab b) (lab a)
  ph : ∀ a b path, g.node? a = some (.ph path) → Pl g a b → ∃ p, DeclAt d (lab b) p ∧ p.derivedFrom = some path
  phIn : ∀ a h b, IsP g h → Pl g a h → Pl g h b → HasChild d (lab a) (lab b)
  cont : ∀ i e, ¬ X i → g.elem? i = some e → e.level ≠ .enumcont → ∃ l, ChainOf d (lab i) e l ∧ Cont d g lab i l

abbrev Lab (d : SDevice) (g : Graph) (lab : Nat → Pos) : Prop := LabX d g lab fun _ => False

/-! ### positions -/

theorem kindOf_level (p : Parsed) : kindOf p = p.level := by cases p <;> rfl

theorem declAt_unique {d : SDevice} {x : Pos} {p q : Parsed} (h : DeclAt d x p) (h' : DeclAt d x q) : p = q := by
  obtain ⟨ts, h⟩ := h
  obtain ⟨ts', h'⟩ := h'
  rw [h] at h'
  injection h' with h'
  injection h'

theorem chain_has {d : SDevice} {x : Pos} {l : List Pos} (h : Chain d x l) {y : Pos} (hy : InChain d l y) : HasChild d x y := by
  induction h with
  | root h1 h2 =>
    obtain ⟨z, hz, ho⟩ := hy
    simp only [List.mem_singleton] at hz
    subst hz
    exact .own ho
  | step h1 h2 ih =>
    obtain ⟨z, hz, ho⟩ := hy
    rcases List.mem_cons.1 hz with rfl | hz
    · exact .own ho
    · exact .inherited h1 (ih ⟨z, hz, ho⟩)

theorem chainOf_has {d : SDevice} {x : Pos} {e : ElemNode} {l : List Pos} (h : ChainOf d x e l) {y : Pos}
    (hy : InChain d l y) : HasChild d x y := by
  cases hp : e.isProcessed with
  | false =>
    rw [h.raw hp] at hy
    obtain ⟨z, hz, ho⟩ := hy
    simp only [List.mem_singleton] at hz
    subst hz
    exact .own ho
  | true => exact chain_has (h.done hp) hy

theorem LabX.hasChild {d : SDevice} {g : Graph} {lab : Nat → Pos} {X : Nat → Prop} (h : LabX d g lab X) {a b : Nat}
    (hc : Ch g a b) (hx : ¬ X a) : HasChild d (lab a) (lab b) := by
  obtain ⟨⟨e, he⟩, -⟩ := h.tch a b hc
  by_cases hl : e.level = .enumcont
  · exact absurd hc (h.leaf a e b he hl).1
  · obtain ⟨l, h1, h2⟩ := h.cont a e hx he hl
    rcases h2.sub b hc with h3 | h3
    · exact chainOf_has h1 h3
    · exact .nested h3

/-! ### names -/

theorem made_instance {d : SDevice} {p : Parsed} {ch : List Parsed} {x : Processed} (h : Made d (p :: ch) x) :
    InstanceName p.name x.name := by
  have key : ∀ (b : Option Processed), Yields p b x → InstanceName p.name x.name := by
    intro b hy
    obtain ⟨i, n, disp, x0, w, h1, h2, h3⟩ := yields_inv hy
    have hn : x0.name = n := createDimable_name h1
    have hi : InstanceName p.name n := by
      rcases h3 with ⟨-, rfl⟩ | ⟨idx, h3⟩
      · exact Or.inl rfl
      · exact Or.inr ⟨idx, by rw [fillList_eq, fillArray_eq]; exact h3⟩
    rcases h2 with rfl | rfl | ⟨-, rfl⟩
    · rw [hn]; exact hi
    · rw [clearDim_name, hn]; exact hi
    · rw [withName_name]; exact Or.inl rfl
  cases h with
  | base h1 h2 h3 => exact key _ h3
  | derive h1 h2 h3 h4 h5 => exact key _ h5

theorem parsed_nameOfDecl {p : Parsed} (h1 : p ≠ .device) (h2 : p.level ≠ .enumcont) : p.name = nameOfDecl p := by
  cases p <;> first | rfl | exact absurd rfl h1 | exact absurd rfl h2

theorem called_of_name {d : SDevice} {g : Graph} {lab : Nat → Pos} {X : Nat → Prop} (hi : Inv d g) (h : LabX d g lab X)
    {i : Nat} {n : Str} (hn : g.nameOf i = some n) : Called d (lab i) n := by
  unfold Graph.nameOf at hn
  cases he : g.elem? i with
  | none => rw [he] at hn; cases hn
  | some e =>
    rw [he] at hn
    have hn : e.name = some n := hn
    obtain ⟨p, hp⟩ := h.node i e he
    refine ⟨p, hp.decl, ?_⟩
    by_cases hl : e.level = .enumcont
    · cases p with
      | enum c =>
        have := (hp.enum c rfl).1
        simp only [NameFor]
        rw [← this, hn]
      | device => have := hp.level; rw [hl] at this; cases this
      | periph c => have := hp.level; rw [hl] at this; cases this
      | clu c => have := hp.level; rw [hl] at this; cases this
      | reg c => have := hp.level; rw [hl] at this; cases this
      | field c => have := hp.level; rw [hl] at this; cases this
    · have hok := hi.nodes.elem he
      obtain ⟨-, -, h3, h4, -⟩ := hok
      have hq := hp.parsed hl
      have key : InstanceName p.name n := by
        cases hx : e.processed with
        | none =>
          have := h3 hx hl
          rw [hn, hq] at this
          injection this with this
          exact Or.inl this
        | some x =>
          obtain ⟨h5, -, ch, h6⟩ := h4 x hx
          rw [hn] at h5
          injection h5 with h5
          rw [hq] at h6
          rw [h5]
          exact made_instance h6
      by_cases hd : p = .device
      · subst hd
        simp only [NameFor]
        cases hx : e.processed with
        | none =>
          have := h3 hx hl
          rw [hn, hq] at this
          injection this
        | some x =>
          obtain ⟨-, -, ch, h6⟩ := h4 x hx
          rw [hq] at h6
          have := made_kind h6
          cases x <;> cases this
      · have hl' : p.level ≠ .enumcont := by rw [← hp.level]; exact hl
        rw [parsed_nameOfDecl hd hl'] at key
        cases p <;> first | exact key | exact absurd rfl hd | exact absurd rfl hl'

/-! ### references -/

theorem LabX.chElem {d : SDevice} {g : Graph} {lab : Nat → Pos} {X : Nat → Prop} (h : LabX d g lab X) {i c : Nat} :
    c ∈ g.elementChildren i ↔ Ch g i c := by
  constructor
  · intro hc
    obtain ⟨e, h1, h2, h3, h4, -⟩ := elementChildren_edge hc
    exact ch_iff.2 ⟨e, h1, h2, h3, h4⟩
  · intro hc
    obtain ⟨-, hb⟩ := h.tch i c hc
    obtain ⟨e, h1, h2, h3, h4⟩ := ch_iff.1 hc
    unfold Graph.elementChildren
    simp only [List.mem_map, List.mem_filter, Graph.outEdges]
    refine ⟨e, ⟨⟨h1, by simp [h2]⟩, ?_⟩, h3⟩
    rw [h3, isE_iff.2 hb, h4]; rfl

theorem LabX.chParents {d : SDevice} {g : Graph} {lab : Nat → Pos} {X : Nat → Prop} (h : LabX d g lab X) {i p : Nat} :
    p ∈ g.elementParents i ↔ Ch g p i := by
  constructor
  · intro hc
    obtain ⟨e, h1, h2, h3, h4, -⟩ := elementParents_edge hc
    exact ch_iff.2 ⟨e, h1, h2, h3, h4⟩
  · intro hc
    obtain ⟨ha, -⟩ := h.tch p i hc
    obtain ⟨e, h1, h2, h3, h4⟩ := ch_iff.1 hc
    unfold Graph.elementParents
    simp only [List.mem_map, List.mem_filter, Graph.inEdges]
    refine ⟨e, ⟨⟨h1, by simp [h3]⟩, ?_⟩, h2⟩
    rw [h2, isE_iff.2 ha, h4]; rfl

theorem walk_of {d : SDevice} {g : Graph} {lab : Nat → Pos} (hi : Inv d g) (h : Lab d g lab) {ex : Nat} {ns : List Nat}
    {parts : List Str} {m : Nat} (hp : NamedPath g ex ns parts m) : ∃ n ∈ ns, Walk d (lab n) parts (lab m) := by
  induction hp with
  | last h1 h2 h3 => exact ⟨_, h1, .last (called_of_name hi h h3)⟩
  | step h1 h2 h3 _ ih =>
    obtain ⟨c, hc, hw⟩ := ih
    exact ⟨_, h1, .down (called_of_name hi h h3) (h.hasChild (h.chElem.1 hc) id) hw⟩

theorem device_none {d : SDevice} {x : Pos} : ¬ Refers d [] x := by
  intro h
  cases h with
  | intro h1 h2 _ _ _ =>
    have : DeclAt d [] .device := ⟨_, rfl⟩
    rw [declAt_unique h1 this] at h2
    cases h2

theorem device_nested {d : SDevice} {x : Pos} : ¬ Nested d [] x := by
  intro h
  cases h with
  | here h1 _ _ => exact device_none h1
  | inherited h1 _ => exact device_none h1

theorem device_chain {d : SDevice} {l : List Pos} (h : Chain d [] l) : l = [[]] := by
  cases h with
  | root _ _ => rfl
  | step h1 _ => exact absurd h1 device_none

theorem LabX.periph {d : SDevice} {g : Graph} {lab : Nat → Pos} {X : Nat → Prop} (h : LabX d g lab X) (hx : ¬ X 0) {c : Nat}
    (hc : Ch g 0 c) : OwnChild d [] (lab c) := by
  obtain ⟨h0, e, he, hl⟩ := h.root
  obtain ⟨l, h1, h2⟩ := h.cont 0 e hx he (by rw [hl]; decide)
  rw [h0] at h1
  have hs : l = [[]] := by
    cases hp : e.isProcessed with
    | false => exact h1.raw hp
    | true => exact device_chain (h1.done hp)
  rcases h2.sub c hc with ⟨z, hz, ho⟩ | h3
  · rw [hs] at hz
    simp only [List.mem_singleton] at hz
    subst hz
    exact ho
  · rw [h0] at h3
    exact absurd h3 device_nested

theorem refers_of {d : SDevice} {g : Graph} {lab : Nat → Pos} (hi : Inv d g) (h : Lab d g lab) {i b : Nat} {e : ElemNode}
    {p : Parsed} {path : Str} {w : List Warn} (he : g.elem? i = some e) (hp : DeclAt d (lab i) p)
    (hd : p.derivedFrom = some path) (hr : pathResolving g i e.level path = .ok (some b) w) : Refers d (lab i) (lab b) := by
  obtain ⟨h1, h2⟩ := pathResolving_ok hr
  have hk : SameKind d (lab i) (lab b) := by
    obtain ⟨eb, h3, h4⟩ := hasLevel_elem h2
    obtain ⟨p1, h5⟩ := h.node i e he
    obtain ⟨p2, h6⟩ := h.node b eb h3
    refine ⟨p1, p2, h5.decl, h6.decl, ?_⟩
    rw [kindOf_level, kindOf_level, ← h5.level, ← h6.level, h4]
  rcases h1 with h1 | h1
  · obtain ⟨n, hn, hw⟩ := walk_of hi h h1
    refine .intro hp hd hk ?_ (pathNames_exists path) hw
    unfold Graph.elementSiblings at hn
    split at hn
    · cases hn
    · rename_i q qs hq
      have hq : Ch g q i := h.chParents.1 (by rw [hq]; simp)
      simp only [List.mem_filter, Bool.and_eq_true] at hn
      obtain ⟨hs, hne, -⟩ := hn
      obtain ⟨ed, h5, h6, h7⟩ := mem_successors.1 hs
      subst h6 h7
      rcases edge_view h5 with h8 | h8 | h8
      · exact .sibling (h.hasChild hq id) (h.hasChild h8 id)
      · exact .derived (h.hasChild hq id) (h.der _ _ h8)
      · rcases h.tpl _ _ h8 with ⟨-, h9⟩ | ⟨h9, -⟩
        · exact (isE_notP (isE_iff.1 hne) h9).elim
        · exact (isE_notP (h.tch _ _ hq).1 h9).elim
  · obtain ⟨n, hn, hw⟩ := walk_of hi h h1
    exact .intro hp hd hk (.peripheral (h.periph id (h.chElem.1 hn))) (pathNames_exists path) hw

/-! ### edges -/

theorem PresentIn.mono {d : SDevice} {g g' : Graph} {lab lab' : Nat → Pos} {i : Nat} {y : Pos} (h : PresentIn d g lab i y)
    (hc : ∀ c, Ch g i c → Ch g' i c) (he : ∀ c, Ch g i c → g'.elem? c = g.elem? c ∧ lab' c = lab c) :
    PresentIn d g' lab' i y := by
  obtain ⟨c, e, h1, h2, h3, h4⟩ := h
  refine ⟨c, e, hc c h1, by rw [(he c h1).1, h2], by rw [(he c h1).2, h3], ?_⟩
  rcases h4 with h4 | h4 | ⟨l0, hs, h5, h6⟩
  · exact Or.inl h4
  · exact Or.inr (Or.inl h4)
  · refine Or.inr (Or.inr ⟨l0, hs, h5, fun h hh => ?_⟩)
    obtain ⟨j, h7, ej, h8, h9, h10⟩ := h6 h hh
    exact ⟨j, hc j h7, ej, by rw [(he j h7).1, h8], by rw [(he j h7).2, h9], h10⟩

theorem Cont.mono {d : SDevice} {g g' : Graph} {lab lab' : Nat → Pos} {i : Nat} {l : List Pos} (h : Cont d g lab i l)
    (hc : ∀ c, Ch g' i c ↔ Ch g i c) (he : ∀ c, Ch g i c → g'.elem? c = g.elem? c ∧ lab' c = lab c) (hi : lab' i = lab i) :
    Cont d g' lab' i l := by
  constructor
  · intro c h1
    rw [hi, (he c ((hc c).1 h1)).2]
    exact h.sub c ((hc c).1 h1)
  · intro y hy
    exact (h.all y hy).imp id fun h1 => h1.mono (fun c h2 => (hc c).2 h2) he

/-- The elements and their children stay; placeholders and references change. -/
theorem LabX.same {d : SDevice} {g g' : Graph} {lab : Nat → Pos} {X : Nat → Prop} (h : LabX d g lab X)
    (he : ∀ i, g'.elem? i = g.elem? i) (hc : ∀ a b, Ch g' a b ↔ Ch g a b)
    (hd : ∀ a b, De g' a b → De g a b ∨ (IsE g a ∧ IsE g b ∧ Refers d (lab b) (lab a)))
    (hp : ∀ a b, Pl g' a b → (IsE g a ∧ IsP g' b ∧ ∀ e, g.elem? a = some e → e.level ≠ .enumcont) ∨ (IsP g' a ∧ IsE g b))
    (hph : ∀ a b path, g'.node? a = some (.ph path) → Pl g' a b → ∃ p, DeclAt d (lab b) p ∧ p.derivedFrom = some path)
    (hin : ∀ a k b, IsP g' k → Pl g' a k → Pl g' k b → HasChild d (lab a) (lab b)) : LabX d g' lab X := by
  have hE : ∀ i, IsE g' i ↔ IsE g i := by intro i; unfold IsE; rw [he]
  constructor
  · exact ⟨h.root.1, by rw [he]; exact h.root.2⟩
  · intro i e h1
    rw [he] at h1
    exact h.node i e h1
  · intro a b h1
    rw [hE, hE]
    exact h.tch a b ((hc a b).1 h1)
  · intro a b h1
    rw [hE, hE]
    rcases hd a b h1 with h2 | ⟨h2, h3, -⟩
    · exact h.tde a b h2
    · exact ⟨h2, h3⟩
  · intro a b h1
    rw [hE, hE]
    rcases hp a b h1 with ⟨h2, h3, -⟩ | ⟨h2, h3⟩
    · exact Or.inl ⟨h2, h3⟩
    · exact Or.inr ⟨h2, h3⟩
  · intro i e b h1 h2
    rw [he] at h1
    refine ⟨fun h3 => (h.leaf i e b h1 h2).1 ((hc i b).1 h3), fun h3 => ?_⟩
    rcases hp i b h3 with ⟨-, -, h4⟩ | ⟨h4, -⟩
    · exact h4 e h1 h2
    · exact isE_notP ((hE i).2 ⟨e, h1⟩) h4
  · intro a b h1
    rcases hd a b h1 with h2 | ⟨-, -, h2⟩
    · exact h.der a b h2
    · exact h2
  · exact hph
  · exact hin
  · intro i e h1 h2 h3
    rw [he] at h2
    obtain ⟨l, h4, h5⟩ := h.cont i e h1 h2 h3
    exact ⟨l, h4, h5.mono (fun c => hc i c) (fun c _ => ⟨he c, rfl⟩) rfl⟩

end Svd
