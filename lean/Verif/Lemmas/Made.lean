import Verif.Lemmas.WF
import Verif.Spec.Origin
import Verif.Lemmas.Text
import Verif.Model.Pipeline
/- How the resolver makes intermediate elements from declared ones: invariant of the graph. -/
namespace Svd
open Graph Spec

/-- The level of a parsed element. -/
def Parsed.level : Parsed → Level
  | .device => .device
  | .periph _ => .peripheral
  | .clu _ => .cluster
  | .reg _ => .register
  | .field _ => .field
  | .enum _ => .enumcont

/-- The last component of a dotted path. -/
abbrev lastPart (path : Str) : Str := Spec.lastName path

/-- `y` is an element the resolver makes from `p` with base `b`: instance `i` of the dim expansion (dim attributes
cleared), the template itself (dim attributes kept, declared name), or the element itself if there is no expansion. -/
def Yields (p : Parsed) (b : Option Processed) (y : Processed) : Prop :=
  ∃ isDim names displays w i n disp x w', extractDimOf p b = .ok (isDim, names, displays) w ∧
    names[i]? = some n ∧ displays[i]? = some disp ∧ createDimable i n disp p b = .ok x w' ∧
    ((isDim = false ∧ i = 0 ∧ y = x) ∨ (isDim = true ∧ y = x.clearDim) ∨ (isDim = true ∧ i = 0 ∧ y = x.withName p.name))

/-- `y` is made from the declared elements of the list: the head is the element's own declaration, each further element
is the declaration of the base of the one before. -/
inductive Made (d : SDevice) : List Parsed → Processed → Prop
  | base {p y} : Declared d p → p.derivedFrom = none → Yields p none y → Made d [p] y
  | derive {p q ch b y path} : Declared d p → p.derivedFrom = some path → Made d (q :: ch) b →
      b.name = lastPart path → Yields p (some b) y → Made d (p :: q :: ch) y

/-- What is known about every node. -/
def NodeOK (d : SDevice) : Node → Prop
  | .ph _ => True
  | .elem e => Declared d e.parsed ∧ e.level = e.parsed.level ∧
      (e.processed = none → e.level ≠ .enumcont → e.name = some e.parsed.name) ∧
      (∀ x, e.processed = some x → e.name = some x.name ∧ e.isProcessed = true ∧ ∃ ch, Made d (e.parsed :: ch) x) ∧
      (e.isProcessed = true → e.level ≠ .device → e.level ≠ .enumcont → e.processed.isSome)

/-- What is known about the end points of an edge. -/
def EOK : Node → Node → EdgeT → Prop
  | s, t, .derive => ∃ es ed, s = .elem es ∧ t = .elem ed ∧ es.level = ed.level ∧
      (ed.level ≠ .enumcont → ∃ path, ed.parsed.derivedFrom = some path ∧ es.name = some (lastPart path))
  | .ph path, t, .placeholder => ∃ ed, t = .elem ed ∧ (ed.level ≠ .enumcont → ed.parsed.derivedFrom = some path)
  | _, _, _ => True

/-- `EOK` for the nodes at two indices. -/
def EOKi (g : Graph) (a b : Nat) (ty : EdgeT) : Prop :=
  ∃ s t, g.node? a = some s ∧ g.node? b = some t ∧ EOK s t ty

def EdgesOK (g : Graph) : Prop := ∀ e ∈ g.edges, EOKi g e.src e.dst e.ty

theorem EOKi.ext {g g' : Graph} {a b : Nat} {ty : EdgeT} (h : EOKi g a b ty) (hx : Ext g g') : EOKi g' a b ty := by
  obtain ⟨s, t, h1, h2, h3⟩ := h
  exact ⟨s, t, hx _ _ h1, hx _ _ h2, h3⟩

theorem EdgesOK.ext {g g' : Graph} (h : EdgesOK g) (hx : Ext g g')
    (he : ∀ e ∈ g'.edges, e ∈ g.edges ∨ EOKi g' e.src e.dst e.ty) : EdgesOK g' := by
  intro e h'
  rcases he e h' with h1 | h1
  · exact (h e h1).ext hx
  · exact h1

theorem eok_childU (s t : Node) : EOK s t .childU := by cases s <;> trivial
theorem eok_childR (s t : Node) : EOK s t .childR := by cases s <;> trivial
theorem eok_child {s t : Node} {ty : EdgeT} (h : ty = .childU ∨ ty = .childR) : EOK s t ty := by
  rcases h with rfl | rfl
  · exact eok_childU _ _
  · exact eok_childR _ _
theorem eok_elem_ph (e : ElemNode) (t : Node) : EOK (.elem e) t .placeholder := trivial

/-- The invariant. -/
structure Inv (d : SDevice) (g : Graph) : Prop where
  wf : WF g
  nodes : AllN (NodeOK d) g
  edges : EdgesOK g

/-! ### construction -/

theorem inv_addChild {d : SDevice} {g g' : Graph} {p i : Nat} {e : ElemNode} {ws : List Warn} (h : Inv d g)
    (hr : addChildToGraph g p e = .ok (g', i) ws) (hp : (g.node? p).isSome) (hn : NodeOK d (.elem e)) :
    Inv d g' ∧ Ext g g' ∧ g'.node? i = some (.elem e) := by
  obtain ⟨h1, h2, h3⟩ := addChildToGraph_wf h.wf hr hp
  refine ⟨⟨h1, AllN.addChildToGraph hr h.nodes hn (fun _ _ => trivial), ?_⟩, h2, h3⟩
  unfold Svd.addChildToGraph at hr
  simp only [M.bind_eq_ok] at hr
  obtain ⟨⟨g1, j⟩, w1, w2, ha, hb, rfl⟩ := hr
  obtain ⟨a1, a2, a3, a4⟩ := addElementChild_wf h.wf ha hp
  obtain ⟨s, hs⟩ := Option.isSome_iff_exists.1 hp
  have e1 : EdgesOK g1 := by
    refine h.edges.ext a2 ?_
    intro x hx
    obtain ⟨hi, hg, -, -⟩ := addElementChild_ok ha
    rw [hg] at hx
    rcases List.mem_cons.1 hx with rfl | hx
    · refine Or.inr ⟨s, .elem e, a2 _ _ hs, ?_, ?_⟩
      · exact a3
      · apply eok_child
        simp only
        split
        · split
          · exact Or.inr rfl
          · exact Or.inl rfl
        · exact Or.inl rfl
    · left
      have hx' : x ∈ (g.addNode (.elem e)).1.edges := hx
      rwa [(addNode_spec h.wf (.elem e)).2.2.1] at hx'
  simp only at hb
  split at hb
  · simp only [M.pure_eq_ok, Prod.mk.injEq] at hb
    obtain ⟨⟨rfl, rfl⟩, rfl⟩ := hb
    exact e1
  · rename_i path hpath
    simp only [M.bind_eq_ok, M.pure_eq_ok, Prod.mk.injEq] at hb
    obtain ⟨g2, w3, w4, hc, ⟨⟨rfl, rfl⟩, rfl⟩, rfl⟩ := hb
    obtain ⟨b1, b2⟩ := addPlaceholder_wf a1 hc (by rw [a3]; rfl)
    refine e1.ext b2 ?_
    intro x hx
    obtain ⟨hg, -, -⟩ := addPlaceholder_ok hc
    have sp := addNode_spec a1 (.ph path)
    rw [hg] at hx
    rcases List.mem_cons.1 hx with rfl | hx
    · right
      refine ⟨.ph path, .elem e, ?_, b2 _ _ a3, ?_⟩
      · subst hg
        show (g1.addNode (.ph path)).1.node? _ = _
        rw [sp.2.1]; simp
      · exact ⟨e, rfl, fun _ => hpath⟩
    · left
      have hx' : x ∈ (g1.addNode (.ph path)).1.edges := hx
      rwa [sp.2.2.1] at hx'

theorem inv_constrEnums {d : SDevice} {p : Nat} {cs : List SEnumContainer} {g g' : Graph} {ws : List Warn}
    (h : Inv d g) (hr : constrEnums p g cs = .ok g' ws) (hp : (g.node? p).isSome)
    (hd : ∀ c ∈ cs, Declared d (.enum c)) : Inv d g' ∧ Ext g g' := by
  induction cs generalizing g ws with
  | nil =>
    simp only [constrEnums, M.pure_eq_ok] at hr
    obtain ⟨rfl, -⟩ := hr
    exact ⟨h, Ext.refl _⟩
  | cons c cs ih =>
    simp only [constrEnums, M.bind_eq_ok] at hr
    obtain ⟨⟨g1, i⟩, w1, w2, h1, h2, -⟩ := hr
    obtain ⟨a, b, -⟩ := inv_addChild h h1 hp ⟨hd c (by simp), rfl, fun _ hh => absurd rfl hh, by simp⟩
    obtain ⟨a', b'⟩ := ih a h2 (b.isSome hp) (fun x hx => hd x (by simp [hx]))
    exact ⟨a', b.trans b'⟩

theorem inv_constrFields {d : SDevice} {p : Nat} {fs : List SField} {g g' : Graph} {ws : List Warn}
    (h : Inv d g) (hr : constrFields p g fs = .ok g' ws) (hp : (g.node? p).isSome)
    (hd : ∀ f ∈ fs, Declared d (.field f) ∧ ∀ c ∈ f.containers, Declared d (.enum c)) : Inv d g' ∧ Ext g g' := by
  induction fs generalizing g ws with
  | nil =>
    simp only [constrFields, M.pure_eq_ok] at hr
    obtain ⟨rfl, -⟩ := hr
    exact ⟨h, Ext.refl _⟩
  | cons f fs ih =>
    simp only [constrFields, M.bind_eq_ok] at hr
    obtain ⟨⟨g1, i⟩, w1, w2, h1, ⟨g2, w3, w4, h2, h3, -⟩, -⟩ := hr
    have hf := hd f (by simp)
    obtain ⟨a, b, c⟩ := inv_addChild h h1 hp ⟨hf.1, rfl, fun _ _ => rfl, by simp⟩
    obtain ⟨a1, b1⟩ := inv_constrEnums a h2 (by rw [c]; rfl) hf.2
    obtain ⟨a2, b2⟩ := ih a1 h3 ((b.trans b1).isSome hp) (fun x hx => hd x (by simp [hx]))
    exact ⟨a2, b.trans (b1.trans b2)⟩

/-- Everything below the elements `xs` is declared. -/
def DeclRCs (d : SDevice) (xs : List SRC) : Prop :=
  (∀ c ch, SBelow xs (.clu c ch) → Declared d (.clu c)) ∧
  (∀ r, SBelow xs (.reg r) → Declared d (.reg r) ∧
    ∀ f ∈ r.fields, Declared d (.field f) ∧ ∀ e ∈ f.containers, Declared d (.enum e))

theorem DeclRCs.sub {d : SDevice} {xs ys : List SRC} (h : DeclRCs d xs) (hs : ∀ x, SBelow ys x → SBelow xs x) :
    DeclRCs d ys := ⟨fun c ch hc => h.1 c ch (hs _ hc), fun r hr => h.2 r (hs _ hr)⟩

theorem sbelow_mono {xs ys : List SRC} (h : ∀ x ∈ xs, x ∈ ys) {x : SRC} (hx : SBelow xs x) : SBelow ys x := by
  cases hx with
  | here hx => exact .here (h _ hx)
  | inside hc hx => exact .inside (h _ hc) hx

mutual
theorem inv_constrRC {d : SDevice} {p : Nat} {g g' : Graph} {ws : List Warn} : (x : SRC) →
    (h : Inv d g) → (hr : constrRC p g x = .ok g' ws) → (hp : (g.node? p).isSome) → (hd : DeclRCs d [x]) →
    Inv d g' ∧ Ext g g'
  | .clu c ch, h, hr, hp, hd => by
    simp only [constrRC, M.bind_eq_ok] at hr
    obtain ⟨⟨g1, i⟩, w1, w2, h1, h2, -⟩ := hr
    obtain ⟨a, b, c'⟩ := inv_addChild h h1 hp ⟨hd.1 c ch (.here (by simp)), rfl, fun _ _ => rfl, by simp⟩
    obtain ⟨a1, b1⟩ := inv_constrRCs ch a h2 (by rw [c']; rfl) (hd.sub fun x hx => .inside (c := c) (ch := ch) (by simp) hx)
    exact ⟨a1, b.trans b1⟩
  | .reg r, h, hr, hp, hd => by
    simp only [constrRC, M.bind_eq_ok] at hr
    obtain ⟨⟨g1, i⟩, w1, w2, h1, h2, -⟩ := hr
    have hreg := hd.2 r (.here (by simp))
    obtain ⟨a, b, c'⟩ := inv_addChild h h1 hp ⟨hreg.1, rfl, fun _ _ => rfl, by simp⟩
    obtain ⟨a1, b1⟩ := inv_constrFields a h2 (by rw [c']; rfl) hreg.2
    exact ⟨a1, b.trans b1⟩
theorem inv_constrRCs {d : SDevice} {p : Nat} {g g' : Graph} {ws : List Warn} : (xs : List SRC) →
    (h : Inv d g) → (hr : constrRCs p g xs = .ok g' ws) → (hp : (g.node? p).isSome) → (hd : DeclRCs d xs) →
    Inv d g' ∧ Ext g g'
  | [], h, hr, hp, hd => by
    simp only [constrRCs, M.pure_eq_ok] at hr
    obtain ⟨rfl, -⟩ := hr
    exact ⟨h, Ext.refl _⟩
  | x :: xs, h, hr, hp, hd => by
    simp only [constrRCs, M.bind_eq_ok] at hr
    obtain ⟨g1, w1, w2, h1, h2, -⟩ := hr
    obtain ⟨a, b⟩ := inv_constrRC x h h1 hp (hd.sub fun y hy => sbelow_mono (by simp) hy)
    obtain ⟨a1, b1⟩ := inv_constrRCs xs a h2 (b.isSome hp) (hd.sub fun y hy => sbelow_mono (by simp +contextual) hy)
    exact ⟨a1, b.trans b1⟩
end

theorem inv_constrPeripherals {d : SDevice} {p : Nat} {ps : List SPeriphT} {g g' : Graph} {ws : List Warn}
    (h : Inv d g) (hr : constrPeripherals p g ps = .ok g' ws) (hp : (g.node? p).isSome)
    (hd : ∀ q ∈ ps, q ∈ d.peripherals) : Inv d g' ∧ Ext g g' := by
  induction ps generalizing g ws with
  | nil =>
    simp only [constrPeripherals, M.pure_eq_ok] at hr
    obtain ⟨rfl, -⟩ := hr
    exact ⟨h, Ext.refl _⟩
  | cons q ps ih =>
    simp only [constrPeripherals, M.bind_eq_ok] at hr
    obtain ⟨⟨g1, i⟩, w1, w2, h1, ⟨g2, w3, w4, h2, h3, -⟩, -⟩ := hr
    have hq := hd q (by simp)
    obtain ⟨a, b, c⟩ := inv_addChild h h1 hp ⟨.periph hq, rfl, fun _ _ => rfl, by simp⟩
    obtain ⟨a1, b1⟩ := inv_constrRCs q.rcs a h2 (by rw [c]; rfl)
      ⟨fun c ch hc => .clu hq hc, fun r hr => ⟨.reg hq hr, fun f hf => ⟨.field hq hr hf, fun e he => .enum hq hr hf he⟩⟩⟩
    obtain ⟨a2, b2⟩ := ih a1 h3 ((b.trans b1).isSome hp) (fun x hx => hd x (by simp [hx]))
    exact ⟨a2, b.trans (b1.trans b2)⟩

theorem inv_constructGraph {d : SDevice} {g : Graph} {ws : List Warn} (hr : constructGraph d = .ok g ws) : Inv d g := by
  unfold constructGraph at hr
  refine (inv_constrPeripherals ?_ hr rfl (fun _ h => h)).1
  refine ⟨⟨by simp, by simp, by simp⟩, ?_, by simp [EdgesOK]⟩
  intro n hn
  simp only [List.mem_singleton, Option.some.injEq] at hn
  subst hn
  exact ⟨.device, rfl, fun _ _ => rfl, by simp⟩

end Svd
