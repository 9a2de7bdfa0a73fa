import Verif.Lemmas.Search
import Verif.Lemmas.Cover
import Verif.Spec.Resolve
import Verif.Lemmas.PathText
import Verif.Props.Sample
/-
C41–C44: resolution of derivedFrom references.
-/
namespace Svd
open Spec Graph

/-! ### C42 -/

/-- C42: at every point of a resolution the graph of containment and inheritance has no directed cycle. -/
theorem C42_acyclic {ord : List Nat → List Nat} {d : SDevice} {g : Graph} (h : ResolverState ord d g) :
    Acyclic g.edges := by
  induction h with
  | init h => exact ac_initialization h
  | placeholder _ h ih => exact ac_resolvePlaceholder ih h
  | node _ h ih => exact ac_processNode ih h

/-- C42: an edge is refused, with the exception of the call, exactly if it would close a cycle. -/
theorem C42_refused (g : Graph) (x : Exn) (a b : Nat) (ty : EdgeT) :
    (g.rawAddEdge x a b ty = .err x ↔ a = b ∨ Conn g.edges b a) ∧
    (¬ (a = b ∨ Conn g.edges b a) → g.rawAddEdge x a b ty = .ok { g with edges := ⟨a, b, ty⟩ :: g.edges } []) := by
  have hr : Reach g.edges b a ↔ a = b ∨ Conn g.edges b a := by
    unfold Reach
    constructor
    · rintro (h | h)
      · exact Or.inl h.symm
      · exact Or.inr h
    · rintro (h | h)
      · exact Or.inl h.symm
      · exact Or.inr h
  rw [← hr, ← hasPath_iff]
  unfold rawAddEdge
  constructor
  · split
    · rename_i h; simp [h, M.throw]
    · rename_i h; simp [h, M.pure]
  · intro h
    rw [if_neg h]; rfl

theorem states_placeholders {ord : List Nat → List Nat} {d : SDevice} {phs : List Nat} {g g' : Graph} {ws : List Warn}
    (h : ResolverState ord d g) (hr : resolvePlaceholders g phs = .ok g' ws) : ResolverState ord d g' := by
  induction phs generalizing g ws with
  | nil =>
    simp only [resolvePlaceholders, M.pure_eq_ok] at hr
    obtain ⟨rfl, -⟩ := hr
    exact h
  | cons ph phs ih =>
    simp only [resolvePlaceholders, M.bind_eq_ok] at hr
    obtain ⟨g1, w1, w2, h1, h2, -⟩ := hr
    exact ih (.placeholder h h1) h2

theorem states_nodes {ord : List Nat → List Nat} {d : SDevice} {is : List Nat} {g g' : Graph} {ws : List Warn}
    (h : ResolverState ord d g) (hr : processNodes ord g is = .ok g' ws) : ResolverState ord d g' := by
  induction is generalizing g ws with
  | nil =>
    simp only [processNodes, M.pure_eq_ok] at hr
    obtain ⟨rfl, -⟩ := hr
    exact h
  | cons i is ih =>
    simp only [processNodes, M.bind_eq_ok] at hr
    obtain ⟨g1, w1, w2, h1, h2, -⟩ := hr
    exact ih (.node h h1) h2

/-- The graph at the end of the main loop is one of the states. -/
theorem C42_rounds {ord : List Nat → List Nat} {d : SDevice} {fuel : Nat} {g g' : Graph} {prev : List Nat}
    {ws : List Warn} (h : ResolverState ord d g) (hr : rounds ord fuel g prev = .ok g' ws) : ResolverState ord d g' := by
  induction fuel generalizing g prev ws with
  | zero => simp [rounds] at hr
  | succ f ih =>
    simp only [rounds, M.bind_eq_ok] at hr
    obtain ⟨g1, w1, w2, h1, h2, -⟩ := hr
    have i1 := states_placeholders h h1
    split at h2
    · simp only [M.pure_eq_ok] at h2
      obtain ⟨rfl, -⟩ := h2
      exact i1
    · split at h2
      · simp at h2
      · simp only [M.bind_eq_ok] at h2
        obtain ⟨g2, w3, w4, h3, h4, -⟩ := h2
        exact ih (states_nodes i1 h3) h4

theorem states_inv {ord : List Nat → List Nat} {d : SDevice} {g : Graph} (h : ResolverState ord d g) : Inv d g := by
  induction h with
  | init h => exact inv_initialization h
  | placeholder _ h ih => exact inv_resolvePlaceholder ih h
  | node _ h ih => exact (inv_processNode ih h).1

/-! ### C43 -/

/-- C43: if the resolution returns, its final graph is acyclic, every element in it is processed, and every peripheral,
cluster, register and field in it has the processed object built from its declaration. -/
theorem C43_all_processed {ord : List Nat → List Nat} {fuel : Nat} {d : SDevice} {ps : List IPeripheral} {ws : List Warn}
    (h : resolvePeripherals ord fuel d = .ok ps ws) :
    ∃ g0 g w1 w2, initialization d = .ok g0 w1 ∧ rounds ord fuel g0 [] = .ok g w2 ∧ ResolverState ord d g ∧
      (∀ i e, g.elem? i = some e → e.isProcessed = true ∧
        (e.level ≠ .device → e.level ≠ .enumcont → ∃ x, e.processed = some x ∧ e.name = some x.name)) := by
  obtain ⟨g0, g, s, w1, w2, w3, h1, h2, h3, -, -, -⟩ := resolve_graph h
  have hs := C42_rounds (.init h1) h2
  refine ⟨g0, g, w1, w2, h1, h2, hs, ?_⟩
  intro i e he
  have hp : e.isProcessed = true := by
    cases hp : e.isProcessed with
    | true => rfl
    | false =>
      have := mem_unprocessed he hp
      rw [h3] at this
      cases this
  refine ⟨hp, fun hd hn => ?_⟩
  have hok := (states_inv hs).nodes.elem he
  obtain ⟨x, hx⟩ := Option.isSome_iff_exists.1 (hok.2.2.2.2 hp hd hn)
  exact ⟨x, hx, (hok.2.2.2.1 x hx).1⟩

/-- C43: whenever a derived peripheral, cluster, register or field is processed, it is built from an element of the same
kind that is already processed and is called as the last name of the derivedFrom path. -/
theorem C43_base_processed {ord : List Nat → List Nat} {d : SDevice} {g g' : Graph} {i : Nat} {ws : List Warn}
    (h : ResolverState ord d g) (hr : processNode ord g i = .ok g' ws) {e : ElemNode} (he : g.elem? i = some e)
    (hl : e.level ≠ .enumcont) {path : Str} (hd : e.parsed.derivedFrom = some path) :
    ∃ b eb x, (⟨b, i, .derive⟩ : Edge) ∈ g.edges ∧ g.elem? b = some eb ∧ eb.level = e.level ∧ eb.isProcessed = true ∧
      eb.processed = some x ∧ x.name = lastName path := by
  have hi := states_inv h
  obtain ⟨e', bn, bp, w, he', -, hbase, hcase⟩ := processNode_cases hr
  rw [he] at he'
  simp only [Option.some.injEq] at he'
  subst he'
  have hnode := hi.nodes.elem he
  rcases hbase with ⟨h1, -, -⟩ | ⟨path', b, eb, h1, h2, h3, h4, -, -, h6⟩
  · rw [hd] at h1; cases h1
  · rw [hd] at h1
    simp only [Option.some.injEq] at h1
    subst h1
    have hx : eb.processed.isSome := by
      rcases h6 with h6 | h6
      · rw [isEnum_level, ← hnode.2.1] at h6
        exact absurd h6 hl
      · exact h6
    obtain ⟨x, hx⟩ := Option.isSome_iff_exists.1 hx
    have hb := hi.nodes.elem h3
    obtain ⟨hname, hproc, -⟩ := hb.2.2.2.1 x hx
    refine ⟨b, eb, x, baseElementNode_edge h2, h3, h4.symm, hproc, hx, ?_⟩
    obtain ⟨s, t, hs, ht, hE⟩ := hi.edges _ (baseElementNode_edge h2)
    obtain ⟨es, ed, rfl, rfl, -, hlast⟩ := hE
    simp only at hs ht
    rw [elem?_node?.1 h3] at hs
    rw [elem?_node?.1 he] at ht
    simp only [Option.some.injEq, Node.elem.injEq] at hs ht
    subst hs; subst ht
    obtain ⟨path', hp1, hp2⟩ := hlast hl
    rw [hd] at hp1
    simp only [Option.some.injEq] at hp1
    subst hp1
    rw [hname] at hp2
    simp only [Option.some.injEq] at hp2
    exact hp2

/-! ### C41 -/

/-- C41: if processing succeeds, the derivedFrom of every declared peripheral leads through existing peripherals to an
underived one. -/
theorem C41_peripheral {ord : List Nat → List Nat} {fuel : Nat} {d : SDevice} {dev : Device} {ws : List Warn}
    (h : processDevice ord fuel d = .ok dev ws) {p : SPeripheral} (hp : Declared d (.periph p)) :
    ∃ l, PeriphChain d (p :: l) := by
  obtain ⟨ps, w1, w2, h1, -, -⟩ := processDevice_ok.1 h
  obtain ⟨ch, y, hm⟩ := made_all h1 hp (by simp [Parsed.level]) (by simp [Parsed.level])
  have hk := made_kind hm
  cases y with
  | periph r =>
    obtain ⟨l, h2, h3⟩ := made_periph hm r rfl
    cases l with
    | nil => cases h2
    | cons a l =>
      injection h2 with h2 _
      injection h2 with h2
      subst h2
      exact ⟨l, h3.chain⟩
  | clu r => simp [Parsed.level] at hk
  | reg r => simp [Parsed.level] at hk
  | field r => simp [Parsed.level] at hk

/-- C41 for clusters. -/
theorem C41_cluster {ord : List Nat → List Nat} {fuel : Nat} {d : SDevice} {dev : Device} {ws : List Warn}
    (h : processDevice ord fuel d = .ok dev ws) {p : SCluster} (hp : Declared d (.clu p)) :
    ∃ l, ClusterChain d (p :: l) := by
  obtain ⟨ps, w1, w2, h1, -, -⟩ := processDevice_ok.1 h
  obtain ⟨ch, y, hm⟩ := made_all h1 hp (by simp [Parsed.level]) (by simp [Parsed.level])
  have hk := made_kind hm
  cases y with
  | clu r =>
    obtain ⟨l, h2, h3⟩ := made_clu hm r rfl
    cases l with
    | nil => cases h2
    | cons a l =>
      injection h2 with h2 _
      injection h2 with h2
      subst h2
      exact ⟨l, h3.chain⟩
  | periph r => simp [Parsed.level] at hk
  | reg r => simp [Parsed.level] at hk
  | field r => simp [Parsed.level] at hk

/-- C41 for registers. -/
theorem C41_register {ord : List Nat → List Nat} {fuel : Nat} {d : SDevice} {dev : Device} {ws : List Warn}
    (h : processDevice ord fuel d = .ok dev ws) {p : SRegister} (hp : Declared d (.reg p)) :
    ∃ l, RegisterChain d (p :: l) := by
  obtain ⟨ps, w1, w2, h1, -, -⟩ := processDevice_ok.1 h
  obtain ⟨ch, y, hm⟩ := made_all h1 hp (by simp [Parsed.level]) (by simp [Parsed.level])
  have hk := made_kind hm
  cases y with
  | reg r =>
    obtain ⟨l, h2, h3⟩ := made_reg hm r rfl
    cases l with
    | nil => cases h2
    | cons a l =>
      injection h2 with h2 _
      injection h2 with h2
      subst h2
      exact ⟨l, h3.chain⟩
  | periph r => simp [Parsed.level] at hk
  | clu r => simp [Parsed.level] at hk
  | field r => simp [Parsed.level] at hk

/-- C41 for fields. -/
theorem C41_field {ord : List Nat → List Nat} {fuel : Nat} {d : SDevice} {dev : Device} {ws : List Warn}
    (h : processDevice ord fuel d = .ok dev ws) {p : SField} (hp : Declared d (.field p)) :
    ∃ l, FieldChain d (p :: l) := by
  obtain ⟨ps, w1, w2, h1, -, -⟩ := processDevice_ok.1 h
  obtain ⟨ch, y, hm⟩ := made_all h1 hp (by simp [Parsed.level]) (by simp [Parsed.level])
  have hk := made_kind hm
  cases y with
  | field r =>
    obtain ⟨l, h2, h3⟩ := made_field hm r rfl
    cases l with
    | nil => cases h2
    | cons a l =>
      injection h2 with h2 _
      injection h2 with h2
      subst h2
      exact ⟨l, h3.chain⟩
  | periph r => simp [Parsed.level] at hk
  | clu r => simp [Parsed.level] at hk
  | reg r => simp [Parsed.level] at hk

theorem chain_leaves {α : Type} {decl : α → Prop} {name : α → Str} {df : α → Option Str} {S : α → Prop}
    (hS : ∀ a, S a → ∃ path, df a = some path ∧ ∀ b, decl b → InstanceName (name b) (lastName path) → S b)
    {l : List α} (h : DerivChain decl name df l) : ∀ a t, l = a :: t → ¬ S a := by
  induction h with
  | root hd hn =>
    intro a t hl hs
    injection hl with h1 _
    subst h1
    obtain ⟨path, hp, -⟩ := hS _ hs
    rw [hn] at hp; cases hp
  | step hd hp hi hc ih =>
    intro a t hl hs
    injection hl with h1 _
    subst h1
    obtain ⟨path, hp', hcl⟩ := hS _ hs
    rw [hp] at hp'
    injection hp' with hp'
    subst hp'
    refine ih _ _ rfl (hcl _ ?_ hi)
    cases hc with
    | root h _ => exact h
    | step h _ _ _ => exact h

/-- C41: a set of peripherals that are all derived and refer only to members of the set (a dangling reference, a
peripheral that refers to itself, a cycle of any length, or anything that leads into these) is rejected. -/
theorem C41_unfounded {ord : List Nat → List Nat} {fuel : Nat} {d : SDevice} (S : SPeripheral → Prop)
    (hS : ∀ p, S p → ∃ path, p.derivedFrom = some path ∧
      ∀ q, Declared d (.periph q) → InstanceName q.name (lastName path) → S q)
    {p : SPeripheral} (hp : Declared d (.periph p)) (hs : S p) {dev : Device} {ws : List Warn} :
    processDevice ord fuel d ≠ .ok dev ws := by
  intro h
  obtain ⟨l, hl⟩ := C41_peripheral h hp
  exact chain_leaves hS hl _ _ rfl hs

/-- C41: a peripheral derived from something that no peripheral is called is rejected. -/
theorem C41_dangling {ord : List Nat → List Nat} {fuel : Nat} {d : SDevice} {p : SPeripheral}
    (hp : Declared d (.periph p)) {path : Str} (hd : p.derivedFrom = some path)
    (hn : ∀ q, Declared d (.periph q) → ¬ InstanceName q.name (lastName path)) {dev : Device} {ws : List Warn} :
    processDevice ord fuel d ≠ .ok dev ws :=
  C41_unfounded (fun q => q = p)
    (fun q hq => ⟨path, hq ▸ hd, fun r hr hi => absurd hi (hn r hr)⟩) hp rfl

/-- C41: the same sets of registers are rejected. -/
theorem C41_unfounded_register {ord : List Nat → List Nat} {fuel : Nat} {d : SDevice} (S : SRegister → Prop)
    (hS : ∀ p, S p → ∃ path, p.derivedFrom = some path ∧
      ∀ q, Declared d (.reg q) → InstanceName q.name (lastName path) → S q)
    {p : SRegister} (hp : Declared d (.reg p)) (hs : S p) {dev : Device} {ws : List Warn} :
    processDevice ord fuel d ≠ .ok dev ws := by
  intro h
  obtain ⟨l, hl⟩ := C41_register h hp
  exact chain_leaves hS hl _ _ rfl hs

/-- C41: the same sets of clusters are rejected. -/
theorem C41_unfounded_cluster {ord : List Nat → List Nat} {fuel : Nat} {d : SDevice} (S : SCluster → Prop)
    (hS : ∀ p, S p → ∃ path, p.derivedFrom = some path ∧
      ∀ q, Declared d (.clu q) → InstanceName q.name (lastName path) → S q)
    {p : SCluster} (hp : Declared d (.clu p)) (hs : S p) {dev : Device} {ws : List Warn} :
    processDevice ord fuel d ≠ .ok dev ws := by
  intro h
  obtain ⟨l, hl⟩ := C41_cluster h hp
  exact chain_leaves hS hl _ _ rfl hs

/-- C41: the same sets of fields are rejected. -/
theorem C41_unfounded_field {ord : List Nat → List Nat} {fuel : Nat} {d : SDevice} (S : SField → Prop)
    (hS : ∀ p, S p → ∃ path, p.derivedFrom = some path ∧
      ∀ q, Declared d (.field q) → InstanceName q.name (lastName path) → S q)
    {p : SField} (hp : Declared d (.field p)) (hs : S p) {dev : Device} {ws : List Warn} :
    processDevice ord fuel d ≠ .ok dev ws := by
  intro h
  obtain ⟨l, hl⟩ := C41_field h hp
  exact chain_leaves hS hl _ _ rfl hs

/-! ### C44 -/


theorem ofKind_iff {g : Graph} {t : Nat} {lvl : Level} : g.hasLevel t lvl = true ↔ OfKind g t lvl := by
  constructor
  · exact hasLevel_elem
  · rintro ⟨e, he, rfl⟩
    simp [hasLevel, he]

theorem walk_ne {g : Graph} {self n t : Nat} {parts : List Str} (h : NameWalk g self n parts t) : t ≠ self := by
  induction h with
  | last h _ => exact h
  | down _ _ _ _ ih => exact ih

theorem filter_head {α : Type} {p : α → Bool} {l : List α} {x : α} {t : List α} (h : l.filter p = x :: t) :
    ∃ pre post, l = pre ++ x :: post ∧ p x = true ∧ ∀ y ∈ pre, p y = false := by
  induction l with
  | nil => cases h
  | cons a l ih =>
    rw [List.filter_cons] at h
    split at h
    · rename_i hp
      injection h with h1 h2
      subst h1
      exact ⟨[], l, rfl, hp, by simp⟩
    · rename_i hp
      obtain ⟨pre, post, h1, h2, h3⟩ := ih h
      refine ⟨a :: pre, post, by rw [h1]; rfl, h2, ?_⟩
      intro y hy
      rcases List.mem_cons.1 hy with rfl | hy
      · simpa using hp
      · exact h3 y hy

theorem parents_eq (g : Graph) (i : Nat) : g.elementParents i =
    (g.edges.filter fun e => (e.dst == i) && (g.isElem e.src && isChildEdge e)).map (·.src) := by
  unfold elementParents inEdges
  rw [List.filter_filter]
  congr 1
  congr 1
  funext e
  exact Bool.and_comm _ _

theorem parentEdge_iff {g : Graph} {i : Nat} {e : Edge} :
    ((e.dst == i) && (g.isElem e.src && isChildEdge e)) = true ↔ ParentEdge g i e := by
  unfold ParentEdge isElem isChildEdge
  simp only [Bool.and_eq_true, beq_iff_eq, Option.isSome_iff_exists, Bool.or_eq_true]
  constructor
  · rintro ⟨h1, h2, h3⟩; exact ⟨h1, h3, h2⟩
  · rintro ⟨h1, h2, h3⟩; exact ⟨h1, h3, h2⟩

theorem newestParent_iff {g : Graph} {i p : Nat} : NewestParent g i p ↔ (g.elementParents i).head? = some p := by
  rw [parents_eq]
  constructor
  · rintro ⟨pre, e, post, h1, h2, rfl, h3⟩
    rw [h1, List.filter_append, List.filter_cons, if_pos (parentEdge_iff.2 h2)]
    have : pre.filter (fun e => (e.dst == i) && (g.isElem e.src && isChildEdge e)) = [] := by
      rw [List.filter_eq_nil_iff]
      intro x hx
      rw [parentEdge_iff]
      exact h3 x hx
    rw [this]; rfl
  · intro h
    cases hf : g.edges.filter fun e => (e.dst == i) && (g.isElem e.src && isChildEdge e) with
    | nil => rw [hf] at h; cases h
    | cons e es =>
      rw [hf] at h
      simp only [List.map_cons, List.head?_cons, Option.some.injEq] at h
      obtain ⟨pre, post, h1, h2, h3⟩ := filter_head hf
      refine ⟨pre, e, post, h1, parentEdge_iff.1 h2, h, ?_⟩
      intro x hx hp
      rw [← parentEdge_iff, h3 x hx] at hp
      cases hp

theorem sibling_iff {g : Graph} {i c : Nat} : c ∈ g.elementSiblings i ↔ SiblingOf g i c := by
  unfold elementSiblings SiblingOf
  simp only [newestParent_iff]
  cases hp : g.elementParents i with
  | nil => simp
  | cons p ps =>
    simp only [List.mem_filter, mem_successors, Bool.and_eq_true, bne_iff_ne, ne_eq, isElem, Option.isSome_iff_exists,
      List.head?_cons, Option.some.injEq, exists_eq_left']
    constructor
    · rintro ⟨h1, h2, h3⟩; exact ⟨h3, h2, h1⟩
    · rintro ⟨h1, h2, h3⟩; exact ⟨h3, h2, h1⟩

theorem search_candidates {g : Graph} {self : Nat} {lvl : Level} {parts : List Str} {nodes fs : List Nat}
    {ws : List Warn} (h : searchNodes g self lvl parts nodes = .ok fs ws) :
    fs.length ≤ 1 ∧ (∀ t ∈ fs, Candidate g self lvl parts (· ∈ nodes) t) ∧
    ((∀ t, Candidate g self lvl parts (· ∈ nodes) t → t ∈ fs) ∨ ∃ x, fs = [x] ∧ RegNoGroup g x) := by
  obtain ⟨h1, h2, h3⟩ := searchNodes_spec h
  refine ⟨h1, ?_, h3.imp (fun h3 => ?_) id⟩
  · intro t ht
    obtain ⟨n, hn, hw, hl⟩ := h2 t ht
    exact ⟨ofKind_iff.1 hl, n, hn, hw⟩
  · rintro t ⟨hl, n, hn, hw⟩
    exact h3 n hn t hw (ofKind_iff.2 hl)

/-- Is a processed register that belongs to no alternate group. -/
def Ungrouped (g : Graph) (b : Nat) : Prop :=
  ∃ e r, g.elem? b = some e ∧ e.processed = some (.reg r) ∧ r.alternateGroup = none

/-- C44: what a successful look-up of a derivedFrom path finds.  The result is not the element itself, is of its kind,
and is denoted by the path either from a sibling, or - if no sibling candidate exists - from a child of the device.
It is the only candidate of that scope, or a register without alternate group. -/
theorem C44_found {g : Graph} {i b : Nat} {lvl : Level} {path : Str} {parts : List Str} {ws : List Warn}
    (hp : PathNames path parts) (h : pathResolving g i lvl path = .ok (some b) ws) :
    b ≠ i ∧ OfKind g b lvl ∧
    ((Candidate g i lvl parts (SiblingOf g i) b ∧
        ((∀ t, Candidate g i lvl parts (SiblingOf g i) t → t = b) ∨ Ungrouped g b)) ∨
     ((∀ t, ¬ Candidate g i lvl parts (SiblingOf g i) t) ∧ Candidate g i lvl parts (ChildOf g 0) b ∧
        ((∀ t, Candidate g i lvl parts (ChildOf g 0) t → t = b) ∨ Ungrouped g b))) := by
  unfold pathResolving at h
  rw [pathNames_split hp] at h
  have hs : (fun n => n ∈ g.elementSiblings i) = SiblingOf g i := by funext n; exact propext sibling_iff
  have hc : (fun n => n ∈ g.elementChildren 0) = ChildOf g 0 := by funext n; exact propext childOf_iff
  have fin : ∀ scope, Candidate g i lvl parts scope b → b ≠ i ∧ OfKind g b lvl := by
    rintro scope ⟨h1, n, -, hw⟩
    exact ⟨walk_ne hw, h1⟩
  simp only [M.bind_eq_ok] at h
  obtain ⟨m1, w1, w2, h1, h2, -⟩ := h
  obtain ⟨a1, a2, a3⟩ := search_candidates h1
  rw [hs] at a2 a3
  match m1, a1, a2, a3, h2 with
  | [x], _, a2, a3, h2 =>
    simp only [M.pure_eq_ok, Option.some.injEq] at h2
    obtain ⟨rfl, -⟩ := h2
    have hx := a2 x (by simp)
    refine ⟨(fin _ hx).1, (fin _ hx).2, Or.inl ⟨hx, ?_⟩⟩
    rcases a3 with a3 | ⟨y, hy, hr⟩
    · exact Or.inl fun t ht => by simpa using a3 t ht
    · simp only [List.cons.injEq, and_true] at hy
      exact Or.inr (hy ▸ hr)
  | [], _, _, a3, h2 =>
    have none1 : ∀ t, ¬ Candidate g i lvl parts (SiblingOf g i) t := by
      intro t ht
      rcases a3 with a3 | ⟨y, hy, -⟩
      · cases a3 t ht
      · cases hy
    simp only [M.bind_eq_ok] at h2
    obtain ⟨m2, w3, w4, h3, h4, -⟩ := h2
    obtain ⟨b1, b2, b3⟩ := search_candidates h3
    rw [hc] at b2 b3
    match m2, b1, b2, b3, h4 with
    | [x], _, b2, b3, h4 =>
      simp only [M.pure_eq_ok, Option.some.injEq] at h4
      obtain ⟨rfl, -⟩ := h4
      have hx := b2 x (by simp)
      refine ⟨(fin _ hx).1, (fin _ hx).2, Or.inr ⟨none1, hx, ?_⟩⟩
      rcases b3 with b3 | ⟨y, hy, hr⟩
      · exact Or.inl fun t ht => by simpa using b3 t ht
      · simp only [List.cons.injEq, and_true] at hy
        exact Or.inr (hy ▸ hr)
    | [], _, _, _, h4 => simp [M.pure_eq_ok] at h4
    | _ :: _ :: _, b1, _, _, _ => simp at b1
  | _ :: _ :: _, a1, _, _, _ => simp at a1

/-- C44: if the look-up finds nothing, no sibling and no peripheral leads to an element denoted by the path. -/
theorem C44_nothing {g : Graph} {i : Nat} {lvl : Level} {path : Str} {parts : List Str} {ws : List Warn}
    (hp : PathNames path parts) (h : pathResolving g i lvl path = .ok none ws) (t : Nat) :
    ¬ Candidate g i lvl parts (SiblingOf g i) t ∧ ¬ Candidate g i lvl parts (ChildOf g 0) t := by
  unfold pathResolving at h
  rw [pathNames_split hp] at h
  have hs : (fun n => n ∈ g.elementSiblings i) = SiblingOf g i := by funext n; exact propext sibling_iff
  have hc : (fun n => n ∈ g.elementChildren 0) = ChildOf g 0 := by funext n; exact propext childOf_iff
  simp only [M.bind_eq_ok] at h
  obtain ⟨m1, w1, w2, h1, h2, -⟩ := h
  obtain ⟨a1, a2, a3⟩ := search_candidates h1
  rw [hs] at a2 a3
  match m1, a1, a2, a3, h2 with
  | [x], _, a2, a3, h2 => simp [M.pure_eq_ok] at h2
  | [], _, _, a3, h2 =>
    simp only [M.bind_eq_ok] at h2
    obtain ⟨m2, w3, w4, h3, h4, -⟩ := h2
    obtain ⟨b1, b2, b3⟩ := search_candidates h3
    rw [hc] at b2 b3
    match m2, b1, b2, b3, h4 with
    | [x], _, b2, b3, h4 => simp [M.pure_eq_ok] at h4
    | [], _, _, b3, h4 =>
      constructor
      · intro ht
        rcases a3 with a3 | ⟨y, hy, -⟩
        · cases a3 t ht
        · cases hy
      · intro ht
        rcases b3 with b3 | ⟨y, hy, -⟩
        · cases b3 t ht
        · cases hy
    | _ :: _ :: _, b1, _, _, _ => simp at b1
  | _ :: _ :: _, a1, _, _, _ => simp at a1

/-- C44: several candidates of one scope are never resolved by an arbitrary choice, except among registers with
alternate groups.  (In the sibling scope, whose candidates take precedence.) -/
theorem C44_ambiguous {ord : List Nat → List Nat} {d : SDevice} {g : Graph} (hg : ResolverState ord d g) {i : Nat}
    {lvl : Level} (hl : lvl ≠ .register) {path : Str} {parts : List Str} (hp : PathNames path parts) {s t : Nat}
    (hne : s ≠ t)
    (hc : (Candidate g i lvl parts (SiblingOf g i) s ∧ Candidate g i lvl parts (SiblingOf g i) t) ∨
      ((∀ x, ¬ Candidate g i lvl parts (SiblingOf g i) x) ∧
        Candidate g i lvl parts (ChildOf g 0) s ∧ Candidate g i lvl parts (ChildOf g 0) t)) :
    ∃ e, pathResolving g i lvl path = .err e := by
  cases h : pathResolving g i lvl path with
  | err e => exact ⟨e, rfl⟩
  | ok o ws =>
    exfalso
    cases o with
    | none =>
      rcases hc with ⟨h1, -⟩ | ⟨-, h1, -⟩
      · exact (C44_nothing hp h _).1 h1
      · exact (C44_nothing hp h _).2 h1
    | some b =>
      obtain ⟨-, ⟨e, he, hk⟩, h1⟩ := C44_found hp h
      have hng : ¬ Ungrouped g b := by
        intro hu
        have := regNoGroup_level (states_inv hg) hu
        rw [ofKind_iff] at this
        obtain ⟨e', he', hk'⟩ := this
        rw [he] at he'
        simp only [Option.some.injEq] at he'
        subst he'
        exact hl (hk.symm.trans hk')
      rcases h1 with ⟨hb, hu⟩ | ⟨hn, hb, hu⟩
      · rcases hu with hu | hu
        · rcases hc with ⟨h2, h3⟩ | ⟨h2, -⟩
          · exact hne ((hu s h2).trans (hu t h3).symm)
          · exact h2 b hb
        · exact hng hu
      · rcases hu with hu | hu
        · rcases hc with ⟨h2, h3⟩ | ⟨-, h2, h3⟩
          · exact hn s h2
          · exact hne ((hu s h2).trans (hu t h3).symm)
        · exact hng hu

/-! ### Examples -/

namespace Sample

/-- A device with the given peripherals. -/
def rdev (ps : List SPeriphT) : SDevice :=
  { hd := { name := s%"DEV", addressUnitBits := 8, width := 32 }, peripherals := ps }

/-- A peripheral with one address block. -/
def rper (name : Str) (base : Int) (df : Option Str) (rcs : List SRC) : SPeriphT :=
  { hd := { name, baseAddress := base, derivedFrom := df
            addressBlocks := [{ offset := 0, size := 256, usage := .registers }] }, rcs }

/-- A register. -/
def rreg (name : Str) (off : Int) (df : Option Str := none) (grp : Option Str := none) (desc : Option Str := none) : SRC :=
  .reg { name, addressOffset := off, derivedFrom := df, alternateGroup := grp, description := desc }

/-- A derived from B, B from C, C from A. -/
def cyclic : SDevice :=
  rdev [rper (s%"A") 0 (some (s%"B")) [], rper (s%"B") 256 (some (s%"C")) [], rper (s%"C") 512 (some (s%"A")) []]

/-- A derived from a peripheral that does not exist. -/
def dangling : SDevice := rdev [rper (s%"A") 0 (some (s%"Z")) [], rper (s%"B") 256 none [rreg (s%"R") 0]]

/-- Two peripherals X and one derived from X. -/
def ambiguous : SDevice :=
  rdev [rper (s%"X") 0 none [rreg (s%"R") 0], rper (s%"X") 256 none [rreg (s%"R") 0],
    rper (s%"Y") 512 (some (s%"X")) []]

/-- Three registers R (two without alternate group) and one derived from R. -/
def threeRegs : SDevice :=
  rdev [rper (s%"P") 0 none [rreg (s%"R") 0 none none (some (s%"first")), rreg (s%"R") 4 none none (some (s%"second")),
    rreg (s%"R") 8 none (some (s%"G")), rreg (s%"D") 12 (some (s%"R"))]]

end Sample

/-- The devices of the examples are rejected: a cycle of three, a dangling reference, an ambiguous name. -/
theorem C41_sample :
    Sample.errAnd (processDevice id 100 Sample.cyclic) (fun e => decide (e = .process .wrapCycle)) = true ∧
    Sample.errAnd (processDevice id 100 Sample.dangling) (fun e => decide (e = .process .wrapUnprocessed)) = true ∧
    Sample.errAnd (processDevice id 100 Sample.ambiguous) (fun e => decide (e = .resolve 97)) = true := by
  decide +kernel

/-- The cycle of three is a set as in `C41_unfounded`. -/
theorem C41_sample_set {ord : List Nat → List Nat} {fuel : Nat} {dev : Device} {ws : List Warn} :
    processDevice ord fuel Sample.cyclic ≠ .ok dev ws := by
  have hdecl : ∀ q, Declared Sample.cyclic (.periph q) → ∃ t ∈ Sample.cyclic.peripherals, t.hd = q := by
    intro q hq
    cases hq with
    | periph h => exact ⟨_, h, rfl⟩
  refine C41_unfounded (fun p => ∃ t ∈ Sample.cyclic.peripherals, t.hd = p) ?_
    (.periph (p := Sample.rper (s%"A") 0 (some (s%"B")) []) (by simp [Sample.cyclic, Sample.rdev])) ?_
  · rintro p ⟨t, ht, rfl⟩
    have : ∃ path, t.hd.derivedFrom = some path := by
      simp only [Sample.cyclic, Sample.rdev, List.mem_cons, List.not_mem_nil, or_false] at ht
      rcases ht with rfl | rfl | rfl <;> exact ⟨_, rfl⟩
    obtain ⟨path, hp⟩ := this
    exact ⟨path, hp, fun q hq _ => hdecl q hq⟩
  · exact ⟨_, by simp [Sample.cyclic, Sample.rdev], rfl⟩

/-- The look-up of `A` for the derived peripheral of the sample device. -/
theorem C44_sample : ∃ g ws, ResolverState id Sample.dev g ∧ initialization Sample.dev = .ok g ws ∧
    pathResolving g 12 .peripheral (s%"A") = .ok (some 1) [] := by
  have h : Sample.okAnd (initialization Sample.dev)
      (fun g _ => decide (pathResolving g 12 .peripheral (s%"A") = .ok (some 1) [])) = true := by decide +kernel
  obtain ⟨g, ws, h1, h2⟩ := Sample.okAnd_spec h
  exact ⟨g, ws, .init h1, h1, of_decide_eq_true h2⟩

/-- C42 and C43 on the sample device: the resolution succeeds. -/
theorem C43_sample : ∃ ps ws, resolvePeripherals id 100 Sample.dev = .ok ps ws ∧ ps.length = 2 := by
  have h : Sample.okAnd (resolvePeripherals id 100 Sample.dev) (fun ps _ => decide (ps.length = 2)) = true := by
    decide +kernel
  obtain ⟨ps, ws, h1, h2⟩ := Sample.okAnd_spec h
  exact ⟨ps, ws, h1, of_decide_eq_true h2⟩

/-- Descriptions of the registers called `n`. -/
def Sample.descOf (n : Str) : List IRC → List (Option Str)
  | [] => []
  | .reg r _ :: xs => if r.name = n then r.description :: descOf n xs else descOf n xs
  | .clu _ _ :: xs => descOf n xs

/-- Finding: of several registers without alternate group one is chosen silently, if the ambiguity is noticed at a
register that has one (`R` is called two registers without and one register with alternate group). -/
theorem C44_arbitrary_choice :
    Sample.okAnd (resolvePeripherals id 100 Sample.threeRegs)
      (fun ps _ => decide (ps.map (fun p => Sample.descOf (s%"D") p.rcs) = [[some (s%"second")]])) = true := by
  decide +kernel

end Svd
