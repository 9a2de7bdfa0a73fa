import Verif.Props.Determined
/-
A description inside another one: everything said about its declarations holds of the declarations they become.
-/
namespace Svd
open Spec

/-- internal: `d` is part of `d'`, with its declaration at `x` at the position `f x`; nothing is added inside its elements. -/
structure Embeds (d d' : SDevice) (f : Pos → Pos) : Prop where
  inj : ∀ x y, f x = f y → x = y
  nil : f [] = []
  step : ∀ x k, ∃ j, f (x ++ [k]) = f x ++ [j]
  decl : ∀ x p, DeclAt d x p → ∃ p', DeclAt d' (f x) p' ∧ Like p p'
  back : ∀ x p y', x ≠ [] → DeclAt d x p → OwnChild d' (f x) y' → ∃ y, y' = f y ∧ OwnChild d x y

section
variable {d d' : SDevice} {f : Pos → Pos}

theorem Like.kind {p q : Parsed} (h : Like p q) : kindOf q = kindOf p := by cases h <;> rfl
theorem Like.display {p q : Parsed} (h : Like p q) : displayOf q = displayOf p := by cases h <;> rfl
theorem Like.enum {c : SEnumContainer} {q : Parsed} (h : Like (.enum c) q) : q = .enum c := by cases h; rfl
theorem Like.nameFor {p q : Parsed} (h : Like p q) {n : Str} (hn : NameFor p n) : NameFor q n := by cases h <;> exact hn

theorem Like.headAt {p q : Parsed} (h : Like p q) {ex : Bool} {pl : Place} {a : Processed} (ha : HeadAt ex p pl a) : HeadAt ex q pl a := by
  cases h with
  | same => exact ha
  | reg => cases ha; exact .reg
  | field _ => cases ha with | field hb => exact .field (bits_containers hb _)

theorem Like.stands {p q : Parsed} (h : Like p q) {hs : List Processed} (hh : StandsFor p hs) : StandsFor q hs := by
  obtain ⟨ex, pls, h1, h2⟩ := hh
  refine ⟨ex, pls, ?_, entrywise_imp h2 fun x _ y _ hxy => h.headAt hxy⟩
  rw [h.name, h.display, h.dim]
  exact h1

theorem Like.pattern {p q : Parsed} (h : Like p q) {a : Processed} (ha : Pattern p a) : Pattern q a := by
  obtain ⟨pl, pls, h1, h2⟩ := ha
  refine ⟨pl, pls, ?_, ?_⟩
  · rw [h.name, h.display, h.dim]; exact h1
  · rw [h.name]; exact h.headAt h2

theorem Like.completed {p q : Parsed} (h : Like p q) (b : Processed) : Like (completed p b) (completed q b) := by
  cases h with
  | same => exact .same
  | @reg r fs => cases b <;> exact .reg
  | @field f cs hc => cases b <;> exact .field hc

theorem Like.inDecl {p q : Parsed} (h : Like p q) {hs : List Processed} {a : Processed} (ha : a ∈ hs ∨ Pattern p a) :
    a ∈ hs ∨ Pattern q a := ha.imp id h.pattern

namespace Embeds
variable (E : Embeds d d' f)
include E

theorem own {x y : Pos} (h : OwnChild d x y) : OwnChild d' (f x) (f y) := by
  obtain ⟨k, p, rfl, h2⟩ := h
  obtain ⟨j, hj⟩ := E.step x k
  obtain ⟨p', h3, -⟩ := E.decl _ _ h2
  exact ⟨j, p', hj, h3⟩

theorem top {x : Pos} (h : OwnChild d [] x) : OwnChild d' [] (f x) := by
  have := E.own h
  rwa [E.nil] at this

theorem kind {x y : Pos} (h : SameKind d x y) : SameKind d' (f x) (f y) := by
  obtain ⟨p, q, h1, h2, h3⟩ := h
  obtain ⟨p', k1, l1⟩ := E.decl _ _ h1
  obtain ⟨q', k2, l2⟩ := E.decl _ _ h2
  exact ⟨p', q', k1, k2, by rw [l1.kind, l2.kind, h3]⟩

theorem called {x : Pos} {n : Str} (h : Called d x n) : Called d' (f x) n := by
  obtain ⟨p, h1, h2⟩ := h
  obtain ⟨p', k1, l1⟩ := E.decl _ _ h1
  exact ⟨p', k1, l1.nameFor h2⟩

mutual
theorem refers {x b : Pos} (h : Refers d x b) : Refers d' (f x) (f b) := by
  match h with
  | .intro h1 h2 h3 h4 h5 h6 =>
    obtain ⟨p', k1, l1⟩ := E.decl _ _ h1
    exact .intro k1 (l1.derived.trans h2) (E.kind h3) (inScope h4) h5 (walk h6)
theorem inScope {x s : Pos} (h : InScope d x s) : InScope d' (f x) (f s) := by
  match h with
  | .peripheral h1 => exact .peripheral (E.top h1)
  | .sibling h1 h2 => exact .sibling (hasChild h1) (hasChild h2)
  | .derived h1 h2 => exact .derived (hasChild h1) (refers h2)
theorem walk {x y : Pos} {ns : List Str} (h : Walk d x ns y) : Walk d' (f x) ns (f y) := by
  match h with
  | .last h1 => exact .last (E.called h1)
  | .down h1 h2 h3 => exact .down (E.called h1) (hasChild h2) (walk h3)
theorem hasChild {x y : Pos} (h : HasChild d x y) : HasChild d' (f x) (f y) := by
  match h with
  | .own h1 => exact .own (E.own h1)
  | .inherited h1 h2 => exact .inherited (refers h1) (hasChild h2)
  | .nested h1 => exact .nested (nested h1)
theorem nested {x y : Pos} (h : Nested d x y) : Nested d' (f x) (f y) := by
  match h with
  | .here h1 h2 h3 => exact .here (refers h1) (refers h2) (inside h3)
  | .inherited h1 h2 => exact .inherited (refers h1) (nested h2)
theorem inside {x y : Pos} (h : Inside d x y) : Inside d' (f x) (f y) := by
  match h with
  | .one h1 => exact .one (hasChild h1)
  | .more h1 h2 => exact .more (hasChild h1) (inside h2)
end

theorem takes {x : Pos} {c : SEnumContainer} (h : Takes d x c) : Takes d' (f x) c := by
  induction h with
  | own h1 h2 =>
    obtain ⟨p', k1, l1⟩ := E.decl _ _ h1
    cases l1.enum
    exact .own k1 h2
  | base h1 _ ih => exact .base (E.refers h1) ih
  | unfinished h1 h2 h3 =>
    obtain ⟨p', k1, l1⟩ := E.decl _ _ h2
    cases l1.enum
    exact .unfinished (E.refers h1) k1 h3

theorem element {x : Pos} {l : List Pos} {a : Processed} (h : ElementOf d x l a) : ElementOf d' (f x) (l.map f) a := by
  induction h with
  | own h1 h2 h3 h4 =>
    obtain ⟨p', k1, l1⟩ := E.decl _ _ h1
    exact .own k1 (l1.derived.trans h2) (l1.stands h3) (l1.inDecl h4)
  | derived h1 h2 h3 _ h5 h6 h7 ih =>
    obtain ⟨p', k1, l1⟩ := E.decl _ _ h1
    exact .derived k1 (l1.derived.trans h2) (E.refers h3) ih h5 ((l1.completed _).stands h6) ((l1.completed _).inDecl h7)

theorem standsAlong {x : Pos} {l : List Pos} {hs : List Processed} (h : StandsAlong d x l hs) : StandsAlong d' (f x) (l.map f) hs := by
  cases h with
  | own h1 h2 h3 =>
    obtain ⟨p', k1, l1⟩ := E.decl _ _ h1
    exact .own k1 (l1.derived.trans h2) (l1.stands h3)
  | derived h1 h2 h3 h4 h5 h6 =>
    obtain ⟨p', k1, l1⟩ := E.decl _ _ h1
    exact .derived k1 (l1.derived.trans h2) (E.refers h3) (E.element h4) h5 ((l1.completed _).stands h6)

theorem stands {x : Pos} {hs : List Processed} (h : StandsAt d x hs) : StandsAt d' (f x) hs := by
  obtain ⟨l, h⟩ := h
  exact ⟨_, E.standsAlong h⟩

theorem instance' {x : Pos} {l : List Pos} {a : Processed} (h : Instance d x l a) : Instance d' (f x) (l.map f) a := by
  obtain ⟨hs, h, ha⟩ := h
  exact ⟨hs, E.standsAlong h, ha⟩

theorem complete {x : Pos} {q : Parsed} (h : Complete d x q) : ∃ q', Complete d' (f x) q' ∧ Like q q' := by
  cases h with
  | own h1 h2 =>
    obtain ⟨p', k1, l1⟩ := E.decl _ _ h1
    exact ⟨p', .own k1 (l1.derived.trans h2), l1⟩
  | derived h1 h2 h3 h4 h5 =>
    obtain ⟨p', k1, l1⟩ := E.decl _ _ h1
    exact ⟨_, .derived k1 (l1.derived.trans h2) (E.refers h3) (E.element h4) h5, l1.completed _⟩

theorem inChain {l : List Pos} {y : Pos} (h : InChain d l y) : InChain d' (l.map f) (f y) := by
  obtain ⟨z, h1, h2⟩ := h
  exact ⟨f z, List.mem_map_of_mem h1, E.own h2⟩

end Embeds

theorem standsFor_device {hs : List Processed} (h : StandsFor .device hs) {a : Processed} (ha : a ∈ hs ∨ Pattern .device a) : False := by
  rcases ha with ha | ha
  · obtain ⟨ex, pls, -, h2⟩ := h
    obtain ⟨pl, -, hp⟩ := entrywise_right h2 ha
    cases hp
  · obtain ⟨pl, pls, -, hp⟩ := ha
    cases hp

theorem declAt_nil {p : Parsed} (h : DeclAt d [] p) : p = .device := by
  obtain ⟨ts, h⟩ := h
  simp only [treeAt, declTree, Option.some.injEq, DTree.node.injEq] at h
  exact h.1.symm

theorem element_chain {x : Pos} {l : List Pos} {a : Processed} (h : ElementOf d x l a) : ∀ z ∈ l, z ≠ [] ∧ ∃ p, DeclAt d z p := by
  induction h with
  | own h1 h2 h3 h4 =>
    intro z hz
    cases List.mem_singleton.1 hz
    refine ⟨?_, _, h1⟩
    rintro rfl
    cases declAt_nil h1
    exact standsFor_device h3 h4
  | derived h1 h2 _ _ _ _ _ ih =>
    intro z hz
    rcases List.mem_cons.1 hz with rfl | hz
    · refine ⟨?_, _, h1⟩
      rintro rfl
      cases declAt_nil h1
      cases h2
    · exact ih z hz

theorem instance_chain {x : Pos} {l : List Pos} {a : Processed} (h : Instance d x l a) : ∀ z ∈ l, z ≠ [] ∧ ∃ p, DeclAt d z p := by
  obtain ⟨hs, h, ha⟩ := h
  cases h with
  | own h1 h2 h3 => exact element_chain (.own h1 h2 h3 (.inl ha))
  | derived h1 h2 h3 h4 h5 h6 => exact element_chain (.derived h1 h2 h3 h4 h5 h6 (.inl ha))

namespace Embeds
variable (E : Embeds d d' f)
include E

theorem chainBack {x : Pos} {l : List Pos} {a : Processed} (h : Instance d x l a) {y' : Pos} (hy : InChain d' (l.map f) y') :
    ∃ y, y' = f y ∧ InChain d l y := by
  obtain ⟨z', h1, h2⟩ := hy
  obtain ⟨z, h3, rfl⟩ := List.mem_map.1 h1
  obtain ⟨h4, p, h5⟩ := instance_chain h z h3
  obtain ⟨y, rfl, h6⟩ := E.back z p y' h4 h5 h2
  exact ⟨y, rfl, z, h3, h6⟩

theorem fieldOf {x : Pos} {g : IField} (h : FieldOf d x g) : FieldOf d' (f x) g := by
  obtain ⟨l, h1, h2⟩ := h
  refine ⟨l.map f, E.instance' h1, ?_, ?_, h2.usages, h2.two, h2.both⟩
  · intro k hk
    obtain ⟨y, c, w, k1, k2, k3⟩ := h2.sub k hk
    exact ⟨f y, c, w, E.inChain k1, E.takes k2, k3⟩
  · intro y' hy'
    obtain ⟨y, rfl, hy⟩ := E.chainBack h1 hy'
    obtain ⟨k, hk, c, w, k2, k3⟩ := h2.all y hy
    exact ⟨k, hk, c, w, E.takes k2, k3⟩

theorem fieldsOf {x : Pos} {l : List Pos} {a : Processed} (hi : Instance d x l a) {fs : List IField} (h : FieldsOf d l fs) :
    FieldsOf d' (l.map f) fs := by
  constructor
  · intro g hg
    obtain ⟨y, k1, k2⟩ := h.sub g hg
    exact ⟨f y, E.inChain k1, E.fieldOf k2⟩
  · intro y' hy'
    obtain ⟨y, rfl, hy⟩ := E.chainBack hi hy'
    obtain ⟨hs, k1, k2⟩ := h.all y hy
    refine ⟨hs, E.stands k1, fun a ha => ?_⟩
    obtain ⟨g, hg, e, k3⟩ := k2 a ha
    exact ⟨g, hg, e, E.fieldOf k3⟩

mutual
theorem rcFull {e : Int} {x : Pos} {y : IRC} (h : RCFull d e x y) : RCFull d' e (f x) y := by
  match h with
  | .reg h1 h2 h3 => exact .reg (E.instance' h1) (E.fieldsOf h1 h2) h3
  | .clu h1 h2 h3 h4 h5 =>
    refine .clu (E.instance' h1) (fun y hy => memberFull (h2 y hy)) ?_ h4 h5
    intro z' hz'
    obtain ⟨z, rfl, hz⟩ := E.chainBack h1 hz'
    exact keptFull (h3 z hz)
theorem memberFull {e : Int} {l : List Pos} {y : IRC} (h : MemberFull d e l y) : MemberFull d' e (l.map f) y := by
  match h with
  | .intro h1 h2 => exact .intro (E.inChain h1) (rcFull h2)
theorem keptFull {e : Int} {ys : List IRC} {z : Pos} (h : KeptFull d e ys z) : KeptFull d' e ys (f z) := by
  match h with
  | .intro h1 h2 => exact .intro (E.stands h1) fun a ha => foundFull (h2 a ha)
theorem foundFull {e : Int} {ys : List IRC} {z : Pos} {a : Processed} (h : FoundFull d e ys z a) : FoundFull d' e ys (f z) a := by
  match h with
  | .intro h1 h2 h3 => exact .intro h1 h2 (rcFull h3)
end

theorem periphFull {x : Pos} {q : IPeripheral} (h : PeriphFull d x q) : PeriphFull d' (f x) q := by
  obtain ⟨l, a, s, h1, h2, h3, h4, h5, h6⟩ := h
  refine ⟨l.map f, a, s, E.instance' h1, h2, fun y hy => E.memberFull (h3 y hy), ?_, h5, h6⟩
  intro z' hz'
  obtain ⟨z, rfl, hz⟩ := E.chainBack h1 hz'
  exact E.keptFull (h4 z hz)

/-- All of a part is in the whole. -/
theorem sim (D : Definite d') {ps ps' : List IPeripheral} (h : DeviceFull d ps) (h' : DeviceFull d' ps') :
    ∀ q ∈ ps, ∃ q' ∈ ps', SimP q q' := by
  intro q hq
  obtain ⟨x, hx, hf⟩ := h.sub q hq
  have hf' := E.periphFull hf
  obtain ⟨hs, k1, k2⟩ := h'.all (f x) (E.top hx)
  obtain ⟨l, a, s, h1, h2, -⟩ := hf'
  obtain ⟨hs2, h3, h4⟩ := h1
  obtain ⟨l1, k1⟩ := k1
  obtain ⟨-, rfl⟩ := standsAlong_unique D h3 k1
  obtain ⟨q', hq', k3, k4⟩ := k2 _ h4
  refine ⟨q', hq', periphFull_unique D (E.periphFull hf) k4 ?_ k3 ⟨_, _, h3, h4⟩⟩
  rw [h2]
  exact .periph

theorem notedIn {w : Warn} (h : NotedIn d w) : NotedIn d' w := by
  cases h with
  | decl h1 h2 =>
    obtain ⟨q', k1, k2⟩ := E.complete h1
    exact .decl k1 (k2.note h2)
  | entries h1 h2 => exact .entries (E.takes h1) h2

/-! ### what holds of the whole holds of the part -/

theorem unambiguous (h : Unambiguous d') : Unambiguous d :=
  fun _ _ _ h1 h2 => E.inj _ _ (h _ _ _ (E.refers h1) (E.refers h2))

theorem definite (D : Definite d') : Definite d where
  refs := E.unambiguous D.refs
  indices := by
    intro p hp n l hl
    obtain ⟨x, hx⟩ := declAt_of_declared hp
    obtain ⟨p', k1, k2⟩ := E.decl _ _ hx
    have := D.index k1
    rw [k2.dim] at this
    exact this n l hl
  enums := by
    intro x b c h1 h2
    obtain ⟨p', k1, k2⟩ := E.decl _ _ h2
    cases k2.enum
    exact D.enums _ _ c (E.refers h1) k1

theorem quiet (h : Quiet d') : Quiet d := by
  intro x p b y q h1 h2 h3 h4 h5
  obtain ⟨p', k1, l1⟩ := E.decl _ _ h1
  obtain ⟨q', k2, l2⟩ := E.decl _ _ h5
  rw [← l2.derived]
  exact h _ p' _ _ q' k1 (by rwa [l1.kind]) (E.refers h3) (E.inside h4) k2

theorem precedes {x y : Pos} (h : Precedes d x y) : Precedes d' (f x) (f y) := by
  induction h with
  | has h => exact .has (E.hasChild h)
  | ref h => exact .ref (E.refers h)
  | trans _ _ ih1 ih2 => exact .trans ih1 ih2

theorem prefix_length (y : Pos) : ∀ x : Pos, ∃ z, f (x ++ y) = f x ++ z ∧ z.length = y.length := by
  induction y with
  | nil => exact fun x => ⟨[], by simp, rfl⟩
  | cons k y ih =>
    intro x
    obtain ⟨z, hz, hl⟩ := ih (x ++ [k])
    obtain ⟨j, hj⟩ := E.step x k
    refine ⟨j :: z, ?_, by simp [hl]⟩
    rw [List.append_assoc, List.singleton_append] at hz
    rw [hz, hj, List.append_assoc, List.singleton_append]

theorem length (x : Pos) : (f x).length = x.length := by
  obtain ⟨z, hz, hl⟩ := E.prefix_length x []
  rw [List.nil_append, E.nil, List.nil_append] at hz
  rw [hz, hl]

theorem prefix' (x y : Pos) : ∃ z, f (x ++ y) = f x ++ z := by
  obtain ⟨z, hz, -⟩ := E.prefix_length y x
  exact ⟨z, hz⟩

theorem shallow {t : Pos} (h : Shallow d' (f t)) : Shallow d t := by
  intro y p h1 h2 h3
  obtain ⟨p', k1, l1⟩ := E.decl _ _ h1
  rw [← E.length]
  exact h _ p' k1 (by rwa [l1.derived]) (h3.imp (fun e => by rw [e]) E.inside)

theorem simple {x t : Pos} {p : Parsed} {path : Str} (hF : Followable d') (h1 : DeclAt d x p) (h2 : kindOf p ≠ .enumcont)
    (h3 : p.derivedFrom = some path) (h4 : '.' ∈ path) (h5 : Refers d x t) : Shallow d t := by
  obtain ⟨p', k1, l1⟩ := E.decl _ _ h1
  exact E.shallow (hF.simple _ p' path k1 (by rwa [l1.kind]) (l1.derived.trans h3) h4 _ (E.refers h5))

theorem acyclic (hF : Followable d') (x : Pos) : ¬ Precedes d x x := fun h => hF.acyclic _ (E.precedes h)

theorem plain {x : Pos} {n : Str} (h : PlainName d x n) : PlainName d' (f x) n := by
  obtain ⟨p, h1, h2, h3, h4⟩ := h
  obtain ⟨p', k1, l1⟩ := E.decl _ _ h1
  refine ⟨p', k1, ?_, ?_, ?_⟩
  · rintro rfl; cases l1; exact h2 rfl
  · rintro c rfl; cases l1; exact h3 c rfl
  · rw [l1.kind, l1.name]; exact h4

theorem ownPath {x t : Pos} {ns : List Str} (h : OwnPath d x ns t) : OwnPath d' (f x) ns (f t) := by
  induction h with
  | last h => exact .last (E.plain h)
  | down h1 h2 _ ih => exact .down (E.plain h1) (E.own h2) ih

/-- In a part that is the whole, names lead to what they lead to in the whole. -/
theorem names {g : Pos → Pos} (G : Embeds d' d g) (hgf : ∀ x, g (f x) = x) {x t : Pos} (h : Names d x t) : Names d' (f x) (f t) := by
  obtain ⟨p, path, parts, s, h1, h2, h3, h4, h5, h6, h7⟩ := h
  obtain ⟨p', k1, l1⟩ := E.decl _ _ h1
  refine ⟨p', path, parts, f s, k1, l1.derived.trans h2, h3, E.kind h4, ?_, E.ownPath h6, ?_⟩
  · rcases h5 with h5 | ⟨q, h5, h6⟩
    · exact .inl (E.top h5)
    · exact .inr ⟨f q, E.own h5, E.own h6⟩
  · rintro ⟨z, hz⟩
    obtain ⟨w, hw⟩ := G.prefix' (f x) z
    rw [hz, hgf, hgf] at hw
    exact h7 ⟨w, hw.symm⟩

theorem followable {g : Pos → Pos} (G : Embeds d' d g) (hfg : ∀ x, f (g x) = x) (hgf : ∀ x, g (f x) = x) (hF : Followable d') : Followable d where
  acyclic := E.acyclic hF
  named := by
    intro x p h1 h2
    obtain ⟨p', k1, l1⟩ := E.decl _ _ h1
    obtain ⟨t, ht⟩ := hF.named _ p' k1 (by rwa [l1.derived])
    have := G.names E hfg ht
    rw [hgf] at this
    exact ⟨g t, this⟩
  simple := fun _ _ _ h1 h2 h3 h4 _ h5 => E.simple hF h1 h2 h3 h4 h5

end Embeds
end
end Svd
