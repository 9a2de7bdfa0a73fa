import Verif.Lemmas.Complete
/-
Kinds of declarations in the tree.
-/
namespace Svd
open Graph Spec

/-- What may be declared directly inside what. -/
def childKind : Level → Level → Bool
  | .device, .peripheral => true
  | .peripheral, .cluster => true
  | .peripheral, .register => true
  | .cluster, .cluster => true
  | .cluster, .register => true
  | .register, .field => true
  | .field, .enumcont => true
  | _, _ => false

mutual
def Kinded : DTree → Prop
  | .node p ts => KindedIn p.level ts
def KindedIn (l : Level) : List DTree → Prop
  | [] => True
  | .node q us :: ts => childKind l q.level = true ∧ KindedIn q.level us ∧ KindedIn l ts
end

theorem kinded_iff {p : Parsed} {ts : List DTree} : Kinded (.node p ts) ↔ KindedIn p.level ts := by rw [Kinded]

theorem kinded_mem {l : Level} {ts : List DTree} (h : KindedIn l ts) {q : Parsed} {us : List DTree} (hm : DTree.node q us ∈ ts) :
    childKind l q.level = true ∧ KindedIn q.level us := by
  induction ts with
  | nil => cases hm
  | cons t ts ih =>
    obtain ⟨q', us'⟩ := t
    rw [KindedIn] at h
    rcases List.mem_cons.1 hm with h1 | h1
    · injection h1 with h1 h2
      subst h1 h2
      exact ⟨h.1, h.2.1⟩
    · exact ih h.2.2 h1

theorem kinded_enums (cs : List SEnumContainer) : KindedIn .field (cs.map ofEnum) := by
  induction cs with
  | nil => simp [KindedIn]
  | cons c cs ih => simp only [List.map_cons, ofEnum, KindedIn]; exact ⟨rfl, trivial, ih⟩
theorem kinded_fields (fs : List SField) : KindedIn .register (fs.map ofField) := by
  induction fs with
  | nil => simp [KindedIn]
  | cons c cs ih => simp only [List.map_cons, ofField, KindedIn]; exact ⟨rfl, kinded_enums _, ih⟩

theorem kinded_rcs (l : Level) (hl : l = .peripheral ∨ l = .cluster) : (xs : List SRC) → KindedIn l (ofRCs xs)
  | [] => by simp [ofRCs, KindedIn]
  | .clu c ch :: xs => by
    simp only [ofRCs, ofRC, KindedIn]
    exact ⟨by rcases hl with rfl | rfl <;> rfl, kinded_rcs .cluster (Or.inr rfl) ch, kinded_rcs l hl xs⟩
  | .reg r :: xs => by
    simp only [ofRCs, ofRC, KindedIn]
    exact ⟨by rcases hl with rfl | rfl <;> rfl, kinded_fields _, kinded_rcs l hl xs⟩

theorem kinded_device (d : SDevice) : Kinded (declTree d) := by
  rw [declTree, Kinded]
  show KindedIn .device _
  induction d.peripherals with
  | nil => simp [KindedIn]
  | cons c cs ih => simp only [List.map_cons, ofPeriph, KindedIn]; exact ⟨rfl, kinded_rcs _ (Or.inl rfl) _, ih⟩

theorem treeAt_kinded : ∀ (x : Pos) (t s : DTree), Kinded t → treeAt t x = some s → Kinded s
  | [], t, s, h, hs => by
    cases t
    rw [treeAt] at hs
    injection hs with hs
    exact hs ▸ h
  | k :: x, .node p ts, s, h, hs => by
    rw [treeAt] at hs
    cases hk : ts[k]? with
    | none => rw [hk] at hs; simp at hs
    | some t =>
      rw [hk, Option.bind_some] at hs
      refine treeAt_kinded x t s ?_ hs
      obtain ⟨q, us⟩ := t
      rw [Kinded] at h ⊢
      exact (kinded_mem h (List.mem_of_getElem? hk)).2

theorem ownChild_kind {d : SDevice} {x y : Pos} (h : OwnChild d x y) {p q : Parsed} (hp : DeclAt d x p) (hq : DeclAt d y q) :
    childKind p.level q.level = true := by
  obtain ⟨ts, hp⟩ := hp
  obtain ⟨us, hq⟩ := hq
  obtain ⟨k, -, rfl, -⟩ := h
  have hk := treeAt_kinded _ _ _ (kinded_device d) hp
  rw [treeAt_snoc, hp, Option.bind_some, treeAt_kid] at hq
  rw [Kinded] at hk
  exact (kinded_mem hk (List.mem_of_getElem? hq)).1

theorem ownChild_decl {d : SDevice} {x y : Pos} (h : OwnChild d x y) : ∃ p q, DeclAt d x p ∧ DeclAt d y q := by
  obtain ⟨k, q, rfl, ts, hq⟩ := h
  rw [treeAt_snoc] at hq
  cases hx : treeAt (declTree d) x with
  | none => rw [hx] at hq; simp at hq
  | some t =>
    obtain ⟨p, us⟩ := t
    exact ⟨p, q, ⟨us, hx⟩, ts, by rw [treeAt_snoc]; exact hq⟩

theorem kinded_device_free {l : Level} : ∀ {ts : List DTree}, KindedIn l ts → ∀ {q us}, DTree.node q us ∈ ts → q ≠ .device := by
  intro ts h q us hm hq
  have := (kinded_mem h hm).1
  subst hq
  revert this
  show childKind l .device = true → False
  cases l <;> simp [childKind]

theorem device_pos {d : SDevice} {x : Pos} {p : Parsed} (h : DeclAt d x p) (hp : p.level = .device) : x = [] := by
  rcases List.eq_nil_or_concat x with rfl | ⟨y, k, rfl⟩
  · rfl
  · have ho : OwnChild d y (y ++ [k]) := ⟨k, p, rfl, by simpa using h⟩
    obtain ⟨q, r, h1, h2⟩ := ownChild_decl ho
    have := ownChild_kind ho h1 (by simpa using h)
    rw [hp] at this
    revert this
    cases q.level <;> simp [childKind]

/-! ### same kind -/

theorem sameKind_level {d : SDevice} {x y : Pos} (h : SameKind d x y) {p q : Parsed} (hp : DeclAt d x p) (hq : DeclAt d y q) : p.level = q.level := by
  obtain ⟨p', q', h1, h2, h3⟩ := h
  rw [declAt_unique hp h1, declAt_unique hq h2, ← kindOf_level, ← kindOf_level, h3]

theorem sameKind_symm {d : SDevice} {x y : Pos} (h : SameKind d x y) : SameKind d y x := by
  obtain ⟨p, q, h1, h2, h3⟩ := h
  exact ⟨q, p, h2, h1, h3.symm⟩

theorem sameKind_trans {d : SDevice} {x y z : Pos} (h : SameKind d x y) (h' : SameKind d y z) : SameKind d x z := by
  obtain ⟨p, q, h1, h2, h3⟩ := h
  obtain ⟨q', r, h4, h5, h6⟩ := h'
  have := declAt_unique h2 h4
  subst this
  exact ⟨p, r, h1, h5, h3.trans h6⟩

theorem refers_kind {d : SDevice} {x y : Pos} (h : Refers d x y) : SameKind d x y := by
  cases h with
  | intro _ _ h _ _ => exact h

theorem nested_kind {d : SDevice} {x y : Pos} : Nested d x y → SameKind d x y
  | .here h1 h2 _ => sameKind_trans (refers_kind h1) (sameKind_symm (refers_kind h2))
  | .inherited h1 h2 => sameKind_trans (refers_kind h1) (nested_kind h2)

theorem chain_kind {d : SDevice} {x : Pos} {l : List Pos} (h : Chain d x l) : ∀ z ∈ l, SameKind d x z := by
  induction h with
  | root h1 h2 =>
    intro z hz
    simp only [List.mem_singleton] at hz
    subst hz
    exact ⟨_, _, h1, h1, rfl⟩
  | step h1 h2 ih =>
    intro z hz
    rcases List.mem_cons.1 hz with rfl | hz
    · exact sameKind_trans (refers_kind h1) (sameKind_symm (refers_kind h1))
    · exact sameKind_trans (refers_kind h1) (ih z hz)

/-- What is declared in the chain has the kind of a child. -/
theorem inChain_kind {d : SDevice} {x y : Pos} {l : List Pos} (hc : Chain d x l) (h : InChain d l y) {p q : Parsed} (hp : DeclAt d x p)
    (hq : DeclAt d y q) : childKind p.level q.level = true := by
  obtain ⟨z, hz, ho⟩ := h
  obtain ⟨r, -, hr, -⟩ := ownChild_decl ho
  rw [sameKind_level (chain_kind hc z hz) hp hr]
  exact ownChild_kind ho hr hq

/-- Only clusters can be derived from an element of the chain. -/
theorem inChain_refers {d : SDevice} {x y z : Pos} {l : List Pos} (hc : Chain d x l) (h : InChain d l y) (hz : z ∈ l) (hr : Refers d y z)
    {p : Parsed} (hp : DeclAt d x p) : p.level = .cluster := by
  obtain ⟨r, q, -, hq⟩ := ownChild_decl (h.choose_spec.2)
  have h1 := inChain_kind hc h hp hq
  have h2 := sameKind_level (sameKind_trans (chain_kind hc z hz) (sameKind_symm (refers_kind hr))) hp hq
  rw [← h2] at h1
  revert h1
  cases p.level <;> simp [childKind]

end Svd
