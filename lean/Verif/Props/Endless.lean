import Verif.Lemmas.SpinStep
import Verif.Props.Order
/-
C47: resolving derived elements does not always come to an end.
-/
namespace Svd
open Graph Spec

namespace Sample

/-- ```
<peripheral><name>P</name>
  <registers>
    <cluster><name>M</name>
      <cluster derivedFrom="K"><name>Z</name> <cluster derivedFrom="P.M"><name>K</name></cluster> </cluster>
    </cluster>
    <cluster derivedFrom="P.M"><name>K</name></cluster>
    <cluster derivedFrom="K"><name>Z</name> <cluster derivedFrom="P.M"><name>K</name></cluster> </cluster>
  </registers>
</peripheral>
```
`P.K` takes a `Z` from `P.M`, `P.Z` is derived from `P.K`, and the `Z` in it has, like `P`, a `K` derived from `P.M` and a `Z` derived from that `K`. -/
def spiral : SDevice :=
  rdev [{ hd := { name := s%"P", baseAddress := 0 }
          rcs := [.clu spM [.clu spZ [.clu spK []]], .clu spK [], .clu spZ [.clu spK []]] }]

def spP : SPeripheral := { name := s%"P", baseAddress := 0 }
def rawM : ElemNode := ⟨some (s%"M"), .cluster, false, .clu spM, none, false⟩
def rawP : ElemNode := ⟨some (s%"P"), .peripheral, false, .periph spP, none, false⟩
def doneP : ElemNode := ⟨some (s%"P"), .peripheral, true, .periph spP, some (.periph (processPeripheral 0 (s%"P") spP none)), false⟩
def devNode : ElemNode := ⟨some (s%"Device"), .device, true, .device, none, false⟩

def spiralNodes (p m : ElemNode) : List (Option Node) :=
  [some (.elem devNode), some (.elem p), some (.elem m), some (.elem rawZ), some (.ph (s%"K")), some (.elem rawK),
   some (.ph (s%"P.M")), some (.elem rawK), some (.ph (s%"P.M")), some (.elem rawZ), some (.ph (s%"K")), some (.elem rawK), some (.ph (s%"P.M"))]

def spiral0 : Graph :=
  match initialization spiral with
  | .ok g _ => g
  | .err _ => {}

def spiral1 : Graph :=
  { nodes := spiralNodes doneP doneM
    edges := [⟨9, 12, .placeholder⟩, ⟨1, 10, .placeholder⟩, ⟨1, 8, .placeholder⟩, ⟨3, 6, .placeholder⟩, ⟨2, 4, .placeholder⟩,
      ⟨12, 11, .placeholder⟩, ⟨9, 11, .childU⟩, ⟨10, 9, .placeholder⟩, ⟨1, 9, .childR⟩, ⟨8, 7, .placeholder⟩, ⟨1, 7, .childR⟩,
      ⟨6, 5, .placeholder⟩, ⟨3, 5, .childU⟩, ⟨4, 3, .placeholder⟩, ⟨2, 3, .childR⟩, ⟨1, 2, .childR⟩, ⟨0, 1, .childR⟩]
    placeholders := [4, 6, 8, 10, 12] }

end Sample
open Sample

theorem spiral_init : initialization spiral = .ok spiral0 [] := by decide +kernel
theorem spiral_none : resolvePlaceholders spiral0 spiral0.placeholders = .ok spiral0 [] := by decide +kernel
theorem spiral_sorted : sortedProcessable spiral0 = [1, 2] := by decide +kernel

/-- An element that is not derived and has no dimensions is processed by itself. -/
theorem process_plain {ord : List Nat → List Nat} {g g' : Graph} {i : Nat} {raw : ElemNode} {n : Str} {p : Processed}
    (he : g.elem? i = some raw) (h1 : raw.parsed ≠ .device) (h2 : raw.parsed.derivedFrom = none)
    (h5 : raw.parsed.isEnum = false) (h6 : extractDimOf raw.parsed none = M.pure (false, [n], [none]))
    (h7 : createAll raw.parsed none 0 [n] [none] = M.pure [p]) (h8 : updateNode id g i none p false = .ok g' []) :
    processNode ord g i = .ok g' [] := by
  unfold processNode
  rw [he]
  simp only
  rw [if_neg h1, h2]
  simp only [M.pure_bind, h5, Bool.false_eq_true, if_false]
  unfold processDimable
  simp only [h6, h7, M.pure_bind, Bool.false_eq_true, if_false]
  exact h8

def Sample.spiralP : Graph :=
  match processNode id spiral0 1 with
  | .ok g _ => g
  | .err _ => {}

theorem spiral_process (ord : List Nat → List Nat) : processNodes ord spiral0 [1, 2] = .ok spiral1 [] := by
  have h1 : processNode ord spiral0 1 = .ok spiralP [] :=
    process_plain (raw := rawP) (n := s%"P") (p := .periph (processPeripheral 0 (s%"P") spP none)) (by decide +kernel) (by decide) rfl rfl
      (by decide +kernel) rfl (by decide +kernel)
  have h2 : processNode ord spiralP 2 = .ok spiral1 [] :=
    process_plain (raw := rawM) (n := s%"M") (p := .clu prcM) (by decide +kernel) (by decide) rfl rfl
      (by decide +kernel) rfl (by decide +kernel)
  unfold processNodes
  rw [h1]
  show M.bind (M.pure _) _ = _
  rw [M.pure_bind]
  unfold processNodes
  rw [h2]
  show M.bind (M.pure _) _ = _
  rw [M.pure_bind]
  rfl

local instance (g : Graph) (a b : Nat) : Decidable (Pl g a b) := inferInstanceAs (Decidable ((⟨a, b, .placeholder⟩ : Edge) ∈ g.edges))
local instance (g : Graph) (a b : Nat) : Decidable (Ch g a b) :=
  inferInstanceAs (Decidable ((⟨a, b, .childU⟩ : Edge) ∈ g.edges ∨ (⟨a, b, .childR⟩ : Edge) ∈ g.edges))

theorem spiral_e {i : Nat} {e : ElemNode} (h : spiral1.elem? i = some e) : i < 13 := by
  have := node?_lt (by rw [elem?_node?.1 h] : spiral1.node? i = some (.elem e))
  exact this

theorem spiral_ph {i : Nat} (h : IsP spiral1 i) : i = 4 ∨ i = 6 ∨ i = 8 ∨ i = 10 ∨ i = 12 := by
  obtain ⟨p, h⟩ := h
  have hl : i < 13 := node?_lt h
  have : ∀ i < 13, (∃ p, spiral1.node? i = some (.ph p)) → i = 4 ∨ i = 6 ∨ i = 8 ∨ i = 10 ∨ i = 12 := by
    intro i hi h
    rcases i with _ | _ | _ | _ | _ | _ | _ | _ | _ | _ | _ | _ | _ | i <;> first | omega | (obtain ⟨p, h⟩ := h; cases h)
  exact this i hl ⟨p, h⟩

def spiralRank (i : Nat) : Nat := ([0, 1, 2, 4, 3, 6, 5, 8, 7, 10, 9, 12, 11] : List Nat).findIdx (· == i)

theorem spiral_fit : Fit spiral1 := by
  have pe : ∀ i, i ∈ spiral1.placeholders → IsP spiral1 i := by
    intro i hi
    have : i = 4 ∨ i = 6 ∨ i = 8 ∨ i = 10 ∨ i = 12 := by simpa [spiral1] using hi
    rcases this with rfl | rfl | rfl | rfl | rfl <;> exact ⟨_, rfl⟩
  have phs : ∀ i, IsP spiral1 i ↔ i ∈ spiral1.placeholders := fun i => ⟨fun h => by simpa [spiral1] using spiral_ph h, pe i⟩
  have els : ∀ i, i ∈ ([0, 1, 2, 3, 5, 7, 9, 11] : List Nat) → IsE spiral1 i := by
    intro i hi
    have : i = 0 ∨ i = 1 ∨ i = 2 ∨ i = 3 ∨ i = 5 ∨ i = 7 ∨ i = 9 ∨ i = 11 := by simpa using hi
    rcases this with rfl | rfl | rfl | rfl | rfl | rfl | rfl | rfl <;> exact ⟨_, rfl⟩
  have hch : ∀ e ∈ spiral1.edges, e.ty ≠ .placeholder → e.src ∈ ([0, 1, 2, 3, 5, 7, 9, 11] : List Nat) ∧ e.dst ∈ ([0, 1, 2, 3, 5, 7, 9, 11] : List Nat) := by decide +kernel
  have hpl : ∀ e ∈ spiral1.edges, e.ty = .placeholder →
      (e.src ∈ ([0, 1, 2, 3, 5, 7, 9, 11] : List Nat) ∧ e.dst ∈ spiral1.placeholders) ∨ (e.src ∈ spiral1.placeholders ∧ e.dst ∈ ([0, 1, 2, 3, 5, 7, 9, 11] : List Nat)) := by
    decide +kernel
  refine ⟨⟨?_, ?_, ?_⟩, ?_, ⟨?_, ?_, ?_⟩, ⟨?_, ?_, ?_, ?_, ?_⟩, ?_, ⟨?_, fun i => (phs i).symm⟩, ?_, ?_⟩
  · intro i hi; cases hi
  · decide
  · decide +kernel
  · have hr : ∀ e ∈ spiral1.edges, spiralRank e.src < spiralRank e.dst := by decide +kernel
    have : ∀ a b, Conn spiral1.edges a b → spiralRank a < spiralRank b := by
      intro a b h
      induction h with
      | edge he => exact hr _ he
      | step he _ ih => exact Nat.lt_trans (hr _ he) ih
    intro i h
    exact Nat.lt_irrefl _ (this i i h)
  · intro a b h
    rcases h with h | h
    · exact ⟨els _ (hch _ h (fun h => by cases h)).1, els _ (hch _ h (fun h => by cases h)).2⟩
    · exact ⟨els _ (hch _ h (fun h => by cases h)).1, els _ (hch _ h (fun h => by cases h)).2⟩
  · intro a b h
    exact ⟨els _ (hch _ h (fun h => by cases h)).1, els _ (hch _ h (fun h => by cases h)).2⟩
  · intro a b h
    exact (hpl _ h rfl).imp (fun h => ⟨els _ h.1, pe _ h.2⟩) (fun h => ⟨pe _ h.1, els _ h.2⟩)
  · decide +kernel
  · intro k hk
    rcases spiral_ph hk with rfl | rfl | rfl | rfl | rfl
    exacts [⟨2, by decide⟩, ⟨3, by decide⟩, ⟨1, by decide⟩, ⟨1, by decide⟩, ⟨9, by decide⟩]
  · intro k hk
    rcases spiral_ph hk with rfl | rfl | rfl | rfl | rfl
    exacts [⟨3, by decide⟩, ⟨5, by decide⟩, ⟨7, by decide⟩, ⟨9, by decide⟩, ⟨11, by decide⟩]
  · intro k a a' hk h1 h2
    have : ∀ e ∈ spiral1.edges, ∀ e' ∈ spiral1.edges, e.ty = .placeholder → e'.ty = .placeholder → e.dst = e'.dst → e.dst ∈ spiral1.placeholders → e.src = e'.src := by
      decide +kernel
    exact this _ h1 _ h2 rfl rfl rfl ((phs k).1 hk)
  · intro k a a' hk h1 h2
    have : ∀ e ∈ spiral1.edges, ∀ e' ∈ spiral1.edges, e.ty = .placeholder → e'.ty = .placeholder → e.src = e'.src → e.src ∈ spiral1.placeholders → e.dst = e'.dst := by
      decide +kernel
    exact this _ h1 _ h2 rfl rfl rfl ((phs k).1 hk)
  · unfold Single; decide +kernel
  · decide
  · intro a a' b h1 h2
    have : ∀ e ∈ spiral1.edges, ∀ e' ∈ spiral1.edges, e.ty ≠ .placeholder → e'.ty ≠ .placeholder → e.dst = e'.dst → e.src = e'.src := by
      decide +kernel
    rcases h1 with h1 | h1 <;> rcases h2 with h2 | h2 <;> exact this _ h1 _ h2 (fun h => by cases h) (fun h => by cases h) rfl
  · decide +kernel

theorem pl_in {a b : Nat} (h : ∀ e ∈ spiral1.edges, e.ty = .placeholder → e.dst = b → e.src = a) (h' : Pl spiral1 a b) (j : Nat) :
    Pl spiral1 j b ↔ j = a :=
  ⟨fun hj => h _ hj rfl rfl, fun hj => hj ▸ h'⟩

theorem pl_out {a b : Nat} (h : ∀ e ∈ spiral1.edges, e.ty = .placeholder → e.src = a → e.dst = b) (h' : Pl spiral1 a b) (j : Nat) :
    Pl spiral1 a j ↔ j = b :=
  ⟨fun hj => h _ hj rfl rfl, fun hj => hj ▸ h'⟩

theorem ch_out {a : Nat} {L : List Nat} (h : ∀ e ∈ spiral1.edges, e.ty = .childU ∨ e.ty = .childR → e.src = a → e.dst ∈ L) {j : Nat}
    (hj : Ch spiral1 a j) : j ∈ L :=
  hj.elim (fun hj => h _ hj (.inl rfl) rfl) fun hj => h _ hj (.inr rfl) rfl

theorem ch_one {a b : Nat} (h : ∀ e ∈ spiral1.edges, e.ty = .childU ∨ e.ty = .childR → e.src = a → e.dst ∈ [b]) (h' : Ch spiral1 a b) (j : Nat) :
    Ch spiral1 a j ↔ j = b :=
  ⟨fun hj => by simpa using ch_out h hj, fun hj => hj ▸ h'⟩

theorem pl_no {a : Nat} (h : ∀ e ∈ spiral1.edges, e.ty = .placeholder → e.src ≠ a) (j : Nat) : ¬ Pl spiral1 a j := fun hj => h _ hj rfl rfl

theorem ch_no {a : Nat} (h : ∀ e ∈ spiral1.edges, e.ty = .childU ∨ e.ty = .childR → e.src = a → e.dst ∈ []) (j : Nat) : ¬ Ch spiral1 a j :=
  fun hj => by simpa using ch_out h hj

theorem de_no (a b : Nat) : ¬ De spiral1 a b := by
  have : ∀ e ∈ spiral1.edges, e.ty ≠ .derive := by decide +kernel
  exact fun h => this _ h rfl

theorem spiral_spin : Spin spiral1 [1, 2] 1 7 8 9 10 11 12 where
  frame :=
    { fit := spiral_fit
      top := ⟨ch_one (by decide +kernel) (by decide +kernel), rfl⟩
      e1 := rfl
      e2 := rfl
      c12 := by decide +kernel
      m := by
        intro j h hn
        have h1 : j ∈ [2, 7, 9] := ch_out (by decide +kernel) h
        have h2 : j = 2 ∨ j = 7 ∨ j = 9 := by simpa using h1
        rcases h2 with rfl | rfl | rfl
        · rfl
        · exact absurd hn (by decide)
        · exact absurd hn (by decide)
      tree :=
        { ch := ch_one (by decide +kernel) (by decide +kernel)
          pl := pl_out (by decide +kernel) (by decide +kernel)
          zch := ch_one (by decide +kernel) (by decide +kernel)
          zpl := pl_out (by decide +kernel) (by decide +kernel)
          hpl := pl_out (by decide +kernel) (by decide +kernel)
          kch := ch_no (by decide +kernel)
          kpl := pl_no (by decide +kernel)
          qpl := pl_out (by decide +kernel) (by decide +kernel)
          zde := fun _ => de_no _ _
          kde := fun _ => de_no _ _ }
      e3 := rfl
      n4 := rfl
      e5 := rfl
      n6 := rfl }
  de := de_no
  eb := rfl
  ey := rfl
  ec := rfl
  ek := rfl
  nx := rfl
  nh := rfl
  nq := rfl
  ly := by decide +kernel
  lc := by decide +kernel
  bx := by decide +kernel
  bh := by decide +kernel
  xy := pl_in (by decide +kernel) (by decide +kernel)
  hc := pl_in (by decide +kernel) (by decide +kernel)
  ck := ch_one (by decide +kernel) (by decide +kernel)
  cq := pl_out (by decide +kernel) (by decide +kernel)
  qk := pl_in (by decide +kernel) (by decide +kernel)
  y1 := ch_no (by decide +kernel)
  y2 := pl_no (by decide +kernel)
  k1 := ch_no (by decide +kernel)
  k2 := pl_no (by decide +kernel)
  sib := by
    intro j h
    have h1 : j ∈ [2, 7, 9] := ch_out (by decide +kernel) h
    have h2 : j = 2 ∨ j = 7 ∨ j = 9 := by simpa using h1
    rcases h2 with rfl | rfl | rfl <;> decide
  wait := by
    intro j e he hu
    have hj := spiral_e he
    rcases j with _ | _ | _ | _ | _ | _ | _ | _ | _ | _ | _ | _ | _ | j <;>
      first
        | omega
        | (cases he; done)
        | (cases he; cases hu; done)
        | exact ⟨4, by decide⟩
        | exact ⟨6, by decide⟩
        | exact ⟨8, by decide⟩
        | exact ⟨10, by decide⟩
        | exact ⟨12, by decide⟩
  dead := by
    intro p hp
    rcases spiral_ph hp with rfl | rfl | rfl | rfl | rfl
    · exact .inr (.inr (.inr ⟨2, 3, by decide, by decide, by decide, .inr ⟨rfl, fun j h hj => absurd ((ch_one (by decide +kernel) (by decide +kernel) j).1 h) hj⟩⟩))
    · exact .inr (.inr (.inr ⟨3, 5, by decide, by decide, by decide, .inl rfl⟩))
    · exact .inl rfl
    · exact .inr (.inl rfl)
    · exact .inr (.inr (.inl rfl))
  order := ⟨[6], [], [12], rfl⟩
  prev := by decide +kernel

/-- C47 (it is false): whatever number of rounds is allowed, and in whatever order copies are made, processing the device
`Sample.spiral` does not end within that number of rounds: the real program does not end. -/
theorem C47_endless (ord : List Nat → List Nat) (hord : ∀ l, (ord l).Perm l) (fuel : Nat) : processDevice ord fuel spiral = .err .outOfFuel := by
  have h1 : rounds ord fuel spiral0 [] = .err .outOfFuel := by
    cases fuel with
    | zero => rfl
    | succ f =>
      unfold rounds
      rw [spiral_none]
      show M.bind (M.pure _) _ = _
      rw [M.pure_bind]
      simp only
      rw [spiral_sorted, if_neg (by decide), if_neg (by decide), spiral_process]
      show M.bind (M.pure _) _ = _
      rw [M.pure_bind]
      exact spiral_spin.endless hord f
  unfold processDevice
  have h2 : resolvePeripherals ord fuel spiral = .err .outOfFuel := by
    unfold resolvePeripherals
    rw [spiral_init]
    show M.bind (M.pure _) _ = _
    rw [M.pure_bind, h1]
    rfl
  rw [h2]
  rfl

end Svd
