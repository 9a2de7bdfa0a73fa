import Verif.Lemmas.ChangeVal
import Verif.Model.Heap
/-
C64, fifth part: the model with objects, and a change.
-/
namespace Svd
open Spec Graph

namespace Spec.Change
variable (c : Change)

/-- internal: on the objects -/
def heap (h : Heap) : Heap :=
  { head := fun o => (h.head o).map c.proc, conts := fun o => (h.conts o).map c.icont, kids := h.kids }

/-- internal: on a state of the traversal with objects -/
def hst (s : HState) : HState := { s with g := c.graph s.g, heap := c.heap s.heap }

end Spec.Change

variable {c : Change}

theorem chg_updateDimNodeS (ord : List Nat → List Nat) (g : Graph) (obj : Nat → Nat) (i : Nat) (b : Option Nat)
    (xs : List Processed) (t : Processed) :
    updateDimNodeS ord (c.graph g) obj i b (xs.map c.proc) (c.proc t)
      = M.mapped (fun r => (c.graph r.1, r.2)) (updateDimNodeS ord g obj i b xs t) := by
  refine M.bind_mapped (chg_updateNode _ _ _ _ _ _) fun g1 => ?_
  simp only [chg_elem, chg_parents, List.length_map]
  cases g1.elem? i with
  | none => rfl
  | some e =>
    refine M.bind_mapped (φ := fun r : Graph × List Nat => (c.graph r.1, r.2)) ?_ fun r =>
      M.bind_mapped (chg_linkInstances _ _ _) fun _ => rfl
    rw [← chg_addInstances]
    show addInstances e.level (c.parsed e.parsed) _ _ = _
    congr 1
    simp [List.map_flatMap, List.map_map, Function.comp_def]

theorem chg_processDimableS (hc : c.Fair) (ord : List Nat → List Nat) (g : Graph) (obj : Nat → Nat) (i : Nat) (p : Parsed)
    (bn : Option Nat) (b : Option Processed) :
    processDimableS ord (c.graph g) obj i (c.parsed p) bn (b.map c.proc)
      = M.mapped (fun r => (c.graph r.1, r.2)) (processDimableS ord g obj i p bn b) := by
  simp only [processDimableS, chg_extract]
  refine M.bind_mapped_id fun r => ?_
  obtain ⟨isDim, ns, ds⟩ := r
  refine M.bind_mapped (chg_createAll hc p b ns ds 0) fun xs => ?_
  cases xs with
  | nil => rfl
  | cons x xs =>
    refine mapped_ite (fun _ => ?_) fun _ => M.bind_mapped (chg_updateNode _ _ _ _ _ _) fun _ => rfl
    have h1 : (List.map c.proc (x :: xs)).map (·.clearDim) = ((x :: xs).map (·.clearDim)).map c.proc := by
      simp [List.map_map, Function.comp_def, chg_clearDim]
    rw [h1, chg_withName, chg_pname]
    exact chg_updateDimNodeS _ _ _ _ _ _ _

theorem chg_processNodeS (hc : c.Fair) (ord : List Nat → List Nat) (g : Graph) (obj : Nat → Nat) (i : Nat) :
    processNodeS ord (c.graph g) obj i = M.mapped (fun r => (c.graph r.1, r.2)) (processNodeS ord g obj i) := by
  simp only [processNodeS, chg_elem]
  cases g.elem? i with
  | none => rfl
  | some e =>
    simp only [Option.map_some]
    have hp : (c.elem e).parsed = c.parsed e.parsed := rfl
    have hdev : (c.parsed e.parsed = .device) = (e.parsed = .device) := by
      cases e.parsed <;> simp [Change.parsed]
    rw [hp]
    simp only [hdev, chg_derivedFrom, chg_isEnum]
    refine mapped_ite (fun _ => rfl) fun _ => ?_
    refine M.bind_mapped (φ := fun r : Option Nat × Option Processed => (r.1, r.2.map c.proc)) ?_ fun r => ?_
    · cases e.parsed.derivedFrom with
      | none => rfl
      | some path =>
        refine M.bind_mapped (φ := fun r : Nat × ElemNode => (r.1, c.elem r.2)) ?_ fun r => ?_
        · simp only [derivedFromBase, chg_baseNode]
          cases g.baseElementNode i with
          | none => rfl
          | some b =>
            simp only [chg_elem]
            cases g.elem? b with
            | none => rfl
            | some eb => exact mapped_ite (fun _ => rfl) fun _ => rfl
        · have : (c.elem r.2).processed.isNone = r.2.processed.isNone := by simp [Change.elem]
          simp only [this]
          exact mapped_ite (fun _ => rfl) fun _ => rfl
    · exact mapped_ite (fun _ => M.bind_mapped (chg_processEnum _ _ _ _) fun _ => rfl) fun _ =>
        chg_processDimableS hc _ _ _ _ _ _ _

theorem chg_processNodesS (hc : c.Fair) (ord : List Nat → List Nat) (is : List Nat) (g : Graph) (obj : Nat → Nat) :
    processNodesS ord (c.graph g) obj is = M.mapped (fun r => (c.graph r.1, r.2)) (processNodesS ord g obj is) := by
  induction is generalizing g obj with
  | nil => rfl
  | cons i is ih => exact M.bind_mapped (chg_processNodeS hc ord g obj i) fun r => ih r.1 r.2

theorem chg_roundsS (hc : c.Fair) (ord : List Nat → List Nat) (f : Nat) (g : Graph) (obj : Nat → Nat) (prev : List Nat) :
    roundsS ord f (c.graph g) obj prev = M.mapped (fun r => (c.graph r.1, r.2)) (roundsS ord f g obj prev) := by
  induction f generalizing g obj prev with
  | zero => rfl
  | succ f ih =>
    refine M.bind_mapped (chg_resolvePlaceholders _ _) fun g1 => ?_
    simp only [chg_sorted]
    exact mapped_ite (fun _ => rfl) fun _ => mapped_ite (fun _ => rfl) fun _ =>
      M.bind_mapped (chg_processNodesS hc _ _ _ _) fun r => ih r.1 r.2 _

/-! ### the traversal -/

theorem chg_setHead (h : Heap) (o : Nat) (p : Processed) : (c.heap h).setHead o (c.proc p) = c.heap (h.setHead o p) := by
  simp only [Heap.setHead, Change.heap, Heap.mk.injEq, and_true]
  funext k
  split <;> rfl
theorem chg_setKids (h : Heap) (o : Nat) (os : List Nat) : (c.heap h).setKids o os = c.heap (h.setKids o os) := rfl
theorem chg_setConts (h : Heap) (o : Nat) (cs : List IEnumContainer) :
    (c.heap h).setConts o (cs.map c.icont) = c.heap (h.setConts o cs) := by
  simp only [Heap.setConts, Change.heap, Heap.mk.injEq, and_true, true_and]
  funext k
  split <;> rfl

theorem chg_view (s : HState) : (c.hst s).view = c.graph s.view := by
  simp only [HState.view, Change.hst, Change.graph, Graph.mk.injEq, and_true]
  apply List.ext_getElem?
  intro i
  simp only [List.getElem?_mapIdx, List.getElem?_map]
  rcases s.g.nodes[i]? with _ | (_ | (e | p)) <;> rfl

theorem chg_keyLe (p q : Processed) (h : p.isPeriph = q.isPeriph) :
    intStrLe (c.proc p).key (c.proc q).key = intStrLe p.key q.key := by
  cases p <;> cases q <;>
    first | rfl | exact chg_intStrLe _ _ _ _ _ | cases h

/-- All heads that are collected together are of one kind. -/
def oneKind (ok : Processed → Bool) : Prop := ∀ p q, ok p = true → ok q = true → p.isPeriph = q.isPeriph

theorem insertBy_map' {α β : Type} {P : α → Prop} {le : α → α → Bool} {le' : β → β → Bool} (f : α → β)
    (hf : ∀ a b, P a → P b → le' (f a) (f b) = le a b) (x : α) (hx : P x) (l : List α) (hl : ∀ y ∈ l, P y) :
    insertBy le' (f x) (l.map f) = (insertBy le x l).map f := by
  induction l with
  | nil => rfl
  | cons y ys ih =>
    simp only [List.map_cons, insertBy, hf x y hx (hl y List.mem_cons_self)]
    split
    · rfl
    · simp [ih fun z hz => hl z (List.mem_cons_of_mem _ hz)]

theorem mem_insertBy' {α : Type} {le : α → α → Bool} {x y : α} {l : List α} (h : y ∈ insertBy le x l) : y = x ∨ y ∈ l := by
  induction l with
  | nil => simpa [insertBy] using h
  | cons z zs ih =>
    simp only [insertBy] at h
    split at h
    · simpa using h
    · rcases List.mem_cons.1 h with rfl | h
      · exact .inr List.mem_cons_self
      · exact (ih h).imp id (List.mem_cons_of_mem _)

theorem sortBy_map' {α β : Type} {P : α → Prop} {le : α → α → Bool} {le' : β → β → Bool} (f : α → β)
    (hf : ∀ a b, P a → P b → le' (f a) (f b) = le a b) (l : List α) (hl : ∀ y ∈ l, P y) :
    sortBy le' (l.map f) = (sortBy le l).map f ∧ ∀ y ∈ sortBy le l, P y := by
  induction l with
  | nil => exact ⟨rfl, fun y h => by cases h⟩
  | cons x xs ih =>
    obtain ⟨h1, h2⟩ := ih fun y hy => hl y (List.mem_cons_of_mem _ hy)
    have hx := hl x List.mem_cons_self
    refine ⟨?_, fun y hy => ?_⟩
    · simp only [List.map_cons, sortBy, h1, insertBy_map' f hf x hx _ h2]
    · rcases mem_insertBy' hy with rfl | h
      · exact hx
      · exact h2 y h

theorem filterMapM_all {α β : Type} {P : β → Prop} {f : α → M (Option β)} (hf : ∀ a o ws, f a = .ok (some o) ws → P o)
    {l : List α} {ys : List β} {ws : List Warn} (h : M.filterMapM f l = .ok ys ws) : ∀ y ∈ ys, P y := by
  induction l generalizing ys ws with
  | nil =>
    cases h
    intro y hy
    cases hy
  | cons x xs ih =>
    simp only [M.filterMapM] at h
    cases hx : f x with
    | err e => rw [hx] at h; cases h
    | ok o w1 =>
      rw [hx] at h
      cases hy : M.filterMapM f xs with
      | err e => simp only [M.bind, hy] at h; cases h
      | ok zs w2 =>
        simp only [M.bind, hy, M.pure] at h
        cases h
        cases o with
        | none => exact ih hy
        | some o =>
          intro y hm
          rcases List.mem_cons.1 hm with rfl | hm
          · exact hf _ _ _ hx
          · exact ih hy y hm

theorem chg_collectH (s : HState) (ok : Processed → Bool) (hk : ∀ p, ok (c.proc p) = ok p) (h1 : oneKind ok) (cs : List Nat) :
    (c.hst s).collect ok cs = s.collect ok cs := by
  have key : Svd.collect { g := (c.hst s).view } (fun i p =>
      if ok p then M.pure ((c.hst s).obj i, p) else M.throw .attributeError) cs
    = M.mapped (List.map fun q : Nat × Processed => (q.1, c.proc q.2)) (Svd.collect { g := s.view } (fun i p =>
      if ok p then M.pure (s.obj i, p) else M.throw .attributeError) cs) := by
    have := M.filterMapM_mapped (f := fun i =>
        M.bind (templateOf s.view i) fun t =>
        if t then M.pure none
        else M.bind (procOf s.view i) fun p => M.bind (if ok p then M.pure (s.obj i, p) else M.throw .attributeError)
          fun x => M.pure (some x))
      (f' := fun i =>
        M.bind (templateOf (c.hst s).view i) fun t =>
        if t then M.pure none
        else M.bind (procOf (c.hst s).view i) fun p =>
          M.bind (if ok p then M.pure ((c.hst s).obj i, p) else M.throw .attributeError) fun x => M.pure (some x))
      id (fun q : Nat × Processed => (q.1, c.proc q.2)) ?_ cs
    · rw [List.map_id] at this; exact this
    · intro i
      rw [chg_view]
      simp only [id, chg_templateOf]
      refine M.bind_mapped_id fun t => mapped_ite (fun _ => rfl) fun _ => ?_
      refine M.bind_mapped (chg_procOf _ _) fun p =>
        M.bind_mapped (φ := fun q : Nat × Processed => (q.1, c.proc q.2)) ?_ fun _ => rfl
      rw [hk]
      exact mapped_ite (fun _ => rfl) fun _ => rfl
  simp only [HState.collect]
  rw [key]
  cases hr : Svd.collect { g := s.view } (fun i p =>
      if ok p then M.pure (s.obj i, p) else M.throw .attributeError) cs with
  | err e => rfl
  | ok xs ws =>
    have hall : ∀ q ∈ xs, ok q.2 = true := by
      refine filterMapM_all (P := fun q : Nat × Processed => ok q.2 = true) (fun i o ws ho => ?_) hr
      revert ho
      cases templateOf s.view i with
      | err e => intro h; cases h
      | ok t w =>
        cases t with
        | true => intro h; cases h
        | false =>
          cases procOf s.view i with
          | err e => intro h; cases h
          | ok p w1 =>
            by_cases hp : ok p = true
            · intro h
              simp only [M.bind, hp, if_true, M.pure] at h
              cases h
              exact hp
            · intro h
              simp only [M.bind, hp] at h
              cases h
    have hs := (sortBy_map' (P := fun q : Nat × Processed => ok q.2 = true)
      (le := fun a b : Nat × Processed => intStrLe a.2.key b.2.key)
      (le' := fun a b : Nat × Processed => intStrLe a.2.key b.2.key) (fun q : Nat × Processed => (q.1, c.proc q.2))
      (fun a b ha hb => chg_keyLe _ _ (h1 _ _ ha hb)) xs hall).1
    simp only [M.mapped, M.bind]
    rw [hs, List.map_map]
    rfl

theorem chg_rcOne : oneKind Processed.isRC := by
  intro p q; cases p <;> cases q <;> intro h1 h2 <;> first | rfl | (cases h1; done) | (cases h2; done)
theorem chg_fieldOne : oneKind Processed.isFieldH := by
  intro p q; cases p <;> cases q <;> intro h1 h2 <;> first | rfl | (cases h1; done) | (cases h2; done)
theorem chg_periphOne : oneKind Processed.isPeriph := fun _ _ h1 h2 => h1.trans h2.symm

theorem chg_containerNodeH (s : HState) (i : Nat) (cs : List Nat) :
    finalizeContainerNodeH (c.hst s) i cs = M.mapped c.hst (finalizeContainerNodeH s i cs) := by
  simp only [finalizeContainerNodeH, chg_view, chg_calculateSize]
  refine M.bind_mapped (chg_procOf _ _) fun p => M.bind_mapped_id fun n => ?_
  have h1 : ({ c.hst s with heap := (c.hst s).heap.setHead ((c.hst s).obj i) ((c.proc p).withSize n) } : HState)
      = c.hst { s with heap := s.heap.setHead (s.obj i) (p.withSize n) } := by
    simp only [Change.hst]
    rw [chg_withSize, chg_setHead]
  have h2 := chg_collectH (c := c) { s with heap := s.heap.setHead (s.obj i) (p.withSize n) } Processed.isRC
    (fun p => by cases p <;> rfl) chg_rcOne cs
  rw [← h1] at h2
  rw [h2]
  refine M.bind_mapped_id fun os => ?_
  rw [mapped_pure]
  simp only [Change.hst, chg_withSize, chg_setHead, chg_setKids]

theorem chg_fieldNodeH (s : HState) (i : Nat) (cs : List Nat) :
    finalizeFieldNodeH (c.hst s) i cs = M.mapped c.hst (finalizeFieldNodeH s i cs) := by
  simp only [finalizeFieldNodeH, chg_view]
  refine M.bind_mapped (chg_procOf _ _) fun p => ?_
  cases p with
  | periph _ => rfl
  | clu _ => rfl
  | reg _ => rfl
  | field f =>
    refine M.bind_mapped (φ := List.map c.icont) ?_ fun conts => ?_
    · have := M.mapM_mapped (f := fun x =>
          match s.view.elem? x with
          | none => M.throw .attributeError
          | some ce => match ce.parsed with
            | .enum ec => createContainer ec f.lsb f.msb
            | _ => M.throw .attributeError)
        (f' := fun x =>
          match (c.graph s.view).elem? x with
          | none => M.throw .attributeError
          | some ce => match ce.parsed with
            | .enum ec => createContainer ec f.lsb f.msb
            | _ => M.throw .attributeError) id c.icont ?_ cs
      · rw [List.map_id] at this; exact this
      · intro x
        rw [chg_elem]
        simp only [id]
        cases s.view.elem? x with
        | none => rfl
        | some ce =>
          simp only [Option.map_some, Change.elem]
          cases ce.parsed <;> first | rfl | exact chg_createContainer _ _ _
    · have hu : (conts.map c.icont).map (·.usage) = conts.map (·.usage) := by
        rw [List.map_map]; rfl
      simp only [hu, List.length_map]
      refine mapped_ite (fun _ => rfl) fun _ => mapped_ite (fun _ => rfl) fun _ =>
        mapped_ite (fun _ => rfl) fun _ => ?_
      rw [mapped_pure]
      simp only [Change.hst]
      rw [chg_setConts]

theorem chg_finalizeNodeH (s : HState) (i : Nat) (cs : List Nat) :
    finalizeNodeH (c.hst s) i cs = M.mapped c.hst (finalizeNodeH s i cs) := by
  simp only [finalizeNodeH, chg_view, chg_elem]
  cases s.view.elem? i with
  | none => rfl
  | some e =>
    simp only [Option.map_some]
    refine mapped_ite (fun _ => rfl) fun _ => ?_
    show (match e.level with | .device => _ | .peripheral => _ | .cluster => _ | .register => _ | .field => _ | .enumcont => _) = _
    cases e.level with
    | device =>
      simp only
      rw [chg_collectH s _ (fun p => by cases p <;> rfl) chg_periphOne]
      exact M.bind_mapped_id fun _ => rfl
    | peripheral => exact chg_containerNodeH _ _ _
    | cluster => exact chg_containerNodeH _ _ _
    | register =>
      refine M.bind_mapped (chg_procOf _ i) fun _ => ?_
      rw [chg_collectH s _ (fun p => by cases p <;> rfl) chg_fieldOne]
      exact M.bind_mapped_id fun _ => rfl
    | field => exact chg_fieldNodeH _ _ _
    | enumcont => rfl

theorem chg_bottomUpH (g : Graph) (f : Nat) (q done : List Nat) (s : HState) :
    bottomUpH (c.graph g) f q done (c.hst s) = M.mapped c.hst (bottomUpH g f q done s) := by
  induction f generalizing q done s with
  | zero => cases q <;> rfl
  | succ f ih =>
    cases q with
    | nil => rfl
    | cons i q =>
      simp only [bottomUpH, chg_succ, chg_indices]
      refine M.bind_mapped (φ := c.hst) ?_ fun s1 => ih _ _ s1
      cases g.successors i with
      | nil => rfl
      | cons x xs => exact chg_finalizeNodeH _ _ _

theorem chg_startHeap (g : Graph) : startHeap (c.graph g) = c.heap (startHeap g) := by
  simp only [startHeap, Change.heap, Heap.mk.injEq, List.map_nil, and_true]
  funext o
  rw [chg_elem]
  cases g.elem? o <;> rfl

theorem chg_finalizeProcessingH (g : Graph) (obj : Nat → Nat) :
    finalizeProcessingH (c.graph g) obj = M.mapped c.hst (finalizeProcessingH g obj) := by
  simp only [finalizeProcessingH, chg_len, chg_indices, chg_succ, chg_startHeap]
  exact chg_bottomUpH g _ _ _ { g := g, obj := obj, heap := startHeap g }

theorem chg_resolveH (hc : c.Fair) (ord : List Nat → List Nat) (fuel : Nat) (d : SDevice) :
    resolvePeripheralsH ord fuel (c.sdevice d)
      = M.mapped (fun r => (r.1, c.heap r.2.1, r.2.2)) (resolvePeripheralsH ord fuel d) := by
  refine M.bind_mapped (chg_init d) fun g0 => M.bind_mapped (chg_roundsS hc _ _ _ _ _) fun r => ?_
  obtain ⟨g, obj⟩ := r
  simp only [chg_unprocessed, chg_unresolvedInfo, chg_phs]
  refine mapped_ite (fun _ => M.bind_mapped_id fun _ => rfl) fun _ => ?_
  refine M.bind_mapped (chg_finalizeProcessingH g obj) fun s => ?_
  show (match s.resolved with | none => _ | some ps => _) = _
  cases s.resolved with
  | none => rfl
  | some os => simp only [chg_len]; rfl

/-! ### inheritance in place -/

theorem chg_eachObj (st st' : Heap → Nat → M Heap) (hs : ∀ h o, st' (c.heap h) o = M.mapped c.heap (st h o))
    (os : List Nat) (h : Heap) : eachObj st' (c.heap h) os = M.mapped c.heap (eachObj st h os) := by
  induction os generalizing h with
  | nil => rfl
  | cons o os ih => exact M.bind_mapped (hs h o) fun h1 => ih h1

theorem chg_inheritFieldH (a : Option Access) (w : Option WriteConstraint) (h : Heap) (o : Nat) :
    inheritFieldH a (w.map c.constraint) (c.heap h) o = M.mapped c.heap (inheritFieldH a w h o) := by
  have hh : (c.heap h).head o = (h.head o).map c.proc := rfl
  simp only [inheritFieldH, hh]
  rcases h.head o with _ | (p | p | p | p) <;> first | rfl | skip
  rw [mapped_pure, ← chg_setHead]
  simp only [Option.map_some, Change.proc, Change.ihf, orIfNone_map]

theorem chg_inheritRCH (f : Nat) (p : Props) (h : Heap) (o : Nat) :
    inheritRCH f (c.props p) (c.heap h) o = M.mapped c.heap (inheritRCH f p h o) := by
  induction f generalizing p h o with
  | zero => rfl
  | succ f ih =>
    have hh : (c.heap h).head o = (h.head o).map c.proc := rfl
    have hk : (c.heap h).kids o = h.kids o := rfl
    simp only [inheritRCH, hh, hk]
    rcases h.head o with _ | (q | q | q | q) <;> first | rfl | skip
    · have h1 : inheritProps (c.ihc q).props (c.props p) = c.props (inheritProps q.props p) := chg_inheritProps _ _
      have h2 := chg_setHead (c := c) h o (.clu { q with props := inheritProps q.props p })
      simp only [Option.map_some, Change.proc] at h2 ⊢
      rw [h1]
      rw [← chg_eachObj _ _ (fun h o => ih (inheritProps q.props p) h o), ← h2]
      rfl
    · have h1 : inheritProps (c.ihr q).props (c.props p) = c.props (inheritProps q.props p) := chg_inheritProps _ _
      have h2 := chg_setHead (c := c) h o (.reg { q with props := inheritProps q.props p })
      simp only [Option.map_some, Change.proc] at h2 ⊢
      rw [h1]
      rw [← chg_eachObj _ _ (fun h o => chg_inheritFieldH (inheritProps q.props p).access q.writeConstraint h o), ← h2]
      rfl

theorem chg_inheritPeripheralH (f : Nat) (p : Props) (h : Heap) (o : Nat) :
    inheritPeripheralH f (c.props p) (c.heap h) o = M.mapped c.heap (inheritPeripheralH f p h o) := by
  have hh : (c.heap h).head o = (h.head o).map c.proc := rfl
  have hk : (c.heap h).kids o = h.kids o := rfl
  simp only [inheritPeripheralH, hh, hk]
  rcases h.head o with _ | (q | q | q | q) <;> first | rfl | skip
  have h1 : inheritProps (c.ihp q).props (c.props p) = c.props (inheritProps q.props p) := chg_inheritProps _ _
  have h2 := chg_setHead (c := c) h o (.periph { q with props := inheritProps q.props p })
  simp only [Option.map_some, Change.proc] at h2 ⊢
  rw [h1]
  rw [← chg_eachObj _ _ (fun h o => chg_inheritRCH f (inheritProps q.props p) h o), ← h2]
  rfl

/-! ### reading the objects -/

theorem chg_readField (h : Heap) (o : Nat) : readField (c.heap h) o = (readField h o).map c.ifield := by
  have hh : (c.heap h).head o = (h.head o).map c.proc := rfl
  simp only [readField, hh]
  rcases h.head o with _ | (p | p | p | p) <;> rfl

theorem chg_readAll {α : Type} (φ : α → α) (rd rd' : Nat → Option α) (hr : ∀ o, rd' o = (rd o).map φ) (os : List Nat) :
    readAll rd' os = (readAll rd os).map (List.map φ) := by
  induction os with
  | nil => rfl
  | cons o os ih =>
    simp only [readAll, hr, ih]
    cases rd o <;> cases readAll rd os <;> rfl

theorem chg_readRC (h : Heap) (f o : Nat) : readRC (c.heap h) f o = (readRC h f o).map c.irc := by
  induction f generalizing o with
  | zero => rfl
  | succ f ih =>
    have hh : (c.heap h).head o = (h.head o).map c.proc := rfl
    have hk : (c.heap h).kids o = h.kids o := rfl
    simp only [readRC, hh, hk]
    rcases h.head o with _ | (p | p | p | p) <;> first | rfl | skip
    · simp only [Option.map_some, Change.proc]
      rw [chg_readAll c.irc _ _ ih]
      cases readAll (readRC h f) (h.kids o) with
      | none => rfl
      | some xs => simp [Change.irc, chg_ircs]
    · simp only [Option.map_some, Change.proc]
      rw [chg_readAll c.ifield _ _ (chg_readField h)]
      cases readAll (readField h) (h.kids o) <;> rfl

theorem chg_readPeripheral (h : Heap) (f o : Nat) :
    readPeripheral (c.heap h) f o = (readPeripheral h f o).map c.iperiph := by
  have hh : (c.heap h).head o = (h.head o).map c.proc := rfl
  have hk : (c.heap h).kids o = h.kids o := rfl
  simp only [readPeripheral, hh, hk]
  rcases h.head o with _ | (p | p | p | p) <;> first | rfl | skip
  simp only [Option.map_some, Change.proc]
  rw [chg_readAll c.irc _ _ (chg_readRC h f)]
  cases readAll (readRC h f) (h.kids o) with
  | none => rfl
  | some xs => simp [Change.iperiph, chg_ircs]

theorem chg_processH (hc : c.Fair) (ord : List Nat → List Nat) (fuel : Nat) (d : SDevice) :
    processDeviceH ord fuel (c.sdevice d) = M.mapped c.device (processDeviceH ord fuel d) := by
  refine M.bind_mapped (φ := fun r : List Nat × Heap × Nat => (r.1, c.heap r.2.1, r.2.2))
    (by rw [chg_resolveH hc, chg_wrap]) fun r => ?_
  obtain ⟨os, h, n⟩ := r
  have hp : (deviceHead (c.sdevice d).hd).props = c.fprops (deviceHead d.hd).props := chg_deviceProps hc _
  have ht : (deviceHead (c.sdevice d).hd).props.toProps = c.props (deviceHead d.hd).props.toProps := by rw [hp]; rfl
  simp only [ht]
  refine M.bind_mapped (chg_eachObj _ _ (fun h o => chg_inheritPeripheralH n _ h o) os h) fun h1 => ?_
  rw [chg_readAll c.iperiph _ _ (chg_readPeripheral h1 n)]
  cases readAll (readPeripheral h1 n) os with
  | none => rfl
  | some ps => exact chg_validate hc d ps

end Svd
