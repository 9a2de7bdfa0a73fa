import Verif.Lemmas.ChangeRes
/-
C64, third part: enumerated values, the traversal at the end of the resolution, and a change.
-/
namespace Svd
open Spec Graph

namespace Spec.Change
variable (c : Change)

/-- internal: on an intermediate enumerated value -/
def ival (v : IEnumValue) : IEnumValue := { v with description := v.description.map c.description }

/-- internal: on an intermediate container -/
def icont (e : IEnumContainer) : IEnumContainer :=
  { e with headerEnumName := e.headerEnumName.map c.headerEnum, values := e.values.map c.ival }

/-- internal: on an intermediate field -/
def ifield (f : IField) : IField := ⟨c.ihf f.hd, f.containers.map c.icont⟩

mutual
/-- internal: on an intermediate register or cluster -/
def irc : IRC → IRC
  | .reg r fs => .reg (c.ihr r) (fs.map c.ifield)
  | .clu x ch => .clu (c.ihc x) (ircs ch)
/-- internal: on a list of those -/
def ircs : List IRC → List IRC
  | [] => []
  | x :: xs => irc x :: ircs xs
end

/-- internal: on an intermediate peripheral -/
def iperiph (p : IPeripheral) : IPeripheral := ⟨c.ihp p.hd, c.ircs p.rcs⟩

/-- internal: on a content -/
def content : Content → Content
  | .conts cs => .conts (cs.map c.icont)
  | .fields fs => .fields (fs.map c.ifield)
  | .rcs xs => .rcs (c.ircs xs)

/-- internal: on a state of the traversal -/
def fin (s : FinState) : FinState :=
  { g := c.graph s.g, content := s.content.map fun q => (q.1, c.content q.2)
    resolved := s.resolved.map (List.map c.iperiph) }

/-- internal: on the state of the validator of enumerated values -/
def evs (s : EVState) : EVState := { s with seenDefault := s.seenDefault.map c.ival }

end Spec.Change

variable {c : Change}

theorem chg_ircs (xs : List IRC) : c.ircs xs = xs.map c.irc := by
  induction xs with
  | nil => rfl
  | cons x xs ih => simp only [Change.ircs, List.map_cons, ih]

theorem M.mapM_mapped {α β γ δ : Type} {f : α → M γ} {f' : β → M δ} (h : α → β) (φ : γ → δ)
    (hf : ∀ a, f' (h a) = M.mapped φ (f a)) (l : List α) :
    M.mapM f' (l.map h) = M.mapped (List.map φ) (M.mapM f l) := by
  induction l with
  | nil => rfl
  | cons x xs ih => exact M.bind_mapped (hf x) fun _ => M.bind_mapped ih fun _ => rfl

theorem M.filterMapM_mapped {α β γ δ : Type} {f : α → M (Option γ)} {f' : β → M (Option δ)} (h : α → β) (φ : γ → δ)
    (hf : ∀ a, f' (h a) = M.mapped (Option.map φ) (f a)) (l : List α) :
    M.filterMapM f' (l.map h) = M.mapped (List.map φ) (M.filterMapM f l) := by
  induction l with
  | nil => rfl
  | cons x xs ih => exact M.bind_mapped (hf x) fun o => M.bind_mapped ih fun _ => by cases o <;> rfl

theorem M.foldM_mapped {α β γ δ : Type} {f : γ → α → M γ} {f' : δ → β → M δ} (h : α → β) (φ : γ → δ)
    (hf : ∀ s a, f' (φ s) (h a) = M.mapped φ (f s a)) (l : List α) (s : γ) :
    M.foldM f' (φ s) (l.map h) = M.mapped φ (M.foldM f s l) := by
  induction l generalizing s with
  | nil => rfl
  | cons x xs ih => exact M.bind_mapped (hf s x) fun s1 => ih s1

/-! ### enumerated values -/

theorem chg_resolveOne (p : SEnumValue) (v : Option Int) :
    resolveOne (c.svalue p) v = M.mapped (Option.map c.ival) (resolveOne p v) :=
  mapped_ite (fun _ => rfl) fun _ => rfl

theorem chg_wildcard (p : SEnumValue) :
    resolveWildcard (c.svalue p) = M.mapped (List.map c.ival) (resolveWildcard p) := by
  refine M.bind_mapped_id fun vs => ?_
  have := M.filterMapM_mapped (f := resolveOne p) (f' := resolveOne (c.svalue p)) id c.ival (chg_resolveOne p) vs
  rwa [List.map_id] at this

theorem chg_seenValue (s : EVState) (v : Option Int) : seenValue (c.evs s) v = seenValue s v := by cases v <;> rfl

theorem chg_valid (s : EVState) (v : IEnumValue) :
    isValueValid (c.evs s) (c.ival v) = M.mapped (fun r => (c.evs r.1, r.2.map c.ival)) (isValueValid s v) := by
  simp only [isValueValid, chg_seenValue]
  refine mapped_ite (fun _ => rfl) fun _ => mapped_ite (fun _ => rfl) fun _ => ?_
  refine M.bind_mapped (φ := fun r : EVState × IEnumValue => (c.evs r.1, c.ival r.2)) ?_ fun r => rfl
  refine mapped_ite (fun _ => ?_) fun _ => rfl
  refine M.bind_mapped_id fun _ => ?_
  show (match s.seenDefault.map c.ival with | some _ => _ | none => _) = _
  cases s.seenDefault <;> rfl

theorem chg_step (s : EVState × List IEnumValue) (v : IEnumValue) :
    validateStep (c.evs s.1, s.2.map c.ival) (c.ival v)
      = M.mapped (fun r => (c.evs r.1, r.2.map c.ival)) (validateStep s v) := by
  refine M.bind_mapped (chg_valid s.1 v) fun r => ?_
  obtain ⟨st, o⟩ := r
  cases o with
  | none => rfl
  | some v' => simp [mapped_pure]

theorem chg_validateLoop (ps : List SEnumValue) (s : EVState × List IEnumValue) :
    validateLoop (c.evs s.1, s.2.map c.ival) (ps.map c.svalue)
      = M.mapped (fun r => (c.evs r.1, r.2.map c.ival)) (validateLoop s ps) := by
  refine M.foldM_mapped (φ := fun r : EVState × List IEnumValue => (c.evs r.1, r.2.map c.ival)) c.svalue
    (fun s p => ?_) ps s
  exact M.bind_mapped (chg_wildcard p) fun vs =>
    M.foldM_mapped (φ := fun r : EVState × List IEnumValue => (c.evs r.1, r.2.map c.ival)) c.ival
      (fun s v => chg_step s v) vs s

theorem chg_extendDefault (es : List IEnumValue) (d : IEnumValue) (l m : Int) :
    extendDefault (es.map c.ival) (c.ival d) l m = M.mapped (List.map c.ival) (extendDefault es d l m) := by
  refine mapped_ite (fun _ => rfl) fun _ => ?_
  rw [mapped_pure]
  have hc : (es.map c.ival).filterMap (·.value) = es.filterMap (·.value) := by
    rw [List.filterMap_map]; rfl
  rw [hc]
  simp only [List.filter_append, List.map_append, List.filter_map, List.map_map]
  rfl

theorem chg_enumValues (ps : List SEnumValue) (l m : Int) :
    processEnumValues (ps.map c.svalue) l m = M.mapped (List.map c.ival) (processEnumValues ps l m) := by
  refine M.bind_mapped (chg_validateLoop ps ({}, [])) fun r => ?_
  obtain ⟨st, es⟩ := r
  refine M.bind_mapped (φ := List.map c.ival) ?_ fun es' => ?_
  · show (match st.seenDefault.map c.ival with | some d => _ | none => _) = _
    cases st.seenDefault with
    | none => rfl
    | some d => exact chg_extendDefault _ _ _ _
  · rw [mapped_pure]
    exact congrArg M.pure (sortBy_map (le := evKeyLe) c.ival (fun _ _ => rfl) es')

theorem chg_createContainer (p : SEnumContainer) (l m : Int) :
    createContainer (c.scont p) l m = M.mapped c.icont (createContainer p l m) :=
  M.bind_mapped (chg_enumValues p.values l m) fun _ => rfl

/-! ### the traversal -/

theorem chg_lookup {α β : Type} (f : α → β) (l : List (Nat × α)) (i : Nat) :
    (l.map fun q => (q.1, f q.2)).lookup i = (l.lookup i).map f := by
  induction l with
  | nil => rfl
  | cons x xs ih =>
    obtain ⟨a, b⟩ := x
    simp only [List.map_cons, List.lookup_cons]
    cases h : (i == a) with
    | true => rfl
    | false => exact ih

theorem chg_conts (s : FinState) (i : Nat) : (c.fin s).conts i = (s.conts i).map c.icont := by
  simp only [FinState.conts, Change.fin, chg_lookup]
  rcases s.content.lookup i with _ | (_ | _ | _) <;> rfl
theorem chg_fields (s : FinState) (i : Nat) : (c.fin s).fields i = (s.fields i).map c.ifield := by
  simp only [FinState.fields, Change.fin, chg_lookup]
  rcases s.content.lookup i with _ | (_ | _ | _) <;> rfl
theorem chg_rcs (s : FinState) (i : Nat) : (c.fin s).rcs i = c.ircs (s.rcs i) := by
  simp only [FinState.rcs, Change.fin, chg_lookup]
  rcases s.content.lookup i with _ | (_ | _ | _) <;> rfl

theorem chg_procOf (g : Graph) (i : Nat) : procOf (c.graph g) i = M.mapped c.proc (procOf g i) := by
  simp only [procOf, chg_elem]
  cases g.elem? i with
  | none => rfl
  | some e =>
    simp only [Option.map_some, Change.elem]
    cases e.processed <;> rfl

theorem chg_templateOf (g : Graph) (i : Nat) : templateOf (c.graph g) i = templateOf g i := by
  simp only [templateOf, chg_elem]
  cases g.elem? i <;> rfl

theorem chg_collect {α : Type} (s : FinState) (φ : α → α) (pick pick' : Nat → Processed → M α)
    (hp : ∀ i p, pick' i (c.proc p) = M.mapped φ (pick i p)) (cs : List Nat) :
    collect (c.fin s) pick' cs = M.mapped (List.map φ) (collect s pick cs) := by
  have := M.filterMapM_mapped (f := fun i =>
      M.bind (templateOf s.g i) fun t =>
      if t then M.pure none
      else M.bind (procOf s.g i) fun p => M.bind (pick i p) fun x => M.pure (some x))
    (f' := fun i =>
      M.bind (templateOf (c.fin s).g i) fun t =>
      if t then M.pure none
      else M.bind (procOf (c.fin s).g i) fun p => M.bind (pick' i p) fun x => M.pure (some x)) id φ ?_ cs
  · rwa [List.map_id] at this
  · intro i
    show M.bind (templateOf (c.graph s.g) i) _ = _
    rw [chg_templateOf]
    refine M.bind_mapped_id fun t => mapped_ite (fun _ => rfl) fun _ => ?_
    exact M.bind_mapped (chg_procOf _ _) fun p => M.bind_mapped (hp i p) fun _ => rfl

theorem chg_pickPeripheral (s : FinState) (i : Nat) (p : Processed) :
    pickPeripheral (c.fin s) i (c.proc p) = M.mapped c.iperiph (pickPeripheral s i p) := by
  cases p <;> first | rfl | (simp only [pickPeripheral, Change.proc, chg_rcs]; rfl)

theorem chg_pickRC (s : FinState) (i : Nat) (p : Processed) :
    pickRC (c.fin s) i (c.proc p) = M.mapped c.irc (pickRC s i p) := by
  cases p <;> first | rfl | (simp only [pickRC, Change.proc, chg_rcs, chg_fields]; rfl)

theorem chg_pickField (s : FinState) (i : Nat) (p : Processed) :
    pickField (c.fin s) i (c.proc p) = M.mapped c.ifield (pickField s i p) := by
  cases p <;> first | rfl | (simp only [pickField, Change.proc, chg_conts]; rfl)

theorem chg_parentSize (g : Graph) (f i : Nat) : parentSize (c.graph g) f i = parentSize g f i := by
  induction f generalizing i with
  | zero => rfl
  | succ f ih =>
    simp only [parentSize, chg_parents, chg_hasLevel, chg_procOf]
    cases g.elementParents i with
    | nil => rfl
    | cons p ps =>
      simp only
      split
      · rfl
      · cases procOf g p with
        | err e => rfl
        | ok x ws =>
          cases x <;> simp only [M.mapped, M.bind, Change.proc, Change.ihp, Change.ihc, Change.props, ih]

theorem chg_childSize (g : Graph) (i : Nat) : childSize (c.graph g) i = childSize g i := by
  simp only [childSize, chg_procOf, chg_templateOf, chg_parentSize, chg_len]
  cases procOf g i with
  | err e => rfl
  | ok x ws => cases x <;> rfl

theorem chg_calculateSize (g : Graph) (cs : List Nat) : calculateSize (c.graph g) cs = calculateSize g cs := by
  have : childSize (c.graph g) = childSize g := funext fun i => chg_childSize g i
  simp only [calculateSize, this]

theorem chg_withSize (n : Int) (p : Processed) : (c.proc p).withSize n = c.proc (p.withSize n) := by cases p <;> rfl

theorem chg_intStrLe (a b k : Int) (s t : Str) : intStrLe (a + k, s) (b + k, t) = intStrLe (a, s) (b, t) := by
  simp only [intStrLe, Int.add_lt_add_iff_right]

theorem chg_ircLe (a b : IRC) : ircLe (c.irc a) (c.irc b) = ircLe a b := by
  cases a <;> cases b <;> rfl
theorem chg_ipLe (a b : IPeripheral) : ipLe (c.iperiph a) (c.iperiph b) = ipLe a b := chg_intStrLe _ _ _ _ _

theorem chg_containerEnd (s : FinState) (i : Nat) (cs : List Nat) :
    M.bind (collect (c.fin s) (pickRC (c.fin s)) cs) (fun xs =>
      M.pure { c.fin s with content := (i, .rcs (sortBy ircLe xs)) :: (c.fin s).content })
    = M.mapped c.fin (M.bind (collect s (pickRC s) cs) fun xs =>
      M.pure { s with content := (i, .rcs (sortBy ircLe xs)) :: s.content }) := by
  refine M.bind_mapped (chg_collect _ c.irc _ _ (fun j q => chg_pickRC _ j q) cs) fun xs => ?_
  rw [mapped_pure, sortBy_map (le := ircLe) c.irc chg_ircLe]
  simp only [Change.fin, List.map_cons, Change.content, chg_ircs]

theorem chg_containerNode (s : FinState) (i : Nat) (e : ElemNode) (cs : List Nat) :
    finalizeContainerNode (c.fin s) i (c.elem e) cs = M.mapped c.fin (finalizeContainerNode s i e cs) := by
  simp only [finalizeContainerNode]
  refine M.bind_mapped (chg_procOf s.g i) fun p => ?_
  have hs : calculateSize (c.fin s).g cs = calculateSize s.g cs := chg_calculateSize _ _
  rw [hs]
  refine M.bind_mapped_id fun n => ?_
  rw [← chg_containerEnd, chg_withSize]
  have h1 : (c.fin { s with g := s.g.setElem i { e with processed := some (p.withSize n) } })
    = { c.fin s with g := (c.graph s.g).setElem i (c.elem { e with processed := some (p.withSize n) }) } := by
    rw [chg_setElem]; rfl
  rw [h1]
  rfl

theorem chg_fieldNode (s : FinState) (i : Nat) (cs : List Nat) :
    finalizeFieldNode (c.fin s) i cs = M.mapped c.fin (finalizeFieldNode s i cs) := by
  refine M.bind_mapped (chg_procOf s.g i) fun p => ?_
  cases p with
  | periph _ => rfl
  | clu _ => rfl
  | reg _ => rfl
  | field f =>
    refine M.bind_mapped (φ := List.map c.icont) ?_ fun conts => ?_
    · have := M.mapM_mapped (f := fun x =>
          match s.g.elem? x with
          | none => M.throw .attributeError
          | some ce => match ce.parsed with
            | .enum ec => createContainer ec f.lsb f.msb
            | _ => M.throw .attributeError)
        (f' := fun x =>
          match (c.fin s).g.elem? x with
          | none => M.throw .attributeError
          | some ce => match ce.parsed with
            | .enum ec => createContainer ec f.lsb f.msb
            | _ => M.throw .attributeError) id c.icont ?_ cs
      · rw [List.map_id] at this; exact this
      · intro x
        show (match (c.graph s.g).elem? x with | none => _ | some ce => _) = _
        rw [chg_elem]
        cases s.g.elem? x with
        | none => rfl
        | some ce =>
          simp only [Option.map_some, Change.elem]
          cases ce.parsed <;> first | rfl | exact chg_createContainer _ _ _
    · have hu : (conts.map c.icont).map (·.usage) = conts.map (·.usage) := by
        rw [List.map_map]; rfl
      simp only [hu, List.length_map]
      exact mapped_ite (fun _ => rfl) fun _ => mapped_ite (fun _ => rfl) fun _ =>
        mapped_ite (fun _ => rfl) fun _ => rfl

theorem chg_finalizeNode (s : FinState) (i : Nat) (cs : List Nat) :
    finalizeNode (c.fin s) i cs = M.mapped c.fin (finalizeNode s i cs) := by
  simp only [finalizeNode]
  have : (c.fin s).g.elem? i = (s.g.elem? i).map c.elem := chg_elem _ _
  rw [this]
  cases s.g.elem? i with
  | none => rfl
  | some e =>
    simp only [Option.map_some]
    refine mapped_ite (fun _ => rfl) fun _ => ?_
    show (match e.level with | .device => _ | .peripheral => _ | .cluster => _ | .register => _ | .field => _ | .enumcont => _) = _
    cases e.level with
    | device =>
      refine M.bind_mapped (chg_collect _ c.iperiph _ _ (fun j q => chg_pickPeripheral _ j q) cs) fun xs => ?_
      rw [mapped_pure, sortBy_map (le := ipLe) c.iperiph chg_ipLe]
      rfl
    | peripheral => exact chg_containerNode _ _ _ _
    | cluster => exact chg_containerNode _ _ _ _
    | register =>
      refine M.bind_mapped (chg_procOf s.g i) fun _ => ?_
      refine M.bind_mapped (chg_collect _ c.ifield _ _ (fun j q => chg_pickField _ j q) cs) fun xs => ?_
      rw [mapped_pure, sortBy_map (le := ifLe) c.ifield (fun _ _ => rfl)]
      rfl
    | field => exact chg_fieldNode _ _ _
    | enumcont => rfl

theorem chg_bottomUp (g : Graph) (f : Nat) (q done : List Nat) (s : FinState) :
    bottomUp (c.graph g) f q done (c.fin s) = M.mapped c.fin (bottomUp g f q done s) := by
  induction f generalizing q done s with
  | zero => cases q <;> rfl
  | succ f ih =>
    cases q with
    | nil => rfl
    | cons i q =>
      simp only [bottomUp, chg_succ, chg_indices]
      refine M.bind_mapped (φ := c.fin) ?_ fun s1 => ih _ _ s1
      cases g.successors i with
      | nil => rfl
      | cons x xs => exact chg_finalizeNode _ _ _

theorem chg_finalizeProcessing (g : Graph) :
    finalizeProcessing (c.graph g) = M.mapped c.fin (finalizeProcessing g) := by
  simp only [finalizeProcessing, chg_len, chg_indices, chg_succ]
  exact chg_bottomUp g _ _ _ { g := g }

theorem chg_resolve (hc : c.Fair) (ord : List Nat → List Nat) (fuel : Nat) (d : SDevice) :
    resolvePeripherals ord fuel (c.sdevice d) = M.mapped (List.map c.iperiph) (resolvePeripherals ord fuel d) := by
  refine M.bind_mapped (chg_init d) fun g0 => M.bind_mapped (chg_rounds hc _ _ _ _) fun g => ?_
  simp only [chg_unprocessed, chg_unresolvedInfo, chg_phs]
  refine mapped_ite (fun _ => M.bind_mapped_id fun _ => rfl) fun _ => ?_
  refine M.bind_mapped (chg_finalizeProcessing g) fun s => ?_
  show (match s.resolved.map (List.map c.iperiph) with | none => _ | some ps => _) = _
  cases s.resolved <;> rfl

end Svd
