import Verif.Spec.Change
/-
C64, first part: the resolver graph and a change.
-/
namespace Svd
open Spec Graph

/-- The result of an `M` computation under a function. -/
def M.mapped {α β : Type} (f : α → β) : M α → M β
  | .ok a ws => .ok (f a) ws
  | .err e => .err e

theorem M.bind_mapped {α β γ δ : Type} {φ : α → β} {ψ : γ → δ} {x' : M β} {x : M α} {f' : β → M δ} {f : α → M γ}
    (hx : x' = M.mapped φ x) (hf : ∀ a, f' (φ a) = M.mapped ψ (f a)) :
    M.bind x' f' = M.mapped ψ (M.bind x f) := by
  subst hx
  cases x with
  | err e => rfl
  | ok a ws =>
    show (match f' (φ a) with | .err e => _ | .ok b w' => _) = _
    rw [hf a]
    simp only [M.bind]
    cases f a <;> rfl

theorem M.bind_mapped_id {α γ δ : Type} {ψ : γ → δ} {x : M α} {f' : α → M δ} {f : α → M γ}
    (hf : ∀ a, f' a = M.mapped ψ (f a)) :
    M.bind x f' = M.mapped ψ (M.bind x f) :=
  M.bind_mapped (φ := id) (by cases x <;> rfl) hf

theorem M.mapped_id {α : Type} (x : M α) : M.mapped id x = x := by cases x <;> rfl

theorem mapped_pure {α β : Type} (f : α → β) (a : α) : M.mapped f (M.pure a) = M.pure (f a) := rfl
theorem mapped_throw {α β : Type} (f : α → β) (e : Exn) : M.mapped f (M.throw e) = M.throw e := rfl

theorem mapped_ite {α β : Type} {f : α → β} {p : Prop} [Decidable p] {x y : M α} {x' y' : M β}
    (hx : p → x' = M.mapped f x) (hy : ¬ p → y' = M.mapped f y) :
    (if p then x' else y') = M.mapped f (if p then x else y) := by
  by_cases h : p
  · rw [if_pos h, if_pos h]; exact hx h
  · rw [if_neg h, if_neg h]; exact hy h

namespace Spec.Change
variable (c : Change)

/-- internal: on the attributes of an intermediate peripheral -/
def ihp (p : IPeripheralHd) : IPeripheralHd :=
  { p with
    version := p.version.map c.version
    description := p.description.map c.description
    groupName := p.groupName.map c.groupName
    prependToName := p.prependToName.map c.prepended
    appendToName := p.appendToName.map c.appended
    headerStructName := p.headerStructName.map c.headerStruct
    disableCondition := p.disableCondition.map c.condition
    baseAddress := p.baseAddress + c.move
    addressBlocks := p.addressBlocks.map c.block
    interrupts := p.interrupts.map c.intr
    props := c.props p.props }

/-- internal: on the attributes of an intermediate cluster -/
def ihc (x : IClusterHd) : IClusterHd :=
  { x with
    description := x.description.map c.description
    headerStructName := x.headerStructName.map c.headerStruct
    props := c.props x.props }

/-- internal: on the attributes of an intermediate register -/
def ihr (r : IRegisterHd) : IRegisterHd :=
  { r with
    description := r.description.map c.description
    dataType := r.dataType.map c.dataType
    modifiedWriteValues := c.modifiedWrite r.modifiedWriteValues
    writeConstraint := r.writeConstraint.map c.constraint
    readAction := r.readAction.map c.readAction
    props := c.props r.props }

/-- internal: on the attributes of an intermediate field -/
def ihf (f : IFieldHd) : IFieldHd :=
  { f with
    description := f.description.map c.description
    modifiedWriteValues := c.modifiedWrite f.modifiedWriteValues
    writeConstraint := f.writeConstraint.map c.constraint
    readAction := f.readAction.map c.readAction }

/-- internal: on a parsed element of the graph -/
def parsed : Parsed → Parsed
  | .device => .device
  | .periph p => .periph (c.speriph p)
  | .clu x => .clu (c.sclu x)
  | .reg r => .reg (c.sreg r)
  | .field f => .field (c.sfield f)
  | .enum e => .enum (c.scont e)

/-- internal: on an intermediate element of the graph -/
def proc : Processed → Processed
  | .periph p => .periph (c.ihp p)
  | .clu x => .clu (c.ihc x)
  | .reg r => .reg (c.ihr r)
  | .field f => .field (c.ihf f)

/-- internal: on an element node -/
def elem (e : ElemNode) : ElemNode :=
  { e with parsed := c.parsed e.parsed, processed := e.processed.map c.proc }

/-- internal: on a node -/
def node : Node → Node
  | .elem e => .elem (c.elem e)
  | .ph p => .ph p

/-- internal: on a graph -/
def graph (g : Graph) : Graph := { g with nodes := g.nodes.map (Option.map c.node) }

end Spec.Change

variable {c : Change}

@[simp] theorem chg_edges (g : Graph) : (c.graph g).edges = g.edges := rfl
@[simp] theorem chg_free (g : Graph) : (c.graph g).free = g.free := rfl
@[simp] theorem chg_phs (g : Graph) : (c.graph g).placeholders = g.placeholders := rfl
@[simp] theorem chg_len (g : Graph) : (c.graph g).nodes.length = g.nodes.length := by simp [Change.graph]
@[simp] theorem chg_node (g : Graph) (i : Nat) : (c.graph g).node? i = (g.node? i).map c.node := by
  simp only [Graph.node?, Change.graph, List.getElem?_map]
  cases g.nodes[i]? with
  | none => rfl
  | some o => cases o <;> rfl
@[simp] theorem chg_elem (g : Graph) (i : Nat) : (c.graph g).elem? i = (g.elem? i).map c.elem := by
  simp only [Graph.elem?, chg_node]
  cases g.node? i with
  | none => rfl
  | some n => cases n <;> rfl
@[simp] theorem chg_isElem (g : Graph) : (c.graph g).isElem = g.isElem := by
  funext i; simp [Graph.isElem]
@[simp] theorem chg_indices (g : Graph) : (c.graph g).indices = g.indices := by
  simp [Graph.indices]
@[simp] theorem chg_out (g : Graph) (i : Nat) : (c.graph g).outEdges i = g.outEdges i := rfl
@[simp] theorem chg_in (g : Graph) (i : Nat) : (c.graph g).inEdges i = g.inEdges i := rfl
@[simp] theorem chg_succ (g : Graph) (i : Nat) : (c.graph g).successors i = g.successors i := rfl
@[simp] theorem chg_pred (g : Graph) (i : Nat) : (c.graph g).predecessors i = g.predecessors i := rfl
@[simp] theorem chg_parents (g : Graph) (i : Nat) : (c.graph g).elementParents i = g.elementParents i := by
  simp [Graph.elementParents]
@[simp] theorem chg_children (g : Graph) (i : Nat) : (c.graph g).elementChildren i = g.elementChildren i := by
  simp [Graph.elementChildren]
@[simp] theorem chg_siblings (g : Graph) (i : Nat) : (c.graph g).elementSiblings i = g.elementSiblings i := by
  simp [Graph.elementSiblings]
@[simp] theorem chg_incoming (g : Graph) (i : Nat) (t : EdgeT) : (c.graph g).hasIncoming i t = g.hasIncoming i t := rfl
@[simp] theorem chg_baseNode (g : Graph) (i : Nat) : (c.graph g).baseElementNode i = g.baseElementNode i := rfl
@[simp] theorem chg_coParent (g : Graph) (i : Nat) : (c.graph g).placeholderCoParent i = g.placeholderCoParent i := by
  simp [Graph.placeholderCoParent]
@[simp] theorem chg_phChild (g : Graph) (i : Nat) : (c.graph g).placeholderChild i = g.placeholderChild i := by
  simp [Graph.placeholderChild]
@[simp] theorem chg_phParent (g : Graph) (i : Nat) : (c.graph g).placeholderParent i = g.placeholderParent i := by
  simp [Graph.placeholderParent]
@[simp] theorem chg_descendants (g : Graph) (i : Nat) : (c.graph g).descendants i = g.descendants i := by
  simp [Graph.descendants]
@[simp] theorem chg_isUnprocessed (g : Graph) : (c.graph g).isUnprocessed = g.isUnprocessed := by
  funext i
  simp only [Graph.isUnprocessed, chg_elem]
  cases g.elem? i <;> rfl
@[simp] theorem chg_unprocessed (g : Graph) : (c.graph g).unprocessed = g.unprocessed := by
  simp [Graph.unprocessed]
@[simp] theorem chg_roots (g : Graph) : (c.graph g).unprocessedRoots = g.unprocessedRoots := by
  simp [Graph.unprocessedRoots]
@[simp] theorem chg_topoGo (g : Graph) (f : Nat) (rem : List Nat) : (c.graph g).topoGo f rem = g.topoGo f rem := by
  induction f generalizing rem with
  | zero => rfl
  | succ f ih => simp only [Graph.topoGo, chg_edges, chg_incoming, ih]
@[simp] theorem chg_topoSort (g : Graph) (ns : List Nat) : (c.graph g).topoSort ns = g.topoSort ns := by
  simp [Graph.topoSort]
@[simp] theorem chg_nameOf (g : Graph) (i : Nat) : (c.graph g).nameOf i = g.nameOf i := by
  simp only [Graph.nameOf, chg_elem]
  cases g.elem? i <;> rfl
@[simp] theorem chg_hasLevel (g : Graph) (i : Nat) (l : Level) : (c.graph g).hasLevel i l = g.hasLevel i l := by
  simp only [Graph.hasLevel, chg_elem]
  cases g.elem? i <;> rfl
@[simp] theorem chg_isProcessed (g : Graph) (i : Nat) : (c.graph g).isProcessed i = g.isProcessed i := by
  simp only [Graph.isProcessed, chg_elem]
  cases g.elem? i <;> rfl

theorem chg_addNode (g : Graph) (n : Node) :
    (c.graph g).addNode (c.node n) = (c.graph (g.addNode n).1, (g.addNode n).2) := by
  simp only [Graph.addNode, chg_free]
  cases g.free with
  | nil => simp [Change.graph]
  | cons i rest => simp [Change.graph, List.map_set]

theorem chg_rawAddEdge (g : Graph) (x : Exn) (a b : Nat) (t : EdgeT) :
    (c.graph g).rawAddEdge x a b t = M.mapped c.graph (g.rawAddEdge x a b t) := by
  exact mapped_ite (fun _ => rfl) fun _ => rfl

theorem chg_addElementChild (g : Graph) (p : Nat) (e : ElemNode) (t : EdgeT) :
    (c.graph g).addElementChild p (c.elem e) t
      = M.mapped (fun r => (c.graph r.1, r.2)) (g.addElementChild p e t) := by
  simp only [Graph.addElementChild]
  have := chg_addNode (c := c) g (.elem e)
  simp only [Change.node] at this
  rw [this]
  exact M.bind_mapped (chg_rawAddEdge _ _ _ _ _) fun _ => rfl

theorem chg_addEdge (g : Graph) (p q : Nat) (t : EdgeT) :
    (c.graph g).addEdge p q t = M.mapped c.graph (g.addEdge p q t) := chg_rawAddEdge _ _ _ _ _

theorem chg_addPlaceholder (g : Graph) (path : Str) (i : Nat) :
    (c.graph g).addPlaceholder path i = M.mapped c.graph (g.addPlaceholder path i) := by
  simp only [Graph.addPlaceholder]
  have := chg_addNode (c := c) g (.ph path)
  simp only [Change.node] at this
  rw [this]
  exact M.bind_mapped (chg_rawAddEdge _ _ _ _ _) fun _ => rfl

theorem chg_removeNode (g : Graph) (i : Nat) : (c.graph g).removeNode i = c.graph (g.removeNode i) := by
  simp [Graph.removeNode, Change.graph, List.map_set]

theorem chg_removePlaceholder (g : Graph) (i : Nat) :
    (c.graph g).removePlaceholder i = c.graph (g.removePlaceholder i) := by
  simp only [Graph.removePlaceholder, chg_removeNode]
  rfl

theorem chg_removeEdge (g : Graph) (a b : Nat) :
    (c.graph g).removeEdge a b = M.mapped c.graph (g.removeEdge a b) := by
  exact mapped_ite (fun _ => rfl) fun _ => rfl

theorem chg_updateEdge (g : Graph) (a b : Nat) (t : EdgeT) :
    (c.graph g).updateEdge a b t = c.graph (g.updateEdge a b t) := rfl

theorem chg_replicateNodes (is : List Nat) (g : Graph) (m : List (Nat × Nat)) :
    replicateNodes (c.graph g) m is = M.mapped (fun r => (c.graph r.1, r.2)) (replicateNodes g m is) := by
  induction is generalizing g m with
  | nil => rfl
  | cons i is ih =>
    simp only [replicateNodes, chg_node]
    cases hn : g.node? i with
    | none => rfl
    | some n =>
      simp only [Option.map_some]
      rw [chg_addNode]
      simp only
      rw [← ih]
      cases n <;> rfl

theorem chg_addEdges (es : List Edge) (g : Graph) :
    addEdges (c.graph g) es = M.mapped c.graph (addEdges g es) := by
  induction es generalizing g with
  | nil => rfl
  | cons e es ih => exact M.bind_mapped (chg_rawAddEdge _ _ _ _ _) fun a => ih a

theorem chg_replicateEdges (m : List (Nat × Nat)) (sel : List Nat) (is : List Nat) (g : Graph) :
    replicateEdges m sel (c.graph g) is = M.mapped c.graph (replicateEdges m sel g is) := by
  induction is generalizing g with
  | nil => rfl
  | cons i is ih =>
    simp only [replicateEdges]
    exact M.bind_mapped (chg_addEdges _ _) fun g1 => M.bind_mapped (chg_addEdges _ _) fun g2 => ih g2

theorem chg_replicate (ord : List Nat → List Nat) (g : Graph) (a b : Nat) :
    (c.graph g).replicateDescendants ord a b = M.mapped c.graph (g.replicateDescendants ord a b) := by
  simp only [Graph.replicateDescendants, chg_descendants]
  refine M.bind_mapped (chg_replicateNodes _ _ _) fun r => ?_
  obtain ⟨g1, m⟩ := r
  refine M.bind_mapped (chg_replicateEdges _ _ _ _) fun g2 => ?_
  rw [← chg_addEdges]
  congr 1
  refine List.map_congr_left fun e _ => ?_
  simp only [chg_elem, chg_node]
  cases g.elem? a <;> (rcases g2.node? (mapIdx m e.dst) with _ | (_ | _) <;> rfl)

theorem chg_setElem (g : Graph) (i : Nat) (e : ElemNode) :
    (c.graph g).setElem i (c.elem e) = c.graph (g.setElem i e) := by
  simp [Graph.setElem, Change.graph, List.map_set, Change.node]

/-! ### construction -/

theorem chg_derivedFrom (p : Parsed) : (c.parsed p).derivedFrom = p.derivedFrom := by cases p <;> rfl
theorem chg_isEnum (p : Parsed) : (c.parsed p).isEnum = p.isEnum := by cases p <;> rfl
theorem chg_pname (p : Parsed) : (c.parsed p).name = p.name := by cases p <;> rfl

theorem chg_addChild (g : Graph) (par : Nat) (e : ElemNode) :
    addChildToGraph (c.graph g) par (c.elem e)
      = M.mapped (fun r => (c.graph r.1, r.2)) (addChildToGraph g par e) := by
  simp only [addChildToGraph]
  refine M.bind_mapped (φ := fun r => (c.graph r.1, r.2))
    (x := g.addElementChild par e (match g.elem? par with
      | some e => if e.isProcessed then .childR else .childU
      | none => .childU)) ?_ fun r => ?_
  · rw [← chg_addElementChild, chg_elem]
    cases g.elem? par <;> rfl
  · show (match (c.parsed e.parsed).derivedFrom with | none => _ | some path => _) = _
    rw [chg_derivedFrom]
    cases e.parsed.derivedFrom with
    | none => rfl
    | some path => exact M.bind_mapped (chg_addPlaceholder _ _ _) fun _ => rfl

theorem chg_constrEnums (par : Nat) (cs : List SEnumContainer) (g : Graph) :
    constrEnums par (c.graph g) (cs.map c.scont) = M.mapped c.graph (constrEnums par g cs) := by
  induction cs generalizing g with
  | nil => rfl
  | cons x cs ih =>
    exact M.bind_mapped (chg_addChild g par ⟨x.name, .enumcont, false, .enum x, none, false⟩) fun r => ih r.1

theorem chg_constrFields (par : Nat) (fs : List SField) (g : Graph) :
    constrFields par (c.graph g) (fs.map c.sfield) = M.mapped c.graph (constrFields par g fs) := by
  induction fs generalizing g with
  | nil => rfl
  | cons x cs ih =>
    exact M.bind_mapped (chg_addChild g par ⟨some x.name, .field, false, .field x, none, false⟩) fun r =>
      M.bind_mapped (chg_constrEnums _ _ _) fun g2 => ih g2

mutual
theorem chg_constrRC (par : Nat) (g : Graph) (x : SRC) :
    constrRC par (c.graph g) (c.src x) = M.mapped c.graph (constrRC par g x) := by
  cases x with
  | reg r =>
    exact M.bind_mapped (chg_addChild g par ⟨some r.name, .register, false, .reg r, none, false⟩) fun q =>
      chg_constrFields _ _ _
  | clu x ch =>
    exact M.bind_mapped (chg_addChild g par ⟨some x.name, .cluster, false, .clu x, none, false⟩) fun q =>
      chg_constrRCs _ _ _
theorem chg_constrRCs (par : Nat) (g : Graph) (xs : List SRC) :
    constrRCs par (c.graph g) (c.srcs xs) = M.mapped c.graph (constrRCs par g xs) := by
  cases xs with
  | nil => rfl
  | cons x xs => exact M.bind_mapped (chg_constrRC par g x) fun g1 => chg_constrRCs par g1 xs
end

theorem chg_constrPeriphs (par : Nat) (ps : List SPeriphT) (g : Graph) :
    constrPeripherals par (c.graph g) (ps.map fun p => { hd := c.speriph p.hd, rcs := c.srcs p.rcs })
      = M.mapped c.graph (constrPeripherals par g ps) := by
  induction ps generalizing g with
  | nil => rfl
  | cons x cs ih =>
    exact M.bind_mapped (chg_addChild g par ⟨some x.hd.name, .peripheral, false, .periph x.hd, none, false⟩) fun r =>
      M.bind_mapped (chg_constrRCs _ _ _) fun g2 => ih g2

theorem chg_construct (d : SDevice) : constructGraph (c.sdevice d) = M.mapped c.graph (constructGraph d) :=
  chg_constrPeriphs (c := c) 0 d.peripherals
    { nodes := [some (.elem ⟨some (s%"Device"), .device, true, .device, none, false⟩)] }

theorem chg_ensure (phs : List Nat) (g : Graph) :
    ensurePlaceholderParents (c.graph g) phs = M.mapped c.graph (ensurePlaceholderParents g phs) := by
  induction phs generalizing g with
  | nil => rfl
  | cons i phs ih =>
    simp only [ensurePlaceholderParents, chg_coParent]
    refine M.bind_mapped_id fun o => ?_
    refine M.bind_mapped (φ := c.graph) ?_ fun g1 => ih g1
    cases o with
    | none => rfl
    | some p => exact chg_addEdge _ _ _ _

theorem chg_init (d : SDevice) : initialization (c.sdevice d) = M.mapped c.graph (initialization d) :=
  M.bind_mapped (chg_construct d) fun g => chg_ensure _ g

/-! ### look-up -/

theorem chg_filterAlternates (g : Graph) (is : List Nat) :
    filterAlternates (c.graph g) is = filterAlternates g is := by
  induction is with
  | nil => rfl
  | cons i is ih =>
    simp only [filterAlternates, ih, chg_elem]
    cases g.elem? i with
    | none => rfl
    | some e =>
      simp only [Option.map_some, Option.bind_some, Change.elem]
      cases e.processed with
      | none => rfl
      | some p => cases p <;> rfl

theorem chg_searchGo (g : Graph) (x : Nat) (part : Str) (sub sub' : Nat → M (List Nat)) (hs : ∀ n, sub' n = sub n)
    (ns ms : List Nat) : searchGo (c.graph g) x part sub' ms ns = searchGo g x part sub ms ns := by
  induction ns generalizing ms with
  | nil => rfl
  | cons n ns ih => simp only [searchGo, chg_nameOf, hs, chg_filterAlternates, ih]

theorem chg_searchNodes (g : Graph) (x : Nat) (l : Level) (parts : List Str) (ns : List Nat) :
    searchNodes (c.graph g) x l parts ns = searchNodes g x l parts ns := by
  induction parts generalizing ns with
  | nil => rfl
  | cons p parts ih =>
    simp only [searchNodes]
    refine chg_searchGo g x p _ _ (fun n => ?_) ns []
    cases parts with
    | nil => simp
    | cons q qs => simp only [chg_children]; exact ih _

theorem chg_path (g : Graph) (i : Nat) (l : Level) (path : Str) :
    pathResolving (c.graph g) i l path = pathResolving g i l path := by
  simp only [pathResolving, chg_searchNodes, chg_siblings, chg_children]

theorem chg_resolvePlaceholder (g : Graph) (ph : Nat) :
    resolvePlaceholder (c.graph g) ph = M.mapped c.graph (resolvePlaceholder g ph) := by
  simp only [resolvePlaceholder, chg_node]
  cases g.node? ph with
  | none => rfl
  | some n =>
    cases n with
    | elem e => rfl
    | ph path =>
      simp only [Option.map_some, Change.node, chg_phParent, chg_phChild, chg_isProcessed]
      refine M.bind_mapped_id fun par => ?_
      refine mapped_ite (fun _ => rfl) fun _ => ?_
      · refine M.bind_mapped_id fun i => ?_
        simp only [chg_elem]
        cases g.elem? i with
        | none => rfl
        | some e =>
          simp only [Option.map_some, chg_path]
          refine M.bind_mapped_id fun o => ?_
          cases o with
          | none => rfl
          | some b =>
            simp only [chg_removePlaceholder]
            exact chg_rawAddEdge _ _ _ _ _

theorem chg_resolvePlaceholders (phs : List Nat) (g : Graph) :
    resolvePlaceholders (c.graph g) phs = M.mapped c.graph (resolvePlaceholders g phs) := by
  induction phs generalizing g with
  | nil => rfl
  | cons i phs ih => exact M.bind_mapped (chg_resolvePlaceholder g i) fun g1 => ih g1

theorem chg_processable (g : Graph) : processableNodes (c.graph g) = processableNodes g := by
  simp [processableNodes]

theorem chg_sorted (g : Graph) : sortedProcessable (c.graph g) = sortedProcessable g := by
  simp [sortedProcessable, chg_processable]

theorem chg_resolveChildEdges (i : Nat) (cs : List Nat) (g : Graph) :
    resolveChildEdges i (c.graph g) cs = c.graph (resolveChildEdges i g cs) := by
  induction cs generalizing g with
  | nil => rfl
  | cons x cs ih => exact ih (g.updateEdge i x .childR)

theorem chg_adopt (ord : List Nat → List Nat) (g : Graph) (i : Nat) (b : Option Nat) :
    adoptBase ord (c.graph g) i b = M.mapped c.graph (adoptBase ord g i b) := by
  cases b with
  | none => rfl
  | some b => exact M.bind_mapped (chg_removeEdge _ _ _) fun g1 => chg_replicate _ _ _ _

end Svd
