import Verif.Model.Elem
/-
The resolver graph: /repo/src/svdsuite/resolve/graph.py, graph_elements.py, graph_builder.py.

`rustworkx.PyDiGraph(check_cycle=True)` is modelled by a list of node slots, a LIFO free list and a list of edges,
newest first (see DESIGN.md, trusted base).  A node is identified with its rustworkx index: `_node_to_rx_index`
is a bijection, element nodes are never removed, and a removed placeholder leaves `_placeholders` at the same time.
-/
namespace Svd

/-- resolve/graph_elements.py:23-27 `EdgeType`. -/
inductive EdgeT | childU | childR | placeholder | derive
  deriving DecidableEq, Repr

/-- A weighted edge. -/
structure Edge where
  src : Nat
  dst : Nat
  ty : EdgeT
  deriving DecidableEq, Repr

/-- `ElementNode.parsed`: `SVDDevice | ParsedPeripheralTypes`, without child lists of clusters and peripherals. -/
inductive Parsed
  | device
  | periph (p : SPeripheral)
  | clu (c : SCluster)
  | reg (r : SRegister)
  | field (f : SField)
  | enum (e : SEnumContainer)
  deriving DecidableEq, Repr

/-- `.derived_from` of a parsed element. -/
def Parsed.derivedFrom : Parsed → Option Str
  | .device => none
  | .periph p => p.derivedFrom
  | .clu c => c.derivedFrom
  | .reg r => r.derivedFrom
  | .field f => f.derivedFrom
  | .enum e => e.derivedFrom

/-- `ElementNode.processed` (never an `IDevice` or `IEnumeratedValueContainer`: resolver.py assigns it only at 177). -/
inductive Processed
  | periph (p : IPeripheralHd)
  | clu (c : IClusterHd)
  | reg (r : IRegisterHd)
  | field (f : IFieldHd)
  deriving DecidableEq, Repr

/-- resolve/graph_elements.py:45-110 `ElementNode`. -/
structure ElemNode where
  name : Option Str
  level : Level
  isProcessed : Bool          -- `status == NodeStatus.PROCESSED`
  parsed : Parsed
  processed : Option Processed := none
  isDimTemplate : Bool := false
  deriving DecidableEq, Repr

/-- `ResolverNode`: `ElementNode | PlaceholderNode` (graph_elements.py:30-42). -/
inductive Node
  | elem (e : ElemNode)
  | ph (path : Str)
  deriving DecidableEq, Repr

/-- graph.py:19-24 `ResolverGraph`.  `edges` is newest first, `placeholders` oldest first. -/
structure Graph where
  nodes : List (Option Node) := []
  free : List Nat := []
  edges : List Edge := []
  placeholders : List Nat := []
  deriving DecidableEq, Repr

namespace Graph

/-- `self._graph[i]`; `none` if there is no such node. -/
def node? (g : Graph) (i : Nat) : Option Node := (g.nodes[i]?).bind id

/-- The element node with index `i`. -/
def elem? (g : Graph) (i : Nat) : Option ElemNode :=
  match g.node? i with
  | some (.elem e) => some e
  | _ => none

/-- `isinstance(self._graph[i], ElementNode)`. -/
def isElem (g : Graph) (i : Nat) : Bool := (g.elem? i).isSome

/-- `self._graph.node_indices()` (ascending). -/
def indices (g : Graph) : List Nat := (rangeFrom 0 g.nodes.length).filter fun i => (g.node? i).isSome

/-- `self._graph.add_node(n)`: the most recently freed index, else a new one. -/
def addNode (g : Graph) (n : Node) : Graph × Nat :=
  match g.free with
  | i :: rest => ({ g with nodes := g.nodes.set i (some n), free := rest }, i)
  | [] => ({ g with nodes := g.nodes ++ [some n] }, g.nodes.length)

/-- `self._graph.out_edges(i)`, newest first. -/
def outEdges (g : Graph) (i : Nat) : List Edge := g.edges.filter fun e => e.src == i
/-- `self._graph.in_edges(i)`, newest first. -/
def inEdges (g : Graph) (i : Nat) : List Edge := g.edges.filter fun e => e.dst == i

/-- Keep the first occurrence of each index. -/
def dedup : List Nat → List Nat
  | [] => []
  | x :: xs => x :: (dedup xs).filter (· != x)

/-- `self._graph.successors(i)`. -/
def successors (g : Graph) (i : Nat) : List Nat := dedup ((g.outEdges i).map (·.dst))
/-- `self._graph.predecessors(i)`. -/
def predecessors (g : Graph) (i : Nat) : List Nat := dedup ((g.inEdges i).map (·.src))

/-- Least superset of `S` closed under the edges (used for `rx` reachability and for depth first searches of which
only the visited set matters). -/
def closure : List Edge → List Nat → List Nat
  | [], S => S
  | e :: es, S =>
      let S1 := closure es S
      if S1.contains e.src && !S1.contains e.dst then closure es (e.dst :: S1) else S1

/-- `has_path_connecting(a, b)`. -/
def hasPath (es : List Edge) (a b : Nat) : Bool := (closure es [a]).contains b

/-- `self._graph.add_edge(a, b, ty)` with cycle check; the exception is `exn`.  (rustworkx skips the check when it
cannot fail; a self loop is never requested.) -/
def rawAddEdge (g : Graph) (exn : Exn) (a b : Nat) (ty : EdgeT) : M Graph :=
  if hasPath g.edges b a then M.throw exn
  else M.pure { g with edges := ⟨a, b, ty⟩ :: g.edges }

/-- graph.py:26-28 `add_root`. -/
def addRoot (g : Graph) (n : ElemNode) : Graph × Nat := g.addNode (.elem n)

/-- graph.py:30-35 `add_element_child`; returns the index of the child. -/
def addElementChild (g : Graph) (parent : Nat) (child : ElemNode) (ty : EdgeT) : M (Graph × Nat) :=
  let (g1, i) := g.addNode (.elem child)
  M.bind (g1.rawAddEdge .dagWouldCycle parent i ty) fun g2 => M.pure (g2, i)

/-- graph.py:37-42 `add_edge`. -/
def addEdge (g : Graph) (parent child : Nat) (ty : EdgeT) : M Graph :=
  g.rawAddEdge (.resolverGraph 42) parent child ty

/-- graph.py:44-51 `add_placeholder`. -/
def addPlaceholder (g : Graph) (path : Str) (derivNode : Nat) : M Graph :=
  let (g1, i) := g.addNode (.ph path)
  M.bind (g1.rawAddEdge .dagWouldCycle i derivNode .placeholder) fun g2 =>
  M.pure { g2 with placeholders := g2.placeholders ++ [i] }

/-- graph.py:56-76 `get_placeholder_co_parent`. -/
def placeholderCoParent (g : Graph) (ph : Nat) : M (Option Nat) :=
  match g.successors ph with
  | [] => M.throw (.resolverGraph 60)
  | [c] =>
    match (g.predecessors c).filter g.isElem with
    | [] => M.pure none
    | [p] => M.pure (some p)
    | _ => M.throw (.resolverGraph 74)
  | _ => M.throw (.resolverGraph 63)

/-- `edge_data in (CHILD_UNRESOLVED, CHILD_RESOLVED)`. -/
def isChildEdge (e : Edge) : Bool := e.ty == .childU || e.ty == .childR

/-- graph.py:78-88 `get_element_parents`. -/
def elementParents (g : Graph) (i : Nat) : List Nat :=
  ((g.inEdges i).filter fun e => g.isElem e.src && isChildEdge e).map (·.src)

/-- graph.py:90-100 `get_element_childrens`. -/
def elementChildren (g : Graph) (i : Nat) : List Nat :=
  ((g.outEdges i).filter fun e => g.isElem e.dst && isChildEdge e).map (·.dst)

/-- graph.py:102-122 `get_element_siblings`. -/
def elementSiblings (g : Graph) (i : Nat) : List Nat :=
  match g.elementParents i with
  | [] => []
  | p :: _ => (g.successors p).filter fun c => g.isElem c && c != i

/-- graph.py:131-135 `_remove_node`: the node and its edges disappear, the index becomes free. -/
def removeNode (g : Graph) (i : Nat) : Graph :=
  { g with
    nodes := g.nodes.set i none
    free := i :: g.free
    edges := g.edges.filter fun e => e.src != i && e.dst != i }

/-- graph.py:124-126 `remove_placeholder`. -/
def removePlaceholder (g : Graph) (i : Nat) : Graph :=
  { g.removeNode i with placeholders := g.placeholders.filter (· != i) }

/-- graph.py:137-142 `has_incoming_edge_of_types` for one type. -/
def hasIncoming (g : Graph) (i : Nat) (ty : EdgeT) : Bool := (g.inEdges i).any fun e => e.ty == ty

/-- graph.py:168-173 `get_base_element_node`. -/
def baseElementNode (g : Graph) (i : Nat) : Option Nat :=
  ((g.inEdges i).find? fun e => e.ty == .derive).map (·.src)

/-- First (newest) edge `a → b` removed. -/
def eraseEdge (a b : Nat) : List Edge → List Edge
  | [] => []
  | e :: es => if e.src == a && e.dst == b then es else e :: eraseEdge a b es

/-- graph.py:175-179 `remove_edge` (rustworkx raises if there is no such edge). -/
def removeEdge (g : Graph) (a b : Nat) : M Graph :=
  if g.edges.any (fun e => e.src == a && e.dst == b) then M.pure { g with edges := eraseEdge a b g.edges }
  else M.throw .noEdge

/-- First (newest) edge `a → b` given the type `ty`. -/
def retypeEdge (a b : Nat) (ty : EdgeT) : List Edge → List Edge
  | [] => []
  | e :: es => if e.src == a && e.dst == b then { e with ty := ty } :: es else e :: retypeEdge a b ty es

/-- graph.py:181-185 `update_edge` (called for existing edges only, resolver.py:182-183). -/
def updateEdge (g : Graph) (a b : Nat) (ty : EdgeT) : Graph := { g with edges := retypeEdge a b ty g.edges }

/-- graph.py:187-202 `get_placeholder_child`. -/
def placeholderChild (g : Graph) (ph : Nat) : M Nat :=
  match ((g.outEdges ph).filter fun e => g.isElem e.dst && e.ty == .placeholder).map (·.dst) with
  | [c] => M.pure c
  | [] => M.throw (.resolverGraph 197)
  | _ => M.throw (.resolverGraph 200)

/-- graph.py:204-219 `get_placeholder_parent`. -/
def placeholderParent (g : Graph) (ph : Nat) : M Nat :=
  match ((g.inEdges ph).filter fun e => g.isElem e.src && e.ty == .placeholder).map (·.src) with
  | [p] => M.pure p
  | [] => M.throw (.resolverGraph 214)
  | _ => M.throw (.resolverGraph 217)

/-! ### replicate_descendants -/

/-- graph.py:225-240: the indices of all descendants along edges that are not DERIVE edges, ascending. -/
def descendants (g : Graph) (src : Nat) : List Nat :=
  let es := g.edges.filter fun e => e.ty != .derive
  let start := (es.filter fun e => e.src == src).map (·.dst)
  let cl := closure es start
  (rangeFrom 0 g.nodes.length).filter fun i => cl.contains i

/-- graph.py:242-253: replicate the nodes; `mapping` is `replica_mapping` (graph.py:401-415 copies all attributes). -/
def replicateNodes : Graph → List (Nat × Nat) → List Nat → M (Graph × List (Nat × Nat))
  | g, m, [] => M.pure (g, m)
  | g, m, i :: is =>
      match g.node? i with
      | none => M.throw (.resolverGraph 415)
      | some n =>
        let (g1, j) := g.addNode n
        let g2 := match n with
          | .ph _ => { g1 with placeholders := g1.placeholders ++ [j] }
          | .elem _ => g1
        replicateNodes g2 (m ++ [(i, j)]) is

/-- `replica_mapping[i]`. -/
def mapIdx (m : List (Nat × Nat)) (i : Nat) : Nat := (m.lookup i).getD i

/-- A sequence of `self._graph.add_edge` calls. -/
def addEdges (g : Graph) : List Edge → M Graph
  | [] => M.pure g
  | e :: es => M.bind (g.rawAddEdge .dagWouldCycle e.src e.dst e.ty) fun g1 => addEdges g1 es

/-- graph.py:255-267: replicate the edges.  `out_edges`/`in_edges` are read from the current graph. -/
def replicateEdges (m : List (Nat × Nat)) (sel : List Nat) : Graph → List Nat → M Graph
  | g, [] => M.pure g
  | g, i :: is =>
      M.bind (addEdges g (((g.outEdges i).filter fun e => sel.contains e.dst).map
        fun e => ⟨mapIdx m i, mapIdx m e.dst, e.ty⟩)) fun g1 =>
      M.bind (addEdges g1 (((g1.inEdges i).filter fun e => e.ty == .derive).map
        fun e => ⟨e.src, mapIdx m i, e.ty⟩)) fun g2 =>
      replicateEdges m sel g2 is

/-- graph.py:221-291 `replicate_descendants`.  `ord` is the iteration order of the set `rx_indices_to_replicate`
(any rearrangement of the ascending list). -/
def replicateDescendants (ord : List Nat → List Nat) (g : Graph) (src tgt : Nat) : M Graph :=
  let sel := ord (g.descendants src)
  let srcProcessed := match g.elem? src with | some e => e.isProcessed | none => false
  M.bind (replicateNodes g [] sel) fun (g1, m) =>
  M.bind (replicateEdges m sel g1 sel) fun g2 =>
  addEdges g2 (((g2.outEdges src).filter fun e => sel.contains e.dst).map fun e =>
    let c := mapIdx m e.dst
    ⟨tgt, c, match g2.node? c with
      | some (.ph _) => .placeholder
      | _ => if srcProcessed then .childR else .childU⟩)

/-! ### searches -/

/-- `isinstance(node, ElementNode) and node.status == UNPROCESSED`. -/
def isUnprocessed (g : Graph) (i : Nat) : Bool :=
  match g.elem? i with
  | some e => !e.isProcessed
  | none => false

/-- graph.py:293-298: the unprocessed element nodes, ascending. -/
def unprocessed (g : Graph) : List Nat := (rangeFrom 0 g.nodes.length).filter g.isUnprocessed

/-- graph.py:300-307 `get_unprocessed_root_nodes`. -/
def unprocessedRoots (g : Graph) : List Nat := g.unprocessed.filter fun i => g.hasIncoming i .childR

/-- graph.py:144-166 `get_topological_sorted_nodes`: Kahn's algorithm with a heap on `(key, index)`, where
`key = "B"` for nodes with an incoming DERIVE edge.  `rem` is ascending; the first argument is fuel. -/
def topoGo (g : Graph) : Nat → List Nat → List Nat
  | 0, _ => []
  | f + 1, rem =>
      let cands := rem.filter fun n => !g.edges.any fun e => e.dst == n && rem.contains e.src
      match (match cands.find? (fun n => !g.hasIncoming n .derive) with
        | some n => some n
        | none => cands.head?) with
      | none => []
      | some n => n :: topoGo g f (rem.filter (· != n))

/-- graph.py:144-166 `get_topological_sorted_nodes`. -/
def topoSort (g : Graph) (ns : List Nat) : List Nat :=
  let rem := ns.filter g.isUnprocessed
  g.topoGo rem.length rem

end Graph

/-! ### graph_builder.py -/

/-- graph_builder.py:91-97 `_add_child_to_graph` with 99-104 `_add_placeholder_for_derived`. -/
def addChildToGraph (g : Graph) (parent : Nat) (child : ElemNode) : M (Graph × Nat) :=
  let ty : EdgeT := match g.elem? parent with
    | some e => if e.isProcessed then .childR else .childU
    | none => .childU
  M.bind (g.addElementChild parent child ty) fun (g1, i) =>
  match child.parsed.derivedFrom with
  | none => M.pure (g1, i)
  | some path => M.bind (g1.addPlaceholder path i) fun g2 => M.pure (g2, i)

/-- graph_builder.py:78-89 `_constr_graph_enum_containers`. -/
def constrEnums (parent : Nat) : Graph → List SEnumContainer → M Graph
  | g, [] => M.pure g
  | g, c :: cs =>
      M.bind (addChildToGraph g parent ⟨c.name, .enumcont, false, .enum c, none, false⟩) fun (g1, _) =>
      constrEnums parent g1 cs

/-- graph_builder.py:66-76 `_constr_graph_fields`. -/
def constrFields (parent : Nat) : Graph → List SField → M Graph
  | g, [] => M.pure g
  | g, f :: fs =>
      M.bind (addChildToGraph g parent ⟨some f.name, .field, false, .field f, none, false⟩) fun (g1, i) =>
      M.bind (constrEnums i g1 f.containers) fun g2 =>
      constrFields parent g2 fs

mutual
/-- graph_builder.py:44-64: loop body of `_constr_graph_registers_clusters`. -/
def constrRC (parent : Nat) (g : Graph) : SRC → M Graph
  | .clu c ch =>
      M.bind (addChildToGraph g parent ⟨some c.name, .cluster, false, .clu c, none, false⟩) fun (g1, i) =>
      constrRCs i g1 ch
  | .reg r =>
      M.bind (addChildToGraph g parent ⟨some r.name, .register, false, .reg r, none, false⟩) fun (g1, i) =>
      constrFields i g1 r.fields
/-- graph_builder.py:41-64 `_constr_graph_registers_clusters`. -/
def constrRCs (parent : Nat) (g : Graph) : List SRC → M Graph
  | [] => M.pure g
  | x :: xs => M.bind (constrRC parent g x) fun g1 => constrRCs parent g1 xs
end

/-- graph_builder.py:29-39 `_constr_graph_peripherals`. -/
def constrPeripherals (parent : Nat) : Graph → List SPeriphT → M Graph
  | g, [] => M.pure g
  | g, p :: ps =>
      M.bind (addChildToGraph g parent ⟨some p.hd.name, .peripheral, false, .periph p.hd, none, false⟩) fun (g1, i) =>
      M.bind (constrRCs i g1 p.rcs) fun g2 =>
      constrPeripherals parent g2 ps

/-- graph_builder.py:17-27 `construct_directed_graph`.  The root gets index 0. -/
def constructGraph (d : SDevice) : M Graph :=
  constrPeripherals 0
    { nodes := [some (.elem ⟨some (s%"Device"), .device, true, .device, none, false⟩)] } d.peripherals

end Svd
