import Verif.Model.Graph
import Verif.Model.Enum
/-
The resolver: /repo/src/svdsuite/resolve/resolver.py.
-/
namespace Svd

open Graph

/-- resolver.py:449-456 `_ensure_accurate_parent_child_relationships_for_placeholders`. -/
def ensurePlaceholderParents : Graph → List Nat → M Graph
  | g, [] => M.pure g
  | g, ph :: phs =>
      M.bind (g.placeholderCoParent ph) fun o =>
      M.bind (match o with
        | none => M.pure g
        | some p => g.addEdge p ph .placeholder) fun g1 =>
      ensurePlaceholderParents g1 phs

/-- resolver.py:97-103 `_initialization`. -/
def initialization (d : SDevice) : M Graph :=
  M.bind (constructGraph d) fun g => ensurePlaceholderParents g g.placeholders

/-! ### derivedFrom paths -/

/-- `node.name`. -/
def Graph.nameOf (g : Graph) (i : Nat) : Option Str := (g.elem? i).bind (·.name)

/-- `node.level == l`. -/
def Graph.hasLevel (g : Graph) (i : Nat) (l : Level) : Bool :=
  match g.elem? i with
  | some e => e.level == l
  | none => false

/-- `node.status == NodeStatus.PROCESSED`. -/
def Graph.isProcessed (g : Graph) (i : Nat) : Bool :=
  match g.elem? i with
  | some e => e.isProcessed
  | none => false

/-- resolver.py:294-298: the matches that are registers without alternate group; `match.processed` raises if unset
(graph_elements.py:95-97). -/
def filterAlternates (g : Graph) : List Nat → M (List Nat)
  | [] => M.pure []
  | i :: is =>
      match (g.elem? i).bind (·.processed) with
      | none => M.throw (.resolve 97)
      | some p =>
        M.bind (filterAlternates g is) fun rest =>
        M.pure (match p with
          | .reg r => if r.alternateGroup.isNone then i :: rest else rest
          | _ => rest)

/-- resolver.py:276-305: the loop of `search_nodes`; `sub` gives the matches below (or at) a node whose name matches. -/
def searchGo (g : Graph) (exclude : Nat) (part : Str) (sub : Nat → M (List Nat)) :
    List Nat → List Nat → M (List Nat)
  | ms, [] => M.pure ms
  | ms, n :: ns =>
      if n = exclude then searchGo g exclude part sub ms ns
      else if g.nameOf n ≠ some part then searchGo g exclude part sub ms ns
      else
        M.bind (sub n) fun cs =>
        if (ms ++ cs).length > 1 then
          M.bind (filterAlternates g (ms ++ cs)) fun fs =>
          if fs.length = 1 then M.pure fs else M.throw (.resolve 303)
        else searchGo g exclude part sub (ms ++ cs) ns

/-- resolver.py:272-305 `search_nodes`. -/
def searchNodes (g : Graph) (exclude : Nat) (level : Level) : List Str → List Nat → M (List Nat)
  | [], _ => M.pure []
  | part :: parts, nodes =>
      searchGo g exclude part
        (fun n =>
          match parts with
          | [] => M.pure (if g.hasLevel n level then [n] else [])
          | _ :: _ => searchNodes g exclude level parts (g.elementChildren n))
        [] nodes

/-- resolver.py:268-320 `_derived_from_path_resolving`.  The root has index 0. -/
def pathResolving (g : Graph) (derived : Nat) (level : Level) (path : Str) : M (Option Nat) :=
  let parts := splitC '.' path
  M.bind (searchNodes g derived level parts (g.elementSiblings derived)) fun m1 =>
  match m1 with
  | [b] => M.pure (some b)
  | _ =>
    M.bind (searchNodes g derived level parts (g.elementChildren 0)) fun m2 =>
    match m2 with
    | [b] => M.pure (some b)
    | _ => M.pure none

/-- resolver.py:246-266 `_resolve_placeholder` with 322-328 `_is_placeholder_parent_resolved`. -/
def resolvePlaceholder (g : Graph) (ph : Nat) : M Graph :=
  match g.node? ph with
  | some (.ph path) =>
    M.bind (g.placeholderParent ph) fun par =>
    if !g.isProcessed par then M.pure g
    else
      M.bind (g.placeholderChild ph) fun derived =>
      match g.elem? derived with
      | none => M.throw .attributeError
      | some e =>
        M.bind (pathResolving g derived e.level path) fun o =>
        match o with
        | none => M.pure g
        | some base =>
          let g1 := g.removePlaceholder ph
          g1.rawAddEdge .cycle base derived .derive
  | _ => M.throw .keyError

/-- resolver.py:105-109 `_resolve_placeholders`. -/
def resolvePlaceholders : Graph → List Nat → M Graph
  | g, [] => M.pure g
  | g, ph :: phs => M.bind (resolvePlaceholder g ph) fun g1 => resolvePlaceholders g1 phs

/-! ### processing nodes -/

/-- resolver.py:217-244 `_find_processable_nodes`, as a set: the nodes reachable from the unprocessed roots along
child edges through nodes without incoming PLACEHOLDER edge.  (The order of `result` is irrelevant: it is only used to
take a subgraph, graph.py:155.) -/
def processableNodes (g : Graph) : List Nat :=
  let ok := fun i => !g.hasIncoming i .placeholder
  let es := g.edges.filter fun e => isChildEdge e && g.isElem e.dst && ok e.dst
  let cl := closure es (g.unprocessedRoots.filter ok)
  (rangeFrom 0 g.nodes.length).filter fun i => cl.contains i

/-- resolver.py:111-116 `_get_topological_sorted_processable_nodes`. -/
def sortedProcessable (g : Graph) : List Nat := g.topoSort (processableNodes g)

/-- Replace the element node with index `i`. -/
def Graph.setElem (g : Graph) (i : Nat) (e : ElemNode) : Graph := { g with nodes := g.nodes.set i (some (.elem e)) }

/-- `setattr` on the name of an intermediate element (resolver.py:518). -/
def Processed.withName (n : Str) : Processed → Processed
  | .periph p => .periph { p with name := n }
  | .clu c => .clu { c with name := n }
  | .reg r => .reg { r with name := n }
  | .field f => .field { f with name := n }

/-- resolver.py:521-523: clear `dim`, `dim_increment`, `dim_index`. -/
def Processed.clearDim : Processed → Processed
  | .periph p => .periph { p with dim := {} }
  | .clu c => .clu { c with dim := {} }
  | .reg r => .reg { r with dim := {} }
  | .field f => .field { f with dim := {} }

/-- `.name` of an intermediate element. -/
def Processed.name : Processed → Str
  | .periph p => p.name
  | .clu c => c.name
  | .reg r => r.name
  | .field f => f.name

/-- The dim attributes of an intermediate element. -/
def Processed.dim : Processed → IDim
  | .periph p => p.dim
  | .clu c => c.dim
  | .reg r => r.dim
  | .field f => f.dim

/-- process.py:471-503 `_extract_and_process_dimension`, selecting the attributes by type. -/
def extractDimOf (p : Parsed) (base : Option Processed) : M (Bool × List Str × List (Option Str)) :=
  let bd := base.map (·.dim)
  match p with
  | .periph p => extractDim .peripheral p.name p.dim none bd none
  | .clu c => extractDim .cluster c.name c.dim none bd none
  | .reg r => extractDim .register r.name r.dim r.displayName bd
      (match base with | some (.reg b) => b.displayName | _ => none)
  | .field f => extractDim .field f.name f.dim none bd none
  | _ => M.throw .attributeError

/-- resolver.py:527-552 `_create_dimable_element`.  A base of another kind is excluded at resolver.py:136. -/
def createDimable (index : Nat) (name : Str) (display : Option Str) (p : Parsed) (base : Option Processed) :
    M Processed :=
  match p, base with
  | .periph p, none => M.pure (.periph (processPeripheral index name p none))
  | .periph p, some (.periph b) => M.pure (.periph (processPeripheral index name p (some b)))
  | .clu c, none => M.pure (.clu (processCluster index name c none))
  | .clu c, some (.clu b) => M.pure (.clu (processCluster index name c (some b)))
  | .reg r, none => M.pure (.reg (processRegister index name display r none))
  | .reg r, some (.reg b) => M.pure (.reg (processRegister index name display r (some b)))
  | .field f, none => M.bind (processField index name f none) fun x => M.pure (.field x)
  | .field f, some (.field b) => M.bind (processField index name f (some b)) fun x => M.pure (.field x)
  | _, _ => M.throw .attributeError

/-- resolver.py:495-501: the loop over the names. -/
def createAll (p : Parsed) (base : Option Processed) : Nat → List Str → List (Option Str) → M (List Processed)
  | i, n :: ns, d :: ds =>
      M.bind (createDimable i n d p base) fun x =>
      M.bind (createAll p base (i + 1) ns ds) fun xs => M.pure (x :: xs)
  | _, _, _ => M.pure []

/-- resolver.py:181-183: retype the edges to the children. -/
def resolveChildEdges (i : Nat) : Graph → List Nat → Graph
  | g, [] => g
  | g, c :: cs => resolveChildEdges i (g.updateEdge i c .childR) cs

/-- resolver.py:168-173 (and 151-155): remove the derive edge and replicate the descendants of the base. -/
def adoptBase (ord : List Nat → List Nat) (g : Graph) (i : Nat) (base : Option Nat) : M Graph :=
  match base with
  | none => M.pure g
  | some b => M.bind (g.removeEdge b i) fun g1 => g1.replicateDescendants ord b i

/-- resolver.py:160-183 `_update_node`. -/
def updateNode (ord : List Nat → List Nat) (g : Graph) (i : Nat) (base : Option Nat) (p : Processed)
    (isTemplate : Bool) : M Graph :=
  M.bind (adoptBase ord g i base) fun g1 =>
  match g1.elem? i with
  | none => M.throw .keyError
  | some e =>
    if e.processed.isSome then M.throw (.resolve 108)
    else
      let g2 := g1.setElem i { e with isProcessed := true, processed := some p,
                                      isDimTemplate := e.isDimTemplate || isTemplate }
      M.pure (resolveChildEdges i g2 (g2.elementChildren i))

/-- resolver.py:200-210: one new node per parent and instance; returns the new indices in order. -/
def addInstances (lvl : Level) (parsed : Parsed) : Graph → List (Nat × Processed) → M (Graph × List Nat)
  | g, [] => M.pure (g, [])
  | g, (par, x) :: rest =>
      M.bind (g.addElementChild par ⟨some x.name, lvl, true, parsed, some x, false⟩ .childR) fun (g1, j) =>
      M.bind (addInstances lvl parsed g1 rest) fun (g2, js) => M.pure (g2, j :: js)

/-- resolver.py:214-215: edges from one new node to the children. -/
def linkChildren (j : Nat) : Graph → List Nat → M Graph
  | g, [] => M.pure g
  | g, c :: cs => M.bind (g.addEdge j c .childR) fun g1 => linkChildren j g1 cs

/-- resolver.py:213-215. -/
def linkInstances (i : Nat) : Graph → List Nat → M Graph
  | g, [] => M.pure g
  | g, j :: js => M.bind (linkChildren j g (g.elementChildren i)) fun g1 => linkInstances i g1 js

/-- resolver.py:185-215 `_update_dim_node`. -/
def updateDimNode (ord : List Nat → List Nat) (g : Graph) (i : Nat) (base : Option Nat) (xs : List Processed)
    (template : Processed) : M Graph :=
  M.bind (updateNode ord g i base template true) fun g1 =>
  match g1.elem? i with
  | none => M.throw .keyError
  | some e =>
    M.bind (addInstances e.level e.parsed g1
      ((g1.elementParents i).flatMap fun par => xs.map fun x => (par, x))) fun (g2, js) =>
    linkInstances i g2 js

/-- The name of a parsed element as used at resolver.py:507. -/
def Parsed.name : Parsed → Str
  | .device => s%"Device"
  | .periph p => p.name
  | .clu c => c.name
  | .reg r => r.name
  | .field f => f.name
  | .enum e => e.name.getD []

/-- resolver.py:483-510 `_process_dimable_node` with 512-525 `_post_process_dim_elements`. -/
def processDimable (ord : List Nat → List Nat) (g : Graph) (i : Nat) (parsed : Parsed) (baseNode : Option Nat)
    (base : Option Processed) : M Graph :=
  M.bind (extractDimOf parsed base) fun (isDim, names, displays) =>
  M.bind (createAll parsed base 0 names displays) fun xs =>
  match xs with
  | [] => M.throw (.resolve 504)
  | x :: _ =>
    if isDim then updateDimNode ord g i baseNode (xs.map (·.clearDim)) (x.withName parsed.name)
    else updateNode ord g i baseNode x false

/-- resolver.py:148-149: a derived container takes over the declaration of its base (which is an existing node). -/
def adoptedParsed (g : Graph) (e : ElemNode) : Option Nat → Parsed
  | none => e.parsed
  | some b => match g.elem? b with
    | some eb => eb.parsed
    | none => e.parsed

/-- resolver.py:146-158 `_process_enumerated_value_container_node`. -/
def processEnumNode (ord : List Nat → List Nat) (g : Graph) (i : Nat) (baseNode : Option Nat) : M Graph :=
  match g.elem? i with
  | none => M.throw .keyError
  | some e =>
    M.bind (adoptBase ord (g.setElem i { e with parsed := adoptedParsed g e baseNode }) i baseNode) fun g1 =>
    match g1.elem? i with
    | none => M.throw .keyError
    | some e1 => M.pure (g1.setElem i { e1 with isProcessed := true })

/-- resolver.py:130-144 `_get_derived_from_base_node`. -/
def derivedFromBase (g : Graph) (i : Nat) (e : ElemNode) : M (Nat × ElemNode) :=
  match g.baseElementNode i with
  | none => M.throw (.resolve 134)
  | some b => match g.elem? b with
    | none => M.throw .attributeError
    | some eb => if e.level ≠ eb.level then M.throw (.resolve 137) else M.pure (b, eb)

/-- `isinstance(parsed_element, SVDEnumeratedValueContainer)`. -/
def Parsed.isEnum : Parsed → Bool
  | .enum _ => true
  | _ => false

/-- resolver.py:458-481 `_process_node`. -/
def processNode (ord : List Nat → List Nat) (g : Graph) (i : Nat) : M Graph :=
  match g.elem? i with
  | none => M.throw .keyError
  | some e =>
    if e.parsed = .device then M.throw (.resolve 462)
    else
      M.bind (match e.parsed.derivedFrom with
        | none => M.pure (none, none)
        | some _ =>
          M.bind (derivedFromBase g i e) fun (b, eb) =>
          if eb.processed.isNone && !e.parsed.isEnum then M.throw (.resolve 472)
          else M.pure (some b, eb.processed)) fun (bn, bp) =>
      if e.parsed.isEnum then processEnumNode ord g i bn
      else processDimable ord g i e.parsed bn bp

/-- resolver.py:78-79: process the nodes of one round. -/
def processNodes (ord : List Nat → List Nat) : Graph → List Nat → M Graph
  | g, [] => M.pure g
  | g, i :: is => M.bind (processNode ord g i) fun g1 => processNodes ord g1 is

/-- resolver.py:63-81: the main loop; the first argument is fuel. -/
def rounds (ord : List Nat → List Nat) : Nat → Graph → List Nat → M Graph
  | 0, _, _ => M.throw .outOfFuel
  | f + 1, g, prev =>
      M.bind (resolvePlaceholders g g.placeholders) fun g1 =>
      let ns := sortedProcessable g1
      if ns = [] then M.pure g1
      else if ns = prev then M.throw .loop
      else M.bind (processNodes ord g1 ns) fun g2 => rounds ord f g2 ns

/-- resolver.py:118-125 `_get_unresolved_placeholders_info`: only its exceptions matter. -/
def unresolvedInfo (g : Graph) : List Nat → M Unit
  | [] => M.pure ()
  | ph :: phs => M.bind (g.placeholderChild ph) fun _ => unresolvedInfo g phs

/-! ### finalisation -/

/-- The children assigned to an element by `_finalize_*_node` (resolver.py:359, 369, 375, 400); the assignment is to
the intermediate object of the node. -/
inductive Content
  | conts (cs : List IEnumContainer)
  | fields (fs : List IField)
  | rcs (xs : List IRC)
  deriving Repr

/-- State of `_finalize_processing`: the graph (sizes of elements are updated in place), the children assigned so far
and `_peripherals_resolved`. -/
structure FinState where
  g : Graph
  content : List (Nat × Content) := []
  resolved : Option (List IPeripheral) := none
  deriving Repr

/-- `field.enumerated_value_containers` of node `i` (initially `[]`). -/
def FinState.conts (s : FinState) (i : Nat) : List IEnumContainer :=
  match s.content.lookup i with
  | some (.conts cs) => cs
  | _ => []
/-- `register.fields` of node `i` (initially `[]`). -/
def FinState.fields (s : FinState) (i : Nat) : List IField :=
  match s.content.lookup i with
  | some (.fields fs) => fs
  | _ => []
/-- `registers_clusters` of node `i` (initially `[]`). -/
def FinState.rcs (s : FinState) (i : Nat) : List IRC :=
  match s.content.lookup i with
  | some (.rcs xs) => xs
  | _ => []

/-- `node.processed` (graph_elements.py:94-99). -/
def procOf (g : Graph) (i : Nat) : M Processed :=
  match g.elem? i with
  | none => M.throw .attributeError
  | some e => match e.processed with
    | none => M.throw (.resolve 97)
    | some p => M.pure p

/-- `node.is_dim_template`. -/
def templateOf (g : Graph) (i : Nat) : M Bool :=
  match g.elem? i with
  | none => M.throw .attributeError
  | some e => M.pure e.isDimTemplate

/-- `[node.processed for node in children_nodes if not node.is_dim_template]` with the children of each (as `pick`
assembles them). -/
def collect {α : Type} (s : FinState) (pick : Nat → Processed → M α) (cs : List Nat) : M (List α) :=
  M.filterMapM (fun i =>
    M.bind (templateOf s.g i) fun t =>
    if t then M.pure none
    else M.bind (procOf s.g i) fun p => M.bind (pick i p) fun x => M.pure (some x)) cs

/-- A peripheral with its children; other kinds have no `base_address` (sort key of resolver.py:349). -/
def pickPeripheral (s : FinState) (i : Nat) (p : Processed) : M IPeripheral :=
  match p with
  | .periph h => M.pure ⟨h, s.rcs i⟩
  | _ => M.throw .attributeError

/-- A register or cluster with its children; peripherals and fields are excluded at resolver.py:405. -/
def pickRC (s : FinState) (i : Nat) (p : Processed) : M IRC :=
  match p with
  | .reg r => M.pure (.reg r (s.fields i))
  | .clu c => M.pure (.clu c (s.rcs i))
  | _ => M.throw .attributeError

/-- A field with its containers; other kinds have no `lsb` (sort key of resolver.py:375). -/
def pickField (s : FinState) (i : Nat) (p : Processed) : M IField :=
  match p with
  | .field h => M.pure ⟨h, s.conts i⟩
  | _ => M.throw .attributeError

/-- Sort key of resolver.py:349. -/
def ipLe (a b : IPeripheral) : Bool := intStrLe (a.hd.baseAddress, a.hd.name) (b.hd.baseAddress, b.hd.name)

/-- `.name` of a register or cluster. -/
def IRC.name : IRC → Str
  | .reg r _ => r.name
  | .clu c _ => c.name
/-- `.address_offset` of a register or cluster. -/
def IRC.addressOffset : IRC → Int
  | .reg r _ => r.addressOffset
  | .clu c _ => c.addressOffset
/-- Sort key of resolver.py:359, 369. -/
def ircLe (a b : IRC) : Bool := intStrLe (a.addressOffset, a.name) (b.addressOffset, b.name)

/-- Sort key of resolver.py:375. -/
def ifLe (a b : IField) : Bool := intStrLe (a.hd.lsb, a.hd.name) (b.hd.lsb, b.hd.name)

/-- resolver.py:429-447 `_get_parent_size_recursively`; the first argument is fuel (bounded by the number of nodes,
since the graph is acyclic). -/
def parentSize (g : Graph) : Nat → Nat → M Int
  | 0, _ => M.throw .outOfFuel
  | f + 1, i =>
      match g.elementParents i with
      | [] => M.pure (-1)
      | p :: _ =>
        if g.hasLevel p .device then M.pure 32
        else
          M.bind (procOf g p) fun x =>
          match x with
          | .periph h => (match h.props.size with | some s => M.pure s | none => parentSize g f p)
          | .clu c => (match c.props.size with | some s => M.pure s | none => parentSize g f p)
          | _ => M.throw (.resolve 442)

/-- resolver.py:405-419: the size a child counts with; `none` = skipped (dim template). -/
def childSize (g : Graph) (i : Nat) : M (Option Int) :=
  M.bind (procOf g i) fun p =>
  M.bind (match p with
    | .reg r => M.pure r.props.size
    | .clu c => M.pure c.props.size
    | _ => M.throw (.resolve 406)) fun size =>
  M.bind (templateOf g i) fun t =>
  if t then M.pure none
  else match size with
    | some s => M.pure (some (if s % 8 ≠ 0 then 0 else s))
    | none => M.bind (parentSize g (g.nodes.length + 1) i) fun s => M.pure (some s)

/-- resolver.py:402-427 `_calculate_size`. -/
def calculateSize (g : Graph) (cs : List Nat) : M Int :=
  M.bind (M.filterMapM (childSize g) cs) fun sizes =>
  let m := maxList (-1) sizes
  if m = -1 then M.throw (.resolve 425) else M.pure m

/-- resolver.py:353, 363: assign the size. -/
def Processed.withSize (s : Int) : Processed → Processed
  | .periph p => .periph { p with props := { p.props with size := some s } }
  | .clu c => .clu { c with props := { c.props with size := some s } }
  | .reg r => .reg { r with props := { r.props with size := some s } }
  | .field f => .field f

/-- resolver.py:351-369 `_finalize_peripheral_node`, `_finalize_cluster_node`. -/
def finalizeContainerNode (s : FinState) (i : Nat) (e : ElemNode) (cs : List Nat) : M FinState :=
  M.bind (procOf s.g i) fun p =>
  M.bind (calculateSize s.g cs) fun size =>
  let s1 := { s with g := s.g.setElem i { e with processed := some (p.withSize size) } }
  M.bind (collect s1 (pickRC s1) cs) fun xs =>
  M.pure { s1 with content := (i, .rcs (sortBy ircLe xs)) :: s1.content }

/-- resolver.py:377-400 `_finalize_field_node` (process.py:466-469 calls `create_enumerated_value_container`). -/
def finalizeFieldNode (s : FinState) (i : Nat) (cs : List Nat) : M FinState :=
  M.bind (procOf s.g i) fun p =>
  match p with
  | .field f =>
    M.bind (M.mapM (fun c =>
      match s.g.elem? c with
      | none => M.throw .attributeError
      | some ce => match ce.parsed with
        | .enum ec => createContainer ec f.lsb f.msb
        | _ => M.throw .attributeError) cs) fun conts =>
    let usages := conts.map (·.usage)
    if usages.length ≠ (usages.eraseDups).length then M.throw .enumContainer
    else if conts.length > 2 then M.throw .enumContainer
    else if conts.length = 2 && !(usages.all fun u => u == .read || u == .write) then M.throw .enumContainer
    else M.pure { s with content := (i, .conts conts) :: s.content }
  | _ => M.throw .attributeError

/-- resolver.py:330-345 `_finalize_node` (called for nodes with children). -/
def finalizeNode (s : FinState) (i : Nat) (cs : List Nat) : M FinState :=
  match s.g.elem? i with
  | none => M.throw .attributeError
  | some e =>
    if e.isDimTemplate then M.pure s
    else match e.level with
      | .device =>
          M.bind (collect s (pickPeripheral s) cs) fun ps => M.pure { s with resolved := some (sortBy ipLe ps) }
      | .peripheral => finalizeContainerNode s i e cs
      | .cluster => finalizeContainerNode s i e cs
      | .register =>
          M.bind (procOf s.g i) fun _ =>
          M.bind (collect s (pickField s) cs) fun fs =>
          M.pure { s with content := (i, .fields (sortBy ifLe fs)) :: s.content }
      | .field => finalizeFieldNode s i cs
      | .enumcont => M.throw (.resolve 345)

/-- graph.py:337-350: the work list of `bottom_up_node_traversal`.  A parent is enqueued when its last child has been
handled.  The edges do not change during the traversal (`g0`); the first argument is fuel. -/
def bottomUp (g0 : Graph) : Nat → List Nat → List Nat → FinState → M FinState
  | _, [], _, s => M.pure s
  | 0, _ :: _, _, _ => M.throw .outOfFuel
  | f + 1, i :: q, done, s =>
      M.bind (match g0.successors i with
        | [] => M.pure s
        | c :: cs => finalizeNode s i (c :: cs)) fun s1 =>
      let done1 := i :: done
      let new := (g0.indices.filter fun p => (g0.successors p).contains i).filter
        fun p => (g0.successors p).all done1.contains
      bottomUp g0 f (q ++ new) done1 s1

/-- graph.py:312-350 `bottom_up_node_traversal`. -/
def finalizeProcessing (g : Graph) : M FinState :=
  bottomUp g (g.nodes.length + 1) (g.indices.filter fun i => (g.successors i).isEmpty) [] { g := g }

/-- resolver.py:58-95 `resolve_peripherals`. -/
def resolvePeripherals (ord : List Nat → List Nat) (fuel : Nat) (d : SDevice) : M (List IPeripheral) :=
  M.bind (initialization d) fun g0 =>
  M.bind (rounds ord fuel g0 []) fun g =>
  if g.unprocessed ≠ [] then
    M.bind (unresolvedInfo g g.placeholders) fun _ => M.throw .unprocessed
  else
    M.bind (finalizeProcessing g) fun s =>
    match s.resolved with
    | none => M.throw (.resolve 93)
    | some ps => M.pure ps

end Svd
