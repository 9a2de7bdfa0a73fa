import Verif.Model.Pipeline
/-
The same pipeline as `Model/Pipeline.lean`, with the objects of Python made explicit.

`_update_dim_node` (resolver.py:200-210) gives one and the same intermediate object to nodes below different parents, and
`_finalize_*_node`, `_InheritProperties` assign to attributes of these objects in place.  `Model/Resolver.lean` and
`Model/Inherit.lean` treat the objects by value.  Here an object has an identity (the index of the first node it is given
to; element nodes are never removed), a node refers to an object, and every assignment changes the object for all nodes
that refer to it.
-/
namespace Svd
open Graph

/-! ### which nodes refer to the same object -/

/-- resolver.py:200-210: the new nodes `js` are created parent by parent, for each parent one per element of
`processed_elements` (`n` of them), so the node at position `p` refers to the object of the node at position `p % n`. -/
def shareInstances (obj : Nat → Nat) (n : Nat) (js : List Nat) : Nat → Nat := fun j =>
  if js.contains j then (js[js.idxOf j % n]?).getD j else obj j

/-- resolver.py:185-215 `_update_dim_node`, with the object of every node. -/
def updateDimNodeS (ord : List Nat → List Nat) (g : Graph) (obj : Nat → Nat) (i : Nat) (base : Option Nat)
    (xs : List Processed) (template : Processed) : M (Graph × (Nat → Nat)) :=
  M.bind (updateNode ord g i base template true) fun g1 =>
  match g1.elem? i with
  | none => M.throw .keyError
  | some e =>
    M.bind (addInstances e.level e.parsed g1
      ((g1.elementParents i).flatMap fun par => xs.map fun x => (par, x))) fun (g2, js) =>
    M.bind (linkInstances i g2 js) fun g3 => M.pure (g3, shareInstances obj xs.length js)

/-- resolver.py:483-510 `_process_dimable_node`.  The object created for an element that is not a dim element is
referred to by its node only (resolver.py:510), as is the copy used for a template (resolver.py:517) and the copy given
to a replicated node (graph.py:408). -/
def processDimableS (ord : List Nat → List Nat) (g : Graph) (obj : Nat → Nat) (i : Nat) (parsed : Parsed)
    (baseNode : Option Nat) (base : Option Processed) : M (Graph × (Nat → Nat)) :=
  M.bind (extractDimOf parsed base) fun (isDim, names, displays) =>
  M.bind (createAll parsed base 0 names displays) fun xs =>
  match xs with
  | [] => M.throw (.resolve 504)
  | x :: _ =>
    if isDim then updateDimNodeS ord g obj i baseNode (xs.map (·.clearDim)) (x.withName parsed.name)
    else M.bind (updateNode ord g i baseNode x false) fun g1 => M.pure (g1, obj)

/-- resolver.py:458-481 `_process_node`. -/
def processNodeS (ord : List Nat → List Nat) (g : Graph) (obj : Nat → Nat) (i : Nat) : M (Graph × (Nat → Nat)) :=
  match g.elem? i with
  | none => M.throw .keyError
  | some e =>
    if e.parsed = .device then M.throw (.resolve 462)
    else
      M.bind (match e.parsed.derivedFrom with
        | none => M.pure (none, none)
        | some _ =>
          M.bind (derivedFromBase g i e) fun (b, eb) =>
          if eb.processed.isNone && !e.parsed.isEnum then M.throw (.resolve 472)
          else M.pure (some b, eb.processed)) fun (bn, bp) =>
      if e.parsed.isEnum then M.bind (processEnumNode ord g i bn) fun g1 => M.pure (g1, obj)
      else processDimableS ord g obj i e.parsed bn bp

/-- resolver.py:78-79. -/
def processNodesS (ord : List Nat → List Nat) : Graph → (Nat → Nat) → List Nat → M (Graph × (Nat → Nat))
  | g, obj, [] => M.pure (g, obj)
  | g, obj, i :: is => M.bind (processNodeS ord g obj i) fun (g1, obj1) => processNodesS ord g1 obj1 is

/-- resolver.py:63-81. -/
def roundsS (ord : List Nat → List Nat) : Nat → Graph → (Nat → Nat) → List Nat → M (Graph × (Nat → Nat))
  | 0, _, _, _ => M.throw .outOfFuel
  | f + 1, g, obj, prev =>
      M.bind (resolvePlaceholders g g.placeholders) fun g1 =>
      let ns := sortedProcessable g1
      if ns = [] then M.pure (g1, obj)
      else if ns = prev then M.throw .loop
      else M.bind (processNodesS ord g1 obj ns) fun (g2, obj2) => roundsS ord f g2 obj2 ns

/-! ### the heap -/

/-- The objects: the attributes other than the child lists, `enumerated_value_containers` of a field, and the objects in
`registers_clusters` of a peripheral or cluster or in `fields` of a register (model/process.py; the lists are empty at
first). -/
structure Heap where
  head : Nat → Option Processed
  conts : Nat → List IEnumContainer := fun _ => []
  kids : Nat → List Nat := fun _ => []

/-- Assign to attributes of an object. -/
def Heap.setHead (h : Heap) (o : Nat) (p : Processed) : Heap :=
  { h with head := fun k => if k = o then some p else h.head k }
/-- Assign `registers_clusters` or `fields` of an object. -/
def Heap.setKids (h : Heap) (o : Nat) (os : List Nat) : Heap :=
  { h with kids := fun k => if k = o then os else h.kids k }
/-- Assign `enumerated_value_containers` of an object. -/
def Heap.setConts (h : Heap) (o : Nat) (cs : List IEnumContainer) : Heap :=
  { h with conts := fun k => if k = o then cs else h.conts k }

/-- State of `_finalize_processing`. -/
structure HState where
  g : Graph
  obj : Nat → Nat
  heap : Heap
  resolved : Option (List Nat) := none

/-- What `node.processed` refers to at the moment, for every node. -/
def HState.view (s : HState) : Graph :=
  { s.g with nodes := s.g.nodes.mapIdx fun i n => match n with
      | some (.elem e) => some (.elem { e with processed := s.heap.head (s.obj i) })
      | _ => n }

/-- Sort keys of resolver.py:349, 359, 369, 375. -/
def Processed.key : Processed → Int × Str
  | .periph p => (p.baseAddress, p.name)
  | .clu c => (c.addressOffset, c.name)
  | .reg r => (r.addressOffset, r.name)
  | .field f => (f.lsb, f.name)

/-- `isinstance`-like tests implied by the attributes used for sorting (see `pickPeripheral`, `pickRC`, `pickField`). -/
def Processed.isPeriph : Processed → Bool
  | .periph _ => true
  | _ => false
/-- See `pickRC`. -/
def Processed.isRC : Processed → Bool
  | .reg _ => true
  | .clu _ => true
  | _ => false
/-- See `pickField`. -/
def Processed.isFieldH : Processed → Bool
  | .field _ => true
  | _ => false

/-- resolver.py:348-349, 355-359, 365-369, 373-375: the objects of the children that are not templates, sorted. -/
def HState.collect (s : HState) (ok : Processed → Bool) (cs : List Nat) : M (List Nat) :=
  M.bind (Svd.collect { g := s.view } (fun i p =>
    if ok p then M.pure (s.obj i, p) else M.throw .attributeError) cs) fun xs =>
  M.pure ((sortBy (fun a b => intStrLe a.2.key b.2.key) xs).map (·.1))

/-- resolver.py:351-369 `_finalize_peripheral_node`, `_finalize_cluster_node`. -/
def finalizeContainerNodeH (s : HState) (i : Nat) (cs : List Nat) : M HState :=
  M.bind (procOf s.view i) fun p =>
  M.bind (calculateSize s.view cs) fun size =>
  let s1 := { s with heap := s.heap.setHead (s.obj i) (p.withSize size) }
  M.bind (s1.collect Processed.isRC cs) fun os =>
  M.pure { s1 with heap := s1.heap.setKids (s.obj i) os }

/-- resolver.py:377-400 `_finalize_field_node`. -/
def finalizeFieldNodeH (s : HState) (i : Nat) (cs : List Nat) : M HState :=
  M.bind (procOf s.view i) fun p =>
  match p with
  | .field f =>
    M.bind (M.mapM (fun c =>
      match s.view.elem? c with
      | none => M.throw .attributeError
      | some ce => match ce.parsed with
        | .enum ec => createContainer ec f.lsb f.msb
        | _ => M.throw .attributeError) cs) fun conts =>
    let usages := conts.map (·.usage)
    if usages.length ≠ (usages.eraseDups).length then M.throw .enumContainer
    else if conts.length > 2 then M.throw .enumContainer
    else if conts.length = 2 && !(usages.all fun u => u == .read || u == .write) then M.throw .enumContainer
    else M.pure { s with heap := s.heap.setConts (s.obj i) conts }
  | _ => M.throw .attributeError

/-- resolver.py:330-345 `_finalize_node`. -/
def finalizeNodeH (s : HState) (i : Nat) (cs : List Nat) : M HState :=
  match s.view.elem? i with
  | none => M.throw .attributeError
  | some e =>
    if e.isDimTemplate then M.pure s
    else match e.level with
      | .device => M.bind (s.collect Processed.isPeriph cs) fun os => M.pure { s with resolved := some os }
      | .peripheral => finalizeContainerNodeH s i cs
      | .cluster => finalizeContainerNodeH s i cs
      | .register =>
          M.bind (procOf s.view i) fun _ =>
          M.bind (s.collect Processed.isFieldH cs) fun os =>
          M.pure { s with heap := s.heap.setKids (s.obj i) os }
      | .field => finalizeFieldNodeH s i cs
      | .enumcont => M.throw (.resolve 345)

/-- graph.py:337-350: the work list of `bottom_up_node_traversal`. -/
def bottomUpH (g0 : Graph) : Nat → List Nat → List Nat → HState → M HState
  | _, [], _, s => M.pure s
  | 0, _ :: _, _, _ => M.throw .outOfFuel
  | f + 1, i :: q, done, s =>
      M.bind (match g0.successors i with
        | [] => M.pure s
        | c :: cs => finalizeNodeH s i (c :: cs)) fun s1 =>
      let done1 := i :: done
      let new := (g0.indices.filter fun p => (g0.successors p).contains i).filter
        fun p => (g0.successors p).all done1.contains
      bottomUpH g0 f (q ++ new) done1 s1

/-- The objects at the end of the main loop: one for each node that is the first to refer to it, with the attributes it
was created with. -/
def startHeap (g : Graph) : Heap := { head := fun o => (g.elem? o).bind (·.processed) }

/-- graph.py:312-350 `bottom_up_node_traversal`. -/
def finalizeProcessingH (g : Graph) (obj : Nat → Nat) : M HState :=
  bottomUpH g (g.nodes.length + 1) (g.indices.filter fun i => (g.successors i).isEmpty) []
    { g := g, obj := obj, heap := startHeap g }

/-- resolver.py:58-95 `resolve_peripherals`: the objects of the peripherals, the heap, and a bound for the depth of
nesting. -/
def resolvePeripheralsH (ord : List Nat → List Nat) (fuel : Nat) (d : SDevice) : M (List Nat × Heap × Nat) :=
  M.bind (initialization d) fun g0 =>
  M.bind (roundsS ord fuel g0 id []) fun (g, obj) =>
  if g.unprocessed ≠ [] then
    M.bind (unresolvedInfo g g.placeholders) fun _ => M.throw .unprocessed
  else
    M.bind (finalizeProcessingH g obj) fun s =>
    match s.resolved with
    | none => M.throw (.resolve 93)
    | some os => M.pure (os, s.heap, g.nodes.length + 1)

/-! ### inheritance in place -/

/-- A `for` loop over objects. -/
def eachObj (step : Heap → Nat → M Heap) : Heap → List Nat → M Heap
  | h, [] => M.pure h
  | h, o :: os => M.bind (step h o) fun h1 => eachObj step h1 os

/-- process.py:561-563: loop body of `_inherit_properties_fields`. -/
def inheritFieldH (access : Option Access) (wc : Option WriteConstraint) (h : Heap) (o : Nat) : M Heap :=
  match h.head o with
  | some (.field f) => M.pure (h.setHead o (.field
      { f with access := orIfNone f.access access, writeConstraint := orIfNone f.writeConstraint wc }))
  | _ => M.throw .attributeError

/-- process.py:533-556: loop body of `_inherit_properties_registers_clusters`; the first argument is fuel. -/
def inheritRCH : Nat → Props → Heap → Nat → M Heap
  | 0, _, _, _ => M.throw .outOfFuel
  | f + 1, encl, h, o =>
      match h.head o with
      | some (.reg r) =>
          let p := inheritProps r.props encl
          eachObj (inheritFieldH p.access r.writeConstraint) (h.setHead o (.reg { r with props := p })) (h.kids o)
      | some (.clu c) =>
          let p := inheritProps c.props encl
          eachObj (inheritRCH f p) (h.setHead o (.clu { c with props := p })) (h.kids o)
      | _ => M.throw .attributeError

/-- process.py:508-522: one peripheral. -/
def inheritPeripheralH (fuel : Nat) (dev : Props) (h : Heap) (o : Nat) : M Heap :=
  match h.head o with
  | some (.periph p) =>
      let ps := inheritProps p.props dev
      eachObj (inheritRCH fuel ps) (h.setHead o (.periph { p with props := ps })) (h.kids o)
  | _ => M.throw .attributeError

/-! ### reading the objects

`_ValidateAndFinalize` (process.py:588-1089) only reads the intermediate objects; what it reads is the tree of values
below each peripheral. -/

/-- A field as it stands. -/
def readField (h : Heap) (o : Nat) : Option IField :=
  match h.head o with
  | some (.field f) => some ⟨f, h.conts o⟩
  | _ => none

/-- A list of objects. -/
def readAll {α : Type} (read : Nat → Option α) : List Nat → Option (List α)
  | [] => some []
  | o :: os => match read o, readAll read os with
    | some x, some xs => some (x :: xs)
    | _, _ => none

/-- A register or cluster as it stands; the second argument is fuel. -/
def readRC (h : Heap) : Nat → Nat → Option IRC
  | 0, _ => none
  | f + 1, o => match h.head o with
    | some (.reg r) => (readAll (readField h) (h.kids o)).map (IRC.reg r)
    | some (.clu c) => (readAll (readRC h f) (h.kids o)).map (IRC.clu c)
    | _ => none

/-- A peripheral as it stands. -/
def readPeripheral (h : Heap) (fuel : Nat) (o : Nat) : Option IPeripheral :=
  match h.head o with
  | some (.periph p) => (readAll (readRC h fuel) (h.kids o)).map (IPeripheral.mk p)
  | _ => none

/-- process.py:90-134 `_process_device`, with objects. -/
def processDeviceH (ord : List Nat → List Nat) (fuel : Nat) (d : SDevice) : M Device :=
  M.bind (wrapResolve (resolvePeripheralsH ord fuel d)) fun (os, h, n) =>
  M.bind (eachObj (inheritPeripheralH n (deviceHead d.hd).props.toProps) h os) fun h1 =>
  match readAll (readPeripheral h1 n) os with
  | none => M.throw .outOfFuel
  | some ps => validateAndFinalize { hd := deviceHead d.hd, peripherals := ps }

end Svd
