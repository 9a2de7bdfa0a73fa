import Verif.Model.Resolver
/-
The log of the resolver: /repo/src/svdsuite/resolve/logger.py, /repo/src/svdsuite/util/html_generator.py, and the resolver
with the calls of the logger: /repo/src/svdsuite/resolve/resolver.py.
-/
namespace Svd

open Graph

/-! ### graph.py: what is drawn -/

/-- graph.py:354-376: the index and the attributes of a node for graphviz. -/
structure DrawnNode where
  index : Nat
  label : Str
  color : Str
  fontcolor : Str
  deriving DecidableEq

/-- graph.py:376-386: the ends and the attribute of an edge for graphviz. -/
structure DrawnEdge where
  src : Nat
  dst : Nat
  color : Str
  deriving DecidableEq

structure Picture where
  nodes : List DrawnNode
  edges : List DrawnEdge
  deriving DecidableEq

/-- graph_elements.py:9-15 `ElementLevel`: the values. -/
def Level.val : Level → Str
  | .device => s%"Device"
  | .peripheral => s%"Peripheral"
  | .cluster => s%"Cluster"
  | .register => s%"Register"
  | .field => s%"Field"
  | .enumcont => s%"Enum"

/-- graph.py:353-374 `node_attr_fn`. -/
def drawNode (i : Nat) : Node → DrawnNode
  | .elem e =>
    if e.level = .device then ⟨i, s%"Device", s%"blue", s%"blue"⟩
    else
      let label := match e.name with
        | none => s%"no name\n(" ++ e.level.val ++ s%")\nrx_index: " ++ natStr i
        | some [] => s%"no name\n(" ++ e.level.val ++ s%")\nrx_index: " ++ natStr i
        | some n => n ++ s%"\n(" ++ e.level.val ++ s%")\nrx_index: " ++ natStr i
      let color := if e.isProcessed then s%"blue" else s%"black"
      ⟨i, label, color, color⟩
  | .ph path => ⟨i, path ++ s%"\n(Placeholder)\nrx_index: " ++ natStr i, s%"red", s%"red"⟩

/-- graph.py:376-386 `edge_attr_fn`. -/
def drawEdge (e : Edge) : DrawnEdge :=
  ⟨e.src, e.dst, match e.ty with
    | .childU => s%"black"
    | .childR => s%"blue"
    | .placeholder => s%"red"
    | .derive => s%"green"⟩

/-- graph.py:352-399 `get_svg`: what graphviz is told to draw: the nodes in the order of their indices, the edges (oldest first; rustworkx reuses edge indices, so the order among the edges is a simplification). -/
def picture (g : Graph) : Picture :=
  { nodes := (rangeFrom 0 g.nodes.length).filterMap fun i => (g.node? i).map (drawNode i)
    edges := g.edges.reverse.map drawEdge }

/-- What is not modelled of the log: the drawing by graphviz (graph.py:388-399), the rewriting of the drawing
(html_generator.py:236-253, by lxml), the compression (html_generator.py:259-262, gzip and base64) and the two page
templates (html_generator.py:8-179).  They are arbitrary functions and texts; that they do not fail is a simplification. -/
structure Art where
  svg : Picture → Str
  modify : Str → Nat → Str
  compress : Str → Str
  content : Str
  packer : Str

/-! ### html_generator.py -/

/-- html_generator.py:185-190: the state of an `HTMLGenerator`; `file` is what has been written to the file
(`_html_file_generated` is true exactly if something has been written). -/
structure Doc where
  body : Str := []
  count : Nat := 1
  file : Option Str := none

/-- `self._body_content += …`. -/
def Doc.add (x : Str) (s : Doc) : Doc := { s with body := s.body ++ x }

/-- html_generator.py:201, 204, 207, 223: `f"<t>{text}</t>\n"`. -/
def tagged (t text : Str) : Str := s%"<" ++ t ++ s%">" ++ text ++ s%"</" ++ t ++ s%">\n"

/-- html_generator.py:200-201 `add_h1`. -/
def Doc.addH1 (text : Str) : Doc → Doc := Doc.add (tagged (s%"h1") text)
/-- html_generator.py:203-204 `add_h2`. -/
def Doc.addH2 (text : Str) : Doc → Doc := Doc.add (tagged (s%"h2") text)
/-- html_generator.py:206-207 `add_h3`. -/
def Doc.addH3 (text : Str) : Doc → Doc := Doc.add (tagged (s%"h3") text)
/-- html_generator.py:222-223 `add_paragraph`. -/
def Doc.addParagraph (text : Str) : Doc → Doc := Doc.add (tagged (s%"p") text)
/-- html_generator.py:218-220 `add_scrollable_div_with_description`. -/
def Doc.addDiv (description content : Str) : Doc → Doc :=
  Doc.add (description ++ s%": <div class=\"scrollable-div\">" ++ content ++ s%"</div>\n")

/-- html_generator.py:181-183 `svg_container_template`. -/
def svgTemplate : Str := s%"<div class=\"svg-container\" style=\"width: 100%; height: 60%; border:1px solid black;\">SVG_CONTENT</div>\n"

/-- html_generator.py:194-198 `add_svg`. -/
def Doc.addSvg (A : Art) (svg : Str) (s : Doc) : Doc :=
  { s with body := s.body ++ replaceAll (s%"SVG_CONTENT") (A.modify svg s.count) svgTemplate, count := s.count + 1 }

/-- html_generator.py:255-262 `_compress_with_gzip`; `_svg_pan_zoom_instances` is always empty. -/
def compressed (A : Art) (body : Str) : Str :=
  A.compress (replaceAll (s%"SVG_PAN_ZOOM_INSTANCES") [] (replaceAll (s%"BODY_CONTENT") body A.content))

/-- html_generator.py:225-234 `generate_html_file`. -/
def Doc.generate (A : Art) (s : Doc) : Doc :=
  if s.file.isSome then s else { s with file := some (replaceAll (s%"COMPRESSED_DATA") (compressed A s.body) A.packer) }

/-! ### logger.py -/

/-- logger.py:10-17: the state of a `ResolverLogger`; `active` = there is a path. -/
structure Log where
  active : Bool
  doc : Doc := {}
  round : Nat := 1
  resolved : List Str := []

/-- logger.py:19-26 `_only_execute_if_logging_is_active`. -/
def Log.when (f : Log → Log) (s : Log) : Log := if s.active then f s else s

/-- A call of the HTML generator. -/
def Log.on (f : Doc → Doc) (s : Log) : Log := { s with doc := f s.doc }

/-- logger.py:28-33. -/
def Log.constructedGraph (A : Art) (g : Graph) : Log → Log :=
  Log.when <| Log.on fun s => (((s.addH1 (s%"Initialization")).addH2 (s%"Construct Directed Graph")).addParagraph
    (s%"Graph after construction:")).addSvg A (A.svg (picture g))
/-- logger.py:35-39. -/
def Log.parentChild (A : Art) (g : Graph) : Log → Log :=
  Log.when <| Log.on fun s => ((s.addH2 (s%"Ensure Accurate Parent-Child Relationships for Placeholders")).addParagraph
    (s%"Graph after adding parent-child relationships for placeholders:")).addSvg A (A.svg (picture g))
/-- logger.py:41-43. -/
def Log.repeatingStart : Log → Log := Log.when <| Log.on fun s => s.addH1 (s%"Repeating Steps")
/-- logger.py:45-47. -/
def Log.roundStart : Log → Log := Log.when fun s =>
  { s with doc := s.doc.addH2 (natStr s.round ++ s%". Round"), round := s.round + 1 }
/-- logger.py:49-52. -/
def Log.roundEnd (A : Art) (g : Graph) : Log → Log :=
  Log.when <| Log.on fun s => (s.addParagraph (s%"Graph at end of round:")).addSvg A (A.svg (picture g))
/-- logger.py:54-57. -/
def Log.loopDetected (A : Art) : Log → Log := Log.when <| Log.on fun s => (s.addParagraph (s%"Loop detected")).generate A
/-- logger.py:59-61. -/
def Log.repeatingFinished : Log → Log := Log.when <| Log.on fun s => s.addParagraph (s%"Repeating steps finished successfully")
/-- logger.py:63-65. -/
def Log.resolvedPlaceholder (path : Str) : Log → Log := Log.when fun s => { s with resolved := s.resolved ++ [path] }

/-- `"<br />".join(xs)`. -/
def joinBr : List Str → Str
  | [] => []
  | [x] => x
  | x :: y :: xs => x ++ s%"<br />" ++ joinBr (y :: xs)

/-- logger.py:67-81. -/
def Log.placeholdersFinished (A : Art) (g : Graph) : Log → Log := Log.when fun s =>
  { s with
    doc :=
      let s1 := s.doc.addH3 (s%"Resolve Placeholders")
      if s.resolved = [] then s1.addParagraph (s%"No placeholders resolved in this round")
      else ((s1.addDiv (s%"Resolved placeholders") (joinBr s.resolved)).addParagraph (s%"Graph after resolving placeholders:")).addSvg A (A.svg (picture g))
    resolved := [] }

/-- logger.py:93-95: the line for one node. -/
def nodeLine (g : Graph) (i : Nat) : Str :=
  match g.elem? i with
  | none => []
  | some e => natStr i ++ s%": " ++ (match e.name with
    | none => s%"no name"
    | some [] => s%"no name"
    | some n => n) ++ s%" (" ++ e.level.val ++ s%")"

/-- logger.py:83-99. -/
def Log.processable (g : Graph) (ns : List Nat) : Log → Log :=
  Log.when <| Log.on fun s =>
    let s1 := s.addH3 (s%"Processable Elements")
    if ns = [] then s1.addParagraph (s%"No processable elements found")
    else s1.addDiv (s%"Elements to process (sorted by process order ascending)") (joinBr (ns.map (nodeLine g)))

/-- html_generator.py:191-192 `__del__`: when the resolver is gone. -/
def Log.close (A : Art) : Log → Log := Log.when <| Log.on fun s => s.generate A

/-! ### resolver.py with the calls of the logger -/

/-- A computation with exceptions and warnings that writes to the log; the log stays if there is an exception. -/
def L (α : Type) : Type := Log → M α × Log

def L.pure {α : Type} (a : α) : L α := fun s => (.ok a [], s)
def L.lift {α : Type} (x : M α) : L α := fun s => (x, s)
def L.log (f : Log → Log) : L Unit := fun s => (.ok () [], f s)
def L.bind {α β : Type} (x : L α) (f : α → L β) : L β := fun s =>
  match x s with
  | (.err e, s1) => (.err e, s1)
  | (.ok a w, s1) => match f a s1 with
    | (.err e, s2) => (.err e, s2)
    | (.ok b w', s2) => (.ok b (w ++ w'), s2)

/-- resolver.py:97-103 `_initialization`. -/
def initializationL (A : Art) (d : SDevice) : L Graph :=
  L.bind (L.lift (constructGraph d)) fun g =>
  L.bind (L.log (Log.constructedGraph A g)) fun _ =>
  L.bind (L.lift (ensurePlaceholderParents g g.placeholders)) fun g1 =>
  L.bind (L.log (Log.parentChild A g1)) fun _ => L.pure g1

/-- resolver.py:246-266 `_resolve_placeholder`. -/
def resolvePlaceholderL (g : Graph) (ph : Nat) : L Graph :=
  match g.node? ph with
  | some (.ph path) =>
    L.bind (L.lift (g.placeholderParent ph)) fun par =>
    if !g.isProcessed par then L.pure g
    else
      L.bind (L.lift (g.placeholderChild ph)) fun derived =>
      match g.elem? derived with
      | none => L.lift (M.throw .attributeError)
      | some e =>
        L.bind (L.lift (pathResolving g derived e.level path)) fun o =>
        match o with
        | none => L.pure g
        | some base =>
          let g1 := g.removePlaceholder ph
          L.bind (L.lift (g1.rawAddEdge .cycle base derived .derive)) fun g2 =>
          L.bind (L.log (Log.resolvedPlaceholder path)) fun _ => L.pure g2
  | _ => L.lift (M.throw .keyError)

/-- resolver.py:105-107: the loop of `_resolve_placeholders`. -/
def resolvePlaceholdersL : Graph → List Nat → L Graph
  | g, [] => L.pure g
  | g, ph :: phs => L.bind (resolvePlaceholderL g ph) fun g1 => resolvePlaceholdersL g1 phs

/-- resolver.py:63-81: the main loop; the first number is fuel. -/
def roundsL (A : Art) (ord : List Nat → List Nat) : Nat → Graph → List Nat → L Graph
  | 0, _, _ => L.lift (M.throw .outOfFuel)
  | f + 1, g, prev =>
      L.bind (L.log Log.roundStart) fun _ =>
      L.bind (resolvePlaceholdersL g g.placeholders) fun g1 =>
      L.bind (L.log (Log.placeholdersFinished A g1)) fun _ =>
      let ns := sortedProcessable g1
      L.bind (L.log (Log.processable g1 ns)) fun _ =>
      if ns = [] then L.pure g1
      else if ns = prev then L.bind (L.log (Log.loopDetected A)) fun _ => L.lift (M.throw .loop)
      else
        L.bind (L.lift (processNodes ord g1 ns)) fun g2 =>
        L.bind (L.log (Log.roundEnd A g2)) fun _ => roundsL A ord f g2 ns

/-- resolver.py:58-95 `resolve_peripherals`. -/
def resolvePeripheralsL (A : Art) (ord : List Nat → List Nat) (fuel : Nat) (d : SDevice) : L (List IPeripheral) :=
  L.bind (initializationL A d) fun g0 =>
  L.bind (L.log Log.repeatingStart) fun _ =>
  L.bind (roundsL A ord fuel g0 []) fun g =>
  L.bind (L.log Log.repeatingFinished) fun _ =>
  if g.unprocessed ≠ [] then
    L.bind (L.lift (unresolvedInfo g g.placeholders)) fun _ => L.lift (M.throw .unprocessed)
  else
    L.bind (L.lift (finalizeProcessing g)) fun s =>
    match s.resolved with
    | none => L.lift (M.throw (.resolve 93))
    | some ps => L.pure ps

/-- A run of the resolver with (`active`) or without a log file: the result, and what is in the file when the resolver is gone. -/
def resolveWithLog (A : Art) (active : Bool) (ord : List Nat → List Nat) (fuel : Nat) (d : SDevice) : M (List IPeripheral) × Option Str :=
  let (r, s) := resolvePeripheralsL A ord fuel d { active := active }
  (r, (s.close A).doc.file)

end Svd
