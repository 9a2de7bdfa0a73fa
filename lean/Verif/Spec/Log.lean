import Verif.Model.Log
import Verif.Spec.Content
/-
What the log of the resolver tells: a document of headings, paragraphs, lists and drawings.
-/
namespace Svd.Spec

/-- What the kinds of elements are called in the log. -/
def kindName : Level → Str
  | .device => s%"Device"
  | .peripheral => s%"Peripheral"
  | .cluster => s%"Cluster"
  | .register => s%"Register"
  | .field => s%"Field"
  | .enumcont => s%"Enum"

/-- A name as it is shown. -/
def shown : Option Str → Str
  | some (c :: n) => c :: n
  | _ => s%"no name"

/-- How a node is drawn: the device and processed elements blue, unprocessed elements black, references red. -/
def nodePicture (i : Nat) : Node → DrawnNode
  | .elem ⟨_, .device, _, _, _, _⟩ => ⟨i, s%"Device", s%"blue", s%"blue"⟩
  | .elem ⟨name, kind, true, _, _, _⟩ => ⟨i, shown name ++ s%"\n(" ++ kindName kind ++ s%")\nrx_index: " ++ natStr i, s%"blue", s%"blue"⟩
  | .elem ⟨name, kind, false, _, _, _⟩ => ⟨i, shown name ++ s%"\n(" ++ kindName kind ++ s%")\nrx_index: " ++ natStr i, s%"black", s%"black"⟩
  | .ph path => ⟨i, path ++ s%"\n(Placeholder)\nrx_index: " ++ natStr i, s%"red", s%"red"⟩

/-- How an edge is drawn. -/
def edgeColor : EdgeT → Str
  | .childU => s%"black"
  | .childR => s%"blue"
  | .placeholder => s%"red"
  | .derive => s%"green"

/-- The picture of a graph: every node and every edge. -/
def pictureOf (g : Graph) : Picture where
  nodes := (List.range g.nodes.length).filterMap fun i => (g.node? i).map (nodePicture i)
  edges := (g.edges.map fun e => ⟨e.src, e.dst, edgeColor e.ty⟩).reverse

/-- One entry of the log. -/
inductive Entry
  | head (n : Nat) (text : Str)
  | para (text : Str)
  | listing (title : Str) (items : List Str)
  | drawing (g : Graph)

/-- The items, with a line break between them. -/
def lines : List Str → Str
  | [] => []
  | x :: xs => x ++ (xs.map (s%"<br />" ++ ·)).flatten

/-- The HTML text of an entry; `k` is the number of the next drawing. -/
def Entry.text (A : Art) (k : Nat) : Entry → Str
  | .head n t => s%"<h" ++ natStr n ++ s%">" ++ t ++ s%"</h" ++ natStr n ++ s%">\n"
  | .para t => s%"<p>" ++ t ++ s%"</p>\n"
  | .listing t is => t ++ s%": <div class=\"scrollable-div\">" ++ lines is ++ s%"</div>\n"
  | .drawing g => s%"<div class=\"svg-container\" style=\"width: 100%; height: 60%; border:1px solid black;\">" ++
      A.modify (A.svg (pictureOf g)) k ++ s%"</div>\n"

/-- The text of a document: the entries in order, the drawings numbered from `k`. -/
def docText (A : Art) : Nat → List Entry → Str
  | _, [] => []
  | k, .drawing g :: es => Entry.text A k (.drawing g) ++ docText A (k + 1) es
  | k, e :: es => Entry.text A k e ++ docText A k es

/-- The file for a document: its text in the first template, compressed, in the second template. -/
def page (A : Art) (es : List Entry) : Str :=
  replaceAll (s%"COMPRESSED_DATA")
    (A.compress (replaceAll (s%"SVG_PAN_ZOOM_INSTANCES") [] (replaceAll (s%"BODY_CONTENT") (docText A 1 es) A.content))) A.packer

/-- The line for an element. -/
def line (k : Nat) (name : Option Str) (kind : Level) : Str :=
  natStr k ++ s%": " ++ shown name ++ s%" (" ++ kindName kind ++ s%")"

/-- The name in a declaration; enumeratedValues may have none. -/
def declName : Parsed → Option Str
  | .device => none
  | .periph p => some p.name
  | .clu p => some p.name
  | .reg p => some p.name
  | .field p => some p.name
  | .enum p => p.name

/-- The lines for elements of a graph. -/
inductive LinesOf (g : Graph) : List Nat → List Str → Prop
  | nil : LinesOf g [] []
  | cons {k : Nat} {ks : List Nat} {e : ElemNode} {ls : List Str} (he : g.elem? k = some e) (h : LinesOf g ks ls) :
      LinesOf g (k :: ks) (line k e.name e.level :: ls)

/-- Trying the references one after the other leads from `g` to `g'`; the paths of those that could be followed, in this order. -/
inductive Followed : Graph → List Nat → List Str → Graph → Prop
  | nil (g : Graph) : Followed g [] [] g
  | left {g g' : Graph} {ph : Nat} {phs : List Nat} {paths : List Str} {w : List Warn} (hr : resolvePlaceholder g ph = .ok g w)
      (h : Followed g phs paths g') : Followed g (ph :: phs) paths g'
  | took {g g1 g' : Graph} {ph : Nat} {phs : List Nat} {path : Str} {paths : List Str} {w : List Warn}
      (hp : g.node? ph = some (.ph path)) (hr : resolvePlaceholder g ph = .ok g1 w) (hg : g1.node? ph = none)
      (h : Followed g1 phs paths g') : Followed g (ph :: phs) (path :: paths) g'

/-- What is told of the references followed in a round. -/
def followedEntries (g : Graph) : List Str → List Entry
  | [] => [.head 3 (s%"Resolve Placeholders"), .para (s%"No placeholders resolved in this round")]
  | p :: ps => [.head 3 (s%"Resolve Placeholders"), .listing (s%"Resolved placeholders") (p :: ps),
      .para (s%"Graph after resolving placeholders:"), .drawing g]

def roundHead (k : Nat) : Entry := .head 2 (natStr k ++ s%". Round")

def toProcess (ls : List Str) : List Entry :=
  [.head 3 (s%"Processable Elements"), .listing (s%"Elements to process (sorted by process order ascending)") ls]

/-- The lines in the lists of elements to process. -/
def offer : Entry → List Str
  | .listing t ls => if t = s%"Elements to process (sorted by process order ascending)" then ls else []
  | _ => []

def offered (es : List Entry) : List Str := es.flatMap offer

def nothingToProcess : List Entry := [.head 3 (s%"Processable Elements"), .para (s%"No processable elements found")]

/-- `Rounds ord k g prev es g'`: from round `k` on, beginning with `g`, the elements are processed up to `g'`, and `es` is told. -/
inductive Rounds (ord : List Nat → List Nat) : Nat → Graph → List Nat → List Entry → Graph → Prop
  | last {k : Nat} {g g1 : Graph} {prev : List Nat} {paths : List Str} (hf : Followed g g.placeholders paths g1)
      (hn : sortedProcessable g1 = []) :
      Rounds ord k g prev (roundHead k :: followedEntries g1 paths ++ nothingToProcess) g1
  | more {k : Nat} {g g1 g2 g' : Graph} {prev : List Nat} {paths ls : List Str} {es : List Entry} {w : List Warn}
      (hf : Followed g g.placeholders paths g1) (hne : sortedProcessable g1 ≠ []) (hp : sortedProcessable g1 ≠ prev)
      (hl : LinesOf g1 (sortedProcessable g1) ls) (hr : processNodes ord g1 (sortedProcessable g1) = .ok g2 w)
      (h : Rounds ord (k + 1) g2 (sortedProcessable g1) es g') :
      Rounds ord k g prev (roundHead k :: followedEntries g1 paths ++ toProcess ls ++
        [.para (s%"Graph at end of round:"), .drawing g2] ++ es) g'

/-- From round `k` on, beginning with `g`, the elements are processed up to a failure with `x`, and `es` is told: either a reference
cannot be followed, or one of the elements listed last cannot be processed. -/
inductive FailsTelling (ord : List Nat → List Nat) (x : Exn) : Nat → Graph → List Nat → List Entry → Prop
  | follow {k : Nat} {g : Graph} {prev : List Nat} (hf : resolvePlaceholders g g.placeholders = .err x) : FailsTelling ord x k g prev [roundHead k]
  | process {k : Nat} {g g1 : Graph} {prev : List Nat} {paths ls : List Str} (hf : Followed g g.placeholders paths g1)
      (hne : sortedProcessable g1 ≠ []) (hl : LinesOf g1 (sortedProcessable g1) ls) (hr : processNodes ord g1 (sortedProcessable g1) = .err x) :
      FailsTelling ord x k g prev (roundHead k :: followedEntries g1 paths ++ toProcess ls)
  | more {k : Nat} {g g1 g2 : Graph} {prev : List Nat} {paths ls : List Str} {es : List Entry} {w : List Warn}
      (hf : Followed g g.placeholders paths g1) (hne : sortedProcessable g1 ≠ []) (hp : sortedProcessable g1 ≠ prev)
      (hl : LinesOf g1 (sortedProcessable g1) ls) (hr : processNodes ord g1 (sortedProcessable g1) = .ok g2 w)
      (h : FailsTelling ord x (k + 1) g2 (sortedProcessable g1) es) :
      FailsTelling ord x k g prev (roundHead k :: followedEntries g1 paths ++ toProcess ls ++
        [.para (s%"Graph at end of round:"), .drawing g2] ++ es)

/-- What is told before the rounds. -/
def intro (g g0 : Graph) : List Entry :=
  [.head 1 (s%"Initialization"), .head 2 (s%"Construct Directed Graph"), .para (s%"Graph after construction:"), .drawing g,
   .head 2 (s%"Ensure Accurate Parent-Child Relationships for Placeholders"),
   .para (s%"Graph after adding parent-child relationships for placeholders:"), .drawing g0, .head 1 (s%"Repeating Steps")]

/-- The graph that is drawn last. -/
def lastDrawing : List Entry → Option Graph
  | [] => none
  | .drawing g :: es => (lastDrawing es).or (some g)
  | _ :: es => lastDrawing es

end Svd.Spec
