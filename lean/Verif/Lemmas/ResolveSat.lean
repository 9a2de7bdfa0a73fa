import Verif.Lemmas.Sat
import Verif.Model.Pipeline
/-
Which warnings and exceptions the resolution phase can produce.
-/
namespace Svd
open M

/-- The warnings of the resolution phase. -/
def ResolveWarn : Warn → Prop
  | .bitRangeReversed _ | .msbLtLsb _ | .dimWithoutMarker _ => True
  | .enumReserved | .enumDuplicateName _ | .enumDuplicateValue _ _ | .enumDefaultHasValue _ _ => True
  | _ => False

/-- The exceptions of the resolution phase. -/
def ResolveErr : Exn → Prop
  | .process .invalidBitRange | .process .noFieldPosition | .process .dimNoneName | .process .dimNoneDisplayName => True
  | .process .dimLtOne | .process .fieldDimArray | .process .peripheralDimList | .process .dimNoMarker => True
  | .process .dimIndexOrder | .process .dimIndexUnresolvable | .process .dimIndexCount => True
  | .process .displayNameList | .process .displayNameArray | .process .enumFormat | .process .enumValueError => True
  | .process .multipleDefaults => True
  | .resolve _ | .enumContainer | .loop | .cycle | .unprocessed | .resolverGraph _ | .dagWouldCycle | .noEdge => True
  | .keyError | .valueError | .typeError | .attributeError | .outOfFuel => True
  | _ => False

abbrev RSat {α : Type} (x : M α) : Prop := Sat ResolveErr ResolveWarn x

/-- The same without `loop` and without running out of fuel. -/
def CErr : Exn → Prop
  | .loop | .outOfFuel => False
  | .process .invalidBitRange | .process .noFieldPosition | .process .dimNoneName | .process .dimNoneDisplayName => True
  | .process .dimLtOne | .process .fieldDimArray | .process .peripheralDimList | .process .dimNoMarker => True
  | .process .dimIndexOrder | .process .dimIndexUnresolvable | .process .dimIndexCount => True
  | .process .displayNameList | .process .displayNameArray | .process .enumFormat | .process .enumValueError => True
  | .process .multipleDefaults => True
  | .resolve _ | .enumContainer | .cycle | .unprocessed | .resolverGraph _ | .dagWouldCycle | .noEdge => True
  | .keyError | .valueError | .typeError | .attributeError => True
  | _ => False

abbrev CSat {α : Type} (x : M α) : Prop := Sat CErr ResolveWarn x

/-- The same without running out of fuel and without the exceptions about references that cannot be followed. -/
def NErr : Exn → Prop
  | .loop | .outOfFuel | .cycle | .unprocessed | .resolve 134 | .resolve 137 | .resolve 472 => False
  | .process .invalidBitRange | .process .noFieldPosition | .process .dimNoneName | .process .dimNoneDisplayName => True
  | .process .dimLtOne | .process .fieldDimArray | .process .peripheralDimList | .process .dimNoMarker => True
  | .process .dimIndexOrder | .process .dimIndexUnresolvable | .process .dimIndexCount => True
  | .process .displayNameList | .process .displayNameArray | .process .enumFormat | .process .enumValueError => True
  | .process .multipleDefaults => True
  | .resolve _ | .enumContainer | .resolverGraph _ | .dagWouldCycle | .noEdge => True
  | .keyError | .valueError | .typeError | .attributeError => True
  | _ => False

abbrev NSat {α : Type} (x : M α) : Prop := Sat NErr ResolveWarn x

theorem sat_mono {α : Type} {E E' : Exn → Prop} {W : Warn → Prop} {x : M α} (h : Sat E W x) (hE : ∀ e, E e → E' e) : Sat E' W x := by
  cases x with
  | ok a w => exact h
  | err e => exact hE e h

theorem CErr.resolve {e : Exn} (h : CErr e) : ResolveErr e := by
  cases e with
  | process p => cases p <;> exact h
  | _ => first | exact h | trivial

theorem CErr.ne {e : Exn} (h : CErr e) : e ≠ .loop ∧ e ≠ .outOfFuel := by
  constructor <;> rintro rfl <;> exact h

theorem NErr.c {e : Exn} (h : NErr e) : CErr e := by
  cases e with
  | process p => cases p <;> exact h
  | _ => first | exact h | trivial

theorem NErr.resolve {e : Exn} (h : NErr e) : ResolveErr e := by
  cases e with
  | process p => cases p <;> exact h
  | _ => first | exact h | trivial

theorem NErr.ne {e : Exn} (h : NErr e) : e ≠ .loop ∧ e ≠ .outOfFuel := by
  constructor <;> rintro rfl <;> exact h

theorem CSat.r {α : Type} {x : M α} (h : CSat x) : RSat x := sat_mono h fun _ => CErr.resolve
theorem NSat.c {α : Type} {x : M α} (h : NSat x) : CSat x := sat_mono h fun _ => NErr.c
theorem NSat.r {α : Type} {x : M α} (h : NSat x) : RSat x := sat_mono h fun _ => NErr.resolve

/-- Unfold local definitions and matches on constructors. -/
macro "progress_dsimp" : tactic => `(tactic| dsimp only)
/-- One step of the analysis of monadic code. -/
macro "sat1" : tactic => `(tactic| first
  | assumption
  | exact sat_pure _
  | (refine sat_throw ?_; exact trivial)
  | (refine sat_warn ?_; exact trivial)
  | (refine sat_warnIf fun _ => ?_; exact trivial)
  | (refine sat_ofOption fun _ => ?_; exact trivial)
  | refine sat_bind ?_ (fun _ => ?_)
  | (progress_dsimp)
  | split)
macro "sats" : tactic => `(tactic| repeat' sat1)

theorem rsat_convert (s : Str) : NSat (convertEnumValue s) := by unfold convertEnumValue; sats
theorem rsat_resolveOne (p : SEnumValue) (v : Option Int) : NSat (resolveOne p v) := by
  unfold resolveOne; sats
theorem rsat_resolveWildcard (p : SEnumValue) : NSat (resolveWildcard p) := by
  unfold resolveWildcard
  have := rsat_convert
  refine sat_bind ?_ fun _ => sat_filterMapM fun x _ => rsat_resolveOne _ _
  sats
  exact this _
theorem rsat_isValueValid (st : EVState) (v : IEnumValue) : NSat (isValueValid st v) := by
  unfold isValueValid; sats
theorem rsat_validateLoop (acc : EVState × List IEnumValue) (ps : List SEnumValue) : NSat (validateLoop acc ps) := by
  refine sat_foldM fun b p _ => sat_bind (rsat_resolveWildcard p) fun vs => sat_foldM fun b v _ => ?_
  exact sat_bind (rsat_isValueValid _ _) fun _ => sat_pure _
theorem rsat_processEnumValues (ps : List SEnumValue) (l m : Int) : NSat (processEnumValues ps l m) := by
  refine sat_bind (rsat_validateLoop _ _) fun ⟨st, evs⟩ => sat_bind ?_ fun _ => sat_pure _
  try dsimp only
  split
  · unfold extendDefault; sats
  · sats
theorem rsat_createContainer (p : SEnumContainer) (l m : Int) : NSat (createContainer p l m) :=
  sat_bind (rsat_processEnumValues _ _ _) fun _ => sat_pure _

theorem rsat_dimIndexList (n : Int) (s : Option Str) : NSat (dimIndexList n s) := by unfold dimIndexList; sats
theorem rsat_processDimIndex (n : Int) (s : Option Str) : NSat (processDimIndex n s) := by
  have := rsat_dimIndexList n s
  unfold processDimIndex; sats
theorem rsat_processDim (name : Str) (disp : Option Str) (dim : Option Int) (di : Option Str) (ty : Level) :
    NSat (processDim name disp dim di ty) := by
  have := fun n => rsat_processDimIndex n di
  unfold processDim processDimArray processDimList
  sats
  exact this _
theorem rsat_extractDim (ty : Level) (name : Str) (pd : SDim) (pdisp : Option Str) (bd : Option IDim)
    (bdisp : Option Str) : NSat (extractDim ty name pd pdisp bd bdisp) := by
  have := rsat_processDim name
  unfold extractDim
  sats
  all_goals exact this _ _ _ _

theorem rsat_bitRangePos (r : Str) : NSat (bitRangePos r) := by unfold bitRangePos; sats
theorem rsat_fieldMsbLsb (p : SField) (b : Option IFieldHd) : NSat (fieldMsbLsb p b) := by
  have := rsat_bitRangePos
  unfold fieldMsbLsb
  sats
  exact this _
theorem rsat_processField (i : Nat) (n : Str) (p : SField) (b : Option IFieldHd) : NSat (processField i n p b) :=
  sat_bind (rsat_fieldMsbLsb _ _) fun _ => sat_pure _
theorem rsat_extractDimOf (p : Parsed) (b : Option Processed) : NSat (extractDimOf p b) := by
  unfold extractDimOf
  cases p <;> first | exact rsat_extractDim _ _ _ _ _ _ | sats
theorem rsat_createDimable (i : Nat) (n : Str) (dn : Option Str) (p : Parsed) (b : Option Processed) :
    NSat (createDimable i n dn p b) := by
  unfold createDimable
  split <;> first | exact sat_bind (rsat_processField _ _ _ _) fun _ => sat_pure _ | sats
theorem rsat_createAll (p : Parsed) (b : Option Processed) (i : Nat) (ns : List Str) (ds : List (Option Str)) :
    NSat (createAll p b i ns ds) := by
  induction ns generalizing i ds with
  | nil => cases ds <;> exact sat_pure _
  | cons n ns ih =>
    cases ds with
    | nil => exact sat_pure _
    | cons d ds => exact sat_bind (rsat_createDimable _ _ _ _ _) fun _ => sat_bind (ih _ _) fun _ => sat_pure _

/-! ### graph operations -/

theorem rsat_rawAddEdge (g : Graph) {x : Exn} (hx : NErr x) (a b : Nat) (ty : EdgeT) :
    NSat (g.rawAddEdge x a b ty) := by
  unfold Graph.rawAddEdge
  split
  · exact sat_throw hx
  · exact sat_pure _
theorem rsat_addEdge (g : Graph) (a b : Nat) (ty : EdgeT) : NSat (g.addEdge a b ty) := rsat_rawAddEdge (x := .resolverGraph 42) g trivial _ _ _
theorem rsat_addElementChild (g : Graph) (p : Nat) (e : ElemNode) (ty : EdgeT) : NSat (g.addElementChild p e ty) :=
  sat_bind (rsat_rawAddEdge (x := .dagWouldCycle) _ trivial _ _ _) fun _ => sat_pure _
theorem rsat_addPlaceholder (g : Graph) (p : Str) (i : Nat) : NSat (g.addPlaceholder p i) :=
  sat_bind (rsat_rawAddEdge (x := .dagWouldCycle) _ trivial _ _ _) fun _ => sat_pure _
theorem rsat_addChildToGraph (g : Graph) (p : Nat) (e : ElemNode) : NSat (addChildToGraph g p e) := by
  unfold addChildToGraph
  refine sat_bind (rsat_addElementChild _ _ _ _) fun _ => ?_
  dsimp only
  split
  · exact sat_pure _
  · exact sat_bind (rsat_addPlaceholder _ _ _) fun _ => sat_pure _
theorem rsat_constrEnums (p : Nat) (g : Graph) (cs : List SEnumContainer) : NSat (constrEnums p g cs) := by
  induction cs generalizing g with
  | nil => exact sat_pure _
  | cons c cs ih => exact sat_bind (rsat_addChildToGraph _ _ _) fun _ => ih _
theorem rsat_constrFields (p : Nat) (g : Graph) (fs : List SField) : NSat (constrFields p g fs) := by
  induction fs generalizing g with
  | nil => exact sat_pure _
  | cons c cs ih =>
    exact sat_bind (rsat_addChildToGraph _ _ _) fun _ => sat_bind (rsat_constrEnums _ _ _) fun _ => ih _
mutual
theorem rsat_constrRC (p : Nat) (g : Graph) (x : SRC) : NSat (constrRC p g x) := by
  match x with
  | .reg r => rw [constrRC]; exact sat_bind (rsat_addChildToGraph _ _ _) fun _ => rsat_constrFields _ _ _
  | .clu c ch => rw [constrRC]; exact sat_bind (rsat_addChildToGraph _ _ _) fun _ => rsat_constrRCs _ _ ch
theorem rsat_constrRCs (p : Nat) (g : Graph) (xs : List SRC) : NSat (constrRCs p g xs) := by
  match xs with
  | [] => rw [constrRCs]; exact sat_pure _
  | x :: xs => rw [constrRCs]; exact sat_bind (rsat_constrRC _ _ x) fun _ => rsat_constrRCs _ _ xs
end
theorem rsat_constrPeripherals (p : Nat) (g : Graph) (ps : List SPeriphT) : NSat (constrPeripherals p g ps) := by
  induction ps generalizing g with
  | nil => exact sat_pure _
  | cons c cs ih =>
    exact sat_bind (rsat_addChildToGraph _ _ _) fun _ => sat_bind (rsat_constrRCs _ _ _) fun _ => ih _
theorem rsat_coParent (g : Graph) (ph : Nat) : NSat (g.placeholderCoParent ph) := by
  unfold Graph.placeholderCoParent; sats
theorem rsat_ensure (g : Graph) (phs : List Nat) : NSat (ensurePlaceholderParents g phs) := by
  induction phs generalizing g with
  | nil => exact sat_pure _
  | cons c cs ih =>
    refine sat_bind (rsat_coParent _ _) fun o => sat_bind ?_ fun _ => ih _
    cases o with
    | none => exact sat_pure _
    | some p => exact rsat_addEdge _ _ _ _
theorem rsat_initialization (d : SDevice) : NSat (initialization d) :=
  sat_bind (rsat_constrPeripherals _ _ _) fun _ => rsat_ensure _ _

theorem rsat_addEdges (g : Graph) (es : List Edge) : NSat (g.addEdges es) := by
  induction es generalizing g with
  | nil => exact sat_pure _
  | cons e es ih => exact sat_bind (rsat_rawAddEdge (x := .dagWouldCycle) _ trivial _ _ _) fun _ => ih _
theorem rsat_replicateNodes (g : Graph) (m : List (Nat × Nat)) (is : List Nat) : NSat (g.replicateNodes m is) := by
  induction is generalizing g m with
  | nil => exact sat_pure _
  | cons i is ih =>
    rw [Graph.replicateNodes]
    split
    · exact sat_throw trivial
    · exact ih _ _
theorem rsat_replicateEdges (m : List (Nat × Nat)) (sel : List Nat) (g : Graph) (is : List Nat) :
    NSat (Graph.replicateEdges m sel g is) := by
  induction is generalizing g with
  | nil => exact sat_pure _
  | cons e es ih => exact sat_bind (rsat_addEdges _ _) fun _ => sat_bind (rsat_addEdges _ _) fun _ => ih _
theorem rsat_replicate (ord : List Nat → List Nat) (g : Graph) (a b : Nat) : NSat (g.replicateDescendants ord a b) :=
  sat_bind (rsat_replicateNodes _ _ _) fun _ => sat_bind (rsat_replicateEdges _ _ _ _) fun _ => rsat_addEdges _ _
theorem rsat_adoptBase (ord : List Nat → List Nat) (g : Graph) (i : Nat) (b : Option Nat) :
    NSat (adoptBase ord g i b) := by
  cases b with
  | none => exact sat_pure _
  | some b =>
    refine sat_bind ?_ fun _ => rsat_replicate _ _ _ _
    unfold Graph.removeEdge; sats
theorem rsat_updateNode (ord : List Nat → List Nat) (g : Graph) (i : Nat) (b : Option Nat) (p : Processed) (t : Bool) :
    NSat (updateNode ord g i b p t) := by
  refine sat_bind (rsat_adoptBase _ _ _ _) fun _ => ?_
  sats
theorem rsat_addInstances (l : Level) (p : Parsed) (g : Graph) (xs : List (Nat × Processed)) :
    NSat (addInstances l p g xs) := by
  induction xs generalizing g with
  | nil => exact sat_pure _
  | cons x xs ih =>
    exact sat_bind (rsat_addElementChild _ _ _ _) fun _ => sat_bind (ih _) fun _ => sat_pure _
theorem rsat_linkChildren (j : Nat) (g : Graph) (cs : List Nat) : NSat (linkChildren j g cs) := by
  induction cs generalizing g with
  | nil => exact sat_pure _
  | cons x xs ih => exact sat_bind (rsat_addEdge _ _ _ _) fun _ => ih _
theorem rsat_linkInstances (j : Nat) (g : Graph) (cs : List Nat) : NSat (linkInstances j g cs) := by
  induction cs generalizing g with
  | nil => exact sat_pure _
  | cons x xs ih => exact sat_bind (rsat_linkChildren _ _ _) fun _ => ih _
theorem rsat_updateDimNode (ord : List Nat → List Nat) (g : Graph) (i : Nat) (b : Option Nat) (xs : List Processed)
    (t : Processed) : NSat (updateDimNode ord g i b xs t) := by
  refine sat_bind (rsat_updateNode _ _ _ _ _ _) fun _ => ?_
  split
  · exact sat_throw trivial
  · exact sat_bind (rsat_addInstances _ _ _ _) fun _ => rsat_linkInstances _ _ _
theorem rsat_processDimable (ord : List Nat → List Nat) (g : Graph) (i : Nat) (p : Parsed) (bn : Option Nat)
    (b : Option Processed) : NSat (processDimable ord g i p bn b) := by
  refine sat_bind (rsat_extractDimOf _ _) fun _ => sat_bind (rsat_createAll _ _ _ _ _) fun xs => ?_
  cases xs with
  | nil => exact sat_throw trivial
  | cons x xs =>
    dsimp only
    split
    · exact rsat_updateDimNode _ _ _ _ _ _
    · exact rsat_updateNode _ _ _ _ _ _
theorem rsat_processEnumNode (ord : List Nat → List Nat) (g : Graph) (i : Nat) (bn : Option Nat) :
    NSat (processEnumNode ord g i bn) := by
  unfold processEnumNode
  split
  · exact sat_throw trivial
  · refine sat_bind (rsat_adoptBase _ _ _ _) fun _ => ?_
    sats
theorem rsat_processNode (ord : List Nat → List Nat) (g : Graph) (i : Nat) : CSat (processNode ord g i) := by
  unfold processNode
  split
  · exact sat_throw trivial
  · split
    · exact sat_throw trivial
    · refine sat_bind ?_ fun _ => ?_
      · split
        · exact sat_pure _
        · refine sat_bind ?_ fun _ => ?_
          · unfold derivedFromBase; sats
          · sats
      · dsimp only
        split
        · exact (rsat_processEnumNode _ _ _ _).c
        · exact (rsat_processDimable _ _ _ _ _ _).c
theorem rsat_processNodes (ord : List Nat → List Nat) (g : Graph) (is : List Nat) : CSat (processNodes ord g is) := by
  induction is generalizing g with
  | nil => exact sat_pure _
  | cons x xs ih => exact sat_bind (rsat_processNode _ _ _) fun _ => ih _

theorem rsat_filterAlternates (g : Graph) (is : List Nat) : NSat (filterAlternates g is) := by
  induction is with
  | nil => exact sat_pure _
  | cons i is ih =>
    rw [filterAlternates]
    sats
theorem rsat_searchGo (g : Graph) (ex : Nat) (part : Str) (sub : Nat → M (List Nat)) (hs : ∀ n, NSat (sub n))
    (ms ns : List Nat) : NSat (searchGo g ex part sub ms ns) := by
  induction ns generalizing ms with
  | nil => exact sat_pure _
  | cons n ns ih =>
    rw [searchGo]
    split
    · exact ih _
    · split
      · exact ih _
      · refine sat_bind (hs _) fun cs => ?_
        split
        · refine sat_bind (rsat_filterAlternates _ _) fun _ => ?_
          sats
        · exact ih _
theorem rsat_searchNodes (g : Graph) (ex : Nat) (lvl : Level) (parts : List Str) (ns : List Nat) :
    NSat (searchNodes g ex lvl parts ns) := by
  induction parts generalizing ns with
  | nil => exact sat_pure _
  | cons p ps ih =>
    rw [searchNodes]
    refine rsat_searchGo _ _ _ _ (fun n => ?_) _ _
    split
    · exact sat_pure _
    · exact ih _
theorem rsat_pathResolving (g : Graph) (i : Nat) (lvl : Level) (p : Str) : NSat (pathResolving g i lvl p) := by
  unfold pathResolving
  refine sat_bind (rsat_searchNodes _ _ _ _ _) fun m1 => ?_
  split
  · exact sat_pure _
  · refine sat_bind (rsat_searchNodes _ _ _ _ _) fun m2 => ?_
    sats
theorem rsat_placeholderChild (g : Graph) (ph : Nat) : NSat (g.placeholderChild ph) := by
  unfold Graph.placeholderChild; sats
theorem rsat_placeholderParent (g : Graph) (ph : Nat) : NSat (g.placeholderParent ph) := by
  unfold Graph.placeholderParent; sats
theorem rsat_resolvePlaceholder (g : Graph) (ph : Nat) : CSat (resolvePlaceholder g ph) := by
  unfold resolvePlaceholder
  split
  · refine sat_bind (rsat_placeholderParent _ _).c fun _ => ?_
    split
    · exact sat_pure _
    · refine sat_bind (rsat_placeholderChild _ _).c fun _ => ?_
      split
      · exact sat_throw trivial
      · refine sat_bind (rsat_pathResolving _ _ _ _).c fun o => ?_
        cases o with
        | none => exact sat_pure _
        | some b => exact (by unfold Graph.rawAddEdge; sats)
  · exact sat_throw trivial
theorem rsat_resolvePlaceholders (g : Graph) (phs : List Nat) : CSat (resolvePlaceholders g phs) := by
  induction phs generalizing g with
  | nil => exact sat_pure _
  | cons x xs ih => exact sat_bind (rsat_resolvePlaceholder _ _) fun _ => ih _
theorem rsat_rounds (ord : List Nat → List Nat) (f : Nat) (g : Graph) (prev : List Nat) : RSat (rounds ord f g prev) := by
  induction f generalizing g prev with
  | zero => exact sat_throw trivial
  | succ f ih =>
    rw [rounds]
    refine sat_bind (rsat_resolvePlaceholders _ _).r fun g1 => ?_
    dsimp only
    split
    · exact sat_pure _
    · split
      · exact sat_throw trivial
      · exact sat_bind (rsat_processNodes _ _ _).r fun _ => ih _ _

/-! ### finalisation of the resolution -/

theorem rsat_procOf (g : Graph) (i : Nat) : NSat (procOf g i) := by unfold procOf; sats
theorem rsat_templateOf (g : Graph) (i : Nat) : NSat (templateOf g i) := by unfold templateOf; sats
theorem rsat_collect {α : Type} (s : FinState) (pick : Nat → Processed → M α) (hp : ∀ i p, NSat (pick i p))
    (cs : List Nat) : NSat (collect s pick cs) := by
  refine sat_filterMapM fun i _ => sat_bind (rsat_templateOf _ _) fun t => ?_
  split
  · exact sat_pure _
  · exact sat_bind (rsat_procOf _ _) fun _ => sat_bind (hp _ _) fun _ => sat_pure _
theorem rsat_parentSize (g : Graph) (f i : Nat) : RSat (parentSize g f i) := by
  induction f generalizing i with
  | zero => exact sat_throw trivial
  | succ f ih =>
    rw [parentSize]
    split
    · exact sat_pure _
    · split
      · exact sat_pure _
      · refine sat_bind (rsat_procOf _ _).r fun x => ?_
        cases x <;> dsimp only <;> first | exact sat_throw trivial | (split <;> first | exact sat_pure _ | exact ih _)
theorem rsat_childSize {g : Graph} (hps : ∀ i, NSat (parentSize g (g.nodes.length + 1) i)) (i : Nat) : NSat (childSize g i) := by
  unfold childSize
  refine sat_bind (rsat_procOf _ _) fun p => sat_bind ?_ fun s => sat_bind (rsat_templateOf _ _) fun t => ?_
  · sats
  · split
    · exact sat_pure _
    · split
      · exact sat_pure _
      · exact sat_bind (hps _) fun _ => sat_pure _
theorem rsat_calculateSize {g : Graph} (hps : ∀ i, NSat (parentSize g (g.nodes.length + 1) i)) (cs : List Nat) : NSat (calculateSize g cs) := by
  refine sat_bind (sat_filterMapM fun i _ => rsat_childSize hps _) fun _ => ?_
  sats
theorem rsat_finalizeContainerNode {s : FinState} (hps : ∀ i, NSat (parentSize s.g (s.g.nodes.length + 1) i)) (i : Nat) (e : ElemNode) (cs : List Nat) :
    NSat (finalizeContainerNode s i e cs) := by
  refine sat_bind (rsat_procOf _ _) fun _ => sat_bind (rsat_calculateSize hps _) fun _ =>
    sat_bind (rsat_collect _ _ (fun i p => ?_) _) fun _ => sat_pure _
  unfold pickRC; sats
theorem rsat_finalizeFieldNode (s : FinState) (i : Nat) (cs : List Nat) : NSat (finalizeFieldNode s i cs) := by
  refine sat_bind (rsat_procOf _ _) fun p => ?_
  split
  · refine sat_bind (sat_mapM fun c _ => ?_) fun _ => ?_
    · split
      · exact sat_throw trivial
      · split
        · exact rsat_createContainer _ _ _
        · exact sat_throw trivial
    · dsimp only; sats
  · exact sat_throw trivial
theorem rsat_finalizeNode {s : FinState} (hps : ∀ i, NSat (parentSize s.g (s.g.nodes.length + 1) i)) (i : Nat) (cs : List Nat) : NSat (finalizeNode s i cs) := by
  unfold finalizeNode
  split
  · exact sat_throw trivial
  · split
    · exact sat_pure _
    · split
      · refine sat_bind (rsat_collect _ _ (fun i p => ?_) _) fun _ => sat_pure _
        unfold pickPeripheral; sats
      · exact rsat_finalizeContainerNode hps _ _ _
      · exact rsat_finalizeContainerNode hps _ _ _
      · refine sat_bind (rsat_procOf _ _) fun _ => sat_bind (rsat_collect _ _ (fun i p => ?_) _) fun _ => sat_pure _
        unfold pickField; sats
      · exact rsat_finalizeFieldNode _ _ _
      · exact sat_throw trivial
theorem rsat_childSize_all {g : Graph} (i : Nat) : RSat (childSize g i) := by
  unfold childSize
  refine sat_bind (rsat_procOf _ _).r fun p => sat_bind ?_ fun s => sat_bind (rsat_templateOf _ _).r fun t => ?_
  · sats
  · split
    · exact sat_pure _
    · split
      · exact sat_pure _
      · exact sat_bind (rsat_parentSize _ _ _) fun _ => sat_pure _
theorem rsat_calculateSize_all {g : Graph} (cs : List Nat) : RSat (calculateSize g cs) := by
  refine sat_bind (sat_filterMapM fun i _ => rsat_childSize_all _) fun _ => ?_
  sats
theorem rsat_finalizeContainerNode_all {s : FinState} (i : Nat) (e : ElemNode) (cs : List Nat) :
    RSat (finalizeContainerNode s i e cs) := by
  refine sat_bind (rsat_procOf _ _).r fun _ => sat_bind (rsat_calculateSize_all _) fun _ =>
    sat_bind (rsat_collect _ _ (fun i p => ?_) _).r fun _ => sat_pure _
  unfold pickRC; sats
theorem rsat_finalizeNode_all {s : FinState} (i : Nat) (cs : List Nat) : RSat (finalizeNode s i cs) := by
  unfold finalizeNode
  split
  · exact sat_throw trivial
  · split
    · exact sat_pure _
    · split
      · refine sat_bind (rsat_collect _ _ (fun i p => ?_) _).r fun _ => sat_pure _
        unfold pickPeripheral; sats
      · exact rsat_finalizeContainerNode_all _ _ _
      · exact rsat_finalizeContainerNode_all _ _ _
      · refine sat_bind (rsat_procOf _ _).r fun _ => sat_bind (rsat_collect _ _ (fun i p => ?_) _).r fun _ => sat_pure _
        unfold pickField; sats
      · exact (rsat_finalizeFieldNode _ _ _).r
      · exact sat_throw trivial
theorem rsat_bottomUp (g0 : Graph) (f : Nat) (q done : List Nat) (s : FinState) : RSat (bottomUp g0 f q done s) := by
  induction f generalizing q done s with
  | zero => cases q <;> first | exact sat_pure _ | exact sat_throw trivial
  | succ f ih =>
    cases q with
    | nil => exact sat_pure _
    | cons i q =>
      rw [bottomUp]
      refine sat_bind ?_ fun _ => ih _ _ _
      split
      · exact sat_pure _
      · exact rsat_finalizeNode_all _ _
theorem rsat_unresolvedInfo (g : Graph) (phs : List Nat) : NSat (unresolvedInfo g phs) := by
  induction phs with
  | nil => exact sat_pure _
  | cons x xs ih => exact sat_bind (rsat_placeholderChild _ _) fun _ => ih

/-- The warnings and exceptions of the resolution phase. -/
theorem rsat_resolvePeripherals (ord : List Nat → List Nat) (fuel : Nat) (d : SDevice) :
    RSat (resolvePeripherals ord fuel d) := by
  unfold resolvePeripherals
  refine sat_bind (rsat_initialization _).r fun g0 => sat_bind (rsat_rounds _ _ _ _) fun g => ?_
  split
  · exact sat_bind (rsat_unresolvedInfo _ _).r fun _ => sat_throw trivial
  · refine sat_bind (rsat_bottomUp _ _ _ _ _) fun s => ?_
    sats
end Svd
