import Verif.Lemmas.ResolveSat
/-
The parts of the resolver that give no warnings.
-/
namespace Svd
open Graph M

abbrev Hush {α : Type} (x : M α) : Prop := Sat (fun _ => True) (fun _ => False) x

theorem Hush.nil {α : Type} {x : M α} (h : Hush x) {a : α} {ws : List Warn} (he : x = .ok a ws) : ws = [] := by
  cases ws with
  | nil => rfl
  | cons w ws => exact (h.warns he w (by simp)).elim

/-! ### graph operations -/

theorem hush_rawAddEdge (g : Graph) {x : Exn} (hx : True) (a b : Nat) (ty : EdgeT) :
    Hush (g.rawAddEdge x a b ty) := by
  unfold Graph.rawAddEdge
  split
  · exact sat_throw hx
  · exact sat_pure _
theorem hush_addEdge (g : Graph) (a b : Nat) (ty : EdgeT) : Hush (g.addEdge a b ty) := hush_rawAddEdge (x := .resolverGraph 42) g trivial _ _ _
theorem hush_addElementChild (g : Graph) (p : Nat) (e : ElemNode) (ty : EdgeT) : Hush (g.addElementChild p e ty) :=
  sat_bind (hush_rawAddEdge (x := .dagWouldCycle) _ trivial _ _ _) fun _ => sat_pure _
theorem hush_addPlaceholder (g : Graph) (p : Str) (i : Nat) : Hush (g.addPlaceholder p i) :=
  sat_bind (hush_rawAddEdge (x := .dagWouldCycle) _ trivial _ _ _) fun _ => sat_pure _
theorem hush_addChildToGraph (g : Graph) (p : Nat) (e : ElemNode) : Hush (addChildToGraph g p e) := by
  unfold addChildToGraph
  refine sat_bind (hush_addElementChild _ _ _ _) fun _ => ?_
  dsimp only
  split
  · exact sat_pure _
  · exact sat_bind (hush_addPlaceholder _ _ _) fun _ => sat_pure _
theorem hush_constrEnums (p : Nat) (g : Graph) (cs : List SEnumContainer) : Hush (constrEnums p g cs) := by
  induction cs generalizing g with
  | nil => exact sat_pure _
  | cons c cs ih => exact sat_bind (hush_addChildToGraph _ _ _) fun _ => ih _
theorem hush_constrFields (p : Nat) (g : Graph) (fs : List SField) : Hush (constrFields p g fs) := by
  induction fs generalizing g with
  | nil => exact sat_pure _
  | cons c cs ih =>
    exact sat_bind (hush_addChildToGraph _ _ _) fun _ => sat_bind (hush_constrEnums _ _ _) fun _ => ih _
mutual
theorem hush_constrRC (p : Nat) (g : Graph) (x : SRC) : Hush (constrRC p g x) := by
  match x with
  | .reg r => rw [constrRC]; exact sat_bind (hush_addChildToGraph _ _ _) fun _ => hush_constrFields _ _ _
  | .clu c ch => rw [constrRC]; exact sat_bind (hush_addChildToGraph _ _ _) fun _ => hush_constrRCs _ _ ch
theorem hush_constrRCs (p : Nat) (g : Graph) (xs : List SRC) : Hush (constrRCs p g xs) := by
  match xs with
  | [] => rw [constrRCs]; exact sat_pure _
  | x :: xs => rw [constrRCs]; exact sat_bind (hush_constrRC _ _ x) fun _ => hush_constrRCs _ _ xs
end
theorem hush_constrPeripherals (p : Nat) (g : Graph) (ps : List SPeriphT) : Hush (constrPeripherals p g ps) := by
  induction ps generalizing g with
  | nil => exact sat_pure _
  | cons c cs ih =>
    exact sat_bind (hush_addChildToGraph _ _ _) fun _ => sat_bind (hush_constrRCs _ _ _) fun _ => ih _
theorem hush_coParent (g : Graph) (ph : Nat) : Hush (g.placeholderCoParent ph) := by
  unfold Graph.placeholderCoParent; sats
theorem hush_ensure (g : Graph) (phs : List Nat) : Hush (ensurePlaceholderParents g phs) := by
  induction phs generalizing g with
  | nil => exact sat_pure _
  | cons c cs ih =>
    refine sat_bind (hush_coParent _ _) fun o => sat_bind ?_ fun _ => ih _
    cases o with
    | none => exact sat_pure _
    | some p => exact hush_addEdge _ _ _ _
theorem hush_initialization (d : SDevice) : Hush (initialization d) :=
  sat_bind (hush_constrPeripherals _ _ _) fun _ => hush_ensure _ _

theorem hush_addEdges (g : Graph) (es : List Edge) : Hush (g.addEdges es) := by
  induction es generalizing g with
  | nil => exact sat_pure _
  | cons e es ih => exact sat_bind (hush_rawAddEdge (x := .dagWouldCycle) _ trivial _ _ _) fun _ => ih _
theorem hush_replicateNodes (g : Graph) (m : List (Nat × Nat)) (is : List Nat) : Hush (g.replicateNodes m is) := by
  induction is generalizing g m with
  | nil => exact sat_pure _
  | cons i is ih =>
    rw [Graph.replicateNodes]
    split
    · exact sat_throw trivial
    · exact ih _ _
theorem hush_replicateEdges (m : List (Nat × Nat)) (sel : List Nat) (g : Graph) (is : List Nat) :
    Hush (Graph.replicateEdges m sel g is) := by
  induction is generalizing g with
  | nil => exact sat_pure _
  | cons e es ih => exact sat_bind (hush_addEdges _ _) fun _ => sat_bind (hush_addEdges _ _) fun _ => ih _
theorem hush_replicate (ord : List Nat → List Nat) (g : Graph) (a b : Nat) : Hush (g.replicateDescendants ord a b) :=
  sat_bind (hush_replicateNodes _ _ _) fun _ => sat_bind (hush_replicateEdges _ _ _ _) fun _ => hush_addEdges _ _
theorem hush_adoptBase (ord : List Nat → List Nat) (g : Graph) (i : Nat) (b : Option Nat) :
    Hush (adoptBase ord g i b) := by
  cases b with
  | none => exact sat_pure _
  | some b =>
    refine sat_bind ?_ fun _ => hush_replicate _ _ _ _
    unfold Graph.removeEdge; sats
theorem hush_updateNode (ord : List Nat → List Nat) (g : Graph) (i : Nat) (b : Option Nat) (p : Processed) (t : Bool) :
    Hush (updateNode ord g i b p t) := by
  refine sat_bind (hush_adoptBase _ _ _ _) fun _ => ?_
  sats
theorem hush_addInstances (l : Level) (p : Parsed) (g : Graph) (xs : List (Nat × Processed)) :
    Hush (addInstances l p g xs) := by
  induction xs generalizing g with
  | nil => exact sat_pure _
  | cons x xs ih =>
    exact sat_bind (hush_addElementChild _ _ _ _) fun _ => sat_bind (ih _) fun _ => sat_pure _
theorem hush_linkChildren (j : Nat) (g : Graph) (cs : List Nat) : Hush (linkChildren j g cs) := by
  induction cs generalizing g with
  | nil => exact sat_pure _
  | cons x xs ih => exact sat_bind (hush_addEdge _ _ _ _) fun _ => ih _
theorem hush_linkInstances (j : Nat) (g : Graph) (cs : List Nat) : Hush (linkInstances j g cs) := by
  induction cs generalizing g with
  | nil => exact sat_pure _
  | cons x xs ih => exact sat_bind (hush_linkChildren _ _ _) fun _ => ih _
theorem hush_updateDimNode (ord : List Nat → List Nat) (g : Graph) (i : Nat) (b : Option Nat) (xs : List Processed)
    (t : Processed) : Hush (updateDimNode ord g i b xs t) := by
  refine sat_bind (hush_updateNode _ _ _ _ _ _) fun _ => ?_
  split
  · exact sat_throw trivial
  · exact sat_bind (hush_addInstances _ _ _ _) fun _ => hush_linkInstances _ _ _
theorem hush_processEnumNode (ord : List Nat → List Nat) (g : Graph) (i : Nat) (bn : Option Nat) :
    Hush (processEnumNode ord g i bn) := by
  unfold processEnumNode
  split
  · exact sat_throw trivial
  · refine sat_bind (hush_adoptBase _ _ _ _) fun _ => ?_
    sats
theorem hush_filterAlternates (g : Graph) (is : List Nat) : Hush (filterAlternates g is) := by
  induction is with
  | nil => exact sat_pure _
  | cons i is ih =>
    rw [filterAlternates]
    sats
theorem hush_searchGo (g : Graph) (ex : Nat) (part : Str) (sub : Nat → M (List Nat)) (hs : ∀ n, Hush (sub n))
    (ms ns : List Nat) : Hush (searchGo g ex part sub ms ns) := by
  induction ns generalizing ms with
  | nil => exact sat_pure _
  | cons n ns ih =>
    rw [searchGo]
    split
    · exact ih _
    · split
      · exact ih _
      · refine sat_bind (hs _) fun cs => ?_
        split
        · refine sat_bind (hush_filterAlternates _ _) fun _ => ?_
          sats
        · exact ih _
theorem hush_searchNodes (g : Graph) (ex : Nat) (lvl : Level) (parts : List Str) (ns : List Nat) :
    Hush (searchNodes g ex lvl parts ns) := by
  induction parts generalizing ns with
  | nil => exact sat_pure _
  | cons p ps ih =>
    rw [searchNodes]
    refine hush_searchGo _ _ _ _ (fun n => ?_) _ _
    split
    · exact sat_pure _
    · exact ih _
theorem hush_pathResolving (g : Graph) (i : Nat) (lvl : Level) (p : Str) : Hush (pathResolving g i lvl p) := by
  unfold pathResolving
  refine sat_bind (hush_searchNodes _ _ _ _ _) fun m1 => ?_
  split
  · exact sat_pure _
  · refine sat_bind (hush_searchNodes _ _ _ _ _) fun m2 => ?_
    sats
theorem hush_placeholderChild (g : Graph) (ph : Nat) : Hush (g.placeholderChild ph) := by
  unfold Graph.placeholderChild; sats
theorem hush_placeholderParent (g : Graph) (ph : Nat) : Hush (g.placeholderParent ph) := by
  unfold Graph.placeholderParent; sats
theorem hush_resolvePlaceholder (g : Graph) (ph : Nat) : Hush (resolvePlaceholder g ph) := by
  unfold resolvePlaceholder
  split
  · refine sat_bind (hush_placeholderParent _ _) fun _ => ?_
    split
    · exact sat_pure _
    · refine sat_bind (hush_placeholderChild _ _) fun _ => ?_
      split
      · exact sat_throw trivial
      · refine sat_bind (hush_pathResolving _ _ _ _) fun o => ?_
        cases o with
        | none => exact sat_pure _
        | some b => exact (by unfold Graph.rawAddEdge; sats)
  · exact sat_throw trivial
theorem hush_resolvePlaceholders (g : Graph) (phs : List Nat) : Hush (resolvePlaceholders g phs) := by
  induction phs generalizing g with
  | nil => exact sat_pure _
  | cons x xs ih => exact sat_bind (hush_resolvePlaceholder _ _) fun _ => ih _
theorem hush_procOf (g : Graph) (i : Nat) : Hush (procOf g i) := by unfold procOf; sats
theorem hush_templateOf (g : Graph) (i : Nat) : Hush (templateOf g i) := by unfold templateOf; sats
theorem hush_collect {α : Type} (s : FinState) (pick : Nat → Processed → M α) (hp : ∀ i p, Hush (pick i p))
    (cs : List Nat) : Hush (collect s pick cs) := by
  refine sat_filterMapM fun i _ => sat_bind (hush_templateOf _ _) fun t => ?_
  split
  · exact sat_pure _
  · exact sat_bind (hush_procOf _ _) fun _ => sat_bind (hp _ _) fun _ => sat_pure _
theorem hush_parentSize (g : Graph) (f i : Nat) : Hush (parentSize g f i) := by
  induction f generalizing i with
  | zero => exact sat_throw trivial
  | succ f ih =>
    rw [parentSize]
    split
    · exact sat_pure _
    · split
      · exact sat_pure _
      · refine sat_bind (hush_procOf _ _) fun x => ?_
        cases x <;> dsimp only <;> first | exact sat_throw trivial | (split <;> first | exact sat_pure _ | exact ih _)
theorem hush_childSize {g : Graph} (hps : ∀ i, Hush (parentSize g (g.nodes.length + 1) i)) (i : Nat) : Hush (childSize g i) := by
  unfold childSize
  refine sat_bind (hush_procOf _ _) fun p => sat_bind ?_ fun s => sat_bind (hush_templateOf _ _) fun t => ?_
  · sats
  · split
    · exact sat_pure _
    · split
      · exact sat_pure _
      · exact sat_bind (hps _) fun _ => sat_pure _
theorem hush_calculateSize {g : Graph} (hps : ∀ i, Hush (parentSize g (g.nodes.length + 1) i)) (cs : List Nat) : Hush (calculateSize g cs) := by
  refine sat_bind (sat_filterMapM fun i _ => hush_childSize hps _) fun _ => ?_
  sats
theorem hush_finalizeContainerNode {s : FinState} (hps : ∀ i, Hush (parentSize s.g (s.g.nodes.length + 1) i)) (i : Nat) (e : ElemNode) (cs : List Nat) :
    Hush (finalizeContainerNode s i e cs) := by
  refine sat_bind (hush_procOf _ _) fun _ => sat_bind (hush_calculateSize hps _) fun _ =>
    sat_bind (hush_collect _ _ (fun i p => ?_) _) fun _ => sat_pure _
  unfold pickRC; sats

end Svd
