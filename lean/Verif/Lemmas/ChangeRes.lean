import Verif.Lemmas.ChangeGraph
import Verif.Lemmas.Basic
import Verif.Props.Fields
/-
C64, second part: the elements made by the resolver and a change.
-/
namespace Svd
open Spec Graph

variable {c : Change}

theorem orIfNone_map {α β : Type} (f : α → β) (a b : Option α) :
    orIfNone (a.map f) (b.map f) = (orIfNone a b).map f := by cases a <;> rfl

theorem bind_chg {α β γ δ : Type} (o : Option α) (h : α → β) (a : β → Option γ) (b : α → Option δ) (f : δ → γ)
    (ha : ∀ x, a (h x) = (b x).map f) : (o.map h).bind a = (o.bind b).map f := by
  cases o with
  | none => rfl
  | some x => exact ha x

theorem orIfNone_chg {α β γ δ : Type} (o : Option α) (h : α → β) (a : β → Option γ) (b : α → Option δ) (f : δ → γ)
    (p : Option δ) (ha : ∀ x, a (h x) = (b x).map f) :
    orIfNone (p.map f) ((o.map h).bind a) = (orIfNone p (o.bind b)).map f := by
  rw [bind_chg o h a b f ha, orIfNone_map]

theorem orIfNone_same {α β γ : Type} (o : Option α) (h : α → β) (a : β → Option γ) (b : α → Option γ)
    (p : Option γ) (ha : ∀ x, a (h x) = b x) :
    orIfNone p ((o.map h).bind a) = orIfNone p (o.bind b) := by
  cases o with
  | none => rfl
  | some x => simp only [Option.map_some, Option.bind_some, ha]

theorem chg_mergeProps (p : Props) (b : Option Props) :
    mergeProps (c.props p) (b.map c.props) = c.props (mergeProps p b) := by
  cases b with
  | none => simp [mergeProps, Change.props]; cases p; rename_i s a pr rv rm; cases pr <;> cases rv <;> cases rm <;> exact ⟨rfl, rfl, rfl⟩
  | some b => simp [mergeProps, Change.props, orIfNone_map]

theorem chg_atIndex (b : Int) (inc : Option Int) (i : Nat) (k : Int) :
    atIndex (b + k) inc i = atIndex b inc i + k := by
  cases inc with
  | none => rfl
  | some x => simp only [atIndex]; omega

theorem chg_blocks (hc : c.Fair) (bs : List SAddressBlock) :
    processAddressBlocks (bs.map c.sblock) = (processAddressBlocks bs).map c.block := by
  simp only [processAddressBlocks]
  rw [← sortBy_map (le := fun a b : AddressBlock => decide (a.offset ≤ b.offset))
    (le' := fun a b : AddressBlock => decide (a.offset ≤ b.offset)) c.block (fun _ _ => rfl)]
  congr 1
  rw [List.map_map, List.map_map]
  refine List.map_congr_left fun b _ => ?_
  simp only [Function.comp, Change.block, Change.sblock]
  cases b.protection with
  | none => simp [hc.protection]
  | some q => rfl

theorem chg_interrupts (is : List Interrupt) :
    processInterrupts (is.map c.intr) = (processInterrupts is).map c.intr :=
  (sortBy_map (le := fun a b : Interrupt => decide (a.value ≤ b.value)) c.intr (fun _ _ => rfl) _)

theorem chg_processPeripheral (hc : c.Fair) (i : Nat) (n : Str) (p : SPeripheral) (b : Option IPeripheralHd) :
    processPeripheral i n (c.speriph p) (b.map c.ihp) = c.ihp (processPeripheral i n p b) := by
  have hd : mergeDim (c.speriph p).dim ((b.map c.ihp).map (·.dim)) = mergeDim p.dim (b.map (·.dim)) := by
    cases b <;> rfl
  have hp : mergeProps (c.speriph p).props ((b.map c.ihp).map (·.props)) = c.props (mergeProps p.props (b.map (·.props))) := by
    rw [← chg_mergeProps]; cases b <;> rfl
  have hb : (c.speriph p).addressBlocks = p.addressBlocks.map c.sblock := rfl
  have hi : (c.speriph p).interrupts = p.interrupts.map c.intr := rfl
  have hbase : (c.speriph p).baseAddress = p.baseAddress + c.move := rfl
  simp only [processPeripheral]
  rw [hd, hp, hb, hi, hbase, chg_blocks hc, chg_interrupts, chg_atIndex]
  simp only [Change.ihp, IPeripheralHd.mk.injEq, true_and, and_true]
  refine ⟨?_, ?_, ?_, ?_, ?_, ?_, ?_, ?_, ?_⟩
  · exact orIfNone_chg b _ _ _ _ p.version fun _ => rfl
  · exact orIfNone_chg b _ _ _ _ p.description fun _ => rfl
  · exact orIfNone_same b _ _ _ _ fun _ => rfl
  · exact orIfNone_chg b _ _ _ _ p.groupName fun _ => rfl
  · exact orIfNone_chg b _ _ _ _ p.prependToName fun _ => rfl
  · exact orIfNone_chg b _ _ _ _ p.appendToName fun _ => rfl
  · rfl
  · exact orIfNone_chg b _ _ _ _ p.disableCondition fun _ => rfl
  · cases processAddressBlocks p.addressBlocks with
    | nil => cases b <;> rfl
    | cons _ _ => rfl

theorem chg_processCluster (i : Nat) (n : Str) (p : SCluster) (b : Option IClusterHd) :
    processCluster i n (c.sclu p) (b.map c.ihc) = c.ihc (processCluster i n p b) := by
  have hd : mergeDim (c.sclu p).dim ((b.map c.ihc).map (·.dim)) = mergeDim p.dim (b.map (·.dim)) := by
    cases b <;> rfl
  have hp : mergeProps (c.sclu p).props ((b.map c.ihc).map (·.props)) = c.props (mergeProps p.props (b.map (·.props))) := by
    rw [← chg_mergeProps]; cases b <;> rfl
  simp only [processCluster]
  rw [hd, hp]
  simp only [Change.ihc, IClusterHd.mk.injEq, true_and, and_true]
  refine ⟨?_, ?_, ?_, ?_⟩
  · exact orIfNone_chg b _ _ _ _ p.description fun _ => rfl
  · exact orIfNone_same b _ _ _ _ fun _ => rfl
  · exact orIfNone_chg b _ _ _ _ p.headerStructName fun _ => rfl
  · rfl

theorem chg_processRegister (hc : c.Fair) (i : Nat) (n : Str) (d : Option Str) (p : SRegister) (b : Option IRegisterHd) :
    processRegister i n d (c.sreg p) (b.map c.ihr) = c.ihr (processRegister i n d p b) := by
  have hd : mergeDim (c.sreg p).dim ((b.map c.ihr).map (·.dim)) = mergeDim p.dim (b.map (·.dim)) := by
    cases b <;> rfl
  have hp : mergeProps (c.sreg p).props ((b.map c.ihr).map (·.props)) = c.props (mergeProps p.props (b.map (·.props))) := by
    rw [← chg_mergeProps]; cases b <;> rfl
  simp only [processRegister]
  rw [hd, hp]
  simp only [Change.ihr, IRegisterHd.mk.injEq, true_and, and_true]
  refine ⟨?_, ?_, ?_, ?_, ?_, ?_, ?_, ?_⟩
  · exact orIfNone_chg b _ _ _ _ p.description fun _ => rfl
  · exact orIfNone_same b _ _ _ _ fun _ => rfl
  · exact orIfNone_same b _ _ _ _ fun _ => rfl
  · rfl
  · exact orIfNone_chg b _ _ _ _ p.dataType fun _ => rfl
  · have : (c.sreg p).modifiedWriteValues = p.modifiedWriteValues.map c.modifiedWrite := rfl
    rw [this]
    cases p.modifiedWriteValues with
    | some x => rfl
    | none => cases b with
      | none => exact hc.modifiedWrite.symm
      | some b => rfl
  · exact orIfNone_chg b _ _ _ _ p.writeConstraint fun _ => rfl
  · exact orIfNone_chg b _ _ _ _ p.readAction fun _ => rfl

theorem notes_msbLsb {p q : SField} {o w : Nat} (hw : 0 < w) (hp : WritesBits p o w) (hq : WritesBits q o w) (a b : Option IFieldHd) :
    fieldMsbLsb p a = fieldMsbLsb q b := by
  have key : ∀ {p : SField} (_ : WritesBits p o w) (a : Option IFieldHd), fieldMsbLsb p a = .ok ((o : Int) + w - 1, (o : Int)) [] := by
    intro p h a
    rcases h with h | h | h
    · exact msbLsb_byOffset hw h a
    · exact msbLsb_byLsbMsb hw h a
    · exact msbLsb_byRange hw h a
  rw [key hp, key hq]

theorem chg_msbLsb (hc : c.Fair) (p : SField) (b : Option IFieldHd) : fieldMsbLsb (c.sfield p) (b.map c.ihf) = fieldMsbLsb p b := by
  have e : fieldMsbLsb (c.sfield p) (b.map c.ihf) = fieldMsbLsb (rewriteAt p (c.position p)) b := by
    cases b <;> rfl
  rw [e]
  rcases hc.position p with h | ⟨o, w, hw, h1, h2⟩
  · rw [h]; rfl
  · exact notes_msbLsb hw h2 h1 b b

theorem chg_processField (hc : c.Fair) (i : Nat) (n : Str) (p : SField) (b : Option IFieldHd) :
    processField i n (c.sfield p) (b.map c.ihf) = M.mapped c.ihf (processField i n p b) := by
  have hd : mergeDim (c.sfield p).dim ((b.map c.ihf).map (·.dim)) = mergeDim p.dim (b.map (·.dim)) := by
    cases b <;> rfl
  simp only [processField]
  rw [hd, chg_msbLsb hc]
  refine M.bind_mapped_id fun r => ?_
  obtain ⟨m, l⟩ := r
  rw [mapped_pure]
  congr 1
  simp only [Change.ihf, IFieldHd.mk.injEq, true_and]
  refine ⟨?_, ?_, ?_, ?_, ?_⟩
  · exact orIfNone_chg b _ _ _ _ p.description fun _ => rfl
  · have : (c.sfield p).modifiedWriteValues = p.modifiedWriteValues.map c.modifiedWrite := rfl
    rw [this]
    cases p.modifiedWriteValues with
    | some x => rfl
    | none => cases b with
      | none => exact hc.modifiedWrite.symm
      | some b => rfl
  · exact orIfNone_chg b _ _ _ _ p.writeConstraint fun _ => rfl
  · exact orIfNone_chg b _ _ _ _ p.readAction fun _ => rfl
  · exact orIfNone_same b _ _ _ _ fun _ => rfl

theorem chg_createDimable (hc : c.Fair) (i : Nat) (n : Str) (d : Option Str) (p : Parsed) (b : Option Processed) :
    createDimable i n d (c.parsed p) (b.map c.proc) = M.mapped c.proc (createDimable i n d p b) := by
  cases p with
  | device => cases b <;> rfl
  | enum e => cases b <;> rfl
  | periph p =>
    rcases b with _ | (b | b | b | b) <;>
      first
        | rfl
        | exact congrArg (fun x => M.pure (Processed.periph x)) (chg_processPeripheral hc i n p none)
        | exact congrArg (fun x => M.pure (Processed.periph x)) (chg_processPeripheral hc i n p (some b))
  | clu p =>
    rcases b with _ | (b | b | b | b) <;>
      first
        | rfl
        | exact congrArg (fun x => M.pure (Processed.clu x)) (chg_processCluster i n p none)
        | exact congrArg (fun x => M.pure (Processed.clu x)) (chg_processCluster i n p (some b))
  | reg p =>
    rcases b with _ | (b | b | b | b) <;>
      first
        | rfl
        | exact congrArg (fun x => M.pure (Processed.reg x)) (chg_processRegister hc i n d p none)
        | exact congrArg (fun x => M.pure (Processed.reg x)) (chg_processRegister hc i n d p (some b))
  | field p =>
    rcases b with _ | (b | b | b | b)
    · show M.bind (processField i n (c.sfield p) (Option.map c.ihf none)) (fun x => M.pure (Processed.field x))
        = M.mapped c.proc (M.bind (processField i n p none) fun x => M.pure (Processed.field x))
      exact M.bind_mapped (chg_processField hc i n p none) fun _ => rfl
    · rfl
    · rfl
    · rfl
    · show M.bind (processField i n (c.sfield p) (Option.map c.ihf (some b))) (fun x => M.pure (Processed.field x))
        = M.mapped c.proc (M.bind (processField i n p (some b)) fun x => M.pure (Processed.field x))
      exact M.bind_mapped (chg_processField hc i n p (some b)) fun _ => rfl

theorem chg_createAll (hc : c.Fair) (p : Parsed) (b : Option Processed) (ns : List Str) (ds : List (Option Str)) (i : Nat) :
    createAll (c.parsed p) (b.map c.proc) i ns ds = M.mapped (List.map c.proc) (createAll p b i ns ds) := by
  induction ns generalizing i ds with
  | nil => rfl
  | cons n ns ih =>
    cases ds with
    | nil => rfl
    | cons d ds =>
      exact M.bind_mapped (chg_createDimable hc i n d p b) fun x => M.bind_mapped (ih ds (i + 1)) fun _ => rfl

theorem chg_extract (p : Parsed) (b : Option Processed) :
    extractDimOf (c.parsed p) (b.map c.proc) = extractDimOf p b := by
  cases p <;> rcases b with _ | (b | b | b | b) <;> rfl

theorem chg_withName (n : Str) (p : Processed) : (c.proc p).withName n = c.proc (p.withName n) := by cases p <;> rfl
theorem chg_clearDim (p : Processed) : (c.proc p).clearDim = c.proc p.clearDim := by cases p <;> rfl
theorem chg_procName (p : Processed) : (c.proc p).name = p.name := by cases p <;> rfl

theorem chg_updateNode (ord : List Nat → List Nat) (g : Graph) (i : Nat) (b : Option Nat) (p : Processed) (t : Bool) :
    updateNode ord (c.graph g) i b (c.proc p) t = M.mapped c.graph (updateNode ord g i b p t) := by
  refine M.bind_mapped (chg_adopt _ _ _ _) fun g1 => ?_
  simp only [chg_elem]
  cases g1.elem? i with
  | none => rfl
  | some e =>
    simp only [Option.map_some]
    have he : (c.elem e).processed.isSome = e.processed.isSome := by
      simp [Change.elem]
    rw [he]
    refine mapped_ite (fun _ => rfl) fun _ => ?_
    have hs := chg_setElem (c := c) g1 i { e with isProcessed := true, processed := some p, isDimTemplate := e.isDimTemplate || t }
    have hs' : (c.graph g1).setElem i { c.elem e with isProcessed := true, processed := some (c.proc p), isDimTemplate := (c.elem e).isDimTemplate || t }
      = c.graph (g1.setElem i { e with isProcessed := true, processed := some p, isDimTemplate := e.isDimTemplate || t }) := hs
    rw [hs', mapped_pure, chg_children, chg_resolveChildEdges]

theorem chg_addInstances (l : Level) (p : Parsed) (xs : List (Nat × Processed)) (g : Graph) :
    addInstances l (c.parsed p) (c.graph g) (xs.map fun q => (q.1, c.proc q.2))
      = M.mapped (fun r => (c.graph r.1, r.2)) (addInstances l p g xs) := by
  induction xs generalizing g with
  | nil => rfl
  | cons q xs ih =>
    obtain ⟨par, x⟩ := q
    refine M.bind_mapped (φ := fun r : Graph × Nat => (c.graph r.1, r.2)) ?_ fun r =>
      M.bind_mapped (φ := fun r : Graph × List Nat => (c.graph r.1, r.2)) (ih r.1) fun _ => rfl
    rw [← chg_addElementChild, chg_procName]
    rfl

theorem chg_linkChildren (j : Nat) (cs : List Nat) (g : Graph) :
    linkChildren j (c.graph g) cs = M.mapped c.graph (linkChildren j g cs) := by
  induction cs generalizing g with
  | nil => rfl
  | cons x cs ih => exact M.bind_mapped (chg_addEdge _ _ _ _) fun g1 => ih g1

theorem chg_linkInstances (i : Nat) (js : List Nat) (g : Graph) :
    linkInstances i (c.graph g) js = M.mapped c.graph (linkInstances i g js) := by
  induction js generalizing g with
  | nil => rfl
  | cons x js ih =>
    simp only [linkInstances, chg_children]
    exact M.bind_mapped (chg_linkChildren _ _ _) fun g1 => ih g1

theorem chg_updateDimNode (ord : List Nat → List Nat) (g : Graph) (i : Nat) (b : Option Nat) (xs : List Processed)
    (t : Processed) :
    updateDimNode ord (c.graph g) i b (xs.map c.proc) (c.proc t) = M.mapped c.graph (updateDimNode ord g i b xs t) := by
  refine M.bind_mapped (chg_updateNode _ _ _ _ _ _) fun g1 => ?_
  simp only [chg_elem, chg_parents]
  cases g1.elem? i with
  | none => rfl
  | some e =>
    refine M.bind_mapped (φ := fun r : Graph × List Nat => (c.graph r.1, r.2)) ?_ fun r => chg_linkInstances _ _ _
    rw [← chg_addInstances]
    show addInstances e.level (c.parsed e.parsed) _ _ = _
    congr 1
    simp [List.map_flatMap, List.map_map, Function.comp_def]

theorem chg_processDimable (hc : c.Fair) (ord : List Nat → List Nat) (g : Graph) (i : Nat) (p : Parsed) (bn : Option Nat)
    (b : Option Processed) :
    processDimable ord (c.graph g) i (c.parsed p) bn (b.map c.proc) = M.mapped c.graph (processDimable ord g i p bn b) := by
  simp only [processDimable, chg_extract]
  refine M.bind_mapped_id fun r => ?_
  obtain ⟨isDim, ns, ds⟩ := r
  refine M.bind_mapped (chg_createAll hc p b ns ds 0) fun xs => ?_
  cases xs with
  | nil => rfl
  | cons x xs =>
    refine mapped_ite (fun _ => ?_) fun _ => chg_updateNode _ _ _ _ _ _
    have h1 : (List.map c.proc (x :: xs)).map (·.clearDim) = ((x :: xs).map (·.clearDim)).map c.proc := by
      simp [List.map_map, Function.comp_def, chg_clearDim]
    rw [h1, chg_withName, chg_pname]
    exact chg_updateDimNode _ _ _ _ _ _

theorem chg_processEnum (ord : List Nat → List Nat) (g : Graph) (i : Nat) (bn : Option Nat) :
    processEnumNode ord (c.graph g) i bn = M.mapped c.graph (processEnumNode ord g i bn) := by
  simp only [processEnumNode, chg_elem]
  cases hg : g.elem? i with
  | none => rfl
  | some e =>
    simp only [Option.map_some]
    have ha : adoptedParsed (c.graph g) (c.elem e) bn = c.parsed (adoptedParsed g e bn) := by
      cases bn with
      | none => rfl
      | some b =>
        simp only [adoptedParsed, chg_elem]
        cases g.elem? b <;> rfl
    rw [ha]
    refine M.bind_mapped (φ := c.graph) ?_ fun g1 => ?_
    · rw [← chg_adopt]
      congr 1
      exact chg_setElem (c := c) g i { e with parsed := adoptedParsed g e bn }
    · simp only [chg_elem]
      cases g1.elem? i with
      | none => rfl
      | some e1 =>
        rw [mapped_pure]
        exact congrArg M.pure (chg_setElem (c := c) g1 i { e1 with isProcessed := true })

theorem chg_processNode (hc : c.Fair) (ord : List Nat → List Nat) (g : Graph) (i : Nat) :
    processNode ord (c.graph g) i = M.mapped c.graph (processNode ord g i) := by
  simp only [processNode, chg_elem]
  cases g.elem? i with
  | none => rfl
  | some e =>
    simp only [Option.map_some]
    have hp : (c.elem e).parsed = c.parsed e.parsed := rfl
    have hdev : (c.parsed e.parsed = .device) = (e.parsed = .device) := by
      cases e.parsed <;> simp [Change.parsed]
    rw [hp]
    simp only [hdev, chg_derivedFrom, chg_isEnum]
    refine mapped_ite (fun _ => rfl) fun _ => ?_
    refine M.bind_mapped (φ := fun r : Option Nat × Option Processed => (r.1, r.2.map c.proc)) ?_ fun r => ?_
    · cases e.parsed.derivedFrom with
      | none => rfl
      | some path =>
        refine M.bind_mapped (φ := fun r : Nat × ElemNode => (r.1, c.elem r.2)) ?_ fun r => ?_
        · simp only [derivedFromBase, chg_baseNode]
          cases g.baseElementNode i with
          | none => rfl
          | some b =>
            simp only [chg_elem]
            cases g.elem? b with
            | none => rfl
            | some eb => exact mapped_ite (fun _ => rfl) fun _ => rfl
        · have : (c.elem r.2).processed.isNone = r.2.processed.isNone := by simp [Change.elem]
          simp only [this]
          exact mapped_ite (fun _ => rfl) fun _ => rfl
    · exact mapped_ite (fun _ => chg_processEnum _ _ _ _) fun _ => chg_processDimable hc _ _ _ _ _ _

theorem chg_processNodes (hc : c.Fair) (ord : List Nat → List Nat) (is : List Nat) (g : Graph) :
    processNodes ord (c.graph g) is = M.mapped c.graph (processNodes ord g is) := by
  induction is generalizing g with
  | nil => rfl
  | cons i is ih => exact M.bind_mapped (chg_processNode hc ord g i) fun g1 => ih g1

theorem chg_rounds (hc : c.Fair) (ord : List Nat → List Nat) (f : Nat) (g : Graph) (prev : List Nat) :
    rounds ord f (c.graph g) prev = M.mapped c.graph (rounds ord f g prev) := by
  induction f generalizing g prev with
  | zero => rfl
  | succ f ih =>
    refine M.bind_mapped (chg_resolvePlaceholders _ _) fun g1 => ?_
    simp only [chg_sorted]
    exact mapped_ite (fun _ => rfl) fun _ => mapped_ite (fun _ => rfl) fun _ =>
      M.bind_mapped (chg_processNodes hc _ _ _) fun g2 => ih g2 _

theorem chg_unresolvedInfo (g : Graph) (phs : List Nat) : unresolvedInfo (c.graph g) phs = unresolvedInfo g phs := by
  induction phs with
  | nil => rfl
  | cons i phs ih => simp only [unresolvedInfo, chg_phChild, ih]

end Svd
