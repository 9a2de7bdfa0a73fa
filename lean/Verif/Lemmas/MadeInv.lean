import Verif.Lemmas.DimInv
import Verif.Lemmas.FinState
import Verif.Spec.Derive
/- Attributes of resolved elements in terms of chains of declarations. -/
namespace Svd
open Spec

/-- `x` is the created element `x0`, a dim instance made from it, or its template. -/
def Variant (p : Parsed) (i : Nat) (x0 y : Processed) : Prop :=
  y = x0 ∨ y = x0.clearDim ∨ (i = 0 ∧ y = x0.withName p.name)

theorem extractDimOf_names {p : Parsed} {b : Option Processed} {isDim : Bool} {names : List Str}
    {displays : List (Option Str)} {w : List Warn} (h : extractDimOf p b = .ok (isDim, names, displays) w) :
    (isDim = false ∧ names = [p.name]) ∨
    (isDim = true ∧ ∃ (mark : Str) (idx : List Str), (mark = s%"%s" ∨ mark = s%"[%s]") ∧ names = idx.map (fun i => replaceAll mark i p.name)) := by
  have key : ∀ {ty name dim dimIndex display}, name = p.name → DimOutcome ty name dim dimIndex display isDim names displays w →
      (isDim = false ∧ names = [p.name]) ∨
      (isDim = true ∧ ∃ (mark : Str) (idx : List Str), (mark = s%"%s" ∨ mark = s%"[%s]") ∧ names = idx.map (fun i => replaceAll mark i p.name)) := by
    intro ty name dim dimIndex display hn h
    subst hn
    rcases h with ⟨h1, h2, -⟩ | ⟨h1, -, n, -, -, -, mark, idx, h2, -, -, h3⟩
    · exact Or.inl ⟨h1, h2⟩
    · refine Or.inr ⟨h1, mark, idx, ?_, h2⟩
      rcases h3 with h3 | h3
      · exact Or.inr h3.1
      · exact Or.inl h3.1
  unfold extractDimOf at h
  cases p <;> simp only at h
  all_goals first
    | exact key rfl (extractDim_ok h)
    | (simp at h; done)

theorem yields_inv {p : Parsed} {b : Option Processed} {y : Processed} (h : Yields p b y) :
    ∃ i n disp x w, createDimable i n disp p b = .ok x w ∧ Variant p i x y ∧
      ((i = 0 ∧ n = p.name) ∨ ∃ idx, n = replaceAll (s%"%s") idx p.name ∨ n = replaceAll (s%"[%s]") idx p.name) := by
  obtain ⟨isDim, names, displays, w, i, n, disp, x, w', h1, h2, -, h4, h5⟩ := h
  refine ⟨i, n, disp, x, w', h4, ?_, ?_⟩
  · rcases h5 with ⟨-, -, h⟩ | ⟨-, h⟩ | ⟨-, hi, h⟩
    · exact Or.inl h
    · exact Or.inr (Or.inl h)
    · exact Or.inr (Or.inr ⟨hi, h⟩)
  · rcases extractDimOf_names h1 with ⟨-, rfl⟩ | ⟨-, mark, idx, hm, rfl⟩
    · left
      cases i with
      | zero => simp at h2; exact ⟨rfl, h2.symm⟩
      | succ i => simp at h2
    · right
      rw [List.getElem?_map] at h2
      cases he : idx[i]? with
      | none => simp [he] at h2
      | some s =>
        simp only [he, Option.map_some, Option.some.injEq] at h2
        refine ⟨s, ?_⟩
        rcases hm with rfl | rfl
        · exact Or.inl h2.symm
        · exact Or.inr h2.symm

theorem nearest_cons {α β : Type} (get : α → Option β) (a : α) (l : List α) :
    nearest get (a :: l) = orIfNone (get a) (nearest get l) := by
  unfold nearest orIfNone
  rw [List.findSome?_cons]
  cases get a <;> rfl

theorem placed_of {p : Parsed} {i : Nat} {n : Str} {x y : Processed} {own merged : Option Int} (declared : Int)
    (hv : Variant p i x y) (hx : x.name = n)
    (hn : (i = 0 ∧ n = p.name) ∨ ∃ idx, n = replaceAll (s%"%s") idx p.name ∨ n = replaceAll (s%"[%s]") idx p.name)
    (hm : ∀ j, own = some j → merged = some j) :
    Placed p.name own y.name (atIndex declared merged i - declared) := by
  have hat : atIndex declared merged i - declared = (merged.getD 0) * i := by
    unfold atIndex
    cases merged with
    | none => simp
    | some k => simp; omega
  have hcd : ∀ x : Processed, x.clearDim.name = x.name := by intro x; cases x <;> rfl
  have hwn : ∀ (x : Processed) s, (x.withName s).name = s := by intro x s; cases x <;> rfl
  have hy : y.name = n ∨ (i = 0 ∧ y.name = p.name) := by
    rcases hv with rfl | rfl | ⟨h1, rfl⟩
    · exact Or.inl hx
    · exact Or.inl (by rw [hcd, hx])
    · exact Or.inr ⟨h1, hwn _ _⟩
  rw [hat]
  rcases hy with hy | ⟨hi, hy⟩
  · rcases hn with ⟨hi, hn⟩ | ⟨idx, hn⟩
    · left; subst hi; exact ⟨by rw [hy, hn], by simp⟩
    · right
      refine ⟨i, merged.getD 0, ⟨idx, by rw [hy, fillList_eq, fillArray_eq]; exact hn⟩, rfl, ?_⟩
      intro j hj
      rw [hm j hj]; rfl
  · left; subst hi; exact ⟨hy, by simp⟩

theorem placed_instance {t : Str} {inc : Option Int} {n : Str} {s : Int} (h : Placed t inc n s) : InstanceName t n := by
  rcases h with ⟨h, -⟩ | ⟨_, _, ⟨idx, h⟩, -⟩
  · exact Or.inl h
  · exact Or.inr ⟨idx, h⟩

theorem orIfNone_some {α : Type} {a b : Option α} {x : α} (h : a = some x) : orIfNone a b = some x := by rw [h]; rfl

/-! ### registers -/

structure RegFrom (d : SDevice) (l : List SRegister) (r : IRegisterHd) : Prop where
  chain : RegisterChain d l
  placed : ∀ h t, l = h :: t → Placed h.name h.dim.dimIncrement r.name (r.addressOffset - h.addressOffset)
  description : r.description = nearest (·.description) l
  alternateGroup : r.alternateGroup = nearest (·.alternateGroup) l
  alternateRegister : r.alternateRegister = nearest (·.alternateRegister) l
  dataType : r.dataType = nearest (·.dataType) l
  modifiedWriteValues : r.modifiedWriteValues = (nearest (·.modifiedWriteValues) l).getD .modify
  writeConstraint : r.writeConstraint = nearest (·.writeConstraint) l
  readAction : r.readAction = nearest (·.readAction) l
  size : r.props.size = nearest (·.props.size) l
  access : r.props.access = nearest (·.props.access) l
  protection : r.props.protection = nearest (·.props.protection) l
  resetValue : r.props.resetValue = nearest (·.props.resetValue) l
  resetMask : r.props.resetMask = nearest (·.props.resetMask) l

theorem made_nonempty {d : SDevice} {ch : List Parsed} {y : Processed} (h : Made d ch y) : ∃ p t, ch = p :: t := by
  cases h <;> exact ⟨_, _, rfl⟩

theorem chain_decl {α : Type} {decl : α → Prop} {name : α → Str} {df : α → Option Str} {l : List α}
    (h : DerivChain decl name df l) : ∃ a t, l = a :: t := by
  cases h <;> exact ⟨_, _, rfl⟩

/-- The kind of the created element. -/
theorem variant_reg {p : Parsed} {i : Nat} {x0 : Processed} {r : IRegisterHd} (h : Variant p i x0 (.reg r)) :
    ∃ r0, x0 = .reg r0 ∧ (r = r0 ∨ r = { r0 with dim := {} } ∨ (i = 0 ∧ r = { r0 with name := p.name })) := by
  rcases h with rfl | h | ⟨hi, h⟩
  · exact ⟨r, rfl, Or.inl rfl⟩
  · cases x0 with
    | reg r0 => simp only [Processed.clearDim, Processed.reg.injEq] at h; exact ⟨r0, rfl, Or.inr (Or.inl h)⟩
    | _ => simp [Processed.clearDim] at h
  · cases x0 with
    | reg r0 => simp only [Processed.withName, Processed.reg.injEq] at h; exact ⟨r0, rfl, Or.inr (Or.inr ⟨hi, h⟩)⟩
    | _ => simp [Processed.withName] at h

theorem createDimable_reg {i : Nat} {n : Str} {disp : Option Str} {p : Parsed} {b : Option Processed} {r : IRegisterHd}
    {w : List Warn} (h : createDimable i n disp p b = .ok (.reg r) w) :
    ∃ s b', p = .reg s ∧ b = b'.map .reg ∧ r = processRegister i n disp s b' := by
  unfold createDimable at h
  split at h
  all_goals first
    | (simp only [M.pure_eq_ok, Processed.reg.injEq] at h
       first
        | exact ⟨_, none, rfl, rfl, h.1.symm⟩
        | exact ⟨_, some _, rfl, rfl, h.1.symm⟩)
    | (simp at h; done)
    | (simp [M.bind_eq_ok] at h; done)

theorem regFrom_step {d : SDevice} {s : SRegister} {b' : Option IRegisterHd} {i : Nat} {n : Str} {disp : Option Str}
    {r : IRegisterHd} {l : List SRegister}
    (hc : RegisterChain d (s :: l))
    (hv : Variant (.reg s) i (.reg (processRegister i n disp s b')) (.reg r))
    (hn : (i = 0 ∧ n = s.name) ∨ ∃ idx, n = replaceAll (s%"%s") idx s.name ∨ n = replaceAll (s%"[%s]") idx s.name)
    (hb : match b' with | none => l = [] | some b => RegFrom d l b) : RegFrom d (s :: l) r := by
  have hpl : Placed s.name s.dim.dimIncrement r.name (r.addressOffset - s.addressOffset) := by
    have := placed_of (own := s.dim.dimIncrement) (merged := (mergeDim s.dim (b'.map (·.dim))).dimIncrement)
      s.addressOffset hv rfl hn (by intro j hj; exact orIfNone_some hj)
    obtain ⟨r0, h1, h2⟩ := variant_reg hv
    simp only [Processed.reg.injEq] at h1
    subst h1
    rcases h2 with rfl | rfl | ⟨_, rfl⟩ <;> exact this
  obtain ⟨r0, h1, h2⟩ := variant_reg hv
  simp only [Processed.reg.injEq] at h1
  subst h1
  refine ⟨hc, ?_, ?_, ?_, ?_, ?_, ?_, ?_, ?_, ?_, ?_, ?_, ?_, ?_⟩
  · intro h t he
    simp only [List.cons.injEq] at he
    rw [← he.1]; exact hpl
  all_goals
    rw [nearest_cons]
    cases b' with
    | none =>
      simp only at hb; subst hb
      rcases h2 with rfl | rfl | ⟨_, rfl⟩ <;>
        simp only [processRegister, nearest, List.findSome?_nil, mergeProps, Option.bind, Option.map] <;>
        first | rfl | (cases s.modifiedWriteValues <;> rfl)
    | some b =>
      simp only at hb
      obtain ⟨e0, e1, e2, e3, e4, e5, e6, e7, e8, e9, e10, e11, e12, e13⟩ := hb
      rcases h2 with rfl | rfl | ⟨_, rfl⟩ <;>
        simp only [processRegister, mergeProps, Option.bind, Option.map, e2, e3, e4, e5, e6, e7, e8, e9, e10, e11, e12, e13] <;>
        first | rfl | (cases s.modifiedWriteValues <;> rfl)

theorem made_reg {d : SDevice} {ch : List Parsed} {y : Processed} (h : Made d ch y) :
    ∀ r, y = .reg r → ∃ l, ch = l.map .reg ∧ RegFrom d l r := by
  induction h with
  | @base p y hd hf hy =>
    intro r he; subst he
    obtain ⟨i, n, disp, x, w, h1, hv, hn⟩ := yields_inv hy
    obtain ⟨r0, rfl, -⟩ := variant_reg hv
    obtain ⟨s, b', rfl, hb, rfl⟩ := createDimable_reg h1
    cases b' with
    | some b => simp at hb
    | none => exact ⟨[s], rfl, regFrom_step (.root hd hf) hv hn rfl⟩
  | @derive p q ch b y path hd hf hm hname hy ih =>
    intro r he; subst he
    obtain ⟨i, n, disp, x, w, h1, hv, hn⟩ := yields_inv hy
    obtain ⟨r0, rfl, -⟩ := variant_reg hv
    obtain ⟨s, b', rfl, hb, rfl⟩ := createDimable_reg h1
    cases b' with
    | none => simp at hb
    | some b0 =>
      simp only [Option.map_some, Option.some.injEq] at hb
      obtain ⟨l, hl, hf'⟩ := ih b0 hb
      cases l with
      | nil => simp at hl
      | cons a l =>
        refine ⟨s :: a :: l, by rw [hl]; rfl, regFrom_step (.step hd hf ?_ hf'.chain) hv hn hf'⟩
        have := placed_instance (hf'.placed a l rfl)
        rw [hb] at hname
        rw [show b0.name = lastName path from hname] at this
        exact this

/-! ### clusters -/

structure CluFrom (d : SDevice) (l : List SCluster) (r : IClusterHd) : Prop where
  chain : ClusterChain d l
  placed : ∀ h t, l = h :: t → Placed h.name h.dim.dimIncrement r.name (r.addressOffset - h.addressOffset)
  description : r.description = nearest (·.description) l
  alternateCluster : r.alternateCluster = nearest (·.alternateCluster) l
  headerStructName : r.headerStructName = nearest (·.headerStructName) l
  size : r.props.size = nearest (·.props.size) l
  access : r.props.access = nearest (·.props.access) l
  protection : r.props.protection = nearest (·.props.protection) l
  resetValue : r.props.resetValue = nearest (·.props.resetValue) l
  resetMask : r.props.resetMask = nearest (·.props.resetMask) l

/-- The kind of the created element. -/
theorem variant_clu {p : Parsed} {i : Nat} {x0 : Processed} {r : IClusterHd} (h : Variant p i x0 (.clu r)) :
    ∃ r0, x0 = .clu r0 ∧ (r = r0 ∨ r = { r0 with dim := {} } ∨ (i = 0 ∧ r = { r0 with name := p.name })) := by
  rcases h with rfl | h | ⟨hi, h⟩
  · exact ⟨r, rfl, Or.inl rfl⟩
  · cases x0 with
    | clu r0 => simp only [Processed.clearDim, Processed.clu.injEq] at h; exact ⟨r0, rfl, Or.inr (Or.inl h)⟩
    | _ => simp [Processed.clearDim] at h
  · cases x0 with
    | clu r0 => simp only [Processed.withName, Processed.clu.injEq] at h; exact ⟨r0, rfl, Or.inr (Or.inr ⟨hi, h⟩)⟩
    | _ => simp [Processed.withName] at h

theorem createDimable_clu {i : Nat} {n : Str} {disp : Option Str} {p : Parsed} {b : Option Processed} {r : IClusterHd}
    {w : List Warn} (h : createDimable i n disp p b = .ok (.clu r) w) :
    ∃ s b', p = .clu s ∧ b = b'.map .clu ∧ r = processCluster i n s b' := by
  unfold createDimable at h
  split at h
  all_goals first
    | (simp only [M.pure_eq_ok, Processed.clu.injEq] at h
       first
        | exact ⟨_, none, rfl, rfl, h.1.symm⟩
        | exact ⟨_, some _, rfl, rfl, h.1.symm⟩)
    | (simp at h; done)
    | (simp [M.bind_eq_ok] at h; done)

theorem cluFrom_step {d : SDevice} {s : SCluster} {b' : Option IClusterHd} {i : Nat} {n : Str} 
    {r : IClusterHd} {l : List SCluster}
    (hc : ClusterChain d (s :: l))
    (hv : Variant (.clu s) i (.clu (processCluster i n s b')) (.clu r))
    (hn : (i = 0 ∧ n = s.name) ∨ ∃ idx, n = replaceAll (s%"%s") idx s.name ∨ n = replaceAll (s%"[%s]") idx s.name)
    (hb : match b' with | none => l = [] | some b => CluFrom d l b) : CluFrom d (s :: l) r := by
  have hpl : Placed s.name s.dim.dimIncrement r.name (r.addressOffset - s.addressOffset) := by
    have := placed_of (own := s.dim.dimIncrement) (merged := (mergeDim s.dim (b'.map (·.dim))).dimIncrement)
      s.addressOffset hv rfl hn (by intro j hj; exact orIfNone_some hj)
    obtain ⟨r0, h1, h2⟩ := variant_clu hv
    simp only [Processed.clu.injEq] at h1
    subst h1
    rcases h2 with rfl | rfl | ⟨_, rfl⟩ <;> exact this
  obtain ⟨r0, h1, h2⟩ := variant_clu hv
  simp only [Processed.clu.injEq] at h1
  subst h1
  refine ⟨hc, ?_, ?_, ?_, ?_, ?_, ?_, ?_, ?_, ?_⟩
  · intro h t he
    simp only [List.cons.injEq] at he
    rw [← he.1]; exact hpl
  all_goals
    rw [nearest_cons]
    cases b' with
    | none =>
      simp only at hb; subst hb
      rcases h2 with rfl | rfl | ⟨_, rfl⟩ <;>
        simp only [processCluster, nearest, List.findSome?_nil, mergeProps, Option.bind, Option.map] <;>
        first | rfl | (cases s.modifiedWriteValues <;> rfl)
    | some b =>
      simp only at hb
      obtain ⟨e0, e1, e2, e3, e4, e5, e6, e7, e8, e9⟩ := hb
      rcases h2 with rfl | rfl | ⟨_, rfl⟩ <;>
        simp only [processCluster, mergeProps, Option.bind, Option.map, e2, e3, e4, e5, e6, e7, e8, e9] <;>
        first | rfl | (cases s.modifiedWriteValues <;> rfl)

theorem made_clu {d : SDevice} {ch : List Parsed} {y : Processed} (h : Made d ch y) :
    ∀ r, y = .clu r → ∃ l, ch = l.map .clu ∧ CluFrom d l r := by
  induction h with
  | @base p y hd hf hy =>
    intro r he; subst he
    obtain ⟨i, n, disp, x, w, h1, hv, hn⟩ := yields_inv hy
    obtain ⟨r0, rfl, -⟩ := variant_clu hv
    obtain ⟨s, b', rfl, hb, rfl⟩ := createDimable_clu h1
    cases b' with
    | some b => simp at hb
    | none => exact ⟨[s], rfl, cluFrom_step (.root hd hf) hv hn rfl⟩
  | @derive p q ch b y path hd hf hm hname hy ih =>
    intro r he; subst he
    obtain ⟨i, n, disp, x, w, h1, hv, hn⟩ := yields_inv hy
    obtain ⟨r0, rfl, -⟩ := variant_clu hv
    obtain ⟨s, b', rfl, hb, rfl⟩ := createDimable_clu h1
    cases b' with
    | none => simp at hb
    | some b0 =>
      simp only [Option.map_some, Option.some.injEq] at hb
      obtain ⟨l, hl, hf'⟩ := ih b0 hb
      cases l with
      | nil => simp at hl
      | cons a l =>
        refine ⟨s :: a :: l, by rw [hl]; rfl, cluFrom_step (.step hd hf ?_ hf'.chain) hv hn hf'⟩
        have := placed_instance (hf'.placed a l rfl)
        rw [hb] at hname
        rw [show b0.name = lastName path from hname] at this
        exact this

/-! ### peripherals -/

structure PeriphFrom (d : SDevice) (l : List SPeripheral) (r : IPeripheralHd) : Prop where
  chain : PeriphChain d l
  placed : ∀ h t, l = h :: t → Placed h.name h.dim.dimIncrement r.name (r.baseAddress - h.baseAddress)
  headerStructName : ∀ h t, l = h :: t → r.headerStructName = h.headerStructName
  interrupts : ∀ h t, l = h :: t → r.interrupts = processInterrupts h.interrupts
  addressBlocks : r.addressBlocks = (nearest (fun p => if p.addressBlocks.isEmpty then none
    else some (processAddressBlocks p.addressBlocks)) l).getD []
  version : r.version = nearest (·.version) l
  description : r.description = nearest (·.description) l
  alternatePeripheral : r.alternatePeripheral = nearest (·.alternatePeripheral) l
  groupName : r.groupName = nearest (·.groupName) l
  prependToName : r.prependToName = nearest (·.prependToName) l
  appendToName : r.appendToName = nearest (·.appendToName) l
  disableCondition : r.disableCondition = nearest (·.disableCondition) l
  size : r.props.size = nearest (·.props.size) l
  access : r.props.access = nearest (·.props.access) l
  protection : r.props.protection = nearest (·.props.protection) l
  resetValue : r.props.resetValue = nearest (·.props.resetValue) l
  resetMask : r.props.resetMask = nearest (·.props.resetMask) l

theorem processAddressBlocks_isEmpty (bs : List SAddressBlock) : (processAddressBlocks bs).isEmpty = bs.isEmpty := by
  unfold processAddressBlocks
  cases bs with
  | nil => rfl
  | cons b bs =>
    have : sortBy (fun a b : AddressBlock => decide (a.offset ≤ b.offset)) ((b :: bs).map fun b =>
      { offset := b.offset, size := b.size, usage := b.usage, protection := b.protection.getD .any }) ≠ [] := by
      intro h
      rw [sortBy_eq_nil] at h
      cases h
    cases h : sortBy (fun a b : AddressBlock => decide (a.offset ≤ b.offset)) ((b :: bs).map fun b =>
      { offset := b.offset, size := b.size, usage := b.usage, protection := b.protection.getD .any }) with
    | nil => exact absurd h this
    | cons _ _ => rfl

/-- The kind of the created element. -/
theorem variant_periph {p : Parsed} {i : Nat} {x0 : Processed} {r : IPeripheralHd} (h : Variant p i x0 (.periph r)) :
    ∃ r0, x0 = .periph r0 ∧ (r = r0 ∨ r = { r0 with dim := {} } ∨ (i = 0 ∧ r = { r0 with name := p.name })) := by
  rcases h with rfl | h | ⟨hi, h⟩
  · exact ⟨r, rfl, Or.inl rfl⟩
  · cases x0 with
    | periph r0 => simp only [Processed.clearDim, Processed.periph.injEq] at h; exact ⟨r0, rfl, Or.inr (Or.inl h)⟩
    | _ => simp [Processed.clearDim] at h
  · cases x0 with
    | periph r0 => simp only [Processed.withName, Processed.periph.injEq] at h; exact ⟨r0, rfl, Or.inr (Or.inr ⟨hi, h⟩)⟩
    | _ => simp [Processed.withName] at h

theorem createDimable_periph {i : Nat} {n : Str} {disp : Option Str} {p : Parsed} {b : Option Processed} {r : IPeripheralHd}
    {w : List Warn} (h : createDimable i n disp p b = .ok (.periph r) w) :
    ∃ s b', p = .periph s ∧ b = b'.map .periph ∧ r = processPeripheral i n s b' := by
  unfold createDimable at h
  split at h
  all_goals first
    | (simp only [M.pure_eq_ok, Processed.periph.injEq] at h
       first
        | exact ⟨_, none, rfl, rfl, h.1.symm⟩
        | exact ⟨_, some _, rfl, rfl, h.1.symm⟩)
    | (simp at h; done)
    | (simp [M.bind_eq_ok] at h; done)

theorem periphFrom_step {d : SDevice} {s : SPeripheral} {b' : Option IPeripheralHd} {i : Nat} {n : Str} 
    {r : IPeripheralHd} {l : List SPeripheral}
    (hc : PeriphChain d (s :: l))
    (hv : Variant (.periph s) i (.periph (processPeripheral i n s b')) (.periph r))
    (hn : (i = 0 ∧ n = s.name) ∨ ∃ idx, n = replaceAll (s%"%s") idx s.name ∨ n = replaceAll (s%"[%s]") idx s.name)
    (hb : match b' with | none => l = [] | some b => PeriphFrom d l b) : PeriphFrom d (s :: l) r := by
  have hpl : Placed s.name s.dim.dimIncrement r.name (r.baseAddress - s.baseAddress) := by
    have := placed_of (own := s.dim.dimIncrement) (merged := (mergeDim s.dim (b'.map (·.dim))).dimIncrement)
      s.baseAddress hv rfl hn (by intro j hj; exact orIfNone_some hj)
    obtain ⟨r0, h1, h2⟩ := variant_periph hv
    simp only [Processed.periph.injEq] at h1
    subst h1
    rcases h2 with rfl | rfl | ⟨_, rfl⟩ <;> exact this
  obtain ⟨r0, h1, h2⟩ := variant_periph hv
  simp only [Processed.periph.injEq] at h1
  subst h1
  refine ⟨hc, ?_, ?_, ?_, ?_, ?_, ?_, ?_, ?_, ?_, ?_, ?_, ?_, ?_, ?_, ?_, ?_⟩
  · intro h t he
    simp only [List.cons.injEq] at he
    rw [← he.1]; exact hpl
  · intro h t he
    simp only [List.cons.injEq] at he
    rw [← he.1]
    rcases h2 with rfl | rfl | ⟨_, rfl⟩ <;> rfl
  · intro h t he
    simp only [List.cons.injEq] at he
    rw [← he.1]
    rcases h2 with rfl | rfl | ⟨_, rfl⟩ <;> rfl
  · have hab : r.addressBlocks = (processPeripheral i n s b').addressBlocks := by
      rcases h2 with rfl | rfl | ⟨_, rfl⟩ <;> rfl
    rw [hab, nearest_cons]
    simp only [processPeripheral, processAddressBlocks_isEmpty]
    cases b' with
    | none =>
      simp only at hb; subst hb
      cases hh : s.addressBlocks.isEmpty <;> simp [orIfNone, nearest]
    | some b =>
      simp only at hb
      simp only [hb.addressBlocks]
      cases hh : s.addressBlocks.isEmpty <;> simp [orIfNone]
  all_goals
    rw [nearest_cons]
    cases b' with
    | none =>
      simp only at hb; subst hb
      rcases h2 with rfl | rfl | ⟨_, rfl⟩ <;>
        simp only [processPeripheral, nearest, List.findSome?_nil, mergeProps, Option.bind, Option.map] <;>
        first | rfl | (cases s.modifiedWriteValues <;> rfl)
    | some b =>
      simp only at hb
      obtain ⟨e0, e1, -, -, -, e2, e3, e4, e5, e6, e7, e8, e9, e10, e11, e12, e13⟩ := hb
      rcases h2 with rfl | rfl | ⟨_, rfl⟩ <;>
        simp only [processPeripheral, mergeProps, Option.bind, Option.map, e2, e3, e4, e5, e6, e7, e8, e9, e10, e11, e12, e13] <;>
        first | rfl | (cases s.modifiedWriteValues <;> rfl)

theorem made_periph {d : SDevice} {ch : List Parsed} {y : Processed} (h : Made d ch y) :
    ∀ r, y = .periph r → ∃ l, ch = l.map .periph ∧ PeriphFrom d l r := by
  induction h with
  | @base p y hd hf hy =>
    intro r he; subst he
    obtain ⟨i, n, disp, x, w, h1, hv, hn⟩ := yields_inv hy
    obtain ⟨r0, rfl, -⟩ := variant_periph hv
    obtain ⟨s, b', rfl, hb, rfl⟩ := createDimable_periph h1
    cases b' with
    | some b => simp at hb
    | none => exact ⟨[s], rfl, periphFrom_step (.root hd hf) hv hn rfl⟩
  | @derive p q ch b y path hd hf hm hname hy ih =>
    intro r he; subst he
    obtain ⟨i, n, disp, x, w, h1, hv, hn⟩ := yields_inv hy
    obtain ⟨r0, rfl, -⟩ := variant_periph hv
    obtain ⟨s, b', rfl, hb, rfl⟩ := createDimable_periph h1
    cases b' with
    | none => simp at hb
    | some b0 =>
      simp only [Option.map_some, Option.some.injEq] at hb
      obtain ⟨l, hl, hf'⟩ := ih b0 hb
      cases l with
      | nil => simp at hl
      | cons a l =>
        refine ⟨s :: a :: l, by rw [hl]; rfl, periphFrom_step (.step hd hf ?_ hf'.chain) hv hn hf'⟩
        have := placed_instance (hf'.placed a l rfl)
        rw [hb] at hname
        rw [show b0.name = lastName path from hname] at this
        exact this

/-! ### fields -/

structure FieldFrom (d : SDevice) (l : List SField) (r : IFieldHd) : Prop where
  chain : FieldChain d l
  placed : ∀ h t, l = h :: t → ∃ base m lo w, fieldMsbLsb h base = .ok (m, lo) w ∧
    Placed h.name h.dim.dimIncrement r.name (r.lsb - lo) ∧ r.msb - m = r.lsb - lo
  description : r.description = nearest (·.description) l
  modifiedWriteValues : r.modifiedWriteValues = (nearest (·.modifiedWriteValues) l).getD .modify
  writeConstraint : r.writeConstraint = nearest (·.writeConstraint) l
  readAction : r.readAction = nearest (·.readAction) l
  access : r.access = nearest (·.access) l

/-- The field created at position `m`, `l`. -/
def fieldAt (i : Nat) (n : Str) (s : SField) (b : Option IFieldHd) (m l : Int) : IFieldHd :=
    { name := n
      description := orIfNone s.description (b.bind (·.description))
      lsb := atIndex l (mergeDim s.dim (b.map (·.dim))).dimIncrement i
      msb := atIndex m (mergeDim s.dim (b.map (·.dim))).dimIncrement i
      modifiedWriteValues := match s.modifiedWriteValues with
        | some m => m
        | none => match b with
          | some b => b.modifiedWriteValues
          | none => .modify
      writeConstraint := orIfNone s.writeConstraint (b.bind (·.writeConstraint))
      readAction := orIfNone s.readAction (b.bind (·.readAction))
      dim := mergeDim s.dim (b.map (·.dim))
      access := orIfNone s.access (b.bind (·.access)) }

theorem processField_ok {i : Nat} {n : Str} {s : SField} {b : Option IFieldHd} {f : IFieldHd} {w : List Warn}
    (h : processField i n s b = .ok f w) : ∃ m l, fieldMsbLsb s b = .ok (m, l) w ∧ f = fieldAt i n s b m l := by
  unfold processField at h
  simp only [M.bind_eq_ok, M.pure_eq_ok] at h
  obtain ⟨⟨m, l⟩, w1, w2, h1, ⟨rfl, rfl⟩, rfl⟩ := h
  refine ⟨m, l, by simpa using h1, rfl⟩

/-- The kind of the created element. -/
theorem variant_field {p : Parsed} {i : Nat} {x0 : Processed} {r : IFieldHd} (h : Variant p i x0 (.field r)) :
    ∃ r0, x0 = .field r0 ∧ (r = r0 ∨ r = { r0 with dim := {} } ∨ (i = 0 ∧ r = { r0 with name := p.name })) := by
  rcases h with rfl | h | ⟨hi, h⟩
  · exact ⟨r, rfl, Or.inl rfl⟩
  · cases x0 with
    | field r0 => simp only [Processed.clearDim, Processed.field.injEq] at h; exact ⟨r0, rfl, Or.inr (Or.inl h)⟩
    | _ => simp [Processed.clearDim] at h
  · cases x0 with
    | field r0 => simp only [Processed.withName, Processed.field.injEq] at h; exact ⟨r0, rfl, Or.inr (Or.inr ⟨hi, h⟩)⟩
    | _ => simp [Processed.withName] at h

theorem createDimable_field {i : Nat} {n : Str} {disp : Option Str} {p : Parsed} {b : Option Processed} {r : IFieldHd}
    {w : List Warn} (h : createDimable i n disp p b = .ok (.field r) w) :
    ∃ s b', p = .field s ∧ b = b'.map .field ∧ ∃ w, processField i n s b' = .ok r w := by
  unfold createDimable at h
  split at h
  all_goals first
    | (simp only [M.bind_eq_ok, M.pure_eq_ok, Processed.field.injEq] at h
       obtain ⟨_, _, _, h1, ⟨rfl, -⟩, -⟩ := h
       first
        | exact ⟨_, none, rfl, rfl, _, h1⟩
        | exact ⟨_, some _, rfl, rfl, _, h1⟩)
    | (simp at h; done)

theorem fieldFrom_step {d : SDevice} {s : SField} {b' : Option IFieldHd} {i : Nat} {n : Str} {w : List Warn}
    {x r : IFieldHd} {l : List SField}
    (hc : FieldChain d (s :: l)) (hx : processField i n s b' = .ok x w)
    (hv : Variant (.field s) i (.field x) (.field r))
    (hn : (i = 0 ∧ n = s.name) ∨ ∃ idx, n = replaceAll (s%"%s") idx s.name ∨ n = replaceAll (s%"[%s]") idx s.name)
    (hb : match b' with | none => l = [] | some b => FieldFrom d l b) : FieldFrom d (s :: l) r := by
  obtain ⟨m, lo, hpos, rfl⟩ := processField_ok hx
  have hpl : Placed s.name s.dim.dimIncrement r.name (r.lsb - lo) := by
    have := placed_of (own := s.dim.dimIncrement) (merged := (mergeDim s.dim (b'.map (·.dim))).dimIncrement)
      lo hv rfl hn (by intro j hj; exact orIfNone_some hj)
    obtain ⟨r0, h1, h2⟩ := variant_field hv
    simp only [Processed.field.injEq] at h1
    subst h1
    rcases h2 with rfl | rfl | ⟨_, rfl⟩ <;> exact this
  obtain ⟨r0, h1, h2⟩ := variant_field hv
  simp only [Processed.field.injEq] at h1
  subst h1
  refine ⟨hc, ?_, ?_, ?_, ?_, ?_, ?_⟩
  · intro h t he
    simp only [List.cons.injEq] at he
    rw [← he.1]
    refine ⟨b', m, lo, w, hpos, hpl, ?_⟩
    rcases h2 with rfl | rfl | ⟨_, rfl⟩ <;> simp only [fieldAt, atIndex] <;> split <;> omega
  all_goals
    rw [nearest_cons]
    cases b' with
    | none =>
      simp only at hb; subst hb
      rcases h2 with rfl | rfl | ⟨_, rfl⟩ <;>
        simp only [fieldAt, nearest, List.findSome?_nil, Option.bind] <;>
        first | rfl | (cases s.modifiedWriteValues <;> rfl)
    | some b =>
      simp only at hb
      obtain ⟨e0, e1, e2, e3, e4, e5, e6⟩ := hb
      rcases h2 with rfl | rfl | ⟨_, rfl⟩ <;>
        simp only [fieldAt, Option.bind, e2, e3, e4, e5, e6] <;>
        first | rfl | (cases s.modifiedWriteValues <;> rfl)

theorem made_field {d : SDevice} {ch : List Parsed} {y : Processed} (h : Made d ch y) :
    ∀ r, y = .field r → ∃ l, ch = l.map .field ∧ FieldFrom d l r := by
  induction h with
  | @base p y hd hf hy =>
    intro r he; subst he
    obtain ⟨i, n, disp, x, w, h1, hv, hn⟩ := yields_inv hy
    obtain ⟨r0, rfl, -⟩ := variant_field hv
    obtain ⟨s, b', rfl, hb, _, hx⟩ := createDimable_field h1
    cases b' with
    | some b => simp at hb
    | none => exact ⟨[s], rfl, fieldFrom_step (.root hd hf) hx hv hn rfl⟩
  | @derive p q ch b y path hd hf hm hname hy ih =>
    intro r he; subst he
    obtain ⟨i, n, disp, x, w, h1, hv, hn⟩ := yields_inv hy
    obtain ⟨r0, rfl, -⟩ := variant_field hv
    obtain ⟨s, b', rfl, hb, _, hx⟩ := createDimable_field h1
    cases b' with
    | none => simp at hb
    | some b0 =>
      simp only [Option.map_some, Option.some.injEq] at hb
      obtain ⟨l, hl, hf'⟩ := ih b0 hb
      cases l with
      | nil => simp at hl
      | cons a l =>
        refine ⟨s :: a :: l, by rw [hl]; rfl, fieldFrom_step (.step hd hf ?_ hf'.chain) hx hv hn hf'⟩
        obtain ⟨_, _, _, _, -, hpl, -⟩ := hf'.placed a l rfl
        have := placed_instance hpl
        rw [hb] at hname
        rw [show b0.name = lastName path from hname] at this
        exact this

end Svd
