import Verif.Spec.Elements
import Verif.Lemmas.Heads
import Verif.Lemmas.LabRun
/-
Elements with a base are made like elements without base from the completed declaration.
-/
namespace Svd
open Graph Spec

theorem orIfNone_or {α : Type} (a b : Option α) : orIfNone a b = a.or b := by cases a <;> rfl

theorem lastPart_eq (path : Str) : lastPart path = lastName path := rfl
theorem nameOf_eq (x : Processed) : nameOf x = x.name := by cases x <;> rfl

/-- The address blocks of a head are sorted. -/
def Sorted' : Processed → Prop
  | .periph h => SortedOn (·.offset) h.addressBlocks
  | _ => True

theorem made_sorted {d : SDevice} {ch : List Parsed} {y : Processed} (h : Made d ch y) : Sorted' y := by
  cases y with
  | periph r =>
    obtain ⟨l, -, hf⟩ := made_periph h r rfl
    show SortedOn _ _
    rw [hf.addressBlocks]
    generalize l = l
    induction l with
    | nil => exact .nil
    | cons x xs ih =>
      rw [nearest_cons]
      cases hx : x.addressBlocks with
      | nil => simpa [orIfNone] using ih
      | cons b bs =>
        simp only [List.isEmpty_cons, orIfNone]
        exact (sortBy_sorted ⟨fun a b => by simp; omega, fun a b c => by simp; omega⟩ _).imp fun h => by simpa using h
  | clu r => trivial
  | reg r => trivial
  | field r => trivial

theorem stable_self {α : Type} {key : α → Int} {l : List α} (h : SortedOn key l) : sortBy (fun a b => decide (key a ≤ key b)) l = l :=
  StableSort.unique (sortBy_stable key l) ⟨.refl _, h, fun _ => rfl⟩

theorem blocks_again (bs : List AddressBlock) (h : SortedOn (·.offset) bs) : processAddressBlocks (bs.map asDeclared) = bs := by
  unfold processAddressBlocks
  have : (bs.map asDeclared).map (fun b : SAddressBlock => ({ offset := b.offset, size := b.size, usage := b.usage, protection := b.protection.getD .any } : AddressBlock)) = bs := by
    rw [List.map_map]
    conv => rhs; rw [← List.map_id bs]
    apply List.map_congr_left
    intro b _
    rfl
  rw [this]
  exact stable_self h

/-- Declaration and base are of the same kind. -/
inductive Fits : Parsed → Processed → Prop
  | periph {p b} : Fits (.periph p) (.periph b)
  | clu {p b} : Fits (.clu p) (.clu b)
  | reg {p b} : Fits (.reg p) (.reg b)
  | field {p b} : Fits (.field p) (.field b)

theorem create_fits {i : Nat} {n : Str} {disp : Option Str} {p : Parsed} {b x : Processed} {w : List Warn}
    (h : createDimable i n disp p (some b) = .ok x w) : Fits p b := by
  cases p <;> cases b <;> first | constructor | simp [createDimable, M.throw] at h

theorem extract_completed {p : Parsed} {b : Processed} (hf : Fits p b) :
    extractDimOf p (some b) = extractDimOf (completed p b) none := by
  cases hf <;> simp [extractDimOf, completed, extractDim, dimOver, orIfNone_or, Processed.dim]

theorem mergeDim_over (p : SDim) (b : IDim) : mergeDim p (some b) = mergeDim (dimOver p b) none := by
  simp [mergeDim, dimOver, orIfNone_or]
theorem mergeProps_over (p b : Props) : mergeProps p (some b) = mergeProps (propsOver p b) none := by
  simp [mergeProps, propsOver, orIfNone_or]

theorem field_completed (f : SField) (b : IFieldHd) {f' : SField} (h : completed (.field f) (.field b) = .field f') :
    fieldMsbLsb f (some b) = fieldMsbLsb f' none := by
  simp only [completed, Parsed.field.injEq] at h
  subst h
  unfold fieldMsbLsb half
  simp only [orIfNone_or]
  cases f.bitOffset <;> cases f.bitWidth <;> cases f.lsb <;> cases f.msb <;> cases f.bitRange <;> simp

theorem create_completed {p : Parsed} {b : Processed} (hf : Fits p b) (hs : Sorted' b) (i : Nat) (n : Str) (disp : Option Str) :
    createDimable i n disp p (some b) = createDimable i n disp (completed p b) none := by
  cases hf with
  | @periph p b =>
    simp only [createDimable, completed]
    congr 2
    simp only [processPeripheral, Option.map_some, Option.bind_some, Option.map_none, Option.bind_none, mergeDim_over, mergeProps_over, orIfNone_or,
      Option.or_none, processAddressBlocks_isEmpty]
    cases hb : p.addressBlocks with
    | nil =>
      simp only [if_true, List.isEmpty_nil, List.isEmpty_map, blocks_again _ hs]
      cases hc : b.addressBlocks <;> simp
    | cons x xs => simp
  | clu =>
    simp [createDimable, completed, processCluster, mergeDim_over, mergeProps_over, orIfNone_or]
  | @reg r b =>
    simp only [createDimable, completed, processRegister, Option.map_some, Option.bind_some, mergeDim_over, mergeProps_over, orIfNone_or, Option.map_none,
      Option.bind_none, Option.or_none]
    cases r.modifiedWriteValues <;> simp
  | @field f b =>
    simp only [createDimable]
    have h1 := field_completed f b rfl
    simp only [completed, createDimable] at h1 ⊢
    simp only [processField, Option.map_some, Option.bind_some, mergeDim_over, orIfNone_or, Option.map_none, Option.bind_none, Option.or_none, h1]
    cases f.modifiedWriteValues <;> simp

theorem createAll_completed {p : Parsed} {b : Processed} (hf : Fits p b) (hs : Sorted' b) : ∀ (ns : List Str) (i : Nat) (ds : List (Option Str)),
    createAll p (some b) i ns ds = createAll (completed p b) none i ns ds
  | [], _, _ => by simp [createAll]
  | n :: ns, i, [] => by simp [createAll]
  | n :: ns, i, d :: ds => by
    simp only [createAll, create_completed hf hs, createAll_completed hf hs ns (i + 1) ds]

theorem headsFrom_completed {p : Parsed} {b : Processed} {hs : List Processed} (hb : Sorted' b) (h : HeadsFrom p (some b) hs) :
    HeadsFrom (completed p b) none hs := by
  obtain ⟨isDim, names, ds, w, xs, w', h1, h2, h3, h4⟩ := h
  obtain ⟨x, xs', rfl⟩ := List.exists_cons_of_ne_nil h3
  obtain ⟨n, disp, w3, -, -, h5⟩ := (createAll_ok h2).2 0 x rfl
  have hf := create_fits h5
  exact ⟨isDim, names, ds, w, _, w', by rw [← extract_completed hf]; exact h1, by rw [← createAll_completed hf hb]; exact h2, h3, h4⟩

theorem yields_completed {p : Parsed} {b y : Processed} (hb : Sorted' b) (hy : Yields p (some b) y) : 
    ∃ n, Fits p b ∧ ∃ isDim names displays w i disp x w', extractDimOf (completed p b) none = .ok (isDim, names, displays) w ∧
    names[i]? = some n ∧ displays[i]? = some disp ∧ createDimable i n disp (completed p b) none = .ok x w' ∧
    ((isDim = false ∧ i = 0 ∧ y = x) ∨ (isDim = true ∧ y = x.clearDim) ∨ (isDim = true ∧ i = 0 ∧ y = x.withName p.name)) := by
  obtain ⟨isDim, names, displays, w, i, n, disp, x, w', h1, h2, h3, h4, h5⟩ := hy
  have hf := create_fits h4
  exact ⟨n, hf, isDim, names, displays, w, i, disp, x, w', by rw [← extract_completed hf]; exact h1, h2, h3,
    by rw [← create_completed hf hb]; exact h4, h5⟩

/-- The places of a declaration. -/
theorem places_of {p : Parsed} {ex : Bool} {ns : List Str} {ds : List (Option Str)} {w : List Warn} (h : extractDimOf p none = .ok (ex, ns, ds) w) :
    ∃ pls, Places (nameOfDecl p) (displayOf p) (dimOf p) ex pls ∧ pls.length = ns.length ∧ ds.length = ns.length ∧
      ∀ (i : Nat) n disp, ns[i]? = some n → ds[i]? = some disp → pls[i]? = some ⟨i, n, disp, (dimOf p).dimIncrement.getD 0 * i⟩ := by
  obtain ⟨ty, ho⟩ := outcome_none h
  simp only at ho
  rcases ho with ⟨rfl, rfl, rfl, hm, -⟩ | ⟨rfl, -, n, hdim, hn, hmark, mark, idx, rfl, rfl, hlen, hm⟩
  · refine ⟨_, .single (hasSub_false.1 hm), rfl, rfl, ?_⟩
    intro i n disp h1 h2
    cases i with
    | zero => simp at h1 h2; subst h1 h2; simp
    | succ i => simp at h1
  · refine ⟨_, .expanded (mark := mark) (idx := idx) hdim hn ?_ hlen ?_, by simp, by simp, ?_⟩
    · rcases hm with ⟨rfl, ha, -⟩ | ⟨rfl, ha, -⟩
      · exact .array (hasSub_iff.1 ha)
      · exact .list (hasSub_false.1 ha) (hasSub_iff.1 hmark)
    · exact indices_of hm
    · intro i n disp h6 h7
      rw [List.getElem?_map] at h6 h7
      rw [List.getElem?_mapIdx]
      cases hi : idx[i]? with
      | none => rw [hi] at h6; cases h6
      | some s =>
        rw [hi] at h6 h7
        simp only [Option.map_some, Option.some.injEq] at h6 h7
        subst h6 h7
        have hf' : fill mark s = replaceAll mark s := by
          funext x
          rcases hm with ⟨rfl, -⟩ | ⟨rfl, -⟩
          · exact fill_array _ _
          · exact fill_list _ _
        rw [← hf']
        rfl

theorem headsFrom_stands {p : Parsed} {hs : List Processed} (h : HeadsFrom p none hs) : StandsFor p hs := by
  obtain ⟨ex, ns, ds, w, xs, w', h1, h2, h3, rfl⟩ := h
  obtain ⟨pls, h4, h5, h6, h7⟩ := places_of h1
  obtain ⟨h8, h9⟩ := createAll_ok h2
  refine ⟨ex, pls, h4, entrywise_of_getElem ?_ ?_⟩
  · rw [List.length_map, h8, h5, h6]; simp
  · intro i a b ha hb
    rw [List.getElem?_map] at hb
    cases hx : xs[i]? with
    | none => rw [hx] at hb; cases hb
    | some x =>
      rw [hx] at hb
      simp only [Option.map_some, Option.some.injEq] at hb
      subst hb
      obtain ⟨nm, disp, w5, h10, h11, h12⟩ := h9 i x hx
      rw [h7 i nm disp h10 h11, Option.some.injEq] at ha
      subst ha
      exact create_none (by simpa using h12) ex _ rfl

/-- One element is made if another is. -/
theorem create_other {i : Nat} {n : Str} {disp : Option Str} {p : Parsed} {x : Processed} {w : List Warn}
    (h : createDimable i n disp p none = .ok x w) (j : Nat) (m : Str) (disp' : Option Str) : ∃ y w', createDimable j m disp' p none = .ok y w' := by
  cases p with
  | device => simp [createDimable, M.throw] at h
  | enum e => simp [createDimable, M.throw] at h
  | periph p => exact ⟨_, _, rfl⟩
  | clu p => exact ⟨_, _, rfl⟩
  | reg p => exact ⟨_, _, rfl⟩
  | field f =>
    simp only [createDimable, processField, M.bind_eq_ok, M.pure_eq_ok] at h
    obtain ⟨y, w1, w2, ⟨⟨m, l⟩, w3, w4, h1, ⟨rfl, -⟩, -⟩, ⟨rfl, -⟩, -⟩ := h
    simp only [createDimable, processField, h1]
    exact ⟨_, _, rfl⟩

theorem createAll_total {i : Nat} {n : Str} {disp : Option Str} {p : Parsed} {x : Processed} {w : List Warn}
    (h : createDimable i n disp p none = .ok x w) : ∀ (ns : List Str) (k : Nat) (ds : List (Option Str)),
    ∃ xs w', createAll p none k ns ds = .ok xs w'
  | [], k, ds => ⟨[], [], by simp [createAll, M.pure]⟩
  | n :: ns, k, [] => ⟨[], [], by simp [createAll, M.pure]⟩
  | n :: ns, k, d :: ds => by
    obtain ⟨y, w1, h1⟩ := create_other h k n d
    obtain ⟨ys, w2, h2⟩ := createAll_total h ns (k + 1) ds
    simp only [createAll, h1, h2]
    exact ⟨_, _, rfl⟩

theorem headAt_rename {ex : Bool} {p : Parsed} {pl : Place} {x : Processed} (h : HeadAt ex p pl x) (n : Str) :
    HeadAt ex p { pl with name := n } (x.withName n) := by
  cases h with
  | periph h1 h2 => exact .periph h1 h2
  | clu => exact .clu
  | reg => exact .reg
  | field h1 => exact .field (pl := { pl with name := n }) h1

theorem nameOfDecl_eq {i : Nat} {n : Str} {disp : Option Str} {p : Parsed} {b : Option Processed} {x : Processed} {w : List Warn}
    (h : createDimable i n disp p b = .ok x w) : p.name = nameOfDecl p := by
  cases p <;> first | rfl | (cases b <;> simp [createDimable, M.throw] at h)

theorem made_of_yields {p : Parsed} {y : Processed} {ex : Bool} {ns : List Str} {ds : List (Option Str)} {w w' : List Warn} {i : Nat} {n : Str} {disp : Option Str} {x : Processed} {nm : Str}
    (h1 : extractDimOf p none = .ok (ex, ns, ds) w) (h2 : ns[i]? = some n) (h3 : ds[i]? = some disp)
    (h4 : createDimable i n disp p none = .ok x w') (hnm : nm = nameOfDecl p)
    (h5 : (ex = false ∧ i = 0 ∧ y = x) ∨ (ex = true ∧ y = x.clearDim) ∨ (ex = true ∧ i = 0 ∧ y = x.withName nm)) :
    ∃ hs, StandsFor p hs ∧ (y ∈ hs ∨ Pattern p y) := by
  obtain ⟨xs, w2, h6⟩ := createAll_total h4 ns 0 ds
  obtain ⟨h8, h9⟩ := createAll_ok h6
  obtain ⟨pls, k4, k5, k6, k7⟩ := places_of h1
  have hi : i < ns.length := (List.getElem?_eq_some_iff.1 h2).1
  have hlen : xs.length = ns.length := by rw [h8, k6]; simp
  obtain ⟨x', hx'⟩ : ∃ x', xs[i]? = some x' := ⟨_, List.getElem?_eq_getElem (by omega)⟩
  have hxx : x' = x := by
    obtain ⟨n', d', w3, a1, a2, a3⟩ := h9 i x' hx'
    rw [h2] at a1
    rw [h3] at a2
    injection a1 with a1
    injection a2 with a2
    subst a1 a2
    rw [Nat.zero_add, h4] at a3
    injection a3 with a3 _
    exact a3.symm
  subst hxx
  have hne : xs ≠ [] := by intro hc; rw [hc] at hx'; simp at hx'
  refine ⟨_, headsFrom_stands ⟨ex, ns, ds, w, xs, w2, h1, h6, hne, rfl⟩, ?_⟩
  rcases h5 with ⟨rfl, rfl, rfl⟩ | ⟨rfl, rfl⟩ | ⟨rfl, rfl, rfl⟩
  · exact Or.inl (List.mem_map.2 ⟨_, List.mem_of_getElem? hx', by simp⟩)
  · exact Or.inl (List.mem_map.2 ⟨_, List.mem_of_getElem? hx', by simp⟩)
  · right
    have := k7 0 n disp h2 h3
    cases pls with
    | nil => simp at this
    | cons pl pls =>
      refine ⟨pl, pls, k4, ?_⟩
      simp only [List.getElem?_cons_zero, Option.some.injEq] at this
      have hh := create_none h4 false ((dimOf p).dimIncrement.getD 0 * (0 : Nat)) rfl
      simp only [Bool.false_eq_true, if_false] at hh
      rw [← this] at hh
      subst hnm
      exact headAt_rename hh _

theorem completed_name {p : Parsed} {b : Processed} (hf : Fits p b) : nameOfDecl (completed p b) = nameOfDecl p := by cases hf <;> rfl

theorem elementOf_made {d : SDevice} {x : Pos} {l : List Pos} (hc : Chain d x l) : ∀ {h : Processed}, MadeAlong d l h → ElementOf d x l h := by
  induction hc with
  | @root x p h1 h2 =>
    rintro h ⟨ps, hd, hm⟩
    cases hd with
    | cons hd1 hd2 =>
    cases hd2
    have := declAt_unique h1 hd1
    subst this
    cases hm with
    | base a1 a2 hy =>
      obtain ⟨ex, ns, ds, w, i, n, disp, y, w', k1, k2, k3, k4, k5⟩ := hy
      obtain ⟨hs, b1, b2⟩ := made_of_yields k1 k2 k3 k4 (nameOfDecl_eq k4) k5
      exact .own h1 h2 b1 b2
  | @step x b l hr hc ih =>
    rintro h ⟨ps, hd, hm⟩
    cases hd with
    | cons hd1 hd2 =>
    cases hm with
    | base a1 a2 hy => cases hd2; cases hc
    | @derive pp q ch bb y path a1 a2 a3 a4 hy =>
      obtain ⟨n, hf, ex, ns, ds, w, i, disp, y, w', k1, k2, k3, k4, k5⟩ := yields_completed (made_sorted a3) hy
      have hh := completed_name hf
      obtain ⟨hs, b1, b2⟩ := made_of_yields k1 k2 k3 k4 (by rw [hh]; cases hf <;> rfl) k5
      exact .derived hd1 a2 hr (ih ⟨_, hd2, a3⟩) (by rw [nameOf_eq]; exact a4) b1 b2

theorem standsAlong_of {d : SDevice} {y : Pos} {k : List Pos} {hs : List Processed} (h : Stands d y k hs) : StandsAlong d y k hs := by
  obtain ⟨p, b, h1, ⟨h2, rfl, rfl⟩ | ⟨path, x, z, l, h2, rfl, h3, h4, h5, h6, rfl⟩, h7⟩ := h
  · exact .own h1 h2 (headsFrom_stands h7)
  · have hm := h6
    obtain ⟨ps, -, hm⟩ := hm
    exact .derived h1 h2 h4 (elementOf_made h5 h6) (by rw [nameOf_eq]; exact h3)
      (headsFrom_stands (headsFrom_completed (made_sorted hm) h7))

theorem standsAt_of {d : SDevice} {y : Pos} {k : List Pos} {hs : List Processed} (h : Stands d y k hs) : StandsAt d y hs :=
  ⟨k, standsAlong_of h⟩

theorem instance_element {d : SDevice} {x : Pos} {l : List Pos} {h : Processed} (hi : Spec.Instance d x l h) : ElementOf d x l h := by
  obtain ⟨hs, h1, h2⟩ := hi
  cases h1 with
  | own a b c => exact .own a b c (Or.inl h2)
  | derived a b c e f g => exact .derived a b c e f g (Or.inl h2)

end Svd
