import Verif.Spec.Build
import Verif.Lemmas.ShapeRun
import Verif.Props.Dim
import Verif.Lemmas.DimText
/-
What an element without derivedFrom stands for.
-/
namespace Svd
open Graph Spec

theorem entrywise_of_getElem {α β : Type} {R : α → β → Prop} : ∀ {xs : List α} {ys : List β}, xs.length = ys.length →
    (∀ (i : Nat) x y, xs[i]? = some x → ys[i]? = some y → R x y) → Entrywise R xs ys
  | [], [], _, _ => .nil
  | x :: xs, y :: ys, hl, h => .cons (h 0 x y rfl rfl) (entrywise_of_getElem (by simpa using hl) fun i a b ha hb =>
      h (i + 1) a b (by simpa using ha) (by simpa using hb))
  | [], _ :: _, hl, _ => by simp at hl
  | _ :: _, [], hl, _ => by simp at hl

theorem orIfNone_none {α : Type} (a : Option α) : orIfNone a none = a := by cases a <;> rfl

theorem mergeDim_none (d : SDim) : mergeDim d none = ⟨d.dim, d.dimIncrement, d.dimIndex⟩ := by
  simp [mergeDim, orIfNone_none]

theorem mergeProps_none (p : Props) : mergeProps p none = p := by
  simp [mergeProps, orIfNone_none]

theorem atIndex_eq (z : Int) (inc : Option Int) (i : Nat) : atIndex z inc i = z + inc.getD 0 * i := by
  cases inc <;> simp [atIndex]

theorem outcome_none {p : Parsed} {r : Bool × List Str × List (Option Str)} {w : List Warn} (h : extractDimOf p none = .ok r w) :
    ∃ ty, DimOutcome ty (nameOfDecl p) (dimOf p).dim (dimOf p).dimIndex (displayOf p) r.1 r.2.1 r.2.2 w := by
  obtain ⟨a, b, c⟩ := r
  unfold extractDimOf at h
  cases p with
  | device => simp [M.throw] at h
  | enum e => simp [M.throw] at h
  | periph p =>
    have := extractDim_ok h
    simp only [Option.map_none, Option.bind_none, orIfNone_none] at this
    exact ⟨_, by simpa [nameOfDecl, dimOf, displayOf] using this⟩
  | clu p =>
    have := extractDim_ok h
    simp only [Option.map_none, Option.bind_none, orIfNone_none] at this
    exact ⟨_, by simpa [nameOfDecl, dimOf, displayOf] using this⟩
  | reg p =>
    have := extractDim_ok h
    simp only [Option.map_none, Option.bind_none, orIfNone_none] at this
    exact ⟨_, by simpa [nameOfDecl, dimOf, displayOf] using this⟩
  | field p =>
    have := extractDim_ok h
    simp only [Option.map_none, Option.bind_none, orIfNone_none] at this
    exact ⟨_, by simpa [nameOfDecl, dimOf, displayOf] using this⟩

theorem insertBy_filter {α : Type} (key : α → Int) (x : α) (k : Int) (l : List α) :
    (insertBy (fun a b => decide (key a ≤ key b)) x l).filter (fun y => key y == k) = (x :: l).filter fun y => key y == k := by
  induction l with
  | nil => rfl
  | cons y l ih =>
    rw [insertBy]
    by_cases h : key x ≤ key y
    · rw [if_pos (decide_eq_true h)]
    · rw [if_neg (by simpa using h)]
      rw [List.filter_cons, ih]
      simp only [List.filter_cons, beq_iff_eq]
      by_cases h1 : key x = k <;> by_cases h2 : key y = k <;> simp only [h1, h2, if_true, if_false]
      omega

theorem sortBy_stable {α : Type} (key : α → Int) (l : List α) : StableSort key l (sortBy (fun a b => decide (key a ≤ key b)) l) := by
  refine ⟨sortBy_perm _, (sortBy_sorted (totalPre_of_int key) _).imp (fun hab => by simpa using hab), ?_⟩
  intro k
  induction l with
  | nil => rfl
  | cons x l ih =>
    rw [sortBy, insertBy_filter, List.filter_cons, List.filter_cons, ih]

theorem StableSort.unique {α : Type} {key : α → Int} {src l m : List α} (hl : StableSort key src l) (hm : StableSort key src m) : l = m := by
  have h1 : ∀ k, l.filter (fun x => key x == k) = m.filter (fun x => key x == k) := fun k => (hl.stable k).trans (hm.stable k).symm
  have h2 := hl.sorted
  have h3 := hm.sorted
  clear hl hm
  induction l generalizing m with
  | nil =>
    cases m with
    | nil => rfl
    | cons b m => have := h1 (key b); simp at this
  | cons a l ih =>
    cases m with
    | nil => have := h1 (key a); simp at this
    | cons b m =>
      unfold SortedOn at h2 h3
      rw [List.pairwise_cons] at h2 h3
      have hk : key a = key b := by
        have hb : b ∈ (a :: l).filter (fun x => key x == key b) := by rw [h1]; simp
        have ha : a ∈ (b :: m).filter (fun x => key x == key a) := by rw [← h1]; simp
        have e1 : key a ≤ key b := by
          rcases List.mem_cons.1 (List.mem_filter.1 hb).1 with h | h
          · rw [h]; exact Int.le_refl _
          · exact h2.1 b h
        have e2 : key b ≤ key a := by
          rcases List.mem_cons.1 (List.mem_filter.1 ha).1 with h | h
          · rw [h]; exact Int.le_refl _
          · exact h3.1 a h
        omega
      have hab : a = b := by
        have := h1 (key a)
        simp only [List.filter_cons, beq_self_eq_true, if_true, hk] at this
        exact (List.cons.inj this).1
      subst hab
      rw [ih (fun k => ?_) h2.2 h3.2]
      have := h1 k
      simp only [List.filter_cons] at this
      split at this
      · exact (List.cons.inj this).2
      · exact this

/-- An element made without base has the attributes of its declaration. -/
theorem create_none {i : Nat} {n : Str} {disp : Option Str} {p : Parsed} {x : Processed} {w : List Warn}
    (h : createDimable i n disp p none = .ok x w) (ex : Bool) (shift : Int) (hs : shift = (dimOf p).dimIncrement.getD 0 * i) :
    HeadAt ex p ⟨i, n, disp, shift⟩ (if ex then x.clearDim else x) := by
  cases p with
  | device => simp [createDimable, M.throw] at h
  | enum e => simp [createDimable, M.throw] at h
  | periph p =>
    simp only [createDimable, M.pure_eq_ok] at h
    obtain ⟨rfl, -⟩ := h
    have hb : StableSort (·.offset) (p.addressBlocks.map blockOf) (processAddressBlocks p.addressBlocks) := sortBy_stable _ _
    have hi : StableSort (·.value) p.interrupts (processInterrupts p.interrupts) := sortBy_stable _ _
    have := HeadAt.periph (expanded := ex) (p := p) (pl := ⟨i, n, disp, shift⟩) hb hi
    subst hs
    have hblk : (if processAddressBlocks p.addressBlocks = [] then ([] : List AddressBlock) else processAddressBlocks p.addressBlocks) =
        processAddressBlocks p.addressBlocks := by
      split <;> simp_all
    cases ex <;>
      simpa [processPeripheral, Processed.clearDim, keptDim, mergeDim_none, mergeProps_none, orIfNone_none, atIndex_eq, dimOf, hblk] using this
  | clu c =>
    simp only [createDimable, M.pure_eq_ok] at h
    obtain ⟨rfl, -⟩ := h
    have := HeadAt.clu (expanded := ex) (c := c) (pl := ⟨i, n, disp, shift⟩)
    subst hs
    cases ex <;>
      simpa [processCluster, Processed.clearDim, keptDim, mergeDim_none, mergeProps_none, orIfNone_none, atIndex_eq, dimOf] using this
  | reg r =>
    simp only [createDimable, M.pure_eq_ok] at h
    obtain ⟨rfl, -⟩ := h
    have := HeadAt.reg (expanded := ex) (r := r) (pl := ⟨i, n, disp, shift⟩)
    subst hs
    have hd : (disp.map fun d => if hasSub arrMark d then replaceAll arrMark (natStr i) d else d) = disp.map (finishDisplay i) := by
      congr 1
      funext x
      unfold finishDisplay
      rw [fillArray_eq, natText_eq]
      split
      · rfl
      · rename_i hx
        exact (replaceAll_absent (Bool.not_eq_true _ ▸ hx)).symm
    cases hm : r.modifiedWriteValues <;> cases ex <;>
      simpa [processRegister, Processed.clearDim, keptDim, mergeDim_none, mergeProps_none, orIfNone_none, atIndex_eq, dimOf, hm, hd] using this
  | field f =>
    simp only [createDimable, processField, M.bind_eq_ok, M.pure_eq_ok] at h
    obtain ⟨y, w1, w2, ⟨⟨m, l⟩, w3, w4, h1, ⟨rfl, -⟩, -⟩, ⟨rfl, -⟩, -⟩ := h
    have := HeadAt.field (expanded := ex) (pl := ⟨i, n, disp, shift⟩) (bits_iff.1 ⟨_, h1⟩)
    subst hs
    cases hm : f.modifiedWriteValues <;> cases ex <;>
      simpa [Processed.clearDim, keptDim, mergeDim_none, orIfNone_none, atIndex_eq, dimOf, hm] using this

theorem headsOf_eq {p : Parsed} {y : Bool × List Processed} {w : List Warn} (h : expandM p = .ok y w) :
    headsOf p = y.2.map fun x => if y.1 then x.clearDim else x := by
  obtain ⟨-, h1, h2, -⟩ := initNode_done h
  cases hy : y.1 with
  | true => simpa using h1 hy
  | false => simpa using h2 hy

/-- The elements made from a declaration are those it stands for. -/
theorem headsOf_stands {p : Parsed} {y : Bool × List Processed} {w : List Warn} (h : expandM p = .ok y w) :
    StandsFor p (headsOf p) := by
  rw [headsOf_eq h]
  unfold expandM at h
  simp only [M.bind_eq_ok] at h
  obtain ⟨a, w1, w2, h1, ⟨xs, w3, w4, h2, h3, -⟩, -⟩ := h
  split at h3
  · simp [M.throw] at h3
  rw [M.pure_eq_ok] at h3
  obtain ⟨rfl, -⟩ := h3
  obtain ⟨d, ns, ds⟩ := a
  obtain ⟨ty, ho⟩ := outcome_none h1
  obtain ⟨h4, h5⟩ := createAll_ok h2
  simp only at ho h4 h5 ⊢
  rcases ho with ⟨rfl, rfl, rfl, hm, -⟩ | ⟨rfl, -, n, hdim, hn, hmark, mark, idx, rfl, rfl, hlen, hm⟩
  · refine ⟨false, _, .single (hasSub_false.1 hm), entrywise_of_getElem ?_ ?_⟩
    · simpa using h4.symm
    · intro i a b ha hb
      rw [List.getElem?_map] at hb
      cases hx : xs[i]? with
      | none => rw [hx] at hb; cases hb
      | some x =>
        rw [hx] at hb
        simp only [Option.map_some, Option.some.injEq] at hb
        subst hb
        obtain ⟨nm, disp, w5, h6, h7, h8⟩ := h5 i x hx
        have hi0 : i = 0 := by
          cases i with
          | zero => rfl
          | succ i => simp at h6
        subst hi0
        simp only [List.getElem?_cons_zero, Option.some.injEq] at h6 h7 ha
        subst h6 h7 ha
        exact create_none (by simpa using h8) false 0 (by simp)
  · refine ⟨true, _, .expanded (mark := mark) (idx := idx) hdim hn ?_ hlen ?_, entrywise_of_getElem ?_ ?_⟩
    · rcases hm with ⟨rfl, ha, -⟩ | ⟨rfl, ha, -⟩
      · exact .array (hasSub_iff.1 ha)
      · exact .list (hasSub_false.1 ha) (hasSub_iff.1 hmark)
    · exact indices_of hm
    · simpa using h4.symm
    · intro i a b ha hb
      rw [List.getElem?_map] at hb
      cases hx : xs[i]? with
      | none => rw [hx] at hb; cases hb
      | some x =>
        rw [hx] at hb
        simp only [Option.map_some, Option.some.injEq] at hb
        subst hb
        obtain ⟨nm, disp, w5, h6, h7, h8⟩ := h5 i x hx
        rw [List.getElem?_map] at h6 h7
        rw [List.getElem?_mapIdx] at ha
        cases hi : idx[i]? with
        | none => rw [hi] at h6; cases h6
        | some s =>
          rw [hi] at h6 h7 ha
          simp only [Option.map_some, Option.some.injEq] at h6 h7 ha
          subst h6 h7 ha
          have hf : ∀ x, fill mark s x = replaceAll mark s x := by
            rcases hm with ⟨rfl, -⟩ | ⟨rfl, -⟩
            · exact fill_array _
            · exact fill_list _
          have hf' : fill mark s = replaceAll mark s := funext hf
          rw [hf']
          exact create_none (by simpa using h8) true _ rfl

end Svd
