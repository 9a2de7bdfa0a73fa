import Verif.Model.MapM
import Verif.Props.Layout
import Verif.Props.Warnings
/-
Theorems on the peripheral/register map: C32, C33.
-/
namespace Svd
open Spec

variable {ord : List Nat → List Nat} {fuel : Nat} {d : SDevice} {dev : Device} {ws : List Warn}

mutual
theorem buildMapRC_processed (x : RC) : ∀ b, (buildMapRC b x).map (·.processed) = flatRC x := by
  intro b
  cases x with
  | reg r => rfl
  | clu c ch => rw [buildMapRC, flatRC]; exact buildMapRCs_processed ch _
theorem buildMapRCs_processed (xs : List RC) : ∀ b, (buildMapRCs b xs).map (·.processed) = flatRCs xs := by
  intro b
  cases xs with
  | nil => rfl
  | cons x xs => rw [buildMapRCs, flatRCs, List.map_append, buildMapRC_processed x, buildMapRCs_processed xs]
end

theorem mem_buildMapRCs {b : Int} {xs : List RC} {m : MapRegister} :
    m ∈ buildMapRCs b xs ↔ ∃ x ∈ xs, m ∈ buildMapRC b x := by
  induction xs with
  | nil => simp [buildMapRCs]
  | cons x xs ih => simp [buildMapRCs, ih]

/-- Copies of the attributes of the processed register. -/
def CopyOf (m : MapRegister) (r : Register) : Prop :=
  m.processed = r ∧ m.name = r.name ∧ m.displayName = r.displayName ∧ m.description = r.description ∧
    m.props = r.props ∧ m.fields = r.fields ∧ m.address = r.baseAddress

theorem buildMapRC_copy (x : RC) : ∀ {b : Int}, FinT b x → ∀ m ∈ buildMapRC b x, CopyOf m m.processed := by
  induction x using RC.induct with
  | hr r =>
    intro b h m hm
    rw [buildMapRC, List.mem_singleton] at hm
    subst hm
    cases h with
    | reg h1 => exact ⟨rfl, rfl, rfl, rfl, rfl, rfl, h1.symm⟩
  | hc c ch ih =>
    intro b h m hm
    rw [buildMapRC] at hm
    cases h with
    | clu h1 _ _ _ _ h2 =>
      rw [← h1] at hm
      obtain ⟨x, hx, hm'⟩ := mem_buildMapRCs.1 hm
      exact ih x hx (h2 x hx) m hm'

theorem allocatedRange_ok {p : Peripheral} (hb : p.addressBlocks ≠ [])  :
    ∃ r, allocatedRange p.baseAddress p.addressBlocks = .ok r [] := by
  unfold allocatedRange
  have hne : sortBy (fun a b : AddressBlock => decide (a.offset ≤ b.offset)) p.addressBlocks ≠ [] := by
    intro h; exact hb (sortBy_eq_nil.1 h)
  generalize hs : sortBy (fun a b : AddressBlock => decide (a.offset ≤ b.offset)) p.addressBlocks = bs at hne ⊢
  cases bs with
  | nil => exact absurd rfl hne
  | cons x xs =>
    simp only
    rw [List.head?_cons, List.getLast?_eq_some_getLast (List.cons_ne_nil x xs)]
    exact ⟨_, rfl⟩

theorem buildMapPeripheral_ok {p : Peripheral} {m : MapPeripheral} {w : List Warn} (h : buildMapPeripheral p = .ok m w) :
    allocatedRange p.baseAddress p.addressBlocks = .ok m.allocatedRange [] ∧ w = [] ∧ m.processed = p ∧ m.name = p.name ∧
      m.description = p.description ∧ m.address = p.baseAddress ∧ m.registers = buildMapRCs p.baseAddress p.rcs := by
  unfold buildMapPeripheral at h
  simp only [M.bind_eq_ok, M.pure_eq_ok] at h
  obtain ⟨r, w1, w2, h1, ⟨rfl, rfl⟩, rfl⟩ := h
  have : w1 = [] := by
    unfold allocatedRange at h1
    simp only at h1
    split at h1
    · simp only [M.pure_eq_ok] at h1; exact h1.2
    · cases h1
  subst this
  exact ⟨h1, rfl, rfl, rfl, rfl, rfl, rfl⟩

theorem mapM_total {α β : Type} {f : α → M β} {xs : List α} (h : ∀ x ∈ xs, ∃ y, f x = .ok y []) :
    ∃ ys, M.Each f xs ys [] := by
  induction xs with
  | nil => exact ⟨[], .nil⟩
  | cons x xs ih =>
    obtain ⟨ys, h1⟩ := ih (fun y hy => h y (List.mem_cons_of_mem _ hy))
    obtain ⟨y, h2⟩ := h x List.mem_cons_self
    exact ⟨y :: ys, by simpa using M.Each.cons h2 h1⟩

theorem blocks_ne_nil (h : processDevice ord fuel d = .ok dev ws) {p : Peripheral} (hp : p ∈ dev.peripherals) :
    p.addressBlocks ≠ [] := by
  obtain ⟨z, zs, ab, abs, -, h1, -⟩ := (process_periphOK h hp).ends
  rw [h1]
  exact List.cons_ne_nil _ _

/-- C32: the map of a processed device exists, has the peripherals of the device as entries, in the same order and sorted
by address; the registers of an entry are, with multiplicity, the registers of the peripheral (at any depth), each with
the attributes and the absolute address it has in the processed device. -/
theorem C32_map (h : processDevice ord fuel d = .ok dev ws) : ∃ ms, buildMap dev = .ok ms [] ∧
    ms.map (·.processed) = dev.peripherals ∧ ms.Pairwise (fun a b => a.address ≤ b.address) ∧
    ∀ m ∈ ms, m.name = m.processed.name ∧ m.description = m.processed.description ∧
      m.address = m.processed.baseAddress ∧
      (m.registers.map (·.processed)).Perm m.processed.registers ∧
      ∀ r ∈ m.registers, CopyOf r r.processed := by
  obtain ⟨ms, hms⟩ := mapM_total (f := buildMapPeripheral) (xs := dev.peripherals) (by
    intro p hp
    obtain ⟨r, hr⟩ := allocatedRange_ok (blocks_ne_nil h hp)
    refine ⟨{ name := p.name, description := p.description, address := p.baseAddress, allocatedRange := r
              registers := buildMapRCs p.baseAddress p.rcs, processed := p }, ?_⟩
    unfold buildMapPeripheral
    rw [hr]
    rfl)
  have hproc : ms.map (·.processed) = dev.peripherals := by
    have := hms.map_eq (g := id) (p := (·.processed)) (fun x y w _ hxy => (buildMapPeripheral_ok hxy).2.2.1)
    simpa using this
  have haddr : ms.map (·.address) = dev.peripherals.map (·.baseAddress) :=
    hms.map_eq (fun x y w _ hxy => (buildMapPeripheral_ok hxy).2.2.2.2.2.1)
  have hsort : ms.Pairwise (fun a b => a.address ≤ b.address) := by
    have h1 : (dev.peripherals.map (·.baseAddress)).Pairwise (· ≤ ·) := by
      rw [List.pairwise_map]
      exact (C23_peripherals_sorted h).imp (fun hab => by rcases hab with h2 | ⟨h2, -⟩ <;> simp only at h2 <;> omega)
    rw [← haddr, List.pairwise_map] at h1
    exact h1
  refine ⟨ms, ?_, hproc, hsort, ?_⟩
  · unfold buildMap
    rw [M.mapM_eq_ok.2 hms]
    simp only [M.bind, M.pure, List.append_nil]
    rw [sortBy_of_sorted]
    exact hsort.imp (fun h => decide_eq_true h)
  · intro m hm
    obtain ⟨p, hp, w, h1⟩ := hms.mem hm
    obtain ⟨-, -, h2, h3, h4, h5, h6⟩ := buildMapPeripheral_ok h1
    subst h2
    have hq := process_periphOK h hp
    refine ⟨h3, h4, h5, ?_, ?_⟩
    · rw [h6, buildMapRCs_processed]
      exact (C22_registers_flatten h hp).1.symm
    · intro r hr
      rw [h6] at hr
      obtain ⟨x, hx, hr⟩ := mem_buildMapRCs.1 hr
      exact buildMapRC_copy x (hq.tree x hx) r hr

/-- The map of the sample device. -/
example : Sample.okAnd (M.bind (processDevice id 10 Sample.dev) buildMap)
    (fun ms _ => decide (ms.length = 2) && ms.any (fun m => decide (2 ≤ m.registers.length))) = true := by decide +kernel

theorem allocatedRange_spec {start : Int} {bs : List AddressBlock} {r : Int × Int} {w : List Warn}
    (h : allocatedRange start bs = .ok r w) : ∃ f ∈ bs, ∃ l ∈ bs, r = (start + f.offset, start + l.offset + l.size - 1) ∧
      (∀ b ∈ bs, f.offset ≤ b.offset) ∧ ∀ b ∈ bs, b.offset ≤ l.offset := by
  unfold allocatedRange at h
  have hs := sortBy_sorted (totalPre_of_int (fun a : AddressBlock => a.offset)) bs
  have hm : ∀ b, b ∈ sortBy (fun a b : AddressBlock => decide (a.offset ≤ b.offset)) bs ↔ b ∈ bs :=
    fun b => (sortBy_perm bs).mem_iff
  generalize sortBy (fun a b : AddressBlock => decide (a.offset ≤ b.offset)) bs = cs at h hs hm
  simp only at h
  split at h
  · rename_i f l hf hl
    simp only [M.pure_eq_ok] at h
    obtain ⟨rfl, rfl⟩ := h
    refine ⟨f, (hm f).1 (List.mem_of_mem_head? hf), l, (hm l).1 (List.mem_of_getLast? hl), rfl, ?_, ?_⟩
    · intro b hb
      have hb := (hm b).2 hb
      cases cs with
      | nil => cases hf
      | cons c cs =>
        rw [List.head?_cons, Option.some.injEq] at hf
        subst hf
        rcases List.mem_cons.1 hb with rfl | hb
        · exact Int.le_refl _
        · exact of_decide_eq_true (List.rel_of_pairwise_cons hs hb)
    · intro b hb
      have hb := (hm b).2 hb
      obtain ⟨ys, rfl⟩ := List.getLast?_eq_some_iff.1 hl
      rcases List.mem_append.1 hb with hb | hb
      · exact of_decide_eq_true ((List.pairwise_append.1 hs).2.2 b hb l (List.mem_singleton.2 rfl))
      · rw [List.mem_singleton.1 hb]; exact Int.le_refl _
  · cases h

/-- C33, start: the allocated range starts at the smallest block start. -/
theorem C33_start {ms : List MapPeripheral} {w : List Warn}
    (hm : buildMap dev = .ok ms w) {m : MapPeripheral} (hi : m ∈ ms) :
    (∃ b ∈ m.processed.addressBlocks, m.allocatedRange.1 = m.processed.baseAddress + b.offset) ∧
    ∀ b ∈ m.processed.addressBlocks, m.allocatedRange.1 ≤ m.processed.baseAddress + b.offset := by
  unfold buildMap at hm
  simp only [M.bind_eq_ok, M.pure_eq_ok, M.mapM_eq_ok] at hm
  obtain ⟨ns, w1, w2, h1, ⟨rfl, rfl⟩, rfl⟩ := hm
  obtain ⟨p, hp, w, h2⟩ := h1.mem ((sortBy_perm ns).mem_iff.1 hi)
  obtain ⟨h3, -, rfl, -⟩ := buildMapPeripheral_ok h2
  obtain ⟨f, hf, l, hl, hr, h4, h5⟩ := allocatedRange_spec h3
  rw [hr]
  exact ⟨⟨f, hf, rfl⟩, fun b hb => by have := h4 b hb; simp only; omega⟩

/-- C33, end: the allocated range never ends after the processed `end_address`, and ends exactly there if the address
blocks do not overlap (and are not empty).  Missing: overlapping blocks, for which it is false (`C33_nested_blocks`). -/
theorem C33_end_partial (h : processDevice ord fuel d = .ok dev ws) {ms : List MapPeripheral} {w : List Warn}
    (hm : buildMap dev = .ok ms w) {m : MapPeripheral} (hi : m ∈ ms) :
    m.allocatedRange.2 ≤ m.processed.endAddress ∧
    ((∀ a ∈ m.processed.addressBlocks, 0 < a.size) →
     (∀ a ∈ m.processed.addressBlocks, ∀ b ∈ m.processed.addressBlocks, a ≠ b →
        a.offset + a.size ≤ b.offset ∨ b.offset + b.size ≤ a.offset) →
      m.allocatedRange.2 = m.processed.endAddress) := by
  unfold buildMap at hm
  simp only [M.bind_eq_ok, M.pure_eq_ok, M.mapM_eq_ok] at hm
  obtain ⟨ns, w1, w2, h1, ⟨rfl, rfl⟩, rfl⟩ := hm
  obtain ⟨p, hp, w, h2⟩ := h1.mem ((sortBy_perm ns).mem_iff.1 hi)
  obtain ⟨h3, -, rfl, -⟩ := buildMapPeripheral_ok h2
  obtain ⟨f, hf, l, hl, hr, h4, h5⟩ := allocatedRange_spec h3
  obtain ⟨-, -, ⟨⟨b, hb, hbe⟩, hmax⟩, -⟩ := C25_peripheral_extent h hp
  rw [hr]
  have hle := hmax _ ⟨l, hl, rfl⟩
  refine ⟨hle, ?_⟩
  intro hpos hdis
  have h6 := h5 b hb
  by_cases hbl : b = l
  · subst hbl; simp only; omega
  · have h7 := hdis b hb l hl hbl
    have h8 := hpos b hb
    have h9 := hpos l hl
    simp only
    omega

theorem insertBy_getLast (x : AddressBlock) (l : List AddressBlock) (hl : l.Pairwise (fun a b => decide (a.offset ≤ b.offset) = true)) {m : AddressBlock}
    (hm : l.getLast? = some m) :
    (insertBy (fun a b : AddressBlock => decide (a.offset ≤ b.offset)) x l).getLast? = some (if x.offset ≤ m.offset then m else x) := by
  induction l with
  | nil => cases hm
  | cons y ys ih =>
    simp only [insertBy]
    cases ys with
    | nil =>
      simp only [List.getLast?_singleton, Option.some.injEq] at hm
      subst hm
      split
      · rename_i h
        rw [if_pos (of_decide_eq_true h)]; rfl
      · rename_i h
        rw [if_neg (fun k => h (decide_eq_true k))]; rfl
    | cons z zs =>
      rw [List.getLast?_cons_cons] at hm
      have hmem := List.mem_of_getLast? hm
      split
      · rename_i h
        have h1 : x.offset ≤ y.offset := of_decide_eq_true h
        have h2 : y.offset ≤ m.offset := of_decide_eq_true (List.rel_of_pairwise_cons hl hmem)
        rw [if_pos (by omega), List.getLast?_cons_cons, List.getLast?_cons_cons, hm]
      · have h1 := ih hl.of_cons hm
        rw [List.getLast?_cons, h1]
        rfl

/-- The last entry after sorting is the last one among those of the largest offset. -/
theorem sortBy_getLast (bs : List AddressBlock) {l : AddressBlock}
    (h : (sortBy (fun a b : AddressBlock => decide (a.offset ≤ b.offset)) bs).getLast? = some l) :
    ∃ xs ys, bs = xs ++ l :: ys ∧ (∀ b ∈ xs, b.offset ≤ l.offset) ∧ ∀ b ∈ ys, b.offset < l.offset := by
  induction bs generalizing l with
  | nil => cases h
  | cons x bs ih =>
    simp only [sortBy] at h
    cases hm : (sortBy (fun a b : AddressBlock => decide (a.offset ≤ b.offset)) bs).getLast? with
    | none =>
      have h1 := List.getLast?_eq_none_iff.1 hm
      have h2 := sortBy_eq_nil.1 h1
      subst h2
      simp only [sortBy, insertBy, List.getLast?_singleton, Option.some.injEq] at h
      subst h
      exact ⟨[], [], rfl, (fun _ hb => by cases hb), (fun _ hb => by cases hb)⟩
    | some m =>
      rw [insertBy_getLast x _ (sortBy_sorted (totalPre_of_int (fun a : AddressBlock => a.offset)) bs) hm, Option.some.injEq] at h
      obtain ⟨xs, ys, rfl, h1, h2⟩ := ih hm
      split at h
      · rename_i hle
        subst h
        refine ⟨x :: xs, ys, rfl, fun b hb => ?_, h2⟩
        rcases List.mem_cons.1 hb with rfl | hb
        · exact hle
        · exact h1 b hb
      · rename_i hle
        subst h
        refine ⟨[], _, rfl, fun b hb => (by cases hb), fun b hb => ?_⟩
        rcases List.mem_append.1 hb with hb | hb
        · have := h1 b hb; omega
        · rcases List.mem_cons.1 hb with rfl | hb
          · omega
          · have := h2 b hb; omega

theorem allocatedRange_last {start : Int} {bs : List AddressBlock} {r : Int × Int} {w : List Warn}
    (h : allocatedRange start bs = .ok r w) : ∃ xs l ys, bs = xs ++ l :: ys ∧ (∀ b ∈ xs, b.offset ≤ l.offset) ∧
      (∀ b ∈ ys, b.offset < l.offset) ∧ r.2 = start + l.offset + l.size - 1 := by
  unfold allocatedRange at h
  simp only at h
  split at h
  · rename_i f l hf hl
    simp only [M.pure_eq_ok] at h
    obtain ⟨rfl, rfl⟩ := h
    obtain ⟨xs, ys, h1, h2, h3⟩ := sortBy_getLast bs hl
    exact ⟨xs, l, ys, h1, h2, h3, rfl⟩
  · cases h

/-- C33, end, exactly: the allocated range ends where the block ends that starts last (of several, the one given last), whether
the blocks overlap or not; this is the processed `end_address` if and only if no block ends after it. -/
theorem C33_end_exact (h : processDevice ord fuel d = .ok dev ws) {ms : List MapPeripheral} {w : List Warn}
    (hm : buildMap dev = .ok ms w) {m : MapPeripheral} (hi : m ∈ ms) :
    ∃ xs l ys, m.processed.addressBlocks = xs ++ l :: ys ∧ (∀ b ∈ xs, b.offset ≤ l.offset) ∧ (∀ b ∈ ys, b.offset < l.offset) ∧
      m.allocatedRange.2 = m.processed.baseAddress + l.offset + l.size - 1 ∧
      (m.allocatedRange.2 = m.processed.endAddress ↔ ∀ b ∈ m.processed.addressBlocks, b.offset + b.size ≤ l.offset + l.size) := by
  unfold buildMap at hm
  simp only [M.bind_eq_ok, M.pure_eq_ok, M.mapM_eq_ok] at hm
  obtain ⟨ns, w1, w2, h1, ⟨rfl, rfl⟩, rfl⟩ := hm
  obtain ⟨p, hp, w, h2⟩ := h1.mem ((sortBy_perm ns).mem_iff.1 hi)
  obtain ⟨h3, -, rfl, -⟩ := buildMapPeripheral_ok h2
  obtain ⟨xs, l, ys, k1, k2, k3, k4⟩ := allocatedRange_last h3
  obtain ⟨-, -, ⟨⟨b, hb, hbe⟩, hmax⟩, -⟩ := C25_peripheral_extent h hp
  refine ⟨xs, l, ys, k1, k2, k3, k4, ?_⟩
  rw [k4]
  constructor
  · intro e c hc
    have := hmax _ ⟨c, hc, rfl⟩
    omega
  · intro hall
    have h4 := hall b hb
    have h5 := hmax _ ⟨l, by rw [k1]; exact List.mem_append_right _ (List.mem_cons_self ..), rfl⟩
    omega

/-- Two address blocks, the second one inside the first one. -/
def nestedBlocks : SDevice :=
  { hd := { name := s%"DEV", addressUnitBits := 8, width := 32 }
    peripherals := [
      { hd := { name := s%"P", baseAddress := 0
                addressBlocks := [{ offset := 0, size := 256, usage := .registers },
                                  { offset := 16, size := 16, usage := .registers }] }
        rcs := [.reg { name := s%"R", addressOffset := 0 }] }] }

/-- C33 as stated is false of the code: the end is the one of the block that starts last (31), not the largest one (255). -/
theorem C33_nested_blocks : ∃ dev ws ms w, processDevice id 10 nestedBlocks = .ok dev ws ∧ buildMap dev = .ok ms w ∧
    ms.map (fun m => (m.allocatedRange, m.processed.endAddress)) = [((0, 31), 255)] := by
  have key : Sample.okAnd (processDevice id 10 nestedBlocks) (fun dev _ => Sample.okAnd (buildMap dev)
      (fun ms _ => decide (ms.map (fun m => (m.allocatedRange, m.processed.endAddress)) = [((0, 31), 255)]))) = true := by
    decide +kernel
  obtain ⟨dev, ws, h1, h2⟩ := Sample.okAnd_spec key
  obtain ⟨ms, w, h3, h4⟩ := Sample.okAnd_spec h2
  exact ⟨dev, ws, ms, w, h1, h3, of_decide_eq_true h4⟩

/-- Disjoint blocks, listed in descending order. -/
example : Sample.okAnd (M.bind (processDevice id 10
    { nestedBlocks with peripherals := nestedBlocks.peripherals.map (fun p => { p with hd := { p.hd with
        addressBlocks := [{ offset := 64, size := 32, usage := .registers }, { offset := 0, size := 16, usage := .registers }] } }) })
    buildMap) (fun ms _ => decide (ms.map (fun m => (m.allocatedRange, m.processed.endAddress)) = [((0, 95), 95)])) = true := by
  decide +kernel

end Svd
