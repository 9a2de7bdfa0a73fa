import Verif.Lemmas.TreeInv
import Verif.Props.Sample
/-
Theorems on addresses, order, names and extents in processed devices: C21-C25, C27.
-/
namespace Svd
open Spec

variable {ord : List Nat → List Nat} {fuel : Nat} {d : SDevice} {dev : Device} {ws : List Warn}

/-! ### C21: absolute addresses -/

/-- C21: the address of each cluster and register of a processed device is the base address of the peripheral plus the
offsets of the enclosing clusters plus its own offset. -/
theorem C21_absolute_address (h : processDevice ord fuel d = .ok dev ws) {p : Peripheral} (hp : p ∈ dev.peripherals)
    {cs : List ClusterHd} {x : RC} (hx : Path p.rcs cs x) :
    x.baseAddress = p.baseAddress + (cs.map (·.addressOffset)).foldr (· + ·) 0 + x.addressOffset := by
  have hs : ∀ l : List Int, sumList l = l.foldr (· + ·) 0 := by
    intro l; induction l with
    | nil => rfl
    | cons a l ih => simp [sumList, ih]
  have := FinT.path hx (process_periphOK h hp).tree
  rw [hs] at this
  cases this with
  | reg h1 _ _ _ => exact h1
  | clu h1 _ _ _ _ _ => exact h1

/-- The sample device has a register inside a cluster: 4096 + 16 + 4. -/
example : ∃ dev ws r, processDevice id 10 Sample.dev = .ok dev ws ∧ HasRegister dev r ∧
    decide (r.name = s%"CFG" ∧ r.addressOffset = 4 ∧ r.baseAddress = 4116) = true :=
  Sample.exists_register _ (by decide +kernel)

/-! ### C22: the flat register list -/

/-- C22: the flat register list of a peripheral is a permutation of the registers of the tree (in document order)... -/
theorem C22_registers_flatten (h : processDevice ord fuel d = .ok dev ws) {p : Peripheral} (hp : p ∈ dev.peripherals) :
    p.registers.Perm (flatRCs p.rcs) ∧ ∀ r, r ∈ p.registers ↔ RegisterOf p r := by
  have h1 : p.registers.Perm (flatRCs p.rcs) := by
    rw [(process_periphOK h hp).regs]
    exact (sortBy_perm _).trans (extractLoop_perm _)
  exact ⟨h1, fun r => by rw [h1.mem_iff, mem_flatRCs]; exact Iff.rfl⟩

/-- C22: ... sorted by address and name. -/
theorem C22_registers_sorted (h : processDevice ord fuel d = .ok dev ws) {p : Peripheral} (hp : p ∈ dev.peripherals) :
    p.registers.Pairwise (fun a b => AddrNameLe (a.baseAddress, a.name) (b.baseAddress, b.name)) := by
  rw [(process_periphOK h hp).regs]
  exact (sortBy_sorted regLe_total _).imp fun h => intStrLe_spec.1 h

/-- The flat list of the first peripheral of the sample device. -/
example : ∃ dev ws, processDevice id 10 Sample.dev = .ok dev ws ∧ ∃ p ∈ dev.peripherals,
    decide ((p.registers.map fun r => (r.baseAddress, r.name)) =
      [(4096, s%"CTRL"), (4100, s%"DATA0"), (4104, s%"DATA1"), (4116, s%"CFG")]) = true := by
  obtain ⟨dev, ws, h1, h2⟩ := Sample.okAnd_spec (x := processDevice id 10 Sample.dev)
    (p := fun dev _ => dev.peripherals.any fun p => decide ((p.registers.map fun r => (r.baseAddress, r.name)) =
      [(4096, s%"CTRL"), (4100, s%"DATA0"), (4104, s%"DATA1"), (4116, s%"CFG")])) (by decide +kernel)
  exact ⟨dev, ws, h1, List.any_eq_true.1 h2⟩

/-! ### C23: order -/

theorem rcLe_spec {a b : RC} : rcLe a b = true ↔ ScopeLe (scopeKey a) (scopeKey b) := by
  have e1 : ∀ a : RC, scopeKey a = (a.baseAddress, a.altGroup, a.name) := by
    intro a; cases a <;> rfl
  rw [e1, e1]
  unfold rcLe ScopeLe
  by_cases h1 : a.baseAddress < b.baseAddress
  · simp [h1]
  · by_cases h2 : b.baseAddress < a.baseAddress
    · have : a.baseAddress ≠ b.baseAddress := by omega
      simp [this]; omega
    · have : a.baseAddress = b.baseAddress := by omega
      simp only [this, if_false, Int.lt_irrefl, false_or, true_and]
      cases ha : a.altGroup <;> cases hb : b.altGroup <;> simp only [Bool.false_eq_true, strLe_iff]
      rename_i g k
      by_cases hg : g = k <;> simp [hg, strLe_iff]

/-- What the contents of peripherals and clusters have in common. -/
theorem scope_ok (h : processDevice ord fuel d = .ok dev ws) {xs : List RC} (hs : IsScope dev xs) :
    ScopeOK xs ∧ ∃ b, ∀ x ∈ xs, FinT b x := by
  rcases hs with ⟨p, hp, rfl⟩ | ⟨c, p, hp, hc⟩
  · exact ⟨(process_periphOK h hp).scope, _, (process_periphOK h hp).tree⟩
  · obtain ⟨b, hb⟩ := finT_below hc (process_periphOK h hp).tree
    cases hb with
    | clu _ _ _ _ h5 h6 => exact ⟨h5, _, h6⟩

/-- C23: peripherals are sorted by address and name. -/
theorem C23_peripherals_sorted (h : processDevice ord fuel d = .ok dev ws) :
    dev.peripherals.Pairwise (fun a b => AddrNameLe (a.baseAddress, a.name) (b.baseAddress, b.name)) := by
  obtain ⟨ps, w1, w2, -, h2, rfl⟩ := processDevice_ok.1 h
  obtain ⟨os, v1, v2, raw, -, -, -, -, h3, -, -⟩ := validateAndFinalize_ok h2
  rw [h3]
  exact (sortBy_sorted periphLe_total _).imp fun h => intStrLe_spec.1 h

/-- C23: the contents of each peripheral and of each cluster are sorted by address, alternate group and name. -/
theorem C23_children_sorted (h : processDevice ord fuel d = .ok dev ws) {xs : List RC} (hs : IsScope dev xs) :
    xs.Pairwise (fun a b => ScopeLe (scopeKey a) (scopeKey b)) :=
  (scope_ok h hs).1.1.imp fun h => rcLe_spec.1 h

/-! ### C24: names -/

theorem qualName_spec (x : RC) : x.qualName = scopeName x := by
  cases x with
  | clu c ch => rfl
  | reg r =>
    simp only [RC.qualName, scopeName]
    cases r.alternateGroup with
    | none => rfl
    | some g => cases g <;> simp

/-- C24: the peripherals of a processed device have pairwise different names. -/
theorem C24_peripheral_names (h : processDevice ord fuel d = .ok dev ws) : (dev.peripherals.map (·.name)).Nodup := by
  obtain ⟨ps, w1, w2, -, h2, rfl⟩ := processDevice_ok.1 h
  obtain ⟨os, v1, v2, raw, -, -, h1, -, h3, -, -⟩ := validateAndFinalize_ok h2
  rw [h3]
  exact ((sortBy_perm raw).map _).nodup_iff.2 h1

/-- C24: the elements of one peripheral or cluster have pairwise different (alternate group qualified) names. -/
theorem C24_child_names (h : processDevice ord fuel d = .ok dev ws) {xs : List RC} (hs : IsScope dev xs) :
    (xs.map scopeName).Nodup := by
  have := (scope_ok h hs).1.2
  rwa [show RC.qualName = scopeName from funext qualName_spec] at this

/-- Two registers of one name are rejected. -/
example : Sample.errAnd (processDevice id 10 (Sample.devOf
      [.reg { name := s%"R", addressOffset := 0 }, .reg { name := s%"R", addressOffset := 4 }]))
    (· == .process (.duplicateRegCluster (s%"R"))) = true := by decide +kernel
/-- Two registers of one name in different alternate groups are accepted. -/
example : ∃ dev ws r, processDevice id 10 (Sample.devOf
      [.reg { name := s%"R", addressOffset := 0 }, .reg { name := s%"R", addressOffset := 0, alternateGroup := some (s%"G") }])
      = .ok dev ws ∧ HasRegister dev r ∧ decide (r.alternateGroup = some (s%"G")) = true :=
  Sample.exists_register _ (by decide +kernel)

/-! ### C25: extents -/

theorem finT_lastAddr (x : RC) : ∀ {b : Int}, FinT b x →
    (∃ r, Below [x] (.reg r) ∧ regEnd r = x.baseAddress + x.extent - 1) ∧
    ∀ r, Below [x] (.reg r) → regEnd r ≤ x.baseAddress + x.extent - 1 := by
  induction x using RC.induct with
  | hr r =>
    intro b _
    refine ⟨⟨r, .here (by simp), rfl⟩, ?_⟩
    intro r' h
    cases h with
    | here h => simp only [List.mem_singleton, RC.reg.injEq] at h; subst h; exact Int.le_refl _
    | inside h _ => simp at h
  | hc c ch ih =>
    intro b h
    cases h with
    | @clu _ _ z zs h1 h2 h3 h4 h5 h6 =>
      have he : (RC.clu c (z :: zs)).baseAddress + (RC.clu c (z :: zs)).extent - 1 = lastUsed z zs := by
        simp only [RC.baseAddress, RC.extent, h4, h3]; omega
      rw [he]
      have hm : ∀ y ∈ z :: zs, y.baseAddress + y.extent - 1 ≤ lastUsed z zs := by
        intro y hy
        unfold lastUsed
        rcases List.mem_cons.1 hy with rfl | hy
        · exact (le_maxList _ _).1
        · exact (le_maxList _ _).2 _ (List.mem_map.2 ⟨y, hy, rfl⟩)
      have hw : ∃ y ∈ z :: zs, lastUsed z zs = y.baseAddress + y.extent - 1 := by
        unfold lastUsed
        rcases maxList_mem (z.baseAddress + z.extent - 1) (zs.map fun z => z.baseAddress + z.extent - 1) with h | h
        · exact ⟨z, by simp, h⟩
        · obtain ⟨y, hy, h⟩ := List.mem_map.1 h
          exact ⟨y, by simp [hy], h.symm⟩
      have single : ∀ {r}, Below (z :: zs) (.reg r) → ∃ y ∈ z :: zs, Below [y] (.reg r) := by
        intro r h
        cases h with
        | here h => exact ⟨_, h, .here (by simp)⟩
        | inside h1 h2 => exact ⟨_, h1, .inside (List.mem_singleton.2 rfl) h2⟩
      have lift : ∀ {y r}, y ∈ z :: zs → Below [y] (.reg r) → Below (z :: zs) (.reg r) := by
        intro y r hy h
        cases h with
        | here h => simp only [List.mem_singleton] at h; exact .here (h ▸ hy)
        | inside h1 h2 => simp only [List.mem_singleton] at h1; exact .inside (h1 ▸ hy) h2
      constructor
      · obtain ⟨y, hy, he⟩ := hw
        obtain ⟨⟨r, hr, h7⟩, -⟩ := ih y hy (h6 y hy)
        exact ⟨r, .inside (List.mem_singleton.2 rfl) (lift hy hr), by rw [h7, he]⟩
      · intro r hr
        cases hr with
        | here h => simp at h
        | inside h h' =>
          simp only [List.mem_singleton, RC.clu.injEq] at h
          obtain ⟨rfl, rfl⟩ := h
          obtain ⟨y, hy, hr⟩ := single h'
          exact Int.le_trans ((ih y hy (h6 y hy)).2 r hr) (hm y hy)

/-- C25: the end address of a cluster is the largest last address of a register inside it (there is one), at any depth,
and its size is the distance from its base to its end. -/
theorem C25_cluster_extent (h : processDevice ord fuel d = .ok dev ws) {c : ClusterHd} {ch : List RC}
    (hc : HasCluster dev c ch) :
    IsMax (fun a => ∃ r, Below ch (.reg r) ∧ regEnd r = a) c.endAddress ∧
    c.clusterSize = c.endAddress - c.baseAddress + 1 := by
  obtain ⟨p, hp, hc⟩ := hc
  obtain ⟨b, hb⟩ := finT_below hc (process_periphOK h hp).tree
  have hl := finT_lastAddr _ hb
  cases hb with
  | clu h1 h2 h3 h4 h5 h6 =>
    have he : c.baseAddress + c.clusterSize - 1 = c.endAddress := by omega
    simp only [RC.baseAddress, RC.extent, he] at hl
    have hs : ∀ {zs r}, Below [RC.clu c zs] (.reg r) → Below zs (.reg r) := by
      intro zs r h
      cases h with
      | here h => simp at h
      | inside h h' =>
        simp only [List.mem_singleton, RC.clu.injEq] at h
        obtain ⟨rfl, rfl⟩ := h
        exact h'
    obtain ⟨⟨r, hr, he⟩, hm⟩ := hl
    refine ⟨⟨⟨r, hs hr, he⟩, ?_⟩, h4⟩
    rintro a ⟨r, hr, rfl⟩
    exact hm r (.inside (List.mem_singleton.2 rfl) hr)

/-- C25: the effective end address of a peripheral is the largest last address of one of its registers, its effective
size the distance from base to end; the specified end is the largest end of an address block and the specified size
the sum of the block sizes. -/
theorem C25_peripheral_extent (h : processDevice ord fuel d = .ok dev ws) {p : Peripheral} (hp : p ∈ dev.peripherals) :
    IsMax (fun a => ∃ r, RegisterOf p r ∧ regEnd r = a) p.endAddressEffective ∧
    p.peripheralSizeEffective = p.endAddressEffective - p.baseAddress + 1 ∧
    IsMax (fun a => ∃ b ∈ p.addressBlocks, p.baseAddress + b.offset + b.size - 1 = a) p.endAddress ∧
    p.peripheralSize = (p.addressBlocks.map (·.size)).foldr (· + ·) 0 := by
  obtain ⟨h1, h2, -, ⟨z, zs, ab, abs, h4, h5, h6, h7⟩, h8, h9⟩ := process_periphOK h hp
  have hs : ∀ l : List Int, sumList l = l.foldr (· + ·) 0 := by
    intro l; induction l with
    | nil => rfl
    | cons a l ih => simp [sumList, ih]
  have hb : ∀ x ∈ p.rcs, p.baseAddress + x.addressOffset + x.extent - 1 = x.baseAddress + x.extent - 1 := by
    intro x hx
    have : x.baseAddress = p.baseAddress + x.addressOffset := by cases h1 x hx <;> assumption
    omega
  refine ⟨⟨?_, ?_⟩, h9, ⟨?_, ?_⟩, by rw [h8, hs]⟩
  · have hw : ∃ y ∈ p.rcs, p.endAddressEffective = y.baseAddress + y.extent - 1 := by
      rw [h7]
      rcases maxList_mem (p.baseAddress + z.addressOffset + z.extent - 1)
        (zs.map fun r => p.baseAddress + r.addressOffset + r.extent - 1) with h | h
      · exact ⟨z, by simp [h4], by rw [h]; exact hb z (by simp [h4])⟩
      · obtain ⟨y, hy, h⟩ := List.mem_map.1 h
        exact ⟨y, by simp [h4, hy], by rw [← h]; exact hb y (by simp [h4, hy])⟩
    obtain ⟨y, hy, he⟩ := hw
    obtain ⟨⟨r, hr, h7⟩, -⟩ := finT_lastAddr y (h1 y hy)
    refine ⟨r, ?_, by rw [h7, he]⟩
    cases hr with
    | here h => simp only [List.mem_singleton] at h; exact .here (h ▸ hy)
    | inside h1 h2 => simp only [List.mem_singleton] at h1; exact .inside (h1 ▸ hy) h2
  · rintro a ⟨r, hr, rfl⟩
    have hy : ∃ y ∈ p.rcs, Below [y] (.reg r) := by
      cases hr with
      | here h => exact ⟨_, h, .here (by simp)⟩
      | inside h1 h2 => exact ⟨_, h1, .inside (List.mem_singleton.2 rfl) h2⟩
    obtain ⟨y, hy, hr⟩ := hy
    refine Int.le_trans ((finT_lastAddr y (h1 y hy)).2 r hr) ?_
    rw [← hb y hy, h7]
    rw [h4] at hy
    rcases List.mem_cons.1 hy with rfl | hy
    · exact (le_maxList _ _).1
    · exact (le_maxList _ _).2 _ (List.mem_map.2 ⟨y, hy, rfl⟩)
  · rw [h6, h5]
    rcases maxList_mem (p.baseAddress + ab.offset + ab.size - 1)
      (abs.map fun a => p.baseAddress + a.offset + a.size - 1) with h | h
    · exact ⟨ab, by simp, h.symm⟩
    · obtain ⟨y, hy, h⟩ := List.mem_map.1 h
      exact ⟨y, by simp [hy], h⟩
  · rintro a ⟨b, hb, rfl⟩
    rw [h6]
    rw [h5] at hb
    rcases List.mem_cons.1 hb with rfl | hb
    · exact (le_maxList _ _).1
    · exact (le_maxList _ _).2 _ (List.mem_map.2 ⟨b, hb, rfl⟩)

/-- The extents of the first peripheral of the sample device. -/
example : ∃ dev ws, processDevice id 10 Sample.dev = .ok dev ws ∧ ∃ p ∈ dev.peripherals,
    decide (p.endAddress = 4127 ∧ p.endAddressEffective = 4119 ∧ p.peripheralSize = 32 ∧ p.peripheralSizeEffective = 24)
      = true := by
  obtain ⟨dev, ws, h1, h2⟩ := Sample.okAnd_spec (x := processDevice id 10 Sample.dev)
    (p := fun dev _ => dev.peripherals.any fun p => decide (p.endAddress = 4127 ∧ p.endAddressEffective = 4119 ∧
      p.peripheralSize = 32 ∧ p.peripheralSizeEffective = 24)) (by decide +kernel)
  exact ⟨dev, ws, h1, List.any_eq_true.1 h2⟩

/-! ### C27: sizes -/

/-- C27: every register and cluster of a processed device is 8, 16, 32, 64 or 128 bits wide. -/
theorem C27_supported_sizes (h : processDevice ord fuel d = .ok dev ws) {p : Peripheral} (hp : p ∈ dev.peripherals)
    {x : RC} (hx : Below p.rcs x) : x.size ∈ [8, 16, 32, 64, (128 : Int)] := by
  obtain ⟨b, hb⟩ := finT_below hx (process_periphOK h hp).tree
  have : OkSize x.size := by cases hb <;> assumption
  simpa [OkSize] using this

/-- A register of a width that is no power of two is rejected, one whose width is no multiple of 8 ignored. -/
example : Sample.errAnd (processDevice id 10 (Sample.devOf
      [.reg { name := s%"R", addressOffset := 0, props := { size := some 24 } }]))
    (· == .process .unsupportedSize) = true := by decide +kernel

end Svd
