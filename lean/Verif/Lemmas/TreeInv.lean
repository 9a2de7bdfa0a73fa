import Verif.Lemmas.FinField
import Verif.Spec.Layout
import Verif.Lemmas.Text
/- The shape of finalised trees. -/
namespace Svd
open Spec

theorem rcLe_total : TotalPre rcLe where
  total a b := by
    unfold rcLe
    by_cases h1 : a.baseAddress < b.baseAddress
    · simp [h1]
    · by_cases h2 : b.baseAddress < a.baseAddress
      · simp [h2]
      · simp only [h1, h2, if_false]
        cases ha : a.altGroup <;> cases hb : b.altGroup <;> simp only [true_or, or_true]
        · exact strLe_total _ _
        · rename_i g h
          by_cases hg : g = h
          · simp only [hg, if_true]; exact strLe_total _ _
          · simp only [hg, Ne.symm hg, if_false]; exact strLe_total _ _
  trans a b c h1 h2 := by
    unfold rcLe at *
    by_cases hab : a.baseAddress < b.baseAddress
    · by_cases hbc : c.baseAddress < b.baseAddress
      · have : ¬ b.baseAddress < c.baseAddress := by omega
        simp [this, hbc] at h2
      · have : a.baseAddress < c.baseAddress := by omega
        simp [this]
    · by_cases hba : b.baseAddress < a.baseAddress
      · simp [hab, hba] at h1
      · by_cases hbc : b.baseAddress < c.baseAddress
        · have : a.baseAddress < c.baseAddress := by omega
          simp [this]
        · by_cases hcb : c.baseAddress < b.baseAddress
          · simp [hbc, hcb] at h2
          · have h3 : ¬ a.baseAddress < c.baseAddress := by omega
            have h4 : ¬ c.baseAddress < a.baseAddress := by omega
            simp only [hab, hba, hbc, hcb, h3, h4, if_false] at *
            cases ha : a.altGroup <;> cases hb : b.altGroup <;> cases hc : c.altGroup <;>
              simp only [ha, hb, hc, Bool.false_eq_true] at * 
            · exact strLe_trans _ _ _ h1 h2
            · rename_i g h k
              by_cases hgh : g = h <;> by_cases hhk : h = k
              · subst hgh; subst hhk; simp only [if_true] at *; exact strLe_trans _ _ _ h1 h2
              · subst hgh; simp only [hhk, if_false] at *; exact h2
              · subst hhk; simp only [hgh, if_false] at *; exact h1
              · simp only [hgh, hhk, if_false] at h1 h2
                by_cases hgk : g = k
                · subst hgk; exact absurd (strLe_antisymm _ _ h1 h2) hgh
                · simp only [hgk, if_false]; exact strLe_trans _ _ _ h1 h2

/-- A width the processor supports. -/
def OkSize (s : Int) : Prop := s = 8 ∨ s = 16 ∨ s = 32 ∨ s = 64 ∨ s = 128

/-- A list of children is sorted and has distinct (qualified) names. -/
def ScopeOK (xs : List RC) : Prop :=
  xs.Pairwise (fun a b => rcLe a b = true) ∧ (xs.map RC.qualName).Nodup

/-- The shape of finalised trees; the index is the address of the parent. -/
inductive FinT : Int → RC → Prop
  | reg {b r} : r.baseAddress = b + r.addressOffset → OkSize r.props.size → lower r.name ≠ s%"reserved" →
      ¬ (r.alternateRegister.isSome ∧ r.alternateGroup.isSome) → FinT b (.reg r)
  | clu {b c z zs} : c.baseAddress = b + c.addressOffset → OkSize c.props.size → c.endAddress = lastUsed z zs →
      c.clusterSize = c.endAddress - c.baseAddress + 1 → ScopeOK (z :: zs) → (∀ x ∈ z :: zs, FinT c.baseAddress x) →
      FinT b (.clu c (z :: zs))

theorem ScopeFrom.scopeOK {b : Int} {xs : List IRC} {ys : List RC} {ws : List Warn} (h : ScopeFrom b xs ys ws) :
    ScopeOK ys := by
  obtain ⟨os, w1, w2, raw, -, -, h1, rfl, -, -⟩ := h.ex
  exact ⟨sortBy_sorted rcLe_total _, ((sortBy_perm raw).map _).nodup_iff.2 h1⟩

theorem finalizeRC_finT (x : IRC) : ∀ {b : Int} {y : RC} {ws : List Warn}, finalizeRC b x = .ok (some y) ws → FinT b y := by
  induction x using IRC.induct with
  | hr r fs =>
    intro b y ws h
    obtain ⟨s, p, gs, w, h1, h2, h3, h4, -, -, h5, rfl⟩ := finalizeRC_reg_some h
    have h6 := (regPropValidator_ok h5).1
    rw [h1] at h6
    simp only [Option.some.injEq] at h6
    subst h6
    exact .reg rfl h2 h3 h4
  | hc c ch ih =>
    intro b y ws h
    obtain ⟨s, p, z, zs, w, h1, h2, h3, -, h5, rfl⟩ := finalizeRC_clu_some h
    have h6 := (regPropValidator_ok h5).1
    rw [h1] at h6
    simp only [Option.some.injEq] at h6
    subst h6
    refine .clu rfl h2 rfl rfl h3.scopeOK ?_
    intro y hy
    obtain ⟨x, hx, w, hw, -⟩ := h3.mem_ws hy
    exact ih x hx hw

/-- All that is known about the layout of a processed peripheral. -/
structure PeriphOK (q : Peripheral) : Prop where
  tree : ∀ x ∈ q.rcs, FinT q.baseAddress x
  scope : ScopeOK q.rcs
  regs : q.registers = extractRegisters q.rcs
  ends : ∃ z zs ab abs, q.rcs = z :: zs ∧ q.addressBlocks = ab :: abs ∧
    q.endAddress = maxList (q.baseAddress + ab.offset + ab.size - 1) (abs.map fun a => q.baseAddress + a.offset + a.size - 1) ∧
    q.endAddressEffective = maxList (q.baseAddress + z.addressOffset + z.extent - 1)
      (zs.map fun r => q.baseAddress + r.addressOffset + r.extent - 1)
  size : q.peripheralSize = sumList (q.addressBlocks.map (·.size))
  sizeEff : q.peripheralSizeEffective = q.endAddressEffective - q.baseAddress + 1

theorem validate_periphOK {d : IDevice} {dev : Device} {ws : List Warn} (h : validateAndFinalize d = .ok dev ws)
    {q : Peripheral} (hq : q ∈ dev.peripherals) : PeriphOK q := by
  obtain ⟨p, hp, w, hw, -⟩ := dev_periph_ws h hq
  obtain ⟨y, ys, w1, ab, abs, fp, h1, -, h3, -, rfl⟩ := finalizePeripheral_some_ws hw
  refine ⟨?_, h1.scopeOK, rfl, ⟨y, ys, ab, abs, rfl, rfl, rfl, rfl⟩, rfl, rfl⟩
  intro z hz
  obtain ⟨x, hx, w, hw, -⟩ := h1.mem_ws hz
  exact finalizeRC_finT x hw

theorem process_periphOK {ord : List Nat → List Nat} {fuel : Nat} {d : SDevice} {dev : Device} {ws : List Warn}
    (h : processDevice ord fuel d = .ok dev ws) {q : Peripheral} (hq : q ∈ dev.peripherals) : PeriphOK q := by
  obtain ⟨ps, w1, w2, -, h2, rfl⟩ := processDevice_ok.1 h
  exact validate_periphOK h2 hq

theorem FinT.path {xs : List RC} {cs : List ClusterHd} {y : RC} (hp : Path xs cs y) {b : Int}
    (h : ∀ x ∈ xs, FinT b x) : FinT (b + sumList (cs.map (·.addressOffset))) y := by
  induction hp generalizing b with
  | here hx => simpa [sumList] using h _ hx
  | @inside xs c ch cs x hc _ ih =>
    have := h _ hc
    cases this with
    | clu h1 _ _ _ _ h2 =>
      have := ih h2
      rw [h1] at this
      simpa [sumList, Int.add_assoc] using this

theorem finT_below {xs : List RC} {y : RC} (hp : Below xs y) {b : Int} (h : ∀ x ∈ xs, FinT b x) : ∃ b', FinT b' y := by
  obtain ⟨cs, hc⟩ := Below.path hp
  exact ⟨_, FinT.path hc h⟩

theorem mem_flatRCs {xs : List RC} {r : Register} : r ∈ flatRCs xs ↔ Below xs (.reg r) := by
  constructor
  · have key : ∀ x : RC, ∀ xs, x ∈ xs → r ∈ flatRC x → Below xs (.reg r) := by
      intro x
      induction x using RC.induct with
      | hr r' =>
        intro xs hx h
        simp only [flatRC, List.mem_singleton] at h
        subst h; exact .here hx
      | hc c ch ih =>
        intro xs hx h
        simp only [flatRC] at h
        refine .inside hx ?_
        have : ∃ y ∈ ch, r ∈ flatRC y := by
          clear ih hx
          induction ch with
          | nil => simp [flatRCs] at h
          | cons y ys ihy =>
            simp only [flatRCs, List.mem_append] at h
            rcases h with h | h
            · exact ⟨y, by simp, h⟩
            · obtain ⟨z, hz, h⟩ := ihy h
              exact ⟨z, by simp [hz], h⟩
        obtain ⟨y, hy, h⟩ := this
        exact ih y hy ch hy h
    intro h
    induction xs with
    | nil => simp [flatRCs] at h
    | cons x xs ih =>
      simp only [flatRCs, List.mem_append] at h
      rcases h with h | h
      · exact key x (x :: xs) (by simp) h
      · cases ih h with
        | here h => exact .here (List.mem_cons_of_mem _ h)
        | inside h1 h2 => exact .inside (List.mem_cons_of_mem _ h1) h2
  · intro h
    generalize hy : RC.reg r = y at h
    have mem_flat : ∀ {xs : List RC} {x : RC}, x ∈ xs → r ∈ flatRC x → r ∈ flatRCs xs := by
      intro xs
      induction xs with
      | nil => intro x h; cases h
      | cons z zs ih =>
        intro x hx h
        simp only [flatRCs, List.mem_append]
        rcases List.mem_cons.1 hx with rfl | hx
        · exact Or.inl h
        · exact Or.inr (ih hx h)
    induction h with
    | here h => subst hy; exact mem_flat h (by simp [flatRC])
    | inside h _ ih => exact mem_flat h (by simp only [flatRC]; exact ih hy)

theorem extractLoop_perm (xs : List RC) : (extractLoop xs).Perm (flatRCs xs) := by
  have key : ∀ x : RC, (extractOne x).Perm (flatRC x) := by
    intro x
    induction x using RC.induct with
    | hr r => simp [extractOne, flatRC]
    | hc c ch ih =>
      simp only [extractOne, flatRC]
      refine (sortBy_perm _).trans ?_
      clear c
      induction ch with
      | nil => simp [extractLoop, flatRCs]
      | cons y ys ihy =>
        simp only [extractLoop, flatRCs]
        exact (ih y (by simp)).append (ihy fun x hx => ih x (by simp [hx]))
  induction xs with
  | nil => simp [extractLoop, flatRCs]
  | cons y ys ihy =>
    simp only [extractLoop, flatRCs]
    exact (key y).append ihy

theorem regLe_total : TotalPre regLe := totalPre_intStr (fun r : Register => (r.baseAddress, r.name))
theorem periphLe_total : TotalPre periphLe := totalPre_intStr (fun r : Peripheral => (r.baseAddress, r.name))

theorem intStrLe_spec {a b : Int × Str} : intStrLe a b = true ↔ AddrNameLe a b := by
  unfold intStrLe AddrNameLe
  by_cases h1 : a.1 < b.1
  · simp [h1]
  · by_cases h2 : b.1 < a.1
    · have : a.1 ≠ b.1 := by omega
      simp [h1, h2, this]
    · have : a.1 = b.1 := by omega
      simp [this, strLe_iff]

end Svd
