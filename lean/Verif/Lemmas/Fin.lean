import Verif.Lemmas.Basic
import Verif.Model.Finalize
import Verif.Spec.Tree
/- Inversion lemmas for the finalisation. -/
namespace Svd
open Spec

/-- Induction over intermediate trees. -/
theorem IRC.induct {P : IRC → Prop} (hr : ∀ r fs, P (.reg r fs)) (hc : ∀ c ch, (∀ x ∈ ch, P x) → P (.clu c ch)) :
    ∀ x, P x
  | .reg r fs => hr r fs
  | .clu c ch => hc c ch (fun x _ => IRC.induct hr hc x)

/-- Induction over processed trees. -/
theorem RC.induct {P : RC → Prop} (hr : ∀ r, P (.reg r)) (hc : ∀ c ch, (∀ x ∈ ch, P x) → P (.clu c ch)) :
    ∀ x, P x
  | .reg r => hr r
  | .clu c ch => hc c ch (fun x _ => RC.induct hr hc x)

namespace M
/-- A run of a loop appending the non-`None` results. -/
theorem filterMapM_eq_ok {α β : Type} {f : α → M (Option β)} {xs : List α} {ys : List β} {ws : List Warn} :
    M.filterMapM f xs = .ok ys ws ↔ ∃ os, Each f xs os ws ∧ ys = os.filterMap id := by
  induction xs generalizing ys ws with
  | nil =>
    simp only [M.filterMapM, pure_eq_ok]
    constructor
    · rintro ⟨rfl, rfl⟩; exact ⟨[], .nil, rfl⟩
    · rintro ⟨os, h, rfl⟩; cases h; exact ⟨rfl, rfl⟩
  | cons x xs ih =>
    rw [filterMapM_cons_ok]
    constructor
    · rintro ⟨o, w1, zs, w2, h1, h2, rfl, rfl⟩
      obtain ⟨os, h3, rfl⟩ := ih.1 h2
      refine ⟨o :: os, .cons h1 h3, ?_⟩
      cases o <;> simp
    · rintro ⟨os, h, rfl⟩
      cases h with
      | cons h1 h2 =>
        rename_i o w os ws
        refine ⟨o, w, _, ws, h1, ih.2 ⟨os, h2, rfl⟩, ?_, rfl⟩
        cases o <;> simp
end M

theorem toByte_ok {v b : Int} {ws : List Warn} (h : toByte v = .ok b ws) : v % 8 = 0 ∧ b = v / 8 ∧ ws = [] := by
  unfold toByte at h
  split at h
  · simp at h
  · rename_i h8
    simp only [M.pure_eq_ok] at h
    exact ⟨by simpa using h8, h.1.symm, h.2⟩

theorem getAlignment_ok {b al : Int} {ws : List Warn} (h : getAlignment b = .ok al ws) :
    ws = [] ∧ (b = 1 ∧ al = 1 ∨ b = 2 ∧ al = 2 ∨ b = 4 ∧ al = 4 ∨ b = 8 ∧ al = 4 ∨ b = 16 ∧ al = 4) := by
  unfold getAlignment at h
  split at h
  · simp at h; obtain ⟨rfl, rfl⟩ := h; simp [*]
  split at h
  · simp at h; obtain ⟨rfl, rfl⟩ := h; simp [*]
  split at h
  · simp at h; obtain ⟨rfl, rfl⟩ := h; simp [*]
  split at h
  · simp at h; obtain ⟨rfl, rfl⟩ := h; simp [*]
  split at h
  · simp at h; obtain ⟨rfl, rfl⟩ := h; simp [*]
  · simp at h

theorem regPropValidator_ok {p : Props} {q : FProps} {ws : List Warn} (h : regPropValidator p = .ok q ws) :
    p.size = some q.size ∧ p.access = some q.access ∧ p.protection = some q.protection ∧
      p.resetValue = some q.resetValue ∧ p.resetMask = some q.resetMask ∧ ws = [] := by
  unfold regPropValidator at h
  split at h
  · simp only [M.pure_eq_ok] at h
    obtain ⟨rfl, rfl⟩ := h
    simp [*]
  · simp at h

theorem checkSizeAlign_ok {name : Str} {size : Option Int} {offset : Int} {o : Option Int} {ws : List Warn}
    (h : checkSizeAlign name size offset = .ok o ws) :
    ∃ s, size = some s ∧
      ((s % 8 ≠ 0 ∧ o = none ∧ ws = [.regClusterBadSize name]) ∨
       (s % 8 = 0 ∧ o = some s ∧ (s = 8 ∨ s = 16 ∨ s = 32 ∨ s = 64 ∨ s = 128) ∧
          (ws = [] ∨ ws = [.regClusterUnaligned name]))) := by
  unfold checkSizeAlign at h
  split at h
  · simp at h
  · rename_i s
    refine ⟨s, rfl, ?_⟩
    split at h
    · rename_i h8
      simp only [M.bind_eq_ok, M.pure_eq_ok, M.warn_eq_ok] at h
      obtain ⟨_, w1, w2, rfl, ⟨rfl, rfl⟩, rfl⟩ := h
      exact Or.inl ⟨h8, rfl, rfl⟩
    · rename_i h8
      simp only [M.bind_eq_ok, M.pure_eq_ok, M.warnIf_eq_ok] at h
      obtain ⟨b, w1, w2, h1, ⟨al, w3, w4, h2, ⟨_, w5, w6, rfl, ⟨rfl, rfl⟩, rfl⟩, rfl⟩, rfl⟩ := h
      obtain ⟨h3, rfl, rfl⟩ := toByte_ok h1
      obtain ⟨rfl, h4⟩ := getAlignment_ok h2
      refine Or.inr ⟨h3, rfl, by omega, ?_⟩
      simp only [List.nil_append, List.append_nil]
      split <;> simp

/-- The loop over children: one result per child, warnings in order, names distinct. -/
theorem finalizeRCsLoop_ok {b : Int} {seen : List Str} {xs : List IRC} {ys : List RC} {ws : List Warn}
    (h : finalizeRCsLoop b seen xs = .ok ys ws) :
    ∃ os, M.Each (finalizeRC b) xs os ws ∧ ys = os.filterMap id ∧ (ys.map RC.qualName).Nodup ∧
      ∀ y ∈ ys, y.qualName ∉ seen := by
  induction xs generalizing seen ys ws with
  | nil =>
    simp only [finalizeRCsLoop, M.pure_eq_ok] at h
    obtain ⟨rfl, rfl⟩ := h
    exact ⟨[], .nil, rfl, by simp, by simp⟩
  | cons x xs ih =>
    simp only [finalizeRCsLoop, M.bind_eq_ok] at h
    obtain ⟨o, w1, w2, h1, h2, rfl⟩ := h
    cases o with
    | none =>
      simp only at h2
      obtain ⟨os, h3, h4, h5, h6⟩ := ih h2
      exact ⟨none :: os, .cons h1 h3, by simpa using h4, h5, h6⟩
    | some y =>
      simp only at h2
      split at h2
      · simp at h2
      · rename_i hn
        simp only [M.bind_eq_ok, M.pure_eq_ok] at h2
        obtain ⟨ys', w3, w4, h3, ⟨rfl, rfl⟩, rfl⟩ := h2
        obtain ⟨os, h4, h5, h6, h7⟩ := ih h3
        simp only [List.append_nil]
        refine ⟨some y :: os, .cons h1 h4, by simp [h5], ?_, ?_⟩
        · rw [List.map_cons, List.nodup_cons]
          refine ⟨?_, h6⟩
          intro hm
          obtain ⟨z, hz, hzn⟩ := List.mem_map.1 hm
          exact h7 z hz (by simp [hzn])
        · intro z hz
          rcases List.mem_cons.1 hz with rfl | hz
          · simpa using hn
          · exact fun hh => h7 z hz (by simp [hh])

theorem finishRCs_ok {raw ys : List RC} {ws : List Warn} (h : finishRCs raw = .ok ys ws) :
    ys = sortBy rcLe raw ∧ checkRCOverlaps (registerLookup raw) (clusterLookup raw) [] ys = .ok () ws := by
  unfold finishRCs at h
  simp only [M.bind_eq_ok, M.pure_eq_ok] at h
  obtain ⟨u, w1, w2, h1, ⟨rfl, rfl⟩, rfl⟩ := h
  exact ⟨rfl, by simpa using h1⟩

/-- A finalised scope. -/
structure ScopeFrom (b : Int) (xs : List IRC) (ys : List RC) (ws : List Warn) : Prop where
  intro ::
  ex : ∃ os w1 w2 raw, M.Each (finalizeRC b) xs os w1 ∧ raw = os.filterMap id ∧ (raw.map RC.qualName).Nodup ∧
    ys = sortBy rcLe raw ∧ checkRCOverlaps (registerLookup raw) (clusterLookup raw) [] ys = .ok () w2 ∧ ws = w1 ++ w2

theorem finalizeRCs_ok {b : Int} {xs : List IRC} {ys : List RC} {ws : List Warn}
    (h : M.bind (finalizeRCsLoop b [] xs) finishRCs = .ok ys ws) : ScopeFrom b xs ys ws := by
  rw [M.bind_eq_ok] at h
  obtain ⟨raw, w1, w2, h1, h2, rfl⟩ := h
  obtain ⟨os, h3, h4, h5, -⟩ := finalizeRCsLoop_ok h1
  obtain ⟨h6, h7⟩ := finishRCs_ok h2
  exact ⟨os, w1, w2, raw, h3, h4, h5, h6, h7, rfl⟩

/-- Where the elements of a finalised scope come from. -/
theorem ScopeFrom.mem {b : Int} {xs : List IRC} {ys : List RC} {ws : List Warn} (h : ScopeFrom b xs ys ws) {y : RC}
    (hy : y ∈ ys) : ∃ x ∈ xs, ∃ w, finalizeRC b x = .ok (some y) w := by
  obtain ⟨os, w1, w2, raw, h1, rfl, -, rfl, -⟩ := h.ex
  rw [mem_sortBy, List.mem_filterMap] at hy
  obtain ⟨o, ho, h2⟩ := hy
  obtain ⟨x, hx, w, h3⟩ := h1.mem ho
  simp only [id] at h2
  subst h2
  exact ⟨x, hx, w, h3⟩

/-- The processed form of a cluster head. -/
def clusterOf (c : IClusterHd) (p : FProps) (base e : Int) : ClusterHd :=
  { name := c.name, description := c.description, alternateCluster := c.alternateCluster
    headerStructName := c.headerStructName, addressOffset := c.addressOffset, props := p
    baseAddress := base, endAddress := e, clusterSize := e - base + 1 }

/-- The processed form of a register head. -/
def registerOf (r : IRegisterHd) (p : FProps) (gs : List Field) (base : Int) : Register :=
  { name := r.name, displayName := r.displayName, description := r.description
    alternateGroup := r.alternateGroup, alternateRegister := r.alternateRegister
    addressOffset := r.addressOffset, dataType := r.dataType
    modifiedWriteValues := r.modifiedWriteValues, writeConstraint := r.writeConstraint
    readAction := r.readAction, props := p, fields := gs, baseAddress := base }

/-- The last address used by the children `y :: ys`. -/
def lastUsed (y : RC) (ys : List RC) : Int :=
  maxList (y.baseAddress + y.extent - 1) (ys.map fun z => z.baseAddress + z.extent - 1)

theorem finalizeRegister_ok {r : IRegisterHd} {fs : List IField} {size base : Int} {o : Option RC} {ws : List Warn}
    (h : finalizeRegister r fs size base = .ok o ws) :
    (lower r.name = s%"reserved" ∧ o = none ∧ ws = [.registerReserved]) ∨
    (lower r.name ≠ s%"reserved" ∧ ¬ (r.alternateRegister.isSome ∧ r.alternateGroup.isSome) ∧
      ∃ gs p, finalizeFields fs size = .ok gs ws ∧ regPropValidator r.props = .ok p [] ∧
        o = some (.reg (registerOf r p gs base))) := by
  unfold finalizeRegister at h
  split at h
  · rename_i hn
    simp only [M.bind_eq_ok, M.pure_eq_ok, M.warn_eq_ok] at h
    obtain ⟨_, w1, w2, rfl, ⟨rfl, rfl⟩, rfl⟩ := h
    exact Or.inl ⟨hn, rfl, rfl⟩
  · rename_i hn
    split at h
    · simp at h
    · rename_i ha
      simp only [M.bind_eq_ok, M.pure_eq_ok] at h
      obtain ⟨gs, w1, w2, h1, ⟨p, w3, w4, h2, ⟨rfl, rfl⟩, rfl⟩, rfl⟩ := h
      have := (regPropValidator_ok h2).2.2.2.2.2
      subst this
      exact Or.inr ⟨hn, by simpa using ha, gs, p, by simpa using h1, h2, rfl⟩

/-- Finalisation of a register. -/
theorem finalizeRC_reg {b : Int} {r : IRegisterHd} {fs : List IField} {o : Option RC} {ws : List Warn}
    (h : finalizeRC b (.reg r fs) = .ok o ws) :
    ∃ s, r.props.size = some s ∧
      ((s % 8 ≠ 0 ∧ o = none ∧ ws = [.regClusterBadSize r.name]) ∨
       (s % 8 = 0 ∧ (s = 8 ∨ s = 16 ∨ s = 32 ∨ s = 64 ∨ s = 128) ∧ ∃ w1 w2, ws = w1 ++ w2 ∧
          (w1 = [] ∨ w1 = [.regClusterUnaligned r.name]) ∧
          ((lower r.name = s%"reserved" ∧ o = none ∧ w2 = [.registerReserved]) ∨
           (lower r.name ≠ s%"reserved" ∧ ¬ (r.alternateRegister.isSome ∧ r.alternateGroup.isSome) ∧
            ∃ gs p, finalizeFields fs s = .ok gs w2 ∧ regPropValidator r.props = .ok p [] ∧
              o = some (.reg (registerOf r p gs (b + r.addressOffset))))))) := by
  simp only [finalizeRC, M.bind_eq_ok] at h
  obtain ⟨o', w1, w2, h1, h2, rfl⟩ := h
  obtain ⟨s, hs, ⟨h8, rfl, rfl⟩ | ⟨h8, rfl, hsz, hw⟩⟩ := checkSizeAlign_ok h1
  · simp only [M.pure_eq_ok] at h2
    obtain ⟨rfl, rfl⟩ := h2
    exact ⟨s, hs, Or.inl ⟨h8, rfl, rfl⟩⟩
  · simp only at h2
    exact ⟨s, hs, Or.inr ⟨h8, hsz, w1, w2, rfl, hw, finalizeRegister_ok h2⟩⟩

/-- Finalisation of a cluster. -/
theorem finalizeRC_clu {b : Int} {c : IClusterHd} {ch : List IRC} {o : Option RC} {ws : List Warn}
    (h : finalizeRC b (.clu c ch) = .ok o ws) :
    ∃ s, c.props.size = some s ∧
      ((s % 8 ≠ 0 ∧ o = none ∧ ws = [.regClusterBadSize c.name]) ∨
       (s % 8 = 0 ∧ (s = 8 ∨ s = 16 ∨ s = 32 ∨ s = 64 ∨ s = 128) ∧ ∃ w1 w2 ys, 
          (w1 = [] ∨ w1 = [.regClusterUnaligned c.name]) ∧
          ScopeFrom (b + c.addressOffset) ch ys w2 ∧
          ((ys = [] ∧ o = none ∧ ws = w1 ++ w2 ++ [.clusterEmpty c.name]) ∨
           ∃ y ys' p, ys = y :: ys' ∧ regPropValidator c.props = .ok p [] ∧ ws = w1 ++ w2 ∧
              o = some (.clu (clusterOf c p (b + c.addressOffset) (lastUsed y ys')) ys)))) := by
  simp only [finalizeRC, M.bind_eq_ok] at h
  obtain ⟨o', w1, w2, h1, h2, rfl⟩ := h
  obtain ⟨s, hs, ⟨h8, rfl, rfl⟩ | ⟨h8, rfl, hsz, hw⟩⟩ := checkSizeAlign_ok h1
  · simp only [M.pure_eq_ok] at h2
    obtain ⟨rfl, rfl⟩ := h2
    exact ⟨s, hs, Or.inl ⟨h8, rfl, rfl⟩⟩
  · simp only [M.bind_eq_ok] at h2
    obtain ⟨raw, w3, w4, h3, ⟨ys, w5, w6, h4, h5, rfl⟩, rfl⟩ := h2
    have hsc : ScopeFrom (b + c.addressOffset) ch ys (w3 ++ w5) :=
      finalizeRCs_ok (M.bind_eq_ok.2 ⟨raw, w3, w5, h3, h4, rfl⟩)
    refine ⟨s, hs, Or.inr ⟨h8, hsz, w1, w3 ++ w5, ys, hw, hsc, ?_⟩⟩
    cases ys with
    | nil =>
      simp only [M.bind_eq_ok, M.pure_eq_ok, M.warn_eq_ok] at h5
      obtain ⟨_, w7, w8, rfl, ⟨rfl, rfl⟩, rfl⟩ := h5
      exact Or.inl ⟨rfl, rfl, by simp⟩
    | cons y ys' =>
      simp only [M.bind_eq_ok, M.pure_eq_ok] at h5
      obtain ⟨p, w7, w8, h6, ⟨rfl, rfl⟩, rfl⟩ := h5
      have := (regPropValidator_ok h6).2.2.2.2.2
      subst this
      exact Or.inr ⟨y, ys', p, rfl, h6, by simp, rfl⟩

/-- The processed form of a peripheral. -/
def peripheralOf (h : IPeripheralHd) (fp : FProps) (ab : AddressBlock) (abs : List AddressBlock) (y : RC)
    (ys : List RC) : Peripheral :=
  let b := h.baseAddress
  let endEff := maxList (b + y.addressOffset + y.extent - 1) (ys.map fun r => b + r.addressOffset + r.extent - 1)
  { name := h.name, version := h.version, description := h.description
    alternatePeripheral := h.alternatePeripheral, groupName := h.groupName
    prependToName := h.prependToName, appendToName := h.appendToName
    headerStructName := h.headerStructName, disableCondition := h.disableCondition
    baseAddress := b, addressBlocks := ab :: abs, interrupts := h.interrupts, props := fp
    endAddress := maxList (b + ab.offset + ab.size - 1) (abs.map fun a => b + a.offset + a.size - 1)
    endAddressEffective := endEff
    peripheralSize := sumList ((ab :: abs).map (·.size))
    peripheralSizeEffective := endEff - b + 1
    rcs := y :: ys, registers := extractRegisters (y :: ys) }

/-- Finalisation of a peripheral. -/
theorem finalizePeripheral_ok {p : IPeripheral} {o : Option Peripheral} {ws : List Warn}
    (h : finalizePeripheral p = .ok o ws) :
    ∃ ys w1, ScopeFrom p.hd.baseAddress p.rcs ys w1 ∧
      ((ys = [] ∧ o = none ∧ ws = w1 ++ [.peripheralEmpty p.hd.name]) ∨
       ∃ y ys' w2, ys = y :: ys' ∧ (w2 = [] ∨ w2 = [.peripheralUnaligned p.hd.name]) ∧
        ((∃ s, p.hd.props.size = some s ∧ s % 8 ≠ 0 ∧ o = none ∧ ws = w1 ++ w2 ++ [.peripheralBadSize p.hd.name]) ∨
         ((∀ s, p.hd.props.size = some s → s % 8 = 0) ∧ ∃ ab abs fp, p.hd.addressBlocks = ab :: abs ∧
            regPropValidator p.hd.props = .ok fp [] ∧
            ws = w1 ++ w2 ++ addressBlockWarns (ab :: abs) ∧ o = some (peripheralOf p.hd fp ab abs y ys')))) := by
  unfold finalizePeripheral at h
  simp only [M.bind_eq_ok] at h
  obtain ⟨ys, w1, w2, h1, h2, rfl⟩ := h
  have hsc : ScopeFrom p.hd.baseAddress p.rcs ys w1 := finalizeRCs_ok h1
  refine ⟨ys, w1, hsc, ?_⟩
  cases ys with
  | nil =>
    simp only [M.bind_eq_ok, M.pure_eq_ok, M.warn_eq_ok] at h2
    obtain ⟨_, w7, w8, rfl, ⟨rfl, rfl⟩, rfl⟩ := h2
    exact Or.inl ⟨rfl, rfl, rfl⟩
  | cons y ys' =>
    right
    simp only [M.bind_eq_ok, M.warnIf_eq_ok] at h2
    obtain ⟨_, w3, w4, h3, h4, rfl⟩ := h2
    refine ⟨y, ys', w3, rfl, by rw [h3]; split <;> simp, ?_⟩
    cases hsz : p.hd.props.size with
    | none =>
      rw [hsz] at h4
      simp only [Bool.false_eq_true, if_false] at h4
      right
      refine ⟨by simp, ?_⟩
      split at h4
      · simp at h4
      · rename_i ab abs hab
        simp only [M.bind_eq_ok, M.pure_eq_ok] at h4
        obtain ⟨_, w5, w6, h5, ⟨fp, w7, w8, h6, _⟩, rfl⟩ := h4
        have := (regPropValidator_ok h6).1
        rw [hsz] at this; cases this
    | some s =>
      rw [hsz] at h4
      simp only [decide_eq_true_eq] at h4
      split at h4
      · rename_i h8
        simp only [M.bind_eq_ok, M.pure_eq_ok, M.warn_eq_ok] at h4
        obtain ⟨_, w7, w8, rfl, ⟨rfl, rfl⟩, rfl⟩ := h4
        exact Or.inl ⟨s, rfl, h8, rfl, by simp⟩
      · rename_i h8
        right
        refine ⟨fun s' hs' => by simp only [Option.some.injEq] at hs'; subst hs'; simpa using h8, ?_⟩
        split at h4
        · simp at h4
        · rename_i ab abs hab
          simp only [M.bind_eq_ok, M.pure_eq_ok, M.ok.injEq] at h4
          obtain ⟨_, w5, w6, ⟨-, rfl⟩, ⟨fp, w7, w8, h6, ⟨rfl, rfl⟩, rfl⟩, rfl⟩ := h4
          have := (regPropValidator_ok h6).2.2.2.2.2
          subst this
          exact ⟨ab, abs, fp, hab, h6, by simp, rfl⟩

theorem finalizePeripheralsLoop_ok {seen : List Str} {xs : List IPeripheral} {ys : List Peripheral} {ws : List Warn}
    (h : finalizePeripheralsLoop seen xs = .ok ys ws) :
    ∃ os, M.Each finalizePeripheral xs os ws ∧ ys = os.filterMap id ∧ (ys.map (·.name)).Nodup ∧
      ∀ y ∈ ys, y.name ∉ seen := by
  induction xs generalizing seen ys ws with
  | nil =>
    simp only [finalizePeripheralsLoop, M.pure_eq_ok] at h
    obtain ⟨rfl, rfl⟩ := h
    exact ⟨[], .nil, rfl, by simp, by simp⟩
  | cons x xs ih =>
    simp only [finalizePeripheralsLoop, M.bind_eq_ok] at h
    obtain ⟨o, w1, w2, h1, h2, rfl⟩ := h
    cases o with
    | none =>
      simp only at h2
      obtain ⟨os, h3, h4, h5, h6⟩ := ih h2
      exact ⟨none :: os, .cons h1 h3, by simpa using h4, h5, h6⟩
    | some y =>
      simp only at h2
      split at h2
      · simp at h2
      · rename_i hn
        simp only [M.bind_eq_ok, M.pure_eq_ok] at h2
        obtain ⟨ys', w3, w4, h3, ⟨rfl, rfl⟩, rfl⟩ := h2
        obtain ⟨os, h4, h5, h6, h7⟩ := ih h3
        simp only [List.append_nil]
        refine ⟨some y :: os, .cons h1 h4, by simp [h5], ?_, ?_⟩
        · rw [List.map_cons, List.nodup_cons]
          refine ⟨?_, h6⟩
          intro hm
          obtain ⟨z, hz, hzn⟩ := List.mem_map.1 hm
          exact h7 z hz (by simp [hzn])
        · intro z hz
          rcases List.mem_cons.1 hz with rfl | hz
          · simpa using hn
          · exact fun hh => h7 z hz (by simp [hh])

/-- The finalised device. -/
theorem validateAndFinalize_ok {d : IDevice} {dev : Device} {ws : List Warn}
    (h : validateAndFinalize d = .ok dev ws) :
    ∃ os w1 w2 raw, M.Each finalizePeripheral d.peripherals os w1 ∧ raw = os.filterMap id ∧
      (raw.map (·.name)).Nodup ∧ dev.hd = d.hd ∧ dev.peripherals = sortBy periphLe raw ∧
      checkPeriphOverlaps (peripheralLookup raw) [] [] dev.peripherals = .ok () w2 ∧ ws = w1 ++ w2 := by
  unfold validateAndFinalize finalizePeripherals at h
  simp only [M.bind_eq_ok, M.pure_eq_ok] at h
  obtain ⟨ps, w1, w2, ⟨raw, w3, w4, h1, ⟨_, w5, w6, h2, ⟨rfl, rfl⟩, rfl⟩, rfl⟩, ⟨rfl, rfl⟩, rfl⟩ := h
  obtain ⟨os, h3, h4, h5, -⟩ := finalizePeripheralsLoop_ok h1
  exact ⟨os, w3, w5, raw, h3, h4, h5, rfl, rfl, h2, by simp⟩

/-- Each processed peripheral comes from one intermediate peripheral. -/
theorem dev_periph {d : IDevice} {dev : Device} {ws : List Warn} (h : validateAndFinalize d = .ok dev ws)
    {q : Peripheral} (hq : q ∈ dev.peripherals) :
    ∃ p ∈ d.peripherals, ∃ w, finalizePeripheral p = .ok (some q) w := by
  obtain ⟨os, w1, w2, raw, h1, rfl, -, -, h2, -⟩ := validateAndFinalize_ok h
  rw [h2, mem_sortBy, List.mem_filterMap] at hq
  obtain ⟨o, ho, h3⟩ := hq
  simp only [id] at h3
  subst h3
  obtain ⟨p, hp, w, hw⟩ := h1.mem ho
  exact ⟨p, hp, w, hw⟩

/-- Details of a processed peripheral. -/
theorem finalizePeripheral_some {p : IPeripheral} {q : Peripheral} {ws : List Warn}
    (h : finalizePeripheral p = .ok (some q) ws) :
    ∃ y ys w1 ab abs fp, ScopeFrom p.hd.baseAddress p.rcs (y :: ys) w1 ∧ p.hd.addressBlocks = ab :: abs ∧
      regPropValidator p.hd.props = .ok fp [] ∧ q = peripheralOf p.hd fp ab abs y ys := by
  obtain ⟨ys, w1, hsc, ⟨-, h, -⟩ | ⟨y, ys', w2, rfl, -, ⟨_, _, _, h, _⟩ | ⟨_, ab, abs, fp, h1, h2, -, h3⟩⟩⟩ :=
    finalizePeripheral_ok h
  · cases h
  · cases h
  · simp only [Option.some.injEq] at h3
    exact ⟨y, ys', w1, ab, abs, fp, hsc, h1, h2, h3⟩

/-- Everything below a finalised scope is the finalisation of something below the intermediate scope. -/
theorem ScopeFrom.below {b : Int} {xs : List IRC} {ys : List RC} {ws : List Warn} (h : ScopeFrom b xs ys ws) {y : RC}
    (hy : Below ys y) : ∃ b' x w, IBelow xs x ∧ finalizeRC b' x = .ok (some y) w := by
  induction hy generalizing b xs ws with
  | here hm =>
    obtain ⟨x, hx, w, hw⟩ := h.mem hm
    exact ⟨b, x, w, .here hx, hw⟩
  | inside hm _ ih =>
    obtain ⟨x, hx, w, hw⟩ := h.mem hm
    cases x with
    | reg r fs =>
      obtain ⟨s, -, ⟨_, h, _⟩ | ⟨_, _, w1, w2, _, _, ⟨_, h, _⟩ | ⟨_, _, gs, p, _, _, h⟩⟩⟩ := finalizeRC_reg hw <;> cases h
    | clu c ch =>
      obtain ⟨s, -, ⟨_, h, _⟩ | ⟨_, _, w1, w2, ys, _, hsc, ⟨_, h, _⟩ | ⟨y, ys', p, _, _, _, h⟩⟩⟩ := finalizeRC_clu hw
      · cases h
      · cases h
      · simp only [Option.some.injEq, RC.clu.injEq] at h
        obtain ⟨rfl, rfl⟩ := h
        obtain ⟨b', x, w, hx', hw'⟩ := ih hsc
        exact ⟨b', x, w, .inside hx hx', hw'⟩

/-- A processed register of the device and its intermediate form. -/
theorem dev_register {d : IDevice} {dev : Device} {ws : List Warn} (h : validateAndFinalize d = .ok dev ws)
    {r : Register} (hr : HasRegister dev r) :
    ∃ p ∈ d.peripherals, ∃ ir fs b s gs fp w, IBelow p.rcs (.reg ir fs) ∧ ir.props.size = some s ∧
      finalizeFields fs s = .ok gs w ∧ regPropValidator ir.props = .ok fp [] ∧
      (s = 8 ∨ s = 16 ∨ s = 32 ∨ s = 64 ∨ s = 128) ∧ r = registerOf ir fp gs b := by
  obtain ⟨q, hq, hb⟩ := hr
  obtain ⟨p, hp, w, hw⟩ := dev_periph h hq
  obtain ⟨y, ys, w1, ab, abs, fp, hsc, -, -, rfl⟩ := finalizePeripheral_some hw
  obtain ⟨b', x, w', hx, hfin⟩ := hsc.below hb
  cases x with
  | reg ir fs =>
    obtain ⟨s, hs, ⟨_, h, _⟩ | ⟨_, hsz, w1, w2, _, _, ⟨_, h, _⟩ | ⟨_, _, gs, p', h1, h2, h⟩⟩⟩ := finalizeRC_reg hfin
    · cases h
    · cases h
    · simp only [Option.some.injEq, RC.reg.injEq] at h
      exact ⟨p, hp, ir, fs, _, s, gs, p', w2, hx, hs, h1, h2, hsz, h⟩
  | clu c ch =>
    obtain ⟨s, -, ⟨_, h, _⟩ | ⟨_, _, w1, w2, ys, _, hsc, ⟨_, h, _⟩ | ⟨y, ys', p, _, _, _, h⟩⟩⟩ := finalizeRC_clu hfin <;> cases h

end Svd
