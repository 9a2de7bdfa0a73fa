import Verif.Lemmas.Accept
import Verif.Props.Build
/-
What a resolved description without `derivedFrom` satisfies: the converse of acceptance.
-/
namespace Svd
open Spec

variable {ord : List Nat → List Nat} {fuel : Nat} {d : SDevice}

/-- Without a peripheral nothing is resolved. -/
theorem no_peripherals (ord : List Nat → List Nat) (hd : SDeviceHd) (f : Nat) :
    resolvePeripherals ord (f + 1) { hd := hd, peripherals := [] } = .err (.resolve 93) := rfl

theorem some_peripheral {ps : List IPeripheral} {ws : List Warn} (h : resolvePeripherals ord fuel d = .ok ps ws) : d.peripherals ≠ [] := by
  intro he
  obtain ⟨hd, qs⟩ := d
  simp only at he
  subst he
  cases fuel with
  | zero => cases h
  | succ f => rw [no_peripherals] at h; cases h

theorem entry_exists {α β : Type} {R : α → β → Prop} {l : List α} {m : List β} (h : Entrywise R l m) {x : α} (hx : x ∈ l) :
    ∃ y ∈ m, R x y := by
  induction h with
  | nil => cases hx
  | cons h1 _ ih =>
    rcases List.mem_cons.1 hx with rfl | hx
    · exact ⟨_, by simp, h1⟩
    · obtain ⟨y, hy, h⟩ := ih hx
      exact ⟨y, by simp [hy], h⟩

theorem stands_some {p : Parsed} {hs : List Processed} (h : StandsFor p hs) : ∃ ex pl x, x ∈ hs ∧ HeadAt ex p pl x := by
  obtain ⟨ex, pls, hp, he⟩ := h
  obtain ⟨pl, hm⟩ : ∃ pl, pl ∈ pls := by
    cases hp with
    | single => exact ⟨_, List.mem_singleton.2 rfl⟩
    | @expanded n mark idx h1 h2 h3 h4 h5 =>
      cases idx with
      | nil => simp at h4; omega
      | cons i idx => exact ⟨_, by simp [List.mapIdx_cons]; exact .inl rfl⟩
  obtain ⟨x, hx, h⟩ := entry_exists he hm
  exact ⟨ex, pl, x, hx, h⟩

/-- Every declared field of a register that is built is built. -/
theorem fieldsBuilt_each {fs : List SField} {xs : List IField} (h : FieldsBuilt fs xs) {f : SField} (hf : f ∈ fs) :
    ∃ ex pl x, HeadAt ex (.field f) pl (.field x.hd) ∧ FieldBuilt f (.field x.hd) x := by
  induction h with
  | nil => cases hf
  | cons h1 h2 _ ih =>
    rcases List.mem_cons.1 hf with rfl | hf
    · obtain ⟨ex, pl, hd, hm, ha⟩ := stands_some h1
      obtain ⟨x, hx, hb⟩ := entry_exists h2 hm
      have := hb.1
      subst this
      exact ⟨ex, pl, x, ha, hb⟩
    · exact ih hf

mutual
theorem rcBuilt_field {encl : Int} : ∀ (x : SRC) {h : Processed} {y : IRC}, RCBuilt encl x h y → ∀ {r f}, (x = .reg r ∨ ∃ c ch, x = .clu c ch ∧ SBelow ch (.reg r)) →
    f ∈ r.fields → ∃ ex pl x, HeadAt ex (.field f) pl (.field x.hd) ∧ FieldBuilt f (.field x.hd) x
  | .reg r0, h, y, hb, r, f, hx, hf => by
    rcases hx with hx | ⟨c, ch, hx, -⟩
    · cases hx
      unfold RCBuilt at hb
      obtain ⟨_, _, _, -, -, hfs, -⟩ := hb
      exact fieldsBuilt_each hfs hf
    · cases hx
  | .clu c0 ch0, h, y, hb, r, f, hx, hf => by
    rcases hx with hx | ⟨c, ch, hx, hbl⟩
    · cases hx
    · cases hx
      unfold RCBuilt at hb
      obtain ⟨_, _, _, -, -, hr, -⟩ := hb
      exact rcsBuilt_field ch0 hr hbl hf
theorem rcsBuilt_field {encl : Int} : ∀ (xs : List SRC) {ys : List IRC}, RCsBuilt encl xs ys → ∀ {r f}, SBelow xs (.reg r) → f ∈ r.fields →
    ∃ ex pl x, HeadAt ex (.field f) pl (.field x.hd) ∧ FieldBuilt f (.field x.hd) x
  | [], _, _, r, f, hb, _ => by
    generalize hl : ([] : List SRC) = l at hb
    cases hb with
    | here h => subst hl; cases h
    | inside h _ => subst hl; cases h
  | x :: xs, ys, hr, r, f, hb, hf => by
    unfold RCsBuilt at hr
    obtain ⟨hs, a, b, h1, h2, h3, -⟩ := hr
    have hcase : (x = .reg r ∨ ∃ c ch, x = .clu c ch ∧ SBelow ch (.reg r)) ∨ SBelow xs (.reg r) := by
      cases hb with
      | here h =>
        rcases List.mem_cons.1 h with h | h
        · exact .inl (.inl h.symm)
        · exact .inr (.here h)
      | inside h hb =>
        rcases List.mem_cons.1 h with h | h
        · exact .inl (.inr ⟨_, _, h.symm, hb⟩)
        · exact .inr (.inside h hb)
    rcases hcase with hcase | hcase
    · obtain ⟨_, _, hd, hm, -⟩ := stands_some h1
      obtain ⟨y, _, hy⟩ := entry_exists h2 hm
      exact rcBuilt_field x hy hcase hf
    · exact rcsBuilt_field xs h3 hcase hf
end

theorem periphsBuilt_each {ps : List SPeriphT} {xs : List IPeripheral} (h : PeriphsBuilt ps xs) {p : SPeriphT} (hp : p ∈ ps) :
    ∃ hd x, PeriphBuilt p hd x := by
  induction h with
  | nil => cases hp
  | cons h1 h2 _ ih =>
    rcases List.mem_cons.1 hp with rfl | hp
    · obtain ⟨ex, pl, hd, hm, -⟩ := stands_some h1
      obtain ⟨x, -, hx⟩ := entry_exists h2 hm
      exact ⟨hd, x, hx⟩
    · exact ih hp

theorem built_field {ps : List IPeripheral} (h : DeviceBuilt d ps) {f : SField} (hf : Declared d (.field f)) :
    ∃ ex pl x, HeadAt ex (.field f) pl (.field x.hd) ∧ FieldBuilt f (.field x.hd) x := by
  obtain ⟨ps', h1, -⟩ := h
  cases hf with
  | field hp hb hf =>
    obtain ⟨hd, x, _, ys, -, -, h2, -⟩ := periphsBuilt_each h1 hp
    exact rcsBuilt_field _ h2 hb hf

theorem usagesOK_of {cs : List SEnumContainer} {lsb msb : Int} {ks : List IEnumContainer} (h : ContainersBuilt cs lsb msb ks) : UsagesOK cs := by
  obtain ⟨⟨cs', hp, he⟩, h1, h2, h3⟩ := h
  have hu : ks.map (·.usage) = cs'.map fun c => c.usage.getD .readWrite := by
    clear hp h1 h2 h3
    induction he with
    | nil => rfl
    | cons hk _ ih =>
      obtain ⟨w, hw⟩ := hk
      unfold createContainer at hw
      simp only [M.bind_eq_ok, M.pure_eq_ok] at hw
      obtain ⟨vs, _, _, _, ⟨rfl, -⟩, -⟩ := hw
      simp only [List.map_cons, ih]
  have hlen : ks.length = cs.length := by
    have := congrArg List.length hu
    simp only [List.length_map] at this
    rw [this, hp.length_eq]
  by_cases hle : cs.length ≤ 1
  · exact .inl hle
  · right
    match cs, hp, hlen, hle with
    | [], _, _, hle => simp at hle
    | [a], _, _, hle => simp at hle
    | [a, b], hp, hlen, _ =>
      refine ⟨a, b, rfl, ?_⟩
      have hu' : (ks.map (·.usage)).Perm [a.usage.getD .readWrite, b.usage.getD .readWrite] := by
        rw [hu]
        exact hp.map _
      have hnd := (hu'.nodup_iff).1 h1
      have hin : ∀ u ∈ [a.usage.getD .readWrite, b.usage.getD .readWrite], u = .read ∨ u = .write := by
        intro u hm
        obtain ⟨k, hk, rfl⟩ := List.mem_map.1 (hu'.mem_iff.2 hm)
        exact h3 hlen k hk
      have ha := hin _ (by simp : a.usage.getD .readWrite ∈ _)
      have hb := hin _ (by simp : b.usage.getD .readWrite ∈ _)
      simp only [List.nodup_cons, List.mem_singleton] at hnd
      have key : ∀ (o : Option Usage) u, u ≠ .readWrite → o.getD .readWrite = u → o = some u := by
        intro o u hn h
        cases o with
        | none => exact absurd h.symm hn
        | some v => exact congrArg some h
      rcases ha with ha | ha <;> rcases hb with hb | hb
      · exact absurd (ha.trans hb.symm) hnd.1
      · exact .inl ⟨key _ _ (by decide) ha, key _ _ (by decide) hb⟩
      · exact .inr ⟨key _ _ (by decide) ha, key _ _ (by decide) hb⟩
      · exact absurd (ha.trans hb.symm) hnd.1
    | a :: b :: c :: cs, _, hlen, _ =>
      simp only [List.length_cons] at hlen
      omega

/-- A description without `derivedFrom` that is resolved is buildable. -/
theorem buildable_of {ps : List IPeripheral} {ws : List Warn} (hu : Underived d) (h : resolvePeripherals ord fuel d = .ok ps ws) : Buildable d where
  some := some_peripheral h
  dims p hp := by
    have trivial' : ∀ p : Parsed, nameOfDecl p = [] → (∀ r, p ≠ .reg r) → DimSound p := by
      have hno : ∀ m : Str, m ≠ [] → ¬ Contains m [] := by
        rintro m hm ⟨a, b, hab⟩
        have := List.append_eq_nil_iff.1 hab.symm
        exact hm (List.append_eq_nil_iff.1 this.2).1
      intro p hn hr
      refine ⟨fun hb => ?_, fun n _ hl => absurd (hn ▸ hl) (hno _ (by decide))⟩
      cases hb with
      | lessThanOne hm => exact hno _ (by decide) (hn ▸ hm)
      | markerWithoutDim hm => exact hno _ (by decide) (hn ▸ hm)
      | fieldArray hm => exact hno arrayMark (by decide) (show Contains arrayMark [] from hn ▸ hm)
      | peripheralList hm => exact hno listMark (by decide) (show Contains listMark [] from hn ▸ hm)
      | displayWithoutName => exact hr _ rfl
      | listDisplayOfArray => exact hr _ rfl
      | arrayDisplayOfList => exact hr _ rfl
    by_cases hl : p.level = .enumcont
    · cases p <;> first | (cases hl; done) | exact trivial' _ rfl (by simp)
    · by_cases hl' : p.level = .device
      · cases p <;> first | (cases hl'; done) | exact trivial' _ rfl (by simp)
      · obtain ⟨ch, y, hm⟩ := made_all h hp hl hl'
        have hy : Yields p none y := by
          cases hm with
          | base _ hdf hy => exact hy
          | derive _ hdf _ _ hy => rw [hu p hp] at hdf; cases hdf
        obtain ⟨_, _, _, _, _, _, _, _, _, hx, -⟩ := hy
        exact dimSound_of_extract hx
  fields f hf := by
    obtain ⟨ex, pl, x, h1, -, h2⟩ := built_field (C45_resolved hu h) hf
    generalize hq : Processed.field x.hd = q at h1
    cases h1 with
    | @field f pl m l hb =>
      simp only [Processed.field.injEq] at hq
      refine ⟨m, l, hb, fun c hc => ?_, usagesOK_of h2⟩
      obtain ⟨cs', hp, he⟩ := h2.each
      obtain ⟨k, -, w, hk⟩ := entry_exists he (hp.mem_iff.2 hc)
      have := container_accepts.1 ⟨k, w, hk⟩
      rw [hq] at this
      simp only at this
      have hw : m + pl.shift - (l + pl.shift) + 1 = m - l + 1 := by omega
      rw [hw] at this
      exact this

end Svd
