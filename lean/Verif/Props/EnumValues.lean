import Verif.Lemmas.EnumDev
import Verif.Props.Sample
/-
Theorems on enumerated values: C01-C06, C52.

`processDevice ord fuel d = .ok dev ws` says that `Process` turned the parsed device `d` into `dev` with warnings `ws`;
`ord` (order in which a Python set is traversed) and `fuel` are arbitrary.
-/
namespace Svd
open Spec

/-- The processed container `c` of field `f` is what the per-container functions of the processor
(`create_enumerated_value_container`, `_validate_and_finalize_enum_value_containers`) make of the declared container
`ec` for the bit range of `f`, issuing warnings `wa`. -/
def MadeFrom (ec : SEnumContainer) (f : Field) (c : EnumContainer) (wa : List Warn) : Prop :=
  ∃ ic w1 w2, createContainer ec f.lsb f.msb = .ok ic w1 ∧ finalizeContainers [ic] f.lsb f.msb = .ok [c] w2 ∧
    wa = w1 ++ w2

theorem madeFrom_values {ec : SEnumContainer} {f : Field} {c : EnumContainer} {wa : List Warn} (h : MadeFrom ec f c wa) :
    ∃ vs w1 w2, processEnumValues ec.values f.lsb f.msb = .ok vs w1 ∧
      finalizeEnumValues vs f.lsb f.msb = .ok c.values w2 ∧ wa = w1 ++ w2 ∧ c.name = ec.name ∧
      c.headerEnumName = ec.headerEnumName ∧ c.usage = ec.usage.getD .readWrite := by
  obtain ⟨ic, w1, w2, h1, h2, rfl⟩ := h
  unfold createContainer at h1
  simp only [M.bind_eq_ok, M.pure_eq_ok] at h1
  obtain ⟨vs, wa, wb, h3, ⟨rfl, rfl⟩, rfl⟩ := h1
  unfold finalizeContainers at h2
  simp only [M.bind_eq_ok, M.pure_eq_ok, M.mapM] at h2
  obtain ⟨fs, wc, wd, ⟨c', we, wf, ⟨vs', wg, wh, h9, ⟨rfl, rfl⟩, rfl⟩, ⟨xs, wi, wj, ⟨rfl, rfl⟩, ⟨rfl, rfl⟩, rfl⟩, rfl⟩, ⟨h6, rfl⟩, rfl⟩ := h2
  have h6 := List.head_eq_of_cons_eq h6
  subst h6
  exact ⟨vs, wa, wg, h3, h9, by simp, rfl, rfl, rfl⟩

/-- Every processed container is made from a declared one. -/
theorem container_madeFrom {ord : List Nat → List Nat} {fuel : Nat} {d : SDevice} {dev : Device} {ws : List Warn}
    (h : processDevice ord fuel d = .ok dev ws) {f : Field} (hf : HasField dev f) {c : EnumContainer}
    (hc : c ∈ f.containers) :
    ∃ ec wa, DeclaredContainer d ec ∧ MadeFrom ec f c wa ∧ (∀ w ∈ wa, w ∈ ws) := by
  obtain ⟨ec, vs, wa, wb, h1, h2, h3, h4, h5, h6, h7, h8⟩ := proc_container h hf hc
  refine ⟨ec, wa ++ wb, h1, ⟨{ name := ec.name, headerEnumName := ec.headerEnumName, usage := ec.usage.getD .readWrite, values := vs }, wa, wb, ?_, ?_, rfl⟩, ?_⟩
  · unfold createContainer
    rw [h2]
    simp [M.bind, M.pure]
  · unfold finalizeContainers
    simp only [M.mapM]
    rw [h3]
    simp only [M.bind, M.pure, sortBy, insertBy]
    rw [← h6, ← h7, ← h8]
    simp
  · intro w hw
    rcases List.mem_append.1 hw with hw | hw
    · exact h4 w hw
    · exact h5 w hw


/-! ### C01: don't-care bits -/

/-- C01 (conversion): a binary literal with don't-care bits is converted to exactly the matching integers, ascending,
without repetition and without warning. -/
theorem C01_literal_expands {pre p : Str} (hpre : BinPrefix pre) (hp : IsPattern p) :
    ∃ vs, convertEnumValue (pre ++ p) = .ok vs [] ∧ Ascending vs ∧ ∀ v, v ∈ vs ↔ Matches p v := by
  have hwf : WellFormedLit (pre ++ p) := Or.inr (Or.inr ⟨pre, p, hpre, hp, rfl⟩)
  obtain ⟨vs, h1, h2, h3⟩ := convert_wellFormed hwf
  refine ⟨vs, h1, h2, fun v => ⟨fun hv => ?_, fun hm => ?_⟩⟩
  · have hd := h3 v hv
    generalize hl : pre ++ p = lit at hd
    cases hd with
    | dec hne hdec =>
      subst hl
      exfalso
      have := hdec
      rcases hpre with rfl | rfl | rfl
      · have := hdec 'b' (by simp); revert this; unfold IsDec; decide
      · have := hdec 'B' (by simp); revert this; unfold IsDec; decide
      · have := hdec '#' (by simp); revert this; unfold IsDec; decide
    | hex hx _ _ =>
      exfalso
      rcases hpre with rfl | rfl | rfl <;> rcases hx with rfl | rfl <;> simp at hl
    | @bin pre' p' v hb hp' hm =>
      have : p = p' := by
        rcases hpre with rfl | rfl | rfl <;> rcases hb with rfl | rfl | rfl <;> simp at hl <;> exact hl
      rw [this]; exact hm
  · obtain ⟨vs', h4, h5⟩ := convert_denotes (.bin hpre hp hm)
    rw [h1] at h4
    simp only [M.ok.injEq, and_true] at h4
    rw [h4]; exact h5

/-- C01 in a processed device: for a non-reserved, non-default entry of the declared container whose literal is a
binary pattern, every matching integer that fits the field is present under the expanded name (unless it was reported
as a duplicate), the values ascend, and every value of the container is denoted by some entry (or generated from the
default). -/
theorem C01_dont_care_bits {ord : List Nat → List Nat} {fuel : Nat} {d : SDevice} {dev : Device} {ws : List Warn}
    (h : processDevice ord fuel d = .ok dev ws) {f : Field} (hf : HasField dev f) {c : EnumContainer}
    (hc : c ∈ f.containers) :
    ∃ ec wa, DeclaredContainer d ec ∧ MadeFrom ec f c wa ∧ (∀ w ∈ wa, w ∈ ws) ∧
      Ascending (c.values.map (·.value)) ∧
      (∀ e ∈ ec.values, ¬ Reserved e.name → e.isDefault ≠ some true →
        ∀ pre p, BinPrefix pre → IsPattern p → e.value = some (pre ++ p) →
        ∀ v, Matches p v → 0 ≤ f.bitWidth → v < 2 ^ f.bitWidth.toNat →
        ∃ n, ExpandedName e.name (pre ++ p) v n ∧
          ({ name := n, description := e.description, value := v } ∈ c.values ∨ ∃ w ∈ wa, DupWarning n w)) ∧
      (PlainValues ec.values → ∀ v ∈ c.values, ∃ e ∈ ec.values, ¬ Reserved e.name ∧ v.description = e.description ∧
        ((∃ lit, e.value = some lit ∧ Denotes lit v.value ∧ ExpandedName e.name lit v.value v.name) ∨
         (e.isDefault = some true ∧ e.name <+: v.name ∧ (['_'] ++ intText v.value) <:+ v.name))) := by
  obtain ⟨ec, wa, h1, h2, h3⟩ := container_madeFrom h hf hc
  obtain ⟨vs, w1, w2, h4, h5, rfl, -⟩ := madeFrom_values h2
  obtain ⟨hw, -, -⟩ := proc_field_width h hf
  refine ⟨ec, _, h1, h2, h3, (enumCore h4 h5).1, ?_, fun hp v hv => (by rw [intText_eq]; exact value_origin h4 h5 hp hv)⟩
  intro e he hn hd pre p hpre hp hv v hm h0 hlt
  rw [hw] at hlt h0
  obtain ⟨n, hn', hor⟩ := entry_present h4 h5 he hn hd hv (.bin hpre hp hm) hlt (by omega)
  refine ⟨n, hn', hor.imp id ?_⟩
  rintro ⟨w, hw, hd⟩
  exact ⟨w, by simp [hw], hd⟩

/-- The hypotheses of the theorems of this file are met by the sample device: a three-bit field with the entries
`OFF = 0`, `ODD = #1x1` and a default. The result has all eight values. -/
example : ∃ dev ws f c, processDevice id 10 Sample.dev = .ok dev ws ∧ HasField dev f ∧ c ∈ f.containers ∧
    (decide (c.values.map (fun v => (v.name, v.value)) =
      [(s%"OFF", 0), (s%"OTHER_1", 1), (s%"OTHER_2", 2), (s%"OTHER_3", 3), (s%"OTHER_4", 4), (s%"ODD_5", 5),
       (s%"OTHER_6", 6), (s%"ODD_7", 7)] ∧ f.bitWidth = 3)) = true :=
  Sample.exists_container _ (by decide +kernel)

/-- A literal of the theorem on conversions: `#1x1` denotes 5 and 7. -/
example : BinPrefix (s%"#") ∧ IsPattern (s%"1x1") ∧ convertEnumValue (s%"#1x1") = .ok [5, 7] [] := by
  refine ⟨Or.inr (Or.inr rfl), ⟨by decide, ?_⟩, by decide +kernel⟩
  decide

/-! ### C02: defaults -/

/-- C02: in a processed device, a container made from a declared one that has an `isDefault` entry lists exactly the
integers `0 … 2^w - 1` of its `w`-bit field, ascending and each once - unless that entry was itself ignored (it is
called `reserved`, or reported as a duplicate). -/
theorem C02_default_fills_holes {ord : List Nat → List Nat} {fuel : Nat} {d : SDevice} {dev : Device} {ws : List Warn}
    (h : processDevice ord fuel d = .ok dev ws) {f : Field} (hf : HasField dev f) {c : EnumContainer}
    (hc : c ∈ f.containers) :
    ∃ ec wa, DeclaredContainer d ec ∧ MadeFrom ec f c wa ∧ (∀ w ∈ wa, w ∈ ws) ∧
      ∀ e ∈ ec.values, e.isDefault = some true → ¬ Reserved e.name →
        (0 ≤ f.bitWidth ∧ c.values.map (·.value) = (List.range (2 ^ f.bitWidth.toNat)).map (fun (n : Nat) => (n : Int))) ∨
        ∃ w ∈ wa, ∃ n, e.name <+: n ∧ DupWarning n w := by
  obtain ⟨ec, wa, h1, h2, h3⟩ := container_madeFrom h hf hc
  obtain ⟨vs, w1, w2, h4, h5, rfl, -⟩ := madeFrom_values h2
  obtain ⟨hw, -, -⟩ := proc_field_width h hf
  refine ⟨ec, _, h1, h2, h3, ?_⟩
  intro e he hd hn
  obtain ⟨st, evs, hl, hinv, hcases⟩ := processEnumValues_spec h4
  by_cases hdup : ∃ w ∈ w1, ∃ n, e.name <+: n ∧ DupWarning n w
  · obtain ⟨w, hw, n, hp, hdw⟩ := hdup
    exact Or.inr ⟨w, by simp [hw], n, hp, hdw⟩
  · left
    have hs : st.seenDefault.isSome := default_seen hl he hd (not_reserved.1 hn) (fun w hw n hd hp => hdup ⟨w, hw, n, hp, hd⟩)
    have h0 : 0 ≤ f.msb - f.lsb + 1 := by
      rcases hcases with ⟨h, -⟩ | ⟨_, -, h, -⟩
      · rw [h] at hs; cases hs
      · exact h
    have := (enumCore h4 h5).2.2 st evs w1 hl hs
    rw [hw]
    refine ⟨h0, ?_⟩
    rw [this, fieldValues, rangeFrom_zero]
    rfl

/-! ### C03: range, order, distinctness -/

/-- C03: in every container of a processed device the values ascend strictly (so they are pairwise different) and lie
in `0 … 2^w - 1`. -/
theorem C03_values_in_range_sorted {ord : List Nat → List Nat} {fuel : Nat} {d : SDevice} {dev : Device}
    {ws : List Warn} (h : processDevice ord fuel d = .ok dev ws) {f : Field} (hf : HasField dev f) {c : EnumContainer}
    (hc : c ∈ f.containers) :
    (c.values.map (·.value)).Pairwise (· < ·) ∧ ∀ v ∈ c.values, 0 ≤ v.value ∧ v.value < 2 ^ f.bitWidth.toNat := by
  obtain ⟨ec, wa, h1, h2, h3⟩ := container_madeFrom h hf hc
  obtain ⟨vs, w1, w2, h4, h5, rfl, -⟩ := madeFrom_values h2
  obtain ⟨hw, -, -⟩ := proc_field_width h hf
  obtain ⟨h6, h7, -⟩ := enumCore h4 h5
  refine ⟨h6, ?_⟩
  rw [hw]
  exact h7

/-! ### C04: names -/

/-- C04, partial: names are unique in a container of a processed device, provided that no entry of the declared
container has a name that continues the name of a default entry with an underscore. (Without the proviso the claim is
false: `C04_names_can_clash`.) -/
theorem C04_names_unique_partial {ord : List Nat → List Nat} {fuel : Nat} {d : SDevice} {dev : Device}
    {ws : List Warn} (h : processDevice ord fuel d = .ok dev ws) {f : Field} (hf : HasField dev f) {c : EnumContainer}
    (hc : c ∈ f.containers) :
    ∃ ec wa, DeclaredContainer d ec ∧ MadeFrom ec f c wa ∧ (∀ w ∈ wa, w ∈ ws) ∧
      ((∀ e ∈ ec.values, e.isDefault = some true → ∀ e' ∈ ec.values, ¬ (e.name ++ ['_']) <+: e'.name) →
        (c.values.map (·.name)).Nodup) := by
  obtain ⟨ec, wa, h1, h2, h3⟩ := container_madeFrom h hf hc
  obtain ⟨vs, w1, w2, h4, h5, rfl, -⟩ := madeFrom_values h2
  exact ⟨ec, _, h1, h2, h3, names_nodup h4 h5⟩

/-- C04 fails in full: a two-bit field with `D_1 = 0` and a default `D` gets two values called `D_1`. -/
theorem C04_names_can_clash : ∃ d dev ws f c, processDevice id 10 d = .ok dev ws ∧ HasField dev f ∧
    c ∈ f.containers ∧ ¬ (c.values.map (·.name)).Nodup := by
  obtain ⟨dev, ws, f, c, h1, h2, h3, h4⟩ : ∃ dev ws f c, processDevice id 10 (Sample.devOfValues
      [{ name := s%"D_1", value := some (s%"0") }, { name := s%"D", isDefault := some true }]) = .ok dev ws ∧
      HasField dev f ∧ c ∈ f.containers ∧ decide (¬ (c.values.map (fun v => v.name)).Nodup) = true :=
    Sample.exists_container _ (by decide +kernel)
  exact ⟨_, dev, ws, f, c, h1, h2, h3, by simpa using h4⟩

/-! ### C05: literals -/

/-- C05: a decimal literal, a `0x` literal and a binary literal without don't-care bits denote the one integer they
spell. -/
theorem C05_literal_value :
    (∀ s : Str, s ≠ [] → (∀ c ∈ s, IsDec c) → convertEnumValue s = .ok [(numeral decDigit 10 s : Int)] []) ∧
    (∀ pre s : Str, (pre = s%"0x" ∨ pre = s%"0X") → s ≠ [] → (∀ c ∈ s, IsHex c) →
      convertEnumValue (pre ++ s) = .ok [(numeral hexDigit 16 s : Int)] []) ∧
    (∀ pre s : Str, BinPrefix pre → s ≠ [] → (∀ c ∈ s, IsBin c) →
      convertEnumValue (pre ++ s) = .ok [(numeral decDigit 2 s : Int)] []) :=
  ⟨fun _ h1 h2 => convert_dec h1 h2, fun _ _ h1 h2 h3 => convert_hex h1 h2 h3, fun _ _ h1 h2 h3 => convert_bits h1 h2 h3⟩

/-- C05, rejection (partial: for literals without underscores, signs, inner blanks and repeated prefixes; for the others
see `C05_odd_literals_accepted`): what is not well formed raises `ProcessException`. -/
theorem C05_malformed_rejected_partial {lit : Str} (hp : PlainLit lit) (hm : ¬ WellFormedLit lit) :
    ∃ p, convertEnumValue lit = .err (.process p) := by
  cases h : convertEnumValue lit with
  | ok vs ws => exact absurd (convert_accept hp h) hm
  | err e =>
    obtain ⟨p, rfl⟩ := convert_err h
    exact ⟨p, rfl⟩

/-- C05 in a processed device (partial in the same way): every plain non-empty literal of a declared container that
reached the result is well formed. -/
theorem C05_accepted_wellformed_partial {ord : List Nat → List Nat} {fuel : Nat} {d : SDevice} {dev : Device}
    {ws : List Warn} (h : processDevice ord fuel d = .ok dev ws) {f : Field} (hf : HasField dev f) {c : EnumContainer}
    (hc : c ∈ f.containers) :
    ∃ ec wa, DeclaredContainer d ec ∧ MadeFrom ec f c wa ∧ (∀ w ∈ wa, w ∈ ws) ∧
      ∀ e ∈ ec.values, ∀ lit, e.value = some lit → lit ≠ [] → PlainLit lit → WellFormedLit lit := by
  obtain ⟨ec, wa, h1, h2, h3⟩ := container_madeFrom h hf hc
  obtain ⟨vs, w1, w2, h4, h5, rfl, -⟩ := madeFrom_values h2
  refine ⟨ec, _, h1, h2, h3, ?_⟩
  intro e he lit hl hne hp
  obtain ⟨st, evs, hl', -, -⟩ := processEnumValues_spec h4
  obtain ⟨-, vss, wss, hE, -⟩ := validateLoop_spec EVInv.init ec.values hl'
  obtain ⟨us, hus, w, hres⟩ := hE.mem' he
  obtain ⟨l, -, hll, -⟩ := resolveWildcard_spec hres
  rcases hll with ⟨h6, -⟩ | ⟨lit', ints, h6, -, h7, -⟩
  · exact absurd (h6 lit hl) hne
  · rw [hl] at h6
    simp only [Option.some.injEq] at h6
    subst h6
    exact convert_accept hp h7

/-- A plain literal that is not well formed. -/
example : PlainLit (s%"0b12") ∧ ¬ WellFormedLit (s%"0b12") := by
  refine ⟨⟨by decide, by decide, ?_⟩, ?_⟩
  · rintro pre rest (rfl | rfl | rfl) h
    · simp only [List.cons_append, List.nil_append, List.cons.injEq, true_and] at h
      rw [← h]; decide
    · simp at h
    · simp at h
  · rintro (⟨-, h⟩ | ⟨pre, s, hp | hp, -, -, h⟩ | ⟨pre, p, hp | hp | hp, ⟨-, h2⟩, h⟩)
    · have := h 'b' (by simp); revert this; unfold IsDec; decide
    · subst hp; simp at h
    · subst hp; simp at h
    · subst hp
      simp only [List.cons_append, List.nil_append, List.cons.injEq, true_and] at h
      rw [← h] at h2
      revert h2; decide
    · subst hp; simp at h
    · subst hp; simp at h

/-- C05 fails in full: these literals, none of them well formed, are read as numbers. -/
theorem C05_odd_literals_accepted :
    convertEnumValue (s%"0b1_0") = .ok [2] [] ∧ convertEnumValue (s%"0b-1") = .ok [-1] [] ∧
    convertEnumValue (s%"0b 1") = .ok [1] [] ∧ convertEnumValue (s%"#0b101") = .ok [5] [] ∧
    convertEnumValue (s%"0b0b1") = .ok [1] [] ∧ convertEnumValue (s%"0x_1") = .ok [1] [] := by
  decide +kernel

/-! ### C06: containers of a field -/

/-- C06: a processed field has at most two containers, their usages differ, and two containers are one for reading
followed by one for writing. -/
theorem C06_read_and_write_view {ord : List Nat → List Nat} {fuel : Nat} {d : SDevice} {dev : Device} {ws : List Warn}
    (h : processDevice ord fuel d = .ok dev ws) {f : Field} (hf : HasField dev f) :
    f.containers.length ≤ 2 ∧ (f.containers.map (·.usage)).Nodup ∧
      (f.containers.length = 2 → f.containers.map (·.usage) = [.read, .write]) := by
  obtain ⟨cs, w, h1, h2, h3⟩ := proc_field h hf
  unfold finalizeContainers at h2
  simp only [M.bind_eq_ok, M.mapM_eq_ok, M.pure_eq_ok] at h2
  obtain ⟨fs, w1, w2, h4, ⟨h5, rfl⟩, rfl⟩ := h2
  have hus : fs.map (·.usage) = cs.map (·.usage) := by
    refine h4.map_eq ?_
    intro x y w _ hxy
    simp only [M.bind_eq_ok, M.pure_eq_ok] at hxy
    obtain ⟨vs, w4, w5, h8, ⟨rfl, rfl⟩, rfl⟩ := hxy
    rfl
  have hperm := sortBy_perm (le := containerLe) fs
  rw [h5] at hperm
  obtain ⟨-, h6, h7, h8⟩ := h1
  have hlen : f.containers.length = cs.length := by
    rw [hperm.length_eq, ← h4.length]
  refine ⟨by omega, ?_, ?_⟩
  · rw [(hperm.map _).nodup_iff, hus]; exact h6
  · intro h2
    have h9 : ∀ c ∈ f.containers, c.usage = .read ∨ c.usage = .write := by
      intro c hc
      have hc : c.usage ∈ cs.map (·.usage) := by
        rw [← hus]; exact List.mem_map.2 ⟨c, hperm.mem_iff.1 hc, rfl⟩
      obtain ⟨c', hc', he⟩ := List.mem_map.1 hc
      rw [← he]
      exact h8 (by omega) c' hc'
    have h10 : (f.containers.map (·.usage)).Nodup := by rw [(hperm.map _).nodup_iff, hus]; exact h6
    have h11 := sortBy_sorted containerLe_total fs
    rw [h5] at h11
    match hfc : f.containers, h2 with
    | [a, b], _ =>
      rw [hfc] at h9 h10 h11
      have ha := h9 a (by simp)
      have hb := h9 b (by simp)
      simp only [List.map_cons, List.map_nil, List.nodup_cons, List.mem_singleton] at h10
      simp only [List.pairwise_cons, List.mem_singleton, forall_eq] at h11
      have h12 := h11.1
      rcases ha with ha | ha <;> rcases hb with hb | hb
      · exact absurd (ha.trans hb.symm) h10.1
      · simp [ha, hb]
      · unfold containerLe at h12
        rw [ha, hb, if_neg (by decide)] at h12
        exact absurd h12 (by decide)
      · exact absurd (ha.trans hb.symm) h10.1

/-- A field with a container for reading and one for writing. -/
example : ∃ dev ws f c, processDevice id 10 (Sample.devOfFields [
      { name := s%"F", bitOffset := some 0, bitWidth := some 2
        containers := [{ usage := some .write, values := [{ name := s%"A", value := some (s%"1") }] },
                       { usage := some .read, values := [{ name := s%"B", value := some (s%"0x2") }] }] }]) = .ok dev ws ∧
    HasField dev f ∧ c ∈ f.containers ∧ decide (f.containers.length = 2) = true :=
  Sample.exists_container _ (by decide +kernel)

/-! ### C52: reserved, duplicate and default entries -/

/-- C52 (reserved): no enumerated value of a processed device is called `reserved`, and none stems from an entry of that
name. -/
theorem C52_no_reserved {ord : List Nat → List Nat} {fuel : Nat} {d : SDevice} {dev : Device} {ws : List Warn}
    (h : processDevice ord fuel d = .ok dev ws) {f : Field} (hf : HasField dev f) {c : EnumContainer}
    (hc : c ∈ f.containers) {v : EnumValue} (hv : v ∈ c.values) : ¬ Reserved v.name := by
  obtain ⟨ec, wa, h1, h2, h3⟩ := container_madeFrom h hf hc
  obtain ⟨vs, w1, w2, h4, h5, rfl, -⟩ := madeFrom_values h2
  obtain ⟨e, he, hn, -, ⟨lit, ints, -, -, -, -, h6⟩ | ⟨-, n, -, h6⟩⟩ := final_origin h4 h5 hv
  · rw [h6]; exact not_reserved.2 (expName_not_reserved hn _)
  · rw [h6]; exact not_reserved.2 (suffixed_not_reserved _ _)

/-- C52 (duplicates): for a declared container without default, the processed values are exactly the in-range ones among
the candidates (in order of declaration) of which the first of each name and of each value is kept. -/
theorem C52_first_wins {ord : List Nat → List Nat} {fuel : Nat} {d : SDevice} {dev : Device} {ws : List Warn}
    (h : processDevice ord fuel d = .ok dev ws) {f : Field} (hf : HasField dev f) {c : EnumContainer}
    (hc : c ∈ f.containers) :
    ∃ ec wa, DeclaredContainer d ec ∧ MadeFrom ec f c wa ∧ (∀ w ∈ wa, w ∈ ws) ∧
      (PlainValues ec.values → (∀ e ∈ ec.values, e.isDefault ≠ some true) →
        (∀ e ∈ ec.values, ¬ Reserved e.name → ∃ lit, e.value = some lit ∧ lit ≠ []) →
        ∃ cands, Candidates ec.values cands ∧ (c.values.map fun v => (v.name, v.value)).Perm
          ((keepFirst [] cands).filter fun x => 0 ≤ f.bitWidth ∧ 0 ≤ x.2 ∧ x.2 < 2 ^ f.bitWidth.toNat)) := by
  obtain ⟨ec, wa, h1, h2, h3⟩ := container_madeFrom h hf hc
  obtain ⟨vs, w1, w2, h4, h5, rfl, -⟩ := madeFrom_values h2
  obtain ⟨hw, -, -⟩ := proc_field_width h hf
  refine ⟨ec, _, h1, h2, h3, fun hp hd hl => ?_⟩
  obtain ⟨cands, h6, h7⟩ := container_keepFirst h4 h5 hp hd hl
  refine ⟨cands, h6, ?_⟩
  rw [hw]
  have : (fun c : Str × Int => inFieldRange c.2 (f.msb - f.lsb + 1)) =
      fun x => decide (0 ≤ f.msb - f.lsb + 1 ∧ 0 ≤ x.2 ∧ x.2 < 2 ^ (f.msb - f.lsb + 1).toNat) := by
    funext x
    rw [Bool.eq_iff_iff, inFieldRange_iff, mem_fieldValues, decide_eq_true_eq]
  rw [← this]
  exact h7

/-- Entries with a repeated name, a repeated value and one called `Reserved`: the first ones win. -/
example : ∃ dev ws f c, processDevice id 10 (Sample.devOfValues [
      { name := s%"A", value := some (s%"0") }, { name := s%"A", value := some (s%"1") },
      { name := s%"B", value := some (s%"#0") }, { name := s%"Reserved", value := some (s%"2") },
      { name := s%"C", value := some (s%"3") }, { name := s%"D", value := some (s%"4") }]) = .ok dev ws ∧
    HasField dev f ∧ c ∈ f.containers ∧
    decide (c.values.map (fun v => (v.name, v.value)) = [(s%"A", 0), (s%"C", 3)]) = true :=
  Sample.exists_container _ (by decide +kernel)

/-- C52 (defaults): if two entries of a declared container that reaches the result are marked default (and neither name
continues the other), one of them was ignored as a duplicate; otherwise processing raises. -/
theorem C52_two_defaults {ord : List Nat → List Nat} {fuel : Nat} {d : SDevice} {dev : Device} {ws : List Warn}
    (h : processDevice ord fuel d = .ok dev ws) {f : Field} (hf : HasField dev f) {c : EnumContainer}
    (hc : c ∈ f.containers) :
    ∃ ec wa, DeclaredContainer d ec ∧ MadeFrom ec f c wa ∧ (∀ w ∈ wa, w ∈ ws) ∧
      ∀ e1 ∈ ec.values, ∀ e2 ∈ ec.values, e1.isDefault = some true → e2.isDefault = some true →
        ¬ Reserved e1.name → ¬ Reserved e2.name → ¬ e1.name <+: e2.name → ¬ e2.name <+: e1.name →
        ∃ w ∈ wa, ∃ n, DupWarning n w ∧ (e1.name <+: n ∨ e2.name <+: n) := by
  obtain ⟨ec, wa, h1, h2, h3⟩ := container_madeFrom h hf hc
  obtain ⟨vs, w1, w2, h4, h5, rfl, -⟩ := madeFrom_values h2
  refine ⟨ec, _, h1, h2, h3, ?_⟩
  intro e1 he1 e2 he2 hd1 hd2 hn1 hn2 hp1 hp2
  obtain ⟨w, hw, n, hd, hor⟩ := two_defaults h4 he1 he2 hd1 hd2 hn1 hn2 hp1 hp2
  exact ⟨w, by simp [hw], n, hd, hor⟩

/-- Two defaults raise `ProcessException`; two defaults of one name are one default and a duplicate. -/
example : Sample.errAnd (processDevice id 10 (Sample.devOfValues
      [{ name := s%"D", isDefault := some true }, { name := s%"E", isDefault := some true }]))
        (· == .process .multipleDefaults) = true ∧
    Sample.okAnd (processDevice id 10 (Sample.devOfValues
      [{ name := s%"D", isDefault := some true }, { name := s%"D", isDefault := some true }]))
        (fun _ ws => ws == [.enumDuplicateName (s%"D")]) = true := by decide +kernel

end Svd
