import Verif.Lemmas.EnumExact
import Verif.Lemmas.Overlap
import Verif.Lemmas.Shape
import Verif.Lemmas.Held
import Verif.Props.EnumValues
/-
Enumerated values exactly: what every literal is read as (C05), which values a container has after processing (C52, C01, C02,
C03), and when two of them have one name (C04).
-/
namespace Svd
open Spec

/-! ### C05: every text -/

theorem convert_quiet {lit : Str} {vs : List Int} {ws : List Warn} (h : convertEnumValue lit = .ok vs ws) : ws = [] := by
  have hof : ∀ (o : Option (List Int)) (e : Exn), M.ofOption o e = .ok vs ws → ws = [] := by
    intro o e ho
    cases o with
    | none => cases ho
    | some x => cases ho; rfl
  unfold convertEnumValue at h
  simp only at h
  split at h
  · exact hof _ _ h
  · split at h
    · exact hof _ _ h
    · split at h
      · exact hof _ _ h
      · cases h

/-- C05, for every text: the literal is read as the integers `vs` exactly when it is one of the spellings of `Spec.Reads`, and
every other text raises `ProcessException`. -/
theorem C05_exact (lit : Str) :
    (∀ vs, convertEnumValue lit = .ok vs [] ↔ Reads lit vs) ∧
    ((¬ ∃ vs, Reads lit vs) ↔ ∃ p, convertEnumValue lit = .err (.process p)) := by
  refine ⟨fun vs => convert_reads lit vs, ?_, ?_⟩
  · intro h
    cases hc : convertEnumValue lit with
    | ok vs ws =>
      have : ws = [] := convert_quiet hc
      subst this
      exact absurd ⟨vs, (convert_reads _ _).1 hc⟩ h
    | err e =>
      obtain ⟨p, rfl⟩ := convert_err hc
      exact ⟨p, rfl⟩
  · rintro ⟨p, hp⟩ ⟨vs, hv⟩
    rw [(convert_reads _ _).2 hv] at hp
    cases hp

/-- Texts that are read although they are not well formed, and one that is not read. -/
example : Reads (s%"#1_X") [2, 3] ∧ Reads (s%"0b-1") [-1] ∧ Reads (s%"0X_1f ") [31] ∧ ¬ ∃ vs, Reads (s%"0b12") vs := by
  refine ⟨(convert_reads _ _).1 (by decide +kernel), (convert_reads _ _).1 (by decide +kernel),
    (convert_reads _ _).1 (by decide +kernel), ?_⟩
  exact ((C05_exact _).2).2 ⟨_, show convertEnumValue (s%"0b12") = .err (.process .enumValueError) by decide +kernel⟩

/-! ### C52: every container -/

theorem values_ext {l : List EnumValue} : ∀ {l' : List EnumValue}, Ascending (l.map (·.value)) → Ascending (l'.map (·.value)) →
    (∀ v, v ∈ l ↔ v ∈ l') → l = l' := by
  induction l with
  | nil =>
    intro l' _ _ h
    cases l' with
    | nil => rfl
    | cons b l' => exact absurd ((h b).2 (by simp)) (by simp)
  | cons a l ih =>
    intro l' h1 h2 h
    cases l' with
    | nil => exact absurd ((h a).1 (by simp)) (by simp)
    | cons b l' =>
      simp only [Ascending, List.map_cons, List.pairwise_cons, List.mem_map, forall_exists_index, and_imp, forall_apply_eq_imp_iff₂] at h1 h2
      have hab : a = b := by
        rcases List.mem_cons.1 ((h a).1 (by simp)) with e | ha
        · exact e
        · rcases List.mem_cons.1 ((h b).2 (by simp)) with e | hb
          · exact e.symm
          · have := h1.1 b hb
            have := h2.1 a ha
            omega
      subst hab
      rw [ih h1.2 h2.2]
      intro v
      constructor
      · intro hv
        rcases List.mem_cons.1 ((h v).1 (List.mem_cons_of_mem _ hv)) with e | hv'
        · subst e
          have := h1.1 v hv
          omega
        · exact hv'
      · intro hv
        rcases List.mem_cons.1 ((h v).2 (List.mem_cons_of_mem _ hv)) with e | hv'
        · subst e
          have := h2.1 v hv
          omega
        · exact hv'

/-- What a container stands for is determined by its entries and the width. -/
theorem valuesOf_unique {es : List SEnumValue} {w : Int} {vs vs' : List EnumValue} (h : ValuesOf es w vs) (h' : ValuesOf es w vs') :
    vs = vs' := by
  obtain ⟨os, h1, h2, h3, -⟩ := h
  obtain ⟨os', h1', h2', h3', -⟩ := h'
  obtain rfl := offers_unique h1 h1'
  exact values_ext h2 h2' (fun v => (h3 v).trans (h3' v).symm)

/-- C52, C01, C02 and C03, exactly: the values of a container in a processed device are those that the entries of the declared
container stand for in a field of that width, no more and no fewer, in ascending order; and these are determined by the
declaration. -/
theorem C52_exact {ord : List Nat → List Nat} {fuel : Nat} {d : SDevice} {dev : Device} {ws : List Warn}
    (h : processDevice ord fuel d = .ok dev ws) {f : Field} (hf : HasField dev f) {c : EnumContainer} (hc : c ∈ f.containers) :
    ∃ ec wa, DeclaredContainer d ec ∧ MadeFrom ec f c wa ∧ (∀ w ∈ wa, w ∈ ws) ∧ ValuesOf ec.values f.bitWidth c.values ∧
      ∀ vs, ValuesOf ec.values f.bitWidth vs → vs = c.values := by
  obtain ⟨ec, wa, h1, h2, h3⟩ := container_madeFrom h hf hc
  obtain ⟨vs, w1, w2, h4, h5, rfl, -⟩ := madeFrom_values h2
  obtain ⟨hw, -, -⟩ := proc_field_width h hf
  have hv : ValuesOf ec.values f.bitWidth c.values := by
    rw [hw]
    exact values_exact h4 h5
  exact ⟨ec, _, h1, h2, h3, hv, fun vs hvs => valuesOf_unique hvs hv⟩

/-- C52, acceptance: a declared container is accepted for the bits `lsb … msb` exactly when its literals are readable, at most
one value that is kept is a default, and a default comes with a non-negative width. Unreadable literals and a second
default raise `ProcessException`. -/
theorem C52_accepted (c : SEnumContainer) (lsb msb : Int) :
    ((∃ k ws, createContainer c lsb msb = .ok k ws) ↔ Acceptable c.values (msb - lsb + 1)) ∧
    (lsb ≤ msb + 1 → ¬ Acceptable c.values (msb - lsb + 1) → ∃ p, createContainer c lsb msb = .err (.process p)) := by
  refine ⟨container_accepts, fun hle hn => ?_⟩
  cases hc : createContainer c lsb msb with
  | ok k ws => exact absurd (container_accepts.1 ⟨k, ws, hc⟩) hn
  | err e =>
    rcases container_refused hc with ⟨p, rfl, -⟩ | ⟨-, hlt⟩
    · exact ⟨p, rfl⟩
    · omega

/-- The hypotheses are met by a container with don't-care bits, a repeated number, a reserved entry and a default. -/
example : ∃ dev ws f c, processDevice id 10 (Sample.devOfValues
      [{ name := s%"A", value := some (s%"#1x") }, { name := s%"B", value := some (s%"0b1_0") },
       { name := s%"Reserved", value := some (s%"0") }, { name := s%"D", isDefault := some true }]) = .ok dev ws ∧
    HasField dev f ∧ c ∈ f.containers ∧
    (decide (c.values.map (fun v => (v.name, v.value)) = [(s%"D_0", 0), (s%"D_1", 1), (s%"A_2", 2), (s%"A_3", 3)])) = true :=
  Sample.exists_container _ (by decide +kernel)

/-- A container that is refused: the second default. -/
example : ¬ Acceptable [{ name := s%"A", isDefault := some true }, { name := s%"B", isDefault := some true }] 2 := by
  intro h
  obtain ⟨k, ws, hk⟩ := ((C52_accepted { values := [{ name := s%"A", isDefault := some true }, { name := s%"B", isDefault := some true }] } 0 1).1).2 h
  revert hk
  rw [show createContainer { values := [{ name := s%"A", isDefault := some true }, { name := s%"B", isDefault := some true }] } 0 1 =
    .err (.process .multipleDefaults) by decide +kernel]
  intro hk
  cases hk

/-! ### C04: names -/

theorem keep_sub : ∀ (vs : List IEnumValue) (prev : List IEnumValue), (∀ u ∈ prev, ∀ v ∈ keep prev vs, u.name ≠ v.name) ∧
    ((keep prev vs).map (·.name)).Nodup := by
  intro vs
  induction vs with
  | nil => intro prev; simp [keep]
  | cons v vs ih =>
    intro prev
    simp only [keep]
    split
    · exact ih prev
    · rename_i hn
      obtain ⟨h1, h2⟩ := ih (prev ++ [v])
      refine ⟨?_, ?_⟩
      · intro u hu v' hv'
        rcases List.mem_cons.1 hv' with rfl | hv'
        · intro he
          refine hn (List.any_eq_true.2 ⟨u, hu, ?_⟩)
          simp [repeats, he]
        · exact h1 u (by simp [hu]) v' hv'
      · simp only [List.map_cons, List.nodup_cons]
        refine ⟨?_, h2⟩
        intro hm
        obtain ⟨u, hu, he⟩ := List.mem_map.1 hm
        exact h1 v (by simp) u hu he.symm

theorem keep_names {vs : List IEnumValue} {u v : IEnumValue} (hu : u ∈ keep [] vs) (hv : v ∈ keep [] vs) (h : u.name = v.name) : u = v :=
  inj_of_nodup_map (keep_sub vs []).2 hu hv h

theorem only_default {l : List IEnumValue} (h : (l.filter (·.isDefault)).length ≤ 1) {u v : IEnumValue} (hu : u ∈ l) (hv : v ∈ l)
    (hud : u.isDefault = true) (hvd : v.isDefault = true) : u = v := by
  have hu' : u ∈ l.filter (·.isDefault) := List.mem_filter.2 ⟨hu, hud⟩
  have hv' : v ∈ l.filter (·.isDefault) := List.mem_filter.2 ⟨hv, hvd⟩
  match hl : l.filter (·.isDefault), h with
  | [], _ => rw [hl] at hu'; cases hu'
  | [a], _ =>
    rw [hl] at hu' hv'
    rw [List.mem_singleton.1 hu', List.mem_singleton.1 hv']
  | a :: b :: l', hlen => exfalso; rw [hl] at hlen; simp at hlen

theorem values_names {es : List SEnumValue} {w : Int} {vs : List EnumValue} {os : List IEnumValue} (h : ValuesOf es w vs) (ho : Offers es os) :
    (vs.map (·.name)).Nodup ↔
      ∀ k ∈ keep [] os, k.isDefault = false → ∀ i, k.value = some i → 0 ≤ i → i < 2 ^ w.toNat →
      ∀ o ∈ keep [] os, o.isDefault = true → ∀ v, 0 ≤ v → v < 2 ^ w.toNat →
        (∀ u ∈ keep [] os, u.isDefault = false → u.value ≠ some v) → 0 ≤ w → k.name ≠ o.name ++ '_' :: intText v := by
  obtain ⟨os', h1, h2, h3, h4, h5⟩ := h
  obtain rfl := offers_unique ho h1
  constructor
  · intro hn k hk hkd i hi h0 hlt o hoo hod v hv0 hvlt hun hw he
    have m1 : (⟨k.name, k.description, i⟩ : EnumValue) ∈ vs := by
      refine (h3 _).2 ⟨h0, hw, hlt, .inl ?_⟩
      obtain ⟨n, d, x, b⟩ := k
      simp only at hi hkd
      subst hi hkd
      exact hk
    have m2 : (⟨k.name, o.description, v⟩ : EnumValue) ∈ vs := (h3 _).2 ⟨hv0, hw, hvlt, .inr ⟨o, hoo, hod, he, rfl, hun⟩⟩
    have := inj_of_nodup_map hn m1 m2 rfl
    simp only [EnumValue.mk.injEq] at this
    exact hun k hk hkd (by rw [hi, this.2.2])
  · intro hn
    have hnd : vs.Nodup := by
      refine nodup_of_map (fun v : EnumValue => v.value) ?_
      exact h2.imp (fun h => by omega)
    have hinj : ∀ a ∈ vs, ∀ b ∈ vs, a.name = b.name → a = b := by
      intro a ha b hb he
      obtain ⟨a0, aw, alt, aor⟩ := (h3 a).1 ha
      obtain ⟨b0, bw, blt, bor⟩ := (h3 b).1 hb
      obtain ⟨an, ad, av⟩ := a
      obtain ⟨bn, bd, bv⟩ := b
      simp only at *
      subst he
      rcases aor with ak | ⟨o, ho1, ho2, ho3, ho4, ho5⟩
      · rcases bor with bk | ⟨o, ho1, ho2, ho3, ho4, ho5⟩
        · have := keep_names ak bk rfl
          simp only [IEnumValue.mk.injEq, Option.some.injEq] at this
          rw [this.2.1, this.2.2.1]
        · exact absurd ho3 (hn _ ak rfl av rfl a0 alt o ho1 ho2 bv b0 blt ho5 aw)
      · rcases bor with bk | ⟨o', ho1', ho2', ho3', ho4', ho5'⟩
        · exact absurd ho3 (hn _ bk rfl bv rfl b0 blt o ho1 ho2 av a0 alt ho5 aw)
        · obtain rfl := only_default h5 ho1 ho1' ho2 ho2'
          rw [ho3, List.append_cancel_left_eq] at ho3'
          simp only [List.cons.injEq, true_and] at ho3'
          rw [intText_eq] at ho3'
          have := intStr_inj ho3'
          rw [this, ho4, ho4']
    exact map_nodup hnd hinj

/-- C04, exactly: in a container of a processed device the names are pairwise different unless a value that is kept (not a
default, and in the range of the field) is called `D_v` where `D` is the default and `v` a number in the range of the field that no
other value has. -/
theorem C04_exact {ord : List Nat → List Nat} {fuel : Nat} {d : SDevice} {dev : Device} {ws : List Warn}
    (h : processDevice ord fuel d = .ok dev ws) {f : Field} (hf : HasField dev f) {c : EnumContainer} (hc : c ∈ f.containers) :
    ∃ ec wa os, DeclaredContainer d ec ∧ MadeFrom ec f c wa ∧ Offers ec.values os ∧
      ((c.values.map (·.name)).Nodup ↔
        ∀ k ∈ keep [] os, k.isDefault = false → ∀ i, k.value = some i → 0 ≤ i → i < 2 ^ f.bitWidth.toNat →
        ∀ o ∈ keep [] os, o.isDefault = true → ∀ v, 0 ≤ v → v < 2 ^ f.bitWidth.toNat →
          (∀ u ∈ keep [] os, u.isDefault = false → u.value ≠ some v) → 0 ≤ f.bitWidth → k.name ≠ o.name ++ '_' :: intText v) := by
  obtain ⟨ec, wa, h1, h2, -, h3, -⟩ := C52_exact h hf hc
  obtain ⟨os, ho, -⟩ := id h3
  exact ⟨ec, wa, os, h1, h2, ho, values_names h3 ho⟩

end Svd
