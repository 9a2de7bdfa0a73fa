import Verif.Lemmas.EmbedReorder
import Verif.Lemmas.POverlap
/-
C65: validation of a device with further peripherals.
-/
namespace Svd
open Spec

section
variable {A B : List (Str × Option Str)}

/-- internal: following the alternates of added elements leads to `r`. -/
inductive UpTo (B : List (Str × Option Str)) (N : List Str) : Str → Str → Prop
  | here {z r} : (z, some r) ∈ B → r ∈ N → UpTo B N z r
  | step {z y r} : (z, some y) ∈ B → y ∉ N → UpTo B N y r → UpTo B N z r

/-- Added alternates connect nothing that was not connected before. -/
theorem connected_added (hAB : ∀ e ∈ A, e ∈ B) (hB : (B.map (·.1)).Nodup) (hc : ∀ n a, (n, some a) ∈ A → a ∈ A.map (·.1)) {a : Str}
    (ha : a ∈ A.map (·.1)) {z : Str} (h : Connected B a z) :
    (z ∈ A.map (·.1) → Connected A a z) ∧ (z ∉ A.map (·.1) → ∃ r, UpTo B (A.map (·.1)) z r ∧ Connected A a r) := by
  have hu : ∀ {n o o'}, (n, o) ∈ B → (n, o') ∈ B → o = o' := fun {n o o'} h1 h2 => by
    have := inj_of_nodup_map hB h1 h2 rfl
    injection this
  have hin : ∀ {n o}, n ∈ A.map (·.1) → (n, o) ∈ B → (n, o) ∈ A := fun {n o} h1 h2 => by
    obtain ⟨⟨n', o'⟩, h3, rfl⟩ := List.mem_map.1 h1
    rw [hu h2 (hAB _ h3)]
    exact h3
  induction h with
  | refl => exact ⟨fun _ => .refl _, fun h => absurd ha h⟩
  | @step y z _ hl ih =>
    by_cases hy : y ∈ A.map (·.1)
    · have hcy := ih.1 hy
      rcases hl with hl | hl
      · have := hin hy hl
        exact ⟨fun _ => .step hcy (.inl this), fun h => absurd (hc _ _ this) h⟩
      · exact ⟨fun hz => .step hcy (.inr (hin hz hl)), fun _ => ⟨y, .here hl hy, hcy⟩⟩
    · obtain ⟨r, hr, hcr⟩ := ih.2 hy
      rcases hl with hl | hl
      · cases hr with
        | here h1 h2 =>
          cases hu hl h1
          exact ⟨fun _ => hcr, fun h => absurd h2 h⟩
        | step h1 h2 h3 =>
          cases hu hl h1
          exact ⟨fun h => absurd h h2, fun _ => ⟨r, h3, hcr⟩⟩
      · exact ⟨fun hz => absurd (hc _ _ (hin hz hl)) hy, fun _ => ⟨r, .step hl hy hr, hcr⟩⟩

end

theorem excused_added {ps ps' : List Peripheral} (hs : ∀ p ∈ ps, p ∈ ps') (hn : (ps'.map (·.name)).Nodup)
    (hc : ∀ y ∈ ps, ∀ a, y.alternatePeripheral = some a → ∀ z, Connected (periphAlts ps) a z → ∃ q ∈ ps, q.name = z)
    {x y : Peripheral} (hx : x ∈ ps) (hy : y ∈ ps) (h : PExcused ps' x y) : PExcused ps x y := by
  rcases h with ⟨a, h1, h2⟩ | h
  · have hnm : ∀ {q}, q ∈ ps → q.name ∈ (periphAlts ps).map (·.1) := fun {q} hq => by
      simp only [periphAlts, List.map_map]
      exact List.mem_map.2 ⟨q, hq, rfl⟩
    have hclosed : ∀ n b, (n, some b) ∈ periphAlts ps → b ∈ (periphAlts ps).map (·.1) := by
      intro n b hb
      obtain ⟨q, hq, e⟩ := List.mem_map.1 hb
      obtain ⟨q', hq', e'⟩ := hc q hq b (by injection e) b (.refl _)
      rw [← e']
      exact hnm hq'
    obtain ⟨q, hq, e⟩ := hc y hy a h1 a (.refl _)
    refine .inl ⟨a, h1, (connected_added (A := periphAlts ps) (B := periphAlts ps') ?_ ?_ hclosed (by rw [← e]; exact hnm hq) h2).1 (hnm hx)⟩
    · intro e he
      obtain ⟨q, hq, rfl⟩ := List.mem_map.1 he
      exact List.mem_map.2 ⟨q, hs q hq, rfl⟩
    · simp only [periphAlts, List.map_map]
      exact hn
  · exact .inr h

/-- What is in a device is in the device with further peripherals, in the same order, and is remarked on in the same way. -/
theorem validate_added {d d' : IDevice} (h1 : ∀ p ∈ d.peripherals, ∃ p' ∈ d'.peripherals, SimP p p') {dev dev' : Device} {w w' : List Warn}
    (hf : validateAndFinalize d = .ok dev w) (hf' : validateAndFinalize d' = .ok dev' w') :
    dev.peripherals.Sublist dev'.peripherals ∧ ∀ u ∈ w, u ∈ w' := by
  classical
  obtain ⟨os, w1, w2, raw, a1, rfl, a2, a3, a4, a5, rfl⟩ := validateAndFinalize_ok hf
  obtain ⟨os', w1', w2', raw', b1, rfl, b2, b3, b4, b5, rfl⟩ := validateAndFinalize_ok hf'
  obtain ⟨l1, l2, l3⟩ := each_left a1
  obtain ⟨m1, m2, m3⟩ := each_left b1
  have hsub : ∀ q ∈ dev.peripherals, q ∈ dev'.peripherals := by
    intro q hq
    rw [a4, mem_sortBy, List.mem_filterMap] at hq
    rw [b4, mem_sortBy, List.mem_filterMap]
    obtain ⟨o, ho, e⟩ := hq
    obtain ⟨p, hp, v, g⟩ := l2 o ho
    obtain ⟨p', hp', s⟩ := h1 p hp
    obtain ⟨o', ho', v', g', -⟩ := m1 p' hp'
    obtain ⟨rfl, -⟩ := periph_sim s g g'
    exact ⟨o, ho', e⟩
  have hn : (dev.peripherals.map (·.name)).Nodup := by
    rw [a4]
    exact ((sortBy_perm _).map _).nodup_iff.2 a2
  have hn' : (dev'.peripherals.map (·.name)).Nodup := by
    rw [b4]
    exact ((sortBy_perm _).map _).nodup_iff.2 b2
  have hso : dev.peripherals.Pairwise (fun a b => periphLe a b = true) := by rw [a4]; exact sortBy_sorted periphLe_total _
  have hso' : dev'.peripherals.Pairwise (fun a b => periphLe a b = true) := by rw [b4]; exact sortBy_sorted periphLe_total _
  have hsl : dev.peripherals.Sublist dev'.peripherals := by
    have e : dev.peripherals = dev'.peripherals.filter (fun q => decide (q ∈ dev.peripherals)) := by
      refine sorted_unique (perm_of_same hn ?_ ?_) hso (hso'.sublist List.filter_sublist) ?_
      · exact hn'.sublist (List.filter_sublist.map _)
      · intro q
        simp only [List.mem_filter, decide_eq_true_eq]
        exact ⟨fun h => ⟨hsub q h, h⟩, fun h => h.2⟩
      · intro a ha b hb hab hba
        refine inj_of_nodup_map hn ha hb ?_
        have g1 := intStrLe_spec.1 hab
        have g2 := intStrLe_spec.1 hba
        rcases g1 with g1 | ⟨g1, g3⟩ <;> rcases g2 with g2 | ⟨g2, g4⟩
        · simp only at g1 g2; omega
        · simp only at g1 g2; omega
        · simp only at g1 g2; omega
        · exact strLe_antisymm _ _ ((strLe_iff _ _).2 g3) ((strLe_iff _ _).2 g4)
    rw [e]
    exact List.filter_sublist
  refine ⟨hsl, fun u hu => ?_⟩
  rcases List.mem_append.1 hu with hu | hu
  · obtain ⟨p, hp, o, v, g, hv⟩ := l3 u hu
    obtain ⟨p', hp', s⟩ := h1 p hp
    obtain ⟨o', ho', v', g', hw⟩ := m1 p' hp'
    obtain ⟨-, e⟩ := periph_sim s g g'
    exact List.mem_append_left _ (hw u ((e u).1 hv))
  · obtain ⟨c1, c2⟩ := periph_overlaps a2 a4 a5
    obtain ⟨-, c2'⟩ := periph_overlaps b2 b4 b5
    obtain ⟨x, y, hb, hx, r⟩ := (c2 u).1 hu
    refine List.mem_append_right _ ((c2' u).2 ⟨x, y, hb.trans hsl, fun he => hx ?_, r⟩)
    exact excused_added hsub hn' c1 (hb.subset (by simp)) (hb.subset (by simp)) he

theorem finish_added {d d' : IDevice} (hh : d.hd = d'.hd) (h1 : ∀ p ∈ d.peripherals, ∃ p' ∈ d'.peripherals, SimP p p') {dev dev' : Device}
    {w w' : List Warn} (hf : validateAndFinalize (inheritDevice d) = .ok dev w) (hf' : validateAndFinalize (inheritDevice d') = .ok dev' w') :
    dev.peripherals.Sublist dev'.peripherals ∧ ∀ u ∈ w, u ∈ w' := by
  refine validate_added (fun p hp => ?_) hf hf'
  simp only [inheritDevice, List.mem_map, hh] at hp ⊢
  obtain ⟨p0, hp0, rfl⟩ := hp
  obtain ⟨q, hq, r⟩ := h1 p0 hp0
  exact ⟨_, ⟨q, hq, rfl⟩, inheritP_sim r⟩

end Svd
