import Verif.Lemmas.FullUnique
/-
Inheritance and validation of two resolved devices that differ only in the order of their content and in how often something is
there: if both are accepted, the results are the same.
-/
namespace Svd
open Spec

/-- The same elements, in any order and number. -/
def SameSet {α : Type} (l l' : List α) : Prop := ∀ x, x ∈ l ↔ x ∈ l'

theorem SameSet.refl {α : Type} (l : List α) : SameSet l l := fun _ => .rfl

theorem SameSet.append {α : Type} {a a' b b' : List α} (h : SameSet a a') (k : SameSet b b') : SameSet (a ++ b) (a' ++ b') := by
  intro x
  rw [List.mem_append, List.mem_append, h x, k x]

theorem SameSet.of_perm {α : Type} {a a' : List α} (h : a.Perm a') : SameSet a a' := fun _ => h.mem_iff

theorem each_left {α β : Type} {f : α → M β} {xs : List α} {ys : List β} {w : List Warn} (h : M.Each f xs ys w) :
    (∀ x ∈ xs, ∃ y ∈ ys, ∃ v, f x = .ok y v ∧ ∀ u ∈ v, u ∈ w) ∧ (∀ y ∈ ys, ∃ x ∈ xs, ∃ v, f x = .ok y v) ∧
      ∀ u ∈ w, ∃ x ∈ xs, ∃ y v, f x = .ok y v ∧ u ∈ v := by
  induction h with
  | nil => exact ⟨fun _ h => (by cases h), fun _ h => (by cases h), fun _ h => (by cases h)⟩
  | @cons x y w xs ys ws h1 _ ih =>
    obtain ⟨ih1, ih2, ih3⟩ := ih
    refine ⟨fun a ha => ?_, fun a ha => ?_, fun u hu => ?_⟩
    · rcases List.mem_cons.1 ha with rfl | ha
      · exact ⟨y, by simp, w, h1, fun u hu => by simp [hu]⟩
      · obtain ⟨b, hb, v, e, hv⟩ := ih1 a ha
        exact ⟨b, by simp [hb], v, e, fun u hu => by simp [hv u hu]⟩
    · rcases List.mem_cons.1 ha with rfl | ha
      · exact ⟨x, by simp, w, h1⟩
      · obtain ⟨b, hb, v, e⟩ := ih2 a ha
        exact ⟨b, by simp [hb], v, e⟩
    · rcases List.mem_append.1 hu with hu | hu
      · exact ⟨x, by simp, y, w, h1, hu⟩
      · obtain ⟨a, ha, b, v, e, hv⟩ := ih3 u hu
        exact ⟨a, by simp [ha], b, v, e, hv⟩

theorem each_sim {α β : Type} {f : α → M β} {R : α → α → Prop} {xs xs' : List α} {ys ys' : List β} {w w' : List Warn}
    (h : M.Each f xs ys w) (h' : M.Each f xs' ys' w') (h1 : ∀ x ∈ xs, ∃ x' ∈ xs', R x x') (h2 : ∀ x' ∈ xs', ∃ x ∈ xs, R x x')
    (hf : ∀ x ∈ xs, ∀ x' y y' v v', R x x' → f x = .ok y v → f x' = .ok y' v' → y = y' ∧ SameSet v v') : SameSet ys ys' ∧ SameSet w w' := by
  obtain ⟨a1, a2, a3⟩ := each_left h
  obtain ⟨b1, b2, b3⟩ := each_left h'
  refine ⟨fun y => ⟨fun hy => ?_, fun hy => ?_⟩, fun u => ⟨fun hu => ?_, fun hu => ?_⟩⟩
  · obtain ⟨x, hx, v, e⟩ := a2 y hy
    obtain ⟨x', hx', r⟩ := h1 x hx
    obtain ⟨y', hy', v', e', -⟩ := b1 x' hx'
    obtain ⟨rfl, -⟩ := hf x hx x' _ _ _ _ r e e'
    exact hy'
  · obtain ⟨x', hx', v', e'⟩ := b2 y hy
    obtain ⟨x, hx, r⟩ := h2 x' hx'
    obtain ⟨y', hy', v, e, -⟩ := a1 x hx
    obtain ⟨rfl, -⟩ := hf x hx x' _ _ _ _ r e e'
    exact hy'
  · obtain ⟨x, hx, y, v, e, hv⟩ := a3 u hu
    obtain ⟨x', hx', r⟩ := h1 x hx
    obtain ⟨y', hy', v', e', hw⟩ := b1 x' hx'
    exact hw u (((hf x hx x' _ _ _ _ r e e').2 u).1 hv)
  · obtain ⟨x', hx', y, v', e', hv⟩ := b3 u hu
    obtain ⟨x, hx, r⟩ := h2 x' hx'
    obtain ⟨y', hy', v, e, hw⟩ := a1 x hx
    exact hw u (((hf x hx x' _ _ _ _ r e e').2 u).2 hv)

theorem SameSet.filterMap {α : Type} {os os' : List (Option α)} (h : SameSet os os') : SameSet (os.filterMap id) (os'.filterMap id) := by
  intro x
  simp only [List.mem_filterMap, id_eq]
  exact ⟨fun ⟨a, ha, e⟩ => ⟨a, (h a).1 ha, e⟩, fun ⟨a, ha, e⟩ => ⟨a, (h a).2 ha, e⟩⟩

theorem fields_sim {fs fs' : List IField} (h1 : ∀ f ∈ fs, ∃ f' ∈ fs', SameIF f f') (h2 : ∀ f' ∈ fs', ∃ f ∈ fs, SameIF f f')
    (hs : SortedBy fieldKey fs) (hs' : SortedBy fieldKey fs') {size : Int} {gs gs' : List Field} {w w' : List Warn}
    (hf : finalizeFields fs size = .ok gs w) (hf' : finalizeFields fs' size = .ok gs' w') : gs = gs' ∧ SameSet w w' := by
  unfold finalizeFields at hf hf'
  obtain ⟨raw, w1, w2, a1, a2, rfl⟩ := M.bind_eq_ok.1 hf
  obtain ⟨os, a3, rfl, a4, -⟩ := finalizeFieldsLoop_ok a1
  obtain ⟨raw', w1', w2', b1, b2, rfl⟩ := M.bind_eq_ok.1 hf'
  obtain ⟨os', b3, rfl, b4, -⟩ := finalizeFieldsLoop_ok b1
  obtain ⟨c1, c2⟩ := each_sim a3 b3 h1 h2 (by
    intro x _ x' y y' v v' r e e'
    obtain ⟨v'', e'', p⟩ := fieldOpt_same r e
    rw [e''] at e'
    injection e' with e1 e2
    subst e1 e2
    exact ⟨rfl, .of_perm p⟩)
  have hp := perm_of_same a4 b4 c1.filterMap
  have he : os.filterMap id = os'.filterMap id := sort_conv hp (fields_sorted a3 hs) (fields_sorted b3 hs') (by simpa using a4)
  rw [← he, a2] at b2
  injection b2 with e1 e2
  subst e1 e2
  exact ⟨rfl, c2.append (.refl _)⟩

theorem rcs_sim {b : Int} {xs xs' : List IRC} (h1 : ∀ x ∈ xs, ∃ x' ∈ xs', SimI x x') (h2 : ∀ x' ∈ xs', ∃ x ∈ xs, SimI x x')
    (hx : ∀ x ∈ xs, ∀ x' o o' w w', SimI x x' → finalizeRC b x = .ok o w → finalizeRC b x' = .ok o' w' → o = o' ∧ SameSet w w')
    {ys ys' : List RC} {w w' : List Warn} (hf : finalizeRCs b xs = .ok ys w) (hf' : finalizeRCs b xs' = .ok ys' w') :
    ys = ys' ∧ SameSet w w' := by
  obtain ⟨os, w1, w2, raw, a1, rfl, a2, rfl, a3, rfl⟩ := (finalizeRCs_ok hf).ex
  obtain ⟨os', w1', w2', raw', b1, rfl, b2, rfl, b3, rfl⟩ := (finalizeRCs_ok hf').ex
  obtain ⟨c1, c2⟩ := each_sim a1 b1 h1 h2 hx
  have hp := perm_of_same a2 b2 c1.filterMap
  have he := sortRC_unique hp a2
  have := checkRC_perm (hp.filterMap _) (registerLookup_nodup a2) (hp.filterMap _) (clusterLookup_nodup a2) a3
  rw [he] at this
  have b3' : checkRCOverlaps (registerLookup (os'.filterMap id)) (clusterLookup (os'.filterMap id)) [] (sortBy rcLe (os'.filterMap id)) = .ok () w2' := b3
  have e := this.symm.trans b3'
  injection e with _ e
  subst e
  exact ⟨he, c2.append (.refl _)⟩

theorem rc_sim (x : IRC) : ∀ {b : Int} {x' : IRC} {o o' : Option RC} {w w' : List Warn}, SimI x x' → finalizeRC b x = .ok o w →
    finalizeRC b x' = .ok o' w' → o = o' ∧ SameSet w w' := by
  refine IRC.induct (P := fun x => ∀ {b : Int} {x' : IRC} {o o' : Option RC} {w w' : List Warn}, SimI x x' → finalizeRC b x = .ok o w →
    finalizeRC b x' = .ok o' w' → o = o' ∧ SameSet w w') ?_ ?_ x
  · intro r fs b x' o o' w w' hs h h'
    cases hs with
    | @reg _ _ fs' h1 h2 h3 h4 =>
    rw [finalizeRC] at h h'
    obtain ⟨s, w1, w2, a1, a2, rfl⟩ := M.bind_eq_ok.1 h
    obtain ⟨s', w1', w2', b1, b2, rfl⟩ := M.bind_eq_ok.1 h'
    rw [a1] at b1
    injection b1 with e1 e2
    subst e1 e2
    cases s with
    | none =>
      have e := a2.symm.trans b2
      injection e with e1 e2
      subst e1 e2
      exact ⟨rfl, .refl _⟩
    | some s =>
      have a6 : finalizeRegister r fs s (b + r.addressOffset) = .ok o w2 := a2
      have b6 : finalizeRegister r fs' s (b + r.addressOffset) = .ok o' w2' := b2
      have : o = o' ∧ SameSet w2 w2' := by
        unfold finalizeRegister at a6 b6
        by_cases hr : lower r.name = s%"reserved"
        · rw [if_pos hr] at a6 b6
          rw [a6] at b6
          injection b6 with e1 e2
          subst e1 e2
          exact ⟨rfl, .refl _⟩
        · rw [if_neg hr] at a6 b6
          by_cases ha : (r.alternateRegister.isSome && r.alternateGroup.isSome) = true
          · rw [if_pos ha] at a6
            cases a6
          · rw [if_neg ha] at a6 b6
            obtain ⟨gs, w3, w4, a7, a8, rfl⟩ := M.bind_eq_ok.1 a6
            obtain ⟨gs', w3', w4', b7, b8, rfl⟩ := M.bind_eq_ok.1 b6
            obtain ⟨rfl, c⟩ := fields_sim h1 h2 h3 h4 a7 b7
            have e := a8.symm.trans b8
            injection e with e1 e2
            subst e1 e2
            exact ⟨rfl, c.append (.refl _)⟩
      exact ⟨this.1, (SameSet.refl _).append this.2⟩
  · intro c ch ih b x' o o' w w' hs h h'
    cases hs with
    | @clu _ _ ys R g1 g2 g3 =>
    rw [finalizeRC] at h h'
    obtain ⟨s, w1, w2, a1, a2, rfl⟩ := M.bind_eq_ok.1 h
    obtain ⟨s', w1', w2', b1, b2, rfl⟩ := M.bind_eq_ok.1 h'
    rw [a1] at b1
    injection b1 with e1 e2
    subst e1 e2
    cases s with
    | none =>
      have e := a2.symm.trans b2
      injection e with e1 e2
      subst e1 e2
      exact ⟨rfl, .refl _⟩
    | some s =>
      obtain ⟨raw, w3, w4, a3, a4, rfl⟩ := M.bind_eq_ok.1 a2
      obtain ⟨kids, w5, w6, a5, a6, rfl⟩ := M.bind_eq_ok.1 a4
      obtain ⟨raw', w3', w4', b3, b4, rfl⟩ := M.bind_eq_ok.1 b2
      obtain ⟨kids', w5', w6', b5, b6, rfl⟩ := M.bind_eq_ok.1 b4
      obtain ⟨rfl, k⟩ := rcs_sim (b := b + c.addressOffset) (xs := ch) (xs' := ys)
        (fun x hx => let ⟨y, hy, e⟩ := g2 x hx; ⟨y, hy, g1 _ _ e⟩) (fun y hy => let ⟨x, hx, e⟩ := g3 y hy; ⟨x, hx, g1 _ _ e⟩)
        (fun x hx x' o o' w w' r => ih x hx r) (M.bind_eq_ok.2 ⟨raw, w3, w5, a3, a5, rfl⟩) (M.bind_eq_ok.2 ⟨raw', w3', w5', b3, b5, rfl⟩)
      have e := a6.symm.trans b6
      injection e with e1 e2
      subst e1 e2
      refine ⟨rfl, (SameSet.refl _).append ?_⟩
      have := k.append (.refl w6)
      simpa only [List.append_assoc] using this

theorem periph_sim {p p' : IPeripheral} (hs : SimP p p') {o o' : Option Peripheral} {w w' : List Warn} (h : finalizePeripheral p = .ok o w)
    (h' : finalizePeripheral p' = .ok o' w') : o = o' ∧ SameSet w w' := by
  obtain ⟨h1, h2, h3⟩ := hs
  unfold finalizePeripheral at h h'
  obtain ⟨ys, w1, w2, a1, a2, rfl⟩ := M.bind_eq_ok.1 h
  obtain ⟨ys', w1', w2', b1, b2, rfl⟩ := M.bind_eq_ok.1 h'
  rw [← h1] at b1 b2
  obtain ⟨rfl, k⟩ := rcs_sim h2 h3 (fun x _ x' o o' w w' r => rc_sim x r) a1 b1
  have e := a2.symm.trans b2
  injection e with e1 e2
  subst e1 e2
  exact ⟨rfl, k.append (.refl _)⟩

theorem validate_sim {d d' : IDevice} (hh : d.hd = d'.hd) (h1 : ∀ p ∈ d.peripherals, ∃ p' ∈ d'.peripherals, SimP p p')
    (h2 : ∀ p' ∈ d'.peripherals, ∃ p ∈ d.peripherals, SimP p p') {dev dev' : Device} {w w' : List Warn}
    (hf : validateAndFinalize d = .ok dev w) (hf' : validateAndFinalize d' = .ok dev' w') : dev = dev' ∧ SameSet w w' := by
  obtain ⟨os, w1, w2, raw, a1, rfl, a2, a3, a4, a5, rfl⟩ := validateAndFinalize_ok hf
  obtain ⟨os', w1', w2', raw', b1, rfl, b2, b3, b4, b5, rfl⟩ := validateAndFinalize_ok hf'
  obtain ⟨c1, c2⟩ := each_sim a1 b1 h1 h2 (fun x _ x' y y' v v' r e e' => periph_sim r e e')
  have hp := perm_of_same a2 b2 c1.filterMap
  have he : sortBy periphLe (os.filterMap id) = sortBy periphLe (os'.filterMap id) := by
    refine sorted_unique ((sortBy_perm _).trans (hp.trans (sortBy_perm _).symm)) (sortBy_sorted periphLe_total _)
      (sortBy_sorted periphLe_total _) ?_
    intro a ha b hb hab hba
    rw [mem_sortBy] at ha hb
    refine inj_of_nodup_map a2 ha hb ?_
    have g1 := intStrLe_spec.1 hab
    have g2 := intStrLe_spec.1 hba
    rcases g1 with g1 | ⟨g1, g3⟩ <;> rcases g2 with g2 | ⟨g2, g4⟩
    · simp only at g1 g2; omega
    · simp only at g1 g2; omega
    · simp only at g1 g2; omega
    · exact strLe_antisymm _ _ ((strLe_iff _ _).2 g3) ((strLe_iff _ _).2 g4)
  have hpe : dev.peripherals = dev'.peripherals := by rw [a4, b4, he]
  have hd : dev = dev' := by
    cases dev; cases dev'
    simp only at a3 b3 hpe
    rw [a3, b3, hpe, hh]
  have := checkP_perm (lk' := peripheralLookup (os'.filterMap id)) (hp.map _) (by rw [List.map_map]; exact a2) a5
  rw [hpe] at this
  have e := this.symm.trans b5
  injection e with _ e
  subst e
  exact ⟨hd, c2.append (.refl _)⟩

theorem inheritRC_sim (x : IRC) : ∀ {e : Props} {x' : IRC}, SimI x x' → SimI (inheritRC e x) (inheritRC e x') := by
  refine IRC.induct (P := fun x => ∀ {e : Props} {x' : IRC}, SimI x x' → SimI (inheritRC e x) (inheritRC e x')) ?_ ?_ x
  · intro r fs e x' h
    cases h with
    | @reg _ _ fs' h1 h2 h3 h4 =>
    rw [inheritRC, inheritRC]
    have hs : ∀ {f f' : IField} {a : Option Access} {c : Option WriteConstraint}, SameIF f f' → SameIF (inheritField a c f) (inheritField a c f') := by
      rintro f f' a c ⟨ha, hb, hc⟩
      exact ⟨by simp [inheritField, ha], hb, hc⟩
    refine .reg (fun f hf => ?_) (fun f hf => ?_) (List.pairwise_map.2 h3) (List.pairwise_map.2 h4)
    · obtain ⟨f0, h0, rfl⟩ := List.mem_map.1 hf
      obtain ⟨f', hf', e⟩ := h1 f0 h0
      exact ⟨_, List.mem_map.2 ⟨f', hf', rfl⟩, hs e⟩
    · obtain ⟨f0, h0, rfl⟩ := List.mem_map.1 hf
      obtain ⟨f', hf', e⟩ := h2 f0 h0
      exact ⟨_, List.mem_map.2 ⟨f', hf', rfl⟩, hs e⟩
  · intro c ch ih e x' h
    cases h with
    | @clu _ _ ys R h1 h2 h3 =>
    rw [inheritRC, inheritRC, inheritRCs_map, inheritRCs_map]
    refine .clu (fun a b => ∃ a0 b0, a0 ∈ ch ∧ R a0 b0 ∧ a = inheritRC (inheritProps c.props e) a0 ∧ b = inheritRC (inheritProps c.props e) b0)
      ?_ (fun x hx => ?_) (fun y hy => ?_)
    · rintro a b ⟨a0, b0, k1, k2, rfl, rfl⟩
      exact ih a0 k1 (h1 _ _ k2)
    · obtain ⟨x0, hx0, rfl⟩ := List.mem_map.1 hx
      obtain ⟨y0, hy0, r⟩ := h2 x0 hx0
      exact ⟨_, List.mem_map.2 ⟨y0, hy0, rfl⟩, x0, y0, hx0, r, rfl, rfl⟩
    · obtain ⟨y0, hy0, rfl⟩ := List.mem_map.1 hy
      obtain ⟨x0, hx0, r⟩ := h3 y0 hy0
      exact ⟨_, List.mem_map.2 ⟨x0, hx0, rfl⟩, x0, y0, hx0, r, rfl, rfl⟩

theorem inheritP_sim {e : Props} {p p' : IPeripheral} (h : SimP p p') : SimP (inheritPeripheral e p) (inheritPeripheral e p') := by
  obtain ⟨h1, h2, h3⟩ := h
  refine ⟨by simp [inheritPeripheral, h1], fun x hx => ?_, fun y hy => ?_⟩
  · simp only [inheritPeripheral, inheritRCs_map, List.mem_map] at hx ⊢
    obtain ⟨x0, hx0, rfl⟩ := hx
    obtain ⟨y0, hy0, r⟩ := h2 x0 hx0
    exact ⟨_, ⟨y0, hy0, rfl⟩, h1 ▸ inheritRC_sim x0 r⟩
  · simp only [inheritPeripheral, inheritRCs_map, List.mem_map] at hy ⊢
    obtain ⟨y0, hy0, rfl⟩ := hy
    obtain ⟨x0, hx0, r⟩ := h3 y0 hy0
    exact ⟨_, ⟨x0, hx0, rfl⟩, h1 ▸ inheritRC_sim x0 r⟩

theorem finish_sim {d d' : IDevice} (hh : d.hd = d'.hd) (h1 : ∀ p ∈ d.peripherals, ∃ p' ∈ d'.peripherals, SimP p p')
    (h2 : ∀ p' ∈ d'.peripherals, ∃ p ∈ d.peripherals, SimP p p') {dev dev' : Device} {w w' : List Warn}
    (hf : validateAndFinalize (inheritDevice d) = .ok dev w) (hf' : validateAndFinalize (inheritDevice d') = .ok dev' w') :
    dev = dev' ∧ SameSet w w' := by
  refine validate_sim (by simpa [inheritDevice] using hh) (fun p hp => ?_) (fun p hp => ?_) hf hf'
  · simp only [inheritDevice, List.mem_map, hh] at hp ⊢
    obtain ⟨p0, hp0, rfl⟩ := hp
    obtain ⟨q, hq, r⟩ := h1 p0 hp0
    exact ⟨_, ⟨q, hq, rfl⟩, inheritP_sim r⟩
  · simp only [inheritDevice, List.mem_map, hh] at hp ⊢
    obtain ⟨p0, hp0, rfl⟩ := hp
    obtain ⟨q, hq, r⟩ := h2 p0 hp0
    exact ⟨_, ⟨q, hq, rfl⟩, inheritP_sim r⟩

end Svd
