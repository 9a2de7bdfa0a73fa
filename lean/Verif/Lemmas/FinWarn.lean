import Verif.Lemmas.TrimInv
/-
Where the warnings of the finalisation come from.
-/
namespace Svd
open Spec

/-- The contents of a list of trees: the list itself and the contents of each cluster in it. -/
def ScopeIn (ys zs : List RC) : Prop := zs = ys ∨ ∃ c, Below ys (.clu c zs)

/-- Warnings about an element itself. -/
def OwnWarn : Warn → Prop
  | .regClusterBadSize _ | .regClusterUnaligned _ | .clusterEmpty _ | .registerReserved => True
  | .peripheralEmpty _ | .peripheralUnaligned _ | .peripheralBadSize _ | .addressBlockOverlap _ _ => True
  | _ => False

/-- The warnings `w2` are those of the overlap check of `zs`. -/
def CheckedScope (zs : List RC) (w2 : List Warn) : Prop :=
  ∃ raw, (raw.map RC.qualName).Nodup ∧ zs = sortBy rcLe raw ∧
    checkRCOverlaps (registerLookup raw) (clusterLookup raw) [] zs = .ok () w2

/-- The warning belongs to a register or to a scope of `ys`, or to an element itself. -/
inductive FromScope (ys : List RC) (w : Warn) : Prop
  | field {r fs wf} : Below ys (.reg r) → finalizeFields fs r.props.size = .ok r.fields wf → w ∈ wf → FromScope ys w
  | scope {zs w2} : ScopeIn ys zs → CheckedScope zs w2 → w ∈ w2 → FromScope ys w
  | own : OwnWarn w → FromScope ys w

theorem Below.trans {ys ch : List RC} {c : ClusterHd} {x : RC} (h : Below ys (.clu c ch)) (h2 : Below ch x) : Below ys x := by
  generalize hy : RC.clu c ch = y at h
  induction h with
  | here h1 => subst hy; exact .inside h1 h2
  | inside h1 _ ih => exact .inside h1 (ih hy)

theorem FromScope.lift {ys ch : List RC} {c : ClusterHd} {w : Warn} (h : FromScope ch w) (hb : Below ys (.clu c ch)) :
    FromScope ys w := by
  cases h with
  | field h1 h2 h3 => exact .field (Svd.Below.trans hb h1) h2 h3
  | scope h1 h2 h3 =>
    refine .scope (Or.inr ?_) h2 h3
    rcases h1 with rfl | ⟨c', h1⟩
    · exact ⟨c, hb⟩
    · exact ⟨c', Svd.Below.trans hb h1⟩
  | own h => exact .own h

theorem ScopeFrom.fromScope {b : Int} {xs : List IRC} {ys : List RC} {ws : List Warn} (h : ScopeFrom b xs ys ws)
    (ih : ∀ x ∈ xs, ∀ {o : Option RC} {w : List Warn}, finalizeRC b x = .ok o w →
      ∀ u ∈ w, OwnWarn u ∨ ∃ y, o = some y ∧ FromScope [y] u) {w : Warn} (hw : w ∈ ws) : FromScope ys w := by
  obtain ⟨os, w1, w2, raw, h1, h2, h3, h4, h5, rfl⟩ := h.ex
  rcases List.mem_append.1 hw with hw | hw
  · obtain ⟨x, hx, o, ho, w', h6, h7⟩ := h1.of_ws hw
    rcases ih x hx h6 w h7 with h8 | ⟨y, rfl, h8⟩
    · exact .own h8
    · have hy : y ∈ ys := by rw [h4, mem_sortBy, h2]; exact List.mem_filterMap.2 ⟨some y, ho, rfl⟩
      have hbel : ∀ z, Below [y] z → Below ys z := by
        intro z hz
        cases hz with
        | here h => rw [List.mem_singleton.1 h]; exact .here hy
        | inside h h' => rw [List.mem_singleton] at h; exact .inside (h ▸ hy) h'
      cases h8 with
      | field a1 a2 a3 => exact .field (hbel _ a1) a2 a3
      | @scope zs w2' a1 a2 a3 =>
        rcases a1 with rfl | ⟨c, a1⟩
        · -- a scope consisting of one element has no overlaps
          exfalso
          obtain ⟨raw', b1, b2, b3⟩ := a2
          obtain ⟨x', y', hb, -⟩ := (scope_overlaps b1 b2 b3 w).1 a3
          have := List.Sublist.length_le (show [x', y'].Sublist [y] from hb)
          simp at this
        · exact .scope (Or.inr ⟨c, hbel _ a1⟩) a2 a3
      | own h => exact .own h
  · exact .scope (Or.inl rfl) ⟨raw, h3, h4, h5⟩ hw

theorem finalizeRC_warn (x : IRC) : ∀ {b : Int} {o : Option RC} {w : List Warn}, finalizeRC b x = .ok o w →
    ∀ u ∈ w, OwnWarn u ∨ ∃ y, o = some y ∧ FromScope [y] u := by
  induction x using IRC.induct with
  | hr r fs =>
    intro b o w h u hu
    obtain ⟨s, hs, ⟨-, rfl, rfl⟩ | ⟨-, -, w1, w2, rfl, hw1, h2⟩⟩ := finalizeRC_reg h
    · rw [List.mem_singleton.1 hu]; exact Or.inl trivial
    · rcases List.mem_append.1 hu with hu | hu
      · rcases hw1 with rfl | rfl
        · cases hu
        · rw [List.mem_singleton.1 hu]; exact Or.inl trivial
      · rcases h2 with ⟨-, rfl, rfl⟩ | ⟨-, -, gs, fp, h3, h4, rfl⟩
        · rw [List.mem_singleton.1 hu]; exact Or.inl trivial
        · refine Or.inr ⟨_, rfl, .field (r := registerOf r fp gs (b + r.addressOffset)) (fs := fs) (wf := w2) (.here (by simp)) ?_ hu⟩
          have : fp.size = s := by
            have := (regPropValidator_ok h4).1
            rw [hs] at this; cases this; rfl
          rw [← this] at h3; exact h3
  | hc c ch ih =>
    intro b o w h u hu
    obtain ⟨s, -, ⟨-, rfl, rfl⟩ | ⟨-, -, w1, w2, ys, hw1, h2, h3⟩⟩ := finalizeRC_clu h
    · rw [List.mem_singleton.1 hu]; exact Or.inl trivial
    · have hw1' : ∀ v ∈ w1, OwnWarn v := by
        intro v hv
        rcases hw1 with rfl | rfl
        · cases hv
        · rw [List.mem_singleton.1 hv]; trivial
      have key : ∀ v ∈ w2, FromScope ys v := fun v hv => h2.fromScope (fun x hx _ _ hh => ih x hx hh) hv
      rcases h3 with ⟨rfl, rfl, rfl⟩ | ⟨y, ys', fp, rfl, -, rfl, rfl⟩
      · rcases List.mem_append.1 hu with hu | hu
        · rcases List.mem_append.1 hu with hu | hu
          · exact Or.inl (hw1' u hu)
          · cases key u hu with
            | field a1 _ _ => cases a1 with
              | here h => cases h
              | inside h _ => cases h
            | @scope zs w2' a1 a2 a3 =>
              exfalso
              rcases a1 with rfl | ⟨c', a1⟩
              · obtain ⟨raw', b1, b2, b3⟩ := a2
                obtain ⟨x', y', hb, -⟩ := (scope_overlaps b1 b2 b3 u).1 a3
                have := List.Sublist.length_le (show [x', y'].Sublist [] from hb)
                simp at this
              · cases a1 with
                | here h => cases h
                | inside h _ => cases h
            | own h => exact Or.inl h
        · rw [List.mem_singleton.1 hu]; exact Or.inl trivial
      · rcases List.mem_append.1 hu with hu | hu
        · exact Or.inl (hw1' u hu)
        · exact Or.inr ⟨_, rfl, (key u hu).lift (.here (List.mem_singleton.2 rfl))⟩

theorem addressBlockWarns_own (l : List AddressBlock) : ∀ w ∈ addressBlockWarns l, OwnWarn w := by
  intro x hx
  induction l with
  | nil => cases hx
  | cons a l ih =>
    cases l with
    | nil => cases hx
    | cons b l =>
      rw [addressBlockWarns] at hx
      rcases List.mem_append.1 hx with hx | hx
      · split at hx
        · rw [List.mem_singleton.1 hx]; trivial
        · cases hx
      · exact ih hx

/-- Where a warning of the finalisation comes from: the peripherals of the device, their contents, or a peripheral
dropped because of its size. -/
theorem finalize_warn {d : IDevice} {dev : Device} {ws : List Warn} (h : validateAndFinalize d = .ok dev ws) {w : Warn}
    (hw : w ∈ ws) : (∃ q ∈ dev.peripherals, FromScope q.rcs w) ∨ OwnWarn w ∨
      (∃ raw w2, (raw.map (·.name)).Nodup ∧ dev.peripherals = sortBy periphLe raw ∧
        checkPeriphOverlaps (peripheralLookup raw) [] [] dev.peripherals = .ok () w2 ∧ w ∈ w2) ∨
      ∃ n, Warn.peripheralBadSize n ∈ ws := by
  obtain ⟨os, w1, w2, raw, h1, h2, h3, -, h4, h5, rfl⟩ := validateAndFinalize_ok h
  rcases List.mem_append.1 hw with hw | hw
  · obtain ⟨p, hp, o, ho, w', h6, h7⟩ := h1.of_ws hw
    obtain ⟨ys, wa, h8, h9⟩ := finalizePeripheral_ok h6
    have key : ∀ v ∈ wa, FromScope ys v := fun v hv => h8.fromScope (fun x _ _ _ hh => finalizeRC_warn x hh) hv
    rcases h9 with ⟨rfl, rfl, rfl⟩ | ⟨y, ys', wb, rfl, hwb, h10⟩
    · rcases List.mem_append.1 h7 with h7 | h7
      · cases key w h7 with
        | field a1 _ _ => cases a1 with
          | here h => cases h
          | inside h _ => cases h
        | @scope zs w2' a1 a2 a3 =>
          exfalso
          rcases a1 with rfl | ⟨c', a1⟩
          · obtain ⟨raw', b1, b2, b3⟩ := a2
            obtain ⟨x', y', hb, -⟩ := (scope_overlaps b1 b2 b3 w).1 a3
            have := List.Sublist.length_le (show [x', y'].Sublist [] from hb)
            simp at this
          · cases a1 with
            | here h => cases h
            | inside h _ => cases h
        | own h => exact Or.inr (Or.inl h)
      · rw [List.mem_singleton.1 h7]; exact Or.inr (Or.inl trivial)
    · have hwb' : ∀ v ∈ wb, OwnWarn v := by
        intro v hv
        rcases hwb with rfl | rfl
        · cases hv
        · rw [List.mem_singleton.1 hv]; trivial
      rcases h10 with ⟨s, -, -, rfl, rfl⟩ | ⟨-, ab, abs, fp, -, -, rfl, rfl⟩
      · refine Or.inr (Or.inr (Or.inr ⟨p.hd.name, ?_⟩))
        obtain ⟨o', ho', w3, h11, h12⟩ := h1.mem_ws' hp
        rw [h6] at h11
        cases h11
        exact List.mem_append.2 (Or.inl (h12 _ (by simp)))
      · rcases List.mem_append.1 h7 with h7 | h7
        · rcases List.mem_append.1 h7 with h7 | h7
          · refine Or.inl ⟨peripheralOf p.hd fp ab abs y ys', ?_, key w h7⟩
            rw [h4, mem_sortBy, h2]
            exact List.mem_filterMap.2 ⟨_, ho, rfl⟩
          · exact Or.inr (Or.inl (hwb' w h7))
        · exact Or.inr (Or.inl (addressBlockWarns_own _ w h7))
  · exact Or.inr (Or.inr (Or.inl ⟨raw, w2, h3, h4, h5, hw⟩))

/-- The overlap check of each scope of the device is part of the run. -/
theorem scope_checked {hd : DeviceHd} {ps : List IPeripheral} {dev : Device} {ws : List Warn}
    (h : validateAndFinalize (inheritDevice { hd := hd, peripherals := ps }) = .ok dev ws) {zs : List RC}
    (hs : IsScope dev zs) : ∃ w2, CheckedScope zs w2 ∧ ∀ w ∈ w2, w ∈ ws := by
  rcases hs with ⟨q, hq, rfl⟩ | ⟨c, q, hq, hc⟩
  · obtain ⟨p, hp, z, zs, w, ab, abs, fp, hsc, hs, -, -, rfl⟩ := trace_periph h hq
    obtain ⟨os, w1, w2, raw, h1, h2, h3, h4, h5, rfl⟩ := hsc.ex
    exact ⟨w2, ⟨raw, h3, h4, h5⟩, fun u hu => hs u (by simp [hu])⟩
  · obtain ⟨cs, hp⟩ := Below.path hc
    obtain ⟨p, hp, -, -, ics, x, w, h1, h2, h3, -⟩ := trace_rc h hq hp
    cases x with
    | reg r fs =>
      rw [inheritRC] at h2
      obtain ⟨_, _, _, _, -, -, -, -, -, -, -, h4⟩ := finalizeRC_reg_some h2
      cases h4
    | clu c0 ch0 =>
      rw [inheritRC] at h2
      obtain ⟨s, p', z, zs', w', -, -, h5, h6, -, h7⟩ := finalizeRC_clu_some h2
      cases h7
      obtain ⟨os, w1, w2, raw, a1, a2, a3, a4, a5, rfl⟩ := h5.ex
      exact ⟨w2, ⟨raw, a3, a4, a5⟩, fun u hu => h3 u (h6 u (by simp [hu]))⟩
end Svd
