import Verif.Lemmas.Fin
import Verif.Lemmas.FinState
import Verif.Model.Pipeline
/- Property inheritance, and processed elements traced back to resolved ones. -/
namespace Svd
open Spec

theorem Below.path {xs : List RC} {x : RC} (h : Below xs x) : ∃ cs, Path xs cs x := by
  induction h with
  | here h => exact ⟨[], .here h⟩
  | inside h _ ih => obtain ⟨cs, h2⟩ := ih; exact ⟨_, .inside h h2⟩

theorem Path.below {xs : List RC} {x : RC} {cs : List ClusterHd} (h : Path xs cs x) : Below xs x := by
  induction h with
  | here h => exact .here h
  | inside h _ ih => exact .inside h ih

theorem IPath.below {xs : List IRC} {x : IRC} {cs : List IClusterHd} (h : IPath xs cs x) : IBelow xs x := by
  induction h with
  | here h => exact .here h
  | inside h _ ih => exact .inside h ih

theorem mem_inheritRCs {p : Props} {xs : List IRC} {x : IRC} :
    x ∈ inheritRCs p xs ↔ ∃ x0 ∈ xs, x = inheritRC p x0 := by
  induction xs with
  | nil => simp [inheritRCs]
  | cons y ys ih => simp [inheritRCs, ih]

theorem inheritRCs_eq_map (p : Props) (xs : List IRC) : inheritRCs p xs = xs.map (inheritRC p) := by
  induction xs with
  | nil => rfl
  | cons y ys ih => simp [inheritRCs, ih]

/-- The enclosing property group after descending through the clusters. -/
def enclosing (p : Props) (cs : List IClusterHd) : Props := cs.foldl (fun e c => inheritProps c.props e) p

/-- A path in the tree after inheritance comes from a path before. -/
theorem inherit_path {p : Props} {xs : List IRC} {cs : List IClusterHd} {x : IRC}
    (h : IPath (inheritRCs p xs) cs x) :
    ∃ cs0 x0, IPath xs cs0 x0 ∧ x = inheritRC (enclosing p cs0) x0 ∧
      cs.map (fun c => (c.name, c.addressOffset)) = cs0.map (fun c => (c.name, c.addressOffset)) := by
  generalize hys : inheritRCs p xs = ys at h
  induction h generalizing p xs with
  | here h =>
    subst hys
    obtain ⟨x0, h0, rfl⟩ := mem_inheritRCs.1 h
    exact ⟨[], x0, .here h0, rfl, rfl⟩
  | inside h _ ih =>
    subst hys
    obtain ⟨x0, h0, hx⟩ := mem_inheritRCs.1 h
    cases x0 with
    | reg r fs => simp [inheritRC] at hx
    | clu c ch =>
      simp only [inheritRC, IRC.clu.injEq] at hx
      obtain ⟨rfl, rfl⟩ := hx
      obtain ⟨cs0, x0, h1, h2, h3⟩ := ih rfl
      exact ⟨c :: cs0, x0, .inside h0 h1, h2, by simp [h3]⟩

theorem ScopeFrom.mem_ws {b : Int} {xs : List IRC} {ys : List RC} {ws : List Warn} (h : ScopeFrom b xs ys ws) {y : RC}
    (hy : y ∈ ys) : ∃ x ∈ xs, ∃ w, finalizeRC b x = .ok (some y) w ∧ ∀ u ∈ w, u ∈ ws := by
  obtain ⟨os, w1, w2, raw, h1, rfl, -, rfl, -, rfl⟩ := h.ex
  rw [mem_sortBy, List.mem_filterMap] at hy
  obtain ⟨o, ho, h3⟩ := hy
  simp only [id] at h3
  subst h3
  obtain ⟨p, hp, w, hw, hs⟩ := h1.mem_ws ho
  exact ⟨p, hp, w, hw, fun u hu => by simp [hs u hu]⟩

/-- A finalised cluster. -/
theorem finalizeRC_clu_some {b : Int} {c : IClusterHd} {ch : List IRC} {y : RC} {ws : List Warn}
    (h : finalizeRC b (.clu c ch) = .ok (some y) ws) :
    ∃ s p z zs w, c.props.size = some s ∧ (s = 8 ∨ s = 16 ∨ s = 32 ∨ s = 64 ∨ s = 128) ∧
      ScopeFrom (b + c.addressOffset) ch (z :: zs) w ∧ (∀ u ∈ w, u ∈ ws) ∧ regPropValidator c.props = .ok p [] ∧
      y = .clu (clusterOf c p (b + c.addressOffset) (lastUsed z zs)) (z :: zs) := by
  obtain ⟨s, hs, ⟨_, h, _⟩ | ⟨_, hsz, w1, w2, ys, _, hsc, ⟨_, h, _⟩ | ⟨y, ys', p, rfl, hp, rfl, h9⟩⟩⟩ := finalizeRC_clu h
  · cases h
  · cases h
  · simp only [Option.some.injEq] at h9
    exact ⟨s, p, y, ys', w2, hs, hsz, hsc, fun u hu => by simp [hu], hp, h9⟩

/-- A finalised register. -/
theorem finalizeRC_reg_some {b : Int} {r : IRegisterHd} {fs : List IField} {y : RC} {ws : List Warn}
    (h : finalizeRC b (.reg r fs) = .ok (some y) ws) :
    ∃ s p gs w, r.props.size = some s ∧ (s = 8 ∨ s = 16 ∨ s = 32 ∨ s = 64 ∨ s = 128) ∧
      lower r.name ≠ s%"reserved" ∧ ¬ (r.alternateRegister.isSome ∧ r.alternateGroup.isSome) ∧
      finalizeFields fs s = .ok gs w ∧ (∀ u ∈ w, u ∈ ws) ∧
      regPropValidator r.props = .ok p [] ∧ y = .reg (registerOf r p gs (b + r.addressOffset)) := by
  obtain ⟨s, hs, ⟨_, h, _⟩ | ⟨_, hsz, w1, w2, rfl, _, ⟨_, h, _⟩ | ⟨h1, h2, gs, p, h3, h4, h9⟩⟩⟩ := finalizeRC_reg h
  · cases h
  · cases h
  · simp only [Option.some.injEq] at h9
    exact ⟨s, p, gs, w2, hs, hsz, h1, h2, h3, fun u hu => by simp [hu], h4, h9⟩

/-- Everything below a finalised scope, with its path. -/
theorem ScopeFrom.path {b : Int} {xs : List IRC} {ys : List RC} {ws : List Warn} (h : ScopeFrom b xs ys ws) {y : RC}
    {cs : List ClusterHd} (hy : Path ys cs y) :
    ∃ ics x w, IPath xs ics x ∧ finalizeRC (b + sumList (ics.map (·.addressOffset))) x = .ok (some y) w ∧
      (∀ u ∈ w, u ∈ ws) ∧
      cs.map (fun c => (c.name, c.addressOffset)) = ics.map (fun c => (c.name, c.addressOffset)) := by
  induction hy generalizing b xs ws with
  | here hm =>
    obtain ⟨x, hx, w, hw, hs⟩ := h.mem_ws hm
    exact ⟨[], x, w, .here hx, by simpa [sumList] using hw, hs, rfl⟩
  | inside hm _ ih =>
    obtain ⟨x, hx, w, hw, hs⟩ := h.mem_ws hm
    cases x with
    | reg r fs =>
      obtain ⟨_, _, _, _, _, _, _, _, _, _, _, h⟩ := finalizeRC_reg_some hw
      cases h
    | clu c ch =>
      obtain ⟨s, p, z, zs, w', _, _, hsc, hs', _, h⟩ := finalizeRC_clu_some hw
      simp only [RC.clu.injEq] at h
      obtain ⟨rfl, rfl⟩ := h
      obtain ⟨ics, x, w, hx', hw', hs'', hn⟩ := ih hsc
      refine ⟨c :: ics, x, w, .inside hx hx', ?_, fun u hu => hs u (hs' u (hs'' u hu)), by simp [hn, clusterOf]⟩
      simpa [sumList, Int.add_assoc] using hw'

theorem wrapResolve_ok {α : Type} {x : M α} {a : α} {ws : List Warn} : wrapResolve x = .ok a ws ↔ x = .ok a ws := by
  unfold wrapResolve
  constructor
  · intro h; split at h <;> first | exact h | cases h
  · rintro rfl; rfl

/-- The phases of a successful run. -/
theorem processDevice_ok {ord : List Nat → List Nat} {fuel : Nat} {d : SDevice} {dev : Device} {ws : List Warn} :
    processDevice ord fuel d = .ok dev ws ↔
    ∃ ps w1 w2, resolvePeripherals ord fuel d = .ok ps w1 ∧
      validateAndFinalize (inheritDevice { hd := deviceHead d.hd, peripherals := ps }) = .ok dev w2 ∧
      ws = w1 ++ w2 := by
  unfold processDevice
  simp only [M.bind_eq_ok, wrapResolve_ok]

theorem dev_periph_ws {d : IDevice} {dev : Device} {ws : List Warn} (h : validateAndFinalize d = .ok dev ws)
    {q : Peripheral} (hq : q ∈ dev.peripherals) :
    ∃ p ∈ d.peripherals, ∃ w, finalizePeripheral p = .ok (some q) w ∧ ∀ u ∈ w, u ∈ ws := by
  obtain ⟨os, w1, w2, raw, h1, rfl, -, -, h2, -, rfl⟩ := validateAndFinalize_ok h
  rw [h2, mem_sortBy, List.mem_filterMap] at hq
  obtain ⟨o, ho, h3⟩ := hq
  simp only [id] at h3
  subst h3
  obtain ⟨p, hp, w, hw, hs⟩ := h1.mem_ws ho
  exact ⟨p, hp, w, hw, fun u hu => by simp [hs u hu]⟩

theorem finalizePeripheral_some_ws {p : IPeripheral} {q : Peripheral} {ws : List Warn}
    (h : finalizePeripheral p = .ok (some q) ws) :
    ∃ y ys w1 ab abs fp, ScopeFrom p.hd.baseAddress p.rcs (y :: ys) w1 ∧ (∀ u ∈ w1, u ∈ ws) ∧
      p.hd.addressBlocks = ab :: abs ∧
      regPropValidator p.hd.props = .ok fp [] ∧ q = peripheralOf p.hd fp ab abs y ys := by
  obtain ⟨ys, w1, hsc, ⟨-, h, -⟩ | ⟨y, ys', w2, rfl, -, ⟨_, _, _, h, _⟩ | ⟨_, ab, abs, fp, h1, h2, rfl, h3⟩⟩⟩ :=
    finalizePeripheral_ok h
  · cases h
  · cases h
  · simp only [Option.some.injEq] at h3
    exact ⟨y, ys', w1, ab, abs, fp, hsc, fun u hu => by simp [hu], h1, h2, h3⟩

/-- A processed peripheral traced back to a resolved one. -/
theorem trace_periph {hd : DeviceHd} {ps : List IPeripheral} {dev : Device} {ws : List Warn}
    (h : validateAndFinalize (inheritDevice { hd := hd, peripherals := ps }) = .ok dev ws) {q : Peripheral}
    (hq : q ∈ dev.peripherals) :
    ∃ p ∈ ps, ∃ y ys w ab abs fp,
      ScopeFrom p.hd.baseAddress (inheritRCs (inheritProps p.hd.props hd.props.toProps) p.rcs) (y :: ys) w ∧
      (∀ u ∈ w, u ∈ ws) ∧ p.hd.addressBlocks = ab :: abs ∧
      regPropValidator (inheritProps p.hd.props hd.props.toProps) = .ok fp [] ∧
      q = peripheralOf { p.hd with props := inheritProps p.hd.props hd.props.toProps } fp ab abs y ys := by
  obtain ⟨p', hp', w, hw, hs⟩ := dev_periph_ws h hq
  simp only [inheritDevice, List.mem_map] at hp'
  obtain ⟨p, hp, rfl⟩ := hp'
  obtain ⟨y, ys, w1, ab, abs, fp, h1, h2, h3, h4, h5⟩ := finalizePeripheral_some_ws hw
  exact ⟨p, hp, y, ys, w1, ab, abs, fp, h1, fun u hu => hs u (h2 u hu), h3, h4, h5⟩

/-- A processed register or cluster traced back to a resolved one. -/
theorem trace_rc {hd : DeviceHd} {ps : List IPeripheral} {dev : Device} {ws : List Warn}
    (h : validateAndFinalize (inheritDevice { hd := hd, peripherals := ps }) = .ok dev ws) {q : Peripheral}
    (hq : q ∈ dev.peripherals) {cs : List ClusterHd} {y : RC} (hy : Path q.rcs cs y) :
    ∃ p ∈ ps, q.name = p.hd.name ∧ q.baseAddress = p.hd.baseAddress ∧ ∃ ics x w, IPath p.rcs ics x ∧
      finalizeRC (q.baseAddress + sumList (cs.map (·.addressOffset)))
        (inheritRC (enclosing (inheritProps p.hd.props hd.props.toProps) ics) x) = .ok (some y) w ∧
      (∀ u ∈ w, u ∈ ws) ∧
      cs.map (fun c => (c.name, c.addressOffset)) = ics.map (fun c => (c.name, c.addressOffset)) := by
  obtain ⟨p, hp, z, zs, w, ab, abs, fp, hsc, hs, -, -, rfl⟩ := trace_periph h hq
  refine ⟨p, hp, rfl, rfl, ?_⟩
  obtain ⟨ics1, x1, w1, h1, h2, h3, h4⟩ := hsc.path hy
  obtain ⟨ics, x, h5, rfl, h6⟩ := inherit_path h1
  refine ⟨ics, x, w1, h5, ?_, fun u hu => hs u (h3 u hu), h4.trans h6⟩
  have : cs.map (·.addressOffset) = ics1.map (·.addressOffset) := by
    have := congrArg (List.map Prod.snd) h4
    simpa [Function.comp_def] using this
  simp only [peripheralOf]
  rw [this]
  exact h2

end Svd
