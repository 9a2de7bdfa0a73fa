import Verif.Lemmas.Sizes
import Verif.Spec.Trim
import Verif.Spec.Layout
/-
Theorems on the sizes of containers: C19, C20.
-/
namespace Svd
open Spec

variable {ord : List Nat → List Nat} {fuel : Nat} {d : SDevice} {dev : Device} {ws : List Warn}

/-! ### C19 -/

theorem inheritRC_size? (encl : Props) (x : IRC) : (inheritRC encl x).size? = orIfNone x.size? encl.size := by
  cases x <;> rfl

theorem finalizeRC_size {b : Int} {x : IRC} {y : RC} {w : List Warn} (h : finalizeRC b x = .ok (some y) w) :
    x.size? = some y.size ∧ y.size % 8 = 0 := by
  cases x with
  | reg r fs =>
    obtain ⟨s, p, gs, w1, h1, h2, -, -, -, -, h3, rfl⟩ := finalizeRC_reg_some h
    have := (regPropValidator_ok h3).1
    rw [h1, Option.some.injEq] at this
    simp only [IRC.size?, RC.size, registerOf, h1, this, true_and]
    omega
  | clu c ch =>
    obtain ⟨s, p, z, zs, w1, h1, h2, -, -, h3, rfl⟩ := finalizeRC_clu_some h
    have := (regPropValidator_ok h3).1
    rw [h1, Option.some.injEq] at this
    simp only [IRC.size?, RC.size, clusterOf, h1, this, true_and]
    omega

theorem finalizeRC_none {b : Int} {x : IRC} {w : List Warn} (h : finalizeRC b x = .ok none w) :
    ∃ u ∈ w, SaysIgnored u = true := by
  cases x with
  | reg r fs =>
    obtain ⟨s, -, ⟨-, -, rfl⟩ | ⟨-, -, w1, w2, rfl, -, ⟨-, -, rfl⟩ | ⟨-, -, gs, p, -, -, h⟩⟩⟩ := finalizeRC_reg h
    · exact ⟨.regClusterBadSize r.name, by simp, rfl⟩
    · exact ⟨.registerReserved, by simp, rfl⟩
    · cases h
  | clu c ch =>
    obtain ⟨s, -, ⟨-, -, rfl⟩ | ⟨-, -, w1, w2, ys, -, -, ⟨-, -, rfl⟩ | ⟨y, ys', p, -, -, -, h⟩⟩⟩ := finalizeRC_clu h
    · exact ⟨.regClusterBadSize c.name, by simp, rfl⟩
    · exact ⟨.clusterEmpty c.name, by simp, rfl⟩
    · cases h

theorem each_mem {α β : Type} {f : α → M β} {xs : List α} {ys : List β} {ws : List Warn} (h : M.Each f xs ys ws)
    {x : α} (hx : x ∈ xs) : ∃ y ∈ ys, ∃ w, f x = .ok y w ∧ ∀ u ∈ w, u ∈ ws := by
  induction h with
  | nil => cases hx
  | cons h1 _ ih =>
    rcases List.mem_cons.1 hx with rfl | hx
    · exact ⟨_, by simp, _, h1, fun u hu => by simp [hu]⟩
    · obtain ⟨y, hy, w, h2, h3⟩ := ih hx
      exact ⟨y, by simp [hy], w, h2, fun u hu => by simp [h3 u hu]⟩

/-- The children of a container whose size covers them. -/
theorem scope_covers {b : Int} {encl : Props} {xs : List IRC} {ys : List RC} {w : List Warn} {m : Int}
    (h : ScopeFrom b (inheritRCs encl xs) ys w) (hm : encl.size = some m) (hc : Covers m xs) :
    (∀ y ∈ ys, y.size ≤ m) ∧ ((∃ y ∈ ys, y.size = m) ∨ ∃ u ∈ w, SaysIgnored u = true) := by
  refine ⟨?_, ?_⟩
  · intro y hy
    obtain ⟨x', hx', u, hu⟩ := h.mem hy
    obtain ⟨x, hx, rfl⟩ := mem_inheritRCs.1 hx'
    obtain ⟨h1, h2⟩ := finalizeRC_size hu
    rw [inheritRC_size?, hm] at h1
    cases hs : x.size? with
    | none =>
      rw [hs] at h1
      simp only [orIfNone, Option.some.injEq] at h1
      omega
    | some s =>
      rw [hs] at h1
      simp only [orIfNone, Option.some.injEq] at h1
      subst h1
      exact hc.1 x hx _ hs h2
  · obtain ⟨x, hx, hxs⟩ := hc.2
    obtain ⟨os, w1, w2, raw, hE, rfl, -, rfl, -, rfl⟩ := h.ex
    obtain ⟨o, ho, u, hu, hsub⟩ := each_mem hE (mem_inheritRCs.2 ⟨x, hx, rfl⟩)
    cases o with
    | none =>
      obtain ⟨v, hv, hv'⟩ := finalizeRC_none hu
      exact Or.inr ⟨v, by simp [hsub v hv], hv'⟩
    | some y =>
      left
      refine ⟨y, ?_, ?_⟩
      · rw [mem_sortBy]
        exact List.mem_filterMap.2 ⟨some y, ho, rfl⟩
      · obtain ⟨h1, h2⟩ := finalizeRC_size hu
        rw [inheritRC_size?, hm] at h1
        rcases hxs with q | q | ⟨s, q, q'⟩
        · rw [q] at h1
          simpa [orIfNone] using h1.symm
        · rw [q] at h1
          simpa [orIfNone] using h1.symm
        · rw [q] at h1
          simp only [orIfNone, Option.some.injEq] at h1
          subst h1
          exact absurd h2 q'

theorem sizedT_path {xs : List IRC} {cs : List IClusterHd} {x : IRC} (h : IPath xs cs x) (hs : ∀ x ∈ xs, SizedT x) :
    SizedT x := by
  induction h with
  | here h => exact hs _ h
  | inside h _ ih =>
    refine ih ?_
    have := hs _ h
    cases this with
    | leaf => intro x hx; cases hx
    | clu _ _ h3 => exact h3

/-- C19: the size of a processed peripheral is the largest of the sizes of its registers and clusters, unless elements
of the device were ignored with a warning; even then none of them is larger. -/
theorem C19_peripheral (h : processDevice ord fuel d = .ok dev ws) {p : Peripheral} (hp : p ∈ dev.peripherals) :
    (∀ x ∈ p.rcs, x.size ≤ p.props.size) ∧
    ((∃ x ∈ p.rcs, x.size = p.props.size) ∨ ∃ w ∈ ws, SaysIgnored w = true) := by
  obtain ⟨ps, w1, w2, h1, h2, rfl⟩ := processDevice_ok.1 h
  obtain ⟨ip, hip, y, ys, w, ab, abs, fp, hsc, hsub, -, hfp, rfl⟩ := trace_periph h2 hp
  obtain ⟨-, hs | ⟨m, hm, hc⟩⟩ := resolvePeripherals_sized h1 ip hip
  · rw [hs] at hsc
    obtain ⟨x, hx, -⟩ := hsc.mem (y := y) (by simp)
    simp [inheritRCs] at hx
  · have hm' : (inheritProps ip.hd.props (deviceHead d.hd).props.toProps).size = some m := by
      simp [inheritProps, orIfNone, hm]
    have h3 := (regPropValidator_ok hfp).1
    rw [hm', Option.some.injEq] at h3
    subst h3
    obtain ⟨q1, q2⟩ := scope_covers hsc hm' hc
    refine ⟨q1, q2.imp id ?_⟩
    rintro ⟨u, hu, hu'⟩
    exact ⟨u, by simp [hsub u hu], hu'⟩

/-- C19: the same for the clusters of a processed device. -/
theorem C19_cluster (h : processDevice ord fuel d = .ok dev ws) {c : ClusterHd} {ch : List RC}
    (hc : HasCluster dev c ch) :
    (∀ x ∈ ch, x.size ≤ c.props.size) ∧
    ((∃ x ∈ ch, x.size = c.props.size) ∨ ∃ w ∈ ws, SaysIgnored w = true) := by
  obtain ⟨ps, w1, w2, h1, h2, rfl⟩ := processDevice_ok.1 h
  obtain ⟨p, hp, hb⟩ := hc
  obtain ⟨cs, hpath⟩ := Below.path hb
  obtain ⟨ip, hip, -, -, ics, x, w, hx, hfin, hsub, -⟩ := trace_rc h2 hp hpath
  have hs := sizedT_path hx (resolvePeripherals_sized h1 ip hip).1
  cases x with
  | reg r fs =>
    obtain ⟨_, _, _, _, _, _, _, _, _, _, _, h3⟩ := finalizeRC_reg_some hfin
    cases h3
  | clu ic ich =>
    rw [inheritRC] at hfin
    obtain ⟨s, fp, z, zs, w3, h3, -, hsc, hsub2, hfp, h4⟩ := finalizeRC_clu_some hfin
    simp only [RC.clu.injEq] at h4
    obtain ⟨rfl, rfl⟩ := h4
    cases hs with
    | leaf =>
      obtain ⟨x, hx, -⟩ := hsc.mem (y := z) (by simp)
      simp [inheritRCs] at hx
    | @clu _ _ m hm hcov _ =>
      have hm' : ∀ e : Props, (inheritProps ic.props e).size = some m := by
        intro e; simp [inheritProps, orIfNone, hm]
      have h5 := (regPropValidator_ok hfp).1
      simp only [hm', Option.some.injEq] at h5
      obtain ⟨q1, q2⟩ := scope_covers hsc (hm' _) hcov
      refine ⟨fun x hx => ?_, ?_⟩
      · have := q1 x hx
        simp only [clusterOf]
        omega
      · rcases q2 with ⟨x, hx, q⟩ | ⟨u, hu, hu'⟩
        · left
          exact ⟨x, hx, by simp only [clusterOf]; omega⟩
        · right
          exact ⟨u, by simp [hsub u (hsub2 u hu)], hu'⟩

/-! ### C20 -/

/-- `d` with another size at device level. -/
def withDeviceSize (d : SDevice) (s : Option Int) : SDevice :=
  { d with hd := { d.hd with props := { d.hd.props with size := s } } }

theorem finalizePeripheral_deviceSize {p : IPeripheral} (hs : SizedP p) (e e' : Props)
    (he : { e with size := none } = { e' with size := none }) :
    finalizePeripheral (inheritPeripheral e p) = finalizePeripheral (inheritPeripheral e' p) := by
  obtain ⟨-, hs | ⟨m, hm, -⟩⟩ := hs
  · unfold finalizePeripheral inheritPeripheral
    simp only [hs, inheritRCs, finalizeRCs, finalizeRCsLoop, finishRCs]
    rfl
  · have : inheritPeripheral e p = inheritPeripheral e' p := by
      unfold inheritPeripheral inheritProps
      simp only [Props.mk.injEq, true_and] at he
      simp only [hm, orIfNone, he]
    rw [this]

/-- C20 is false of the code, for every device: the size given at device level has no influence on anything but the
size recorded for the device itself. -/
theorem C20_device_size_ignored (h : processDevice ord fuel d = .ok dev ws) (s : Option Int) :
    processDevice ord fuel (withDeviceSize d s) =
      .ok { dev with hd := { dev.hd with props := { dev.hd.props with size := s.getD 32 } } } ws := by
  obtain ⟨ps, w1, w2, h1, h2, rfl⟩ := processDevice_ok.1 h
  refine processDevice_ok.2 ⟨ps, w1, w2, h1, ?_, rfl⟩
  have hsz := resolvePeripherals_sized h1
  unfold validateAndFinalize at h2 ⊢
  simp only [M.bind_eq_ok, M.pure_eq_ok] at h2 ⊢
  obtain ⟨qs, v1, v2, h3, ⟨rfl, rfl⟩, rfl⟩ := h2
  refine ⟨qs, v1, [], ?_, ⟨rfl, rfl⟩, rfl⟩
  have hloop : ∀ (l : List IPeripheral), (∀ p ∈ l, SizedP p) → ∀ seen,
      finalizePeripheralsLoop seen (l.map (inheritPeripheral (deviceHead (withDeviceSize d s).hd).props.toProps)) =
      finalizePeripheralsLoop seen (l.map (inheritPeripheral (deviceHead d.hd).props.toProps)) := by
    intro l
    induction l with
    | nil => intros; rfl
    | cons p l ih =>
      intro hl seen
      simp only [List.map_cons, finalizePeripheralsLoop]
      have h0 := finalizePeripheral_deviceSize (hl p (by simp)) (deviceHead (withDeviceSize d s).hd).props.toProps
        (deviceHead d.hd).props.toProps rfl
      rw [h0]
      congr 1
      funext o
      cases o with
      | none => exact ih (fun q hq => hl q (by simp [hq])) _
      | some q => simp only [ih (fun q hq => hl q (by simp [hq]))]
  unfold finalizePeripherals at h3 ⊢
  simp only [inheritDevice] at h3 ⊢
  rw [hloop ps hsz []]
  exact h3

/-- A device of size 16 whose only register gives no size: the register gets 32 bits. -/
theorem C20_sample : Sample.okAnd (processDevice id 10
    (withDeviceSize (Sample.devOf [.reg { name := s%"R", addressOffset := 0 }]) (some 16)))
    (fun dev _ => dev.hd.props.size == 16 && (Sample.registers dev).map (·.props.size) == [32]) = true := by
  decide +kernel

/-- Sizes in a device: the cluster counts with its 8 bit register, the peripheral with the register without size (32). -/
theorem C19_sample : Sample.okAnd (processDevice id 10 (Sample.devOf
    [.clu { name := s%"C", addressOffset := 0, props := { size := some 8 } } [
        .reg { name := s%"S", addressOffset := 0, props := { size := some 16 } }, .reg { name := s%"T", addressOffset := 2 }],
     .reg { name := s%"R", addressOffset := 4 }]))
    (fun dev ws => ws == [] && dev.peripherals.map (fun p => (p.props.size, p.rcs.map RC.size)) == [(32, [16, 32])] &&
      (Sample.registers dev).map (fun r => (r.name, r.props.size)) == [(s%"S", 16), (s%"T", 16), (s%"R", 32)]) = true := by
  decide +kernel

end Svd
