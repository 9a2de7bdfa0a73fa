import Verif.Lemmas.MadeInv
import Verif.Lemmas.FinField
/- The declarations behind processed elements, and the properties they get. -/
namespace Svd
open Spec

theorem madeS_reg {d : SDevice} {ch : List Parsed} {r : IRegisterHd} (h : MadeS d ch (.reg r)) :
    ∃ l, ch = l.map .reg ∧ RegFrom d l r := by
  obtain ⟨x0, h1, h2 | ⟨⟨p, t, hp, hl⟩, s, h2⟩⟩ := h
  · exact made_reg h1 r h2.symm
  · cases x0 with
    | reg r0 =>
      obtain ⟨l, hl', -⟩ := made_reg h1 r0 rfl
      cases l with
      | nil => rw [hp] at hl'; cases hl'
      | cons a l =>
        rw [hp] at hl'
        simp only [List.map_cons, List.cons.injEq] at hl'
        rw [hl'.1] at hl
        simp [Parsed.level] at hl
    | _ => simp [Processed.withSize] at h2

theorem madeS_field {d : SDevice} {ch : List Parsed} {r : IFieldHd} (h : MadeS d ch (.field r)) :
    ∃ l, ch = l.map .field ∧ FieldFrom d l r := by
  obtain ⟨x0, h1, h2 | ⟨-, s, h2⟩⟩ := h
  · exact made_field h1 r h2.symm
  · cases x0 with
    | field r0 =>
      simp only [Processed.withSize, Processed.field.injEq] at h2
      subst h2
      exact made_field h1 r rfl
    | _ => simp [Processed.withSize] at h2

theorem madeS_clu {d : SDevice} {ch : List Parsed} {r : IClusterHd} (h : MadeS d ch (.clu r)) :
    ∃ l r0 s, ch = l.map .clu ∧ CluFrom d l r0 ∧ r = { r0 with props := { r0.props with size := s } } := by
  obtain ⟨x0, h1, h2 | ⟨-, s, h2⟩⟩ := h
  · obtain ⟨l, hl, hf⟩ := made_clu h1 r h2.symm
    exact ⟨l, r, r.props.size, hl, hf, rfl⟩
  · cases x0 with
    | clu r0 =>
      simp only [Processed.withSize, Processed.clu.injEq] at h2
      obtain ⟨l, hl, hf⟩ := made_clu h1 r0 rfl
      exact ⟨l, r0, some s, hl, hf, h2⟩
    | _ => simp [Processed.withSize] at h2

theorem madeS_periph {d : SDevice} {ch : List Parsed} {r : IPeripheralHd} (h : MadeS d ch (.periph r)) :
    ∃ l r0 s, ch = l.map .periph ∧ PeriphFrom d l r0 ∧ r = { r0 with props := { r0.props with size := s } } := by
  obtain ⟨x0, h1, h2 | ⟨-, s, h2⟩⟩ := h
  · obtain ⟨l, hl, hf⟩ := made_periph h1 r h2.symm
    exact ⟨l, r, r.props.size, hl, hf, rfl⟩
  · cases x0 with
    | periph r0 =>
      simp only [Processed.withSize, Processed.periph.injEq] at h2
      obtain ⟨l, hl, hf⟩ := made_periph h1 r0 rfl
      exact ⟨l, r0, some s, hl, hf, h2⟩
    | _ => simp [Processed.withSize] at h2

theorem RegFrom.origin {d : SDevice} {l : List SRegister} {r : IRegisterHd} (h : RegFrom d l r) :
    RegisterOrigin d r.name r.addressOffset l := by
  obtain ⟨a, t, rfl⟩ := chain_decl h.chain
  exact ⟨h.chain, a, t, rfl, h.placed a t rfl⟩
theorem CluFrom.origin {d : SDevice} {l : List SCluster} {r : IClusterHd} (h : CluFrom d l r) :
    ClusterOrigin d r.name r.addressOffset l := by
  obtain ⟨a, t, rfl⟩ := chain_decl h.chain
  exact ⟨h.chain, a, t, rfl, h.placed a t rfl⟩
theorem PeriphFrom.origin {d : SDevice} {l : List SPeripheral} {r : IPeripheralHd} (h : PeriphFrom d l r) :
    PeriphOrigin d r.name r.baseAddress l := by
  obtain ⟨a, t, rfl⟩ := chain_decl h.chain
  exact ⟨h.chain, a, t, rfl, h.placed a t rfl⟩

/-- A property other than the size. -/
structure IsProp {β : Type} (get : Props → Option β) : Prop where
  inherit : ∀ a b, get (inheritProps a b) = orIfNone (get a) (get b)
  noSize : ∀ (p : Props) s, get { p with size := s } = get p

theorem isProp_access : IsProp (·.access) := ⟨fun _ _ => rfl, fun _ _ => rfl⟩
theorem isProp_protection : IsProp (·.protection) := ⟨fun _ _ => rfl, fun _ _ => rfl⟩
theorem isProp_resetValue : IsProp (·.resetValue) := ⟨fun _ _ => rfl, fun _ _ => rfl⟩
theorem isProp_resetMask : IsProp (·.resetMask) := ⟨fun _ _ => rfl, fun _ _ => rfl⟩

theorem nearest_append {α β : Type} (get : α → Option β) (l m : List α) :
    nearest get (l ++ m) = orIfNone (nearest get l) (nearest get m) := by
  induction l with
  | nil => rfl
  | cons a l ih =>
    rw [List.cons_append, nearest_cons, nearest_cons, ih]
    cases get a <;> rfl

theorem nearest_map {α β γ : Type} (get : β → Option γ) (f : α → β) (l : List α) :
    nearest get (l.map f) = nearest (fun x => get (f x)) l := by
  unfold nearest; rw [List.findSome?_map]; rfl

theorem orIfNone_assoc {α : Type} (a b c : Option α) : orIfNone a (orIfNone b c) = orIfNone (orIfNone a b) c := by
  cases a <;> rfl

/-- One chain per resolved cluster of a path; the properties of the cluster are those of the chain. -/
inductive CluFroms (d : SDevice) : List IClusterHd → List (List SCluster) → Prop
  | nil : CluFroms d [] []
  | cons {c cs c0 s l ls} : CluFrom d l c0 → c = { c0 with props := { c0.props with size := s } } → CluFroms d cs ls →
      CluFroms d (c :: cs) (l :: ls)

theorem OkRC.froms {d : SDevice} {W : Warn → Prop} {xs : List IRC} {ics : List IClusterHd} {x : IRC}
    (h : IPath xs ics x) (ho : ∀ x ∈ xs, OkRC d W x) : ∃ ls, CluFroms d ics ls := by
  induction h with
  | here h => exact ⟨[], .nil⟩
  | inside h _ ih =>
    have := ho _ h
    cases this with
    | clu hm h _ =>
      obtain ⟨ls, hls⟩ := ih h
      obtain ⟨l, r0, s, -, hf, he⟩ := madeS_clu hm
      exact ⟨l :: ls, .cons hf he hls⟩

theorem CluFroms.origins {d : SDevice} {ics : List IClusterHd} {ls : List (List SCluster)} (h : CluFroms d ics ls)
    {cs : List ClusterHd} (hc : cs.map (fun c => (c.name, c.addressOffset)) = ics.map (fun c => (c.name, c.addressOffset))) :
    ClusterOrigins d cs ls := by
  induction h generalizing cs with
  | nil => cases cs with
    | nil => exact .nil
    | cons _ _ => simp at hc
  | @cons c ics c0 s l ls hf he _ ih =>
    cases cs with
    | nil => simp at hc
    | cons c' cs =>
      simp only [List.map_cons, List.cons.injEq, Prod.mk.injEq] at hc
      refine .cons ?_ (ih hc.2)
      have := hf.origin
      rw [hc.1.1, hc.1.2, he]
      exact this

theorem CluFroms.get {d : SDevice} {ics : List IClusterHd} {ls : List (List SCluster)} (h : CluFroms d ics ls)
    {β : Type} {get : Props → Option β} (hg : IsProp get)
    (hc : ∀ l c, CluFrom d l c → get c.props = nearest get (l.map (·.props))) (p : Props) :
    get (enclosing p ics) = orIfNone (nearest get (ls.reverse.flatten.map (·.props))) (get p) := by
  induction h generalizing p with
  | nil => rfl
  | @cons c ics c0 s l ls hf he _ ih =>
    have : enclosing p (c :: ics) = enclosing (inheritProps c.props p) ics := rfl
    rw [this, ih, hg.inherit, he]
    simp only [hg.noSize]
    rw [hc l c0 hf, List.reverse_cons, List.flatten_append, List.map_append, nearest_append, orIfNone_assoc]
    simp

theorem cluFrom_get {d : SDevice} {l : List SCluster} {c : IClusterHd} (h : CluFrom d l c) :
    c.props.access = nearest (·.access) (l.map (·.props)) ∧ c.props.protection = nearest (·.protection) (l.map (·.props)) ∧
    c.props.resetValue = nearest (·.resetValue) (l.map (·.props)) ∧
    c.props.resetMask = nearest (·.resetMask) (l.map (·.props)) := by
  simp only [nearest_map]; exact ⟨h.access, h.protection, h.resetValue, h.resetMask⟩

theorem regFrom_get {d : SDevice} {l : List SRegister} {c : IRegisterHd} (h : RegFrom d l c) :
    c.props.access = nearest (·.access) (l.map (·.props)) ∧ c.props.protection = nearest (·.protection) (l.map (·.props)) ∧
    c.props.resetValue = nearest (·.resetValue) (l.map (·.props)) ∧
    c.props.resetMask = nearest (·.resetMask) (l.map (·.props)) := by
  simp only [nearest_map]; exact ⟨h.access, h.protection, h.resetValue, h.resetMask⟩

theorem periphFrom_get {d : SDevice} {l : List SPeripheral} {c : IPeripheralHd} (h : PeriphFrom d l c) :
    c.props.access = nearest (·.access) (l.map (·.props)) ∧ c.props.protection = nearest (·.protection) (l.map (·.props)) ∧
    c.props.resetValue = nearest (·.resetValue) (l.map (·.props)) ∧
    c.props.resetMask = nearest (·.resetMask) (l.map (·.props)) := by
  simp only [nearest_map]; exact ⟨h.access, h.protection, h.resetValue, h.resetMask⟩

/-- The four properties of a group. -/
def Props4 (p : Props) (defs : List Props) : Prop :=
  p.access = nearest (·.access) defs ∧ p.protection = nearest (·.protection) defs ∧
  p.resetValue = nearest (·.resetValue) defs ∧ p.resetMask = nearest (·.resetMask) defs

theorem Props4.inherit {a b : Props} {l m : List Props} (h1 : Props4 a l) (h2 : Props4 b m) :
    Props4 (inheritProps a b) (l ++ m) := by
  obtain ⟨a1, a2, a3, a4⟩ := h1
  obtain ⟨b1, b2, b3, b4⟩ := h2
  refine ⟨?_, ?_, ?_, ?_⟩ <;> rw [nearest_append] <;> simp only [inheritProps, *]

theorem Props4.size {a : Props} {l : List Props} (h : Props4 a l) (s : Option Int) : Props4 { a with size := s } l := h

theorem CluFroms.props4 {d : SDevice} {ics : List IClusterHd} {ls : List (List SCluster)} (h : CluFroms d ics ls)
    {p : Props} {m : List Props} (hp : Props4 p m) : Props4 (enclosing p ics) (ls.reverse.flatten.map (·.props) ++ m) := by
  obtain ⟨b1, b2, b3, b4⟩ := hp
  refine ⟨?_, ?_, ?_, ?_⟩ <;> rw [nearest_append]
  · rw [← b1]; exact h.get isProp_access (fun _ _ h => (cluFrom_get h).1) p
  · rw [← b2]; exact h.get isProp_protection (fun _ _ h => (cluFrom_get h).2.1) p
  · rw [← b3]; exact h.get isProp_resetValue (fun _ _ h => (cluFrom_get h).2.2.1) p
  · rw [← b4]; exact h.get isProp_resetMask (fun _ _ h => (cluFrom_get h).2.2.2) p

/-- Properties with the defaults of the device. -/
def Props4D (p : Props) (defs : List Props) : Prop :=
  p.access = some ((nearest (·.access) defs).getD .readWrite) ∧
  p.protection = some ((nearest (·.protection) defs).getD .any) ∧
  p.resetValue = some ((nearest (·.resetValue) defs).getD 0) ∧
  p.resetMask = some ((nearest (·.resetMask) defs).getD 0xFFFFFFFF)

theorem props4D_device (hd : SDeviceHd) : Props4D (deviceHead hd).props.toProps [hd.props] := by
  refine ⟨?_, ?_, ?_, ?_⟩ <;> simp [deviceHead, FProps.toProps, deviceProps, nearest] <;>
    (split <;> simp_all)

theorem Props4D.inherit {a b : Props} {l m : List Props} (h1 : Props4 a l) (h2 : Props4D b m) :
    Props4D (inheritProps a b) (l ++ m) := by
  obtain ⟨a1, a2, a3, a4⟩ := h1
  obtain ⟨b1, b2, b3, b4⟩ := h2
  refine ⟨?_, ?_, ?_, ?_⟩ <;> rw [nearest_append] <;> simp only [inheritProps, *]
  · cases nearest (·.access) l <;> rfl
  · cases nearest (·.protection) l <;> rfl
  · cases nearest (·.resetValue) l <;> rfl
  · cases nearest (·.resetMask) l <;> rfl

theorem CluFroms.props4D {d : SDevice} {ics : List IClusterHd} {ls : List (List SCluster)} (h : CluFroms d ics ls)
    {p : Props} {m : List Props} (hp : Props4D p m) : Props4D (enclosing p ics) (ls.reverse.flatten.map (·.props) ++ m) := by
  induction h generalizing p m with
  | nil => exact hp
  | @cons c ics c0 s l ls hf he _ ih =>
    have h1 : enclosing p (c :: ics) = enclosing (inheritProps c.props p) ics := rfl
    have h2 : Props4 c.props (l.map (·.props)) := by rw [he]; exact Props4.size (cluFrom_get hf) s
    have := ih (Props4D.inherit h2 hp)
    rw [h1]
    simpa [List.append_assoc] using this

theorem Props4D.final {p : Props} {f : FProps} {defs : List Props} {ws : List Warn} (h : Props4D p defs)
    (hv : regPropValidator p = .ok f ws) : PropsFrom f defs := by
  obtain ⟨-, h1, h2, h3, h4, -⟩ := regPropValidator_ok hv
  obtain ⟨b1, b2, b3, b4⟩ := h
  rw [h1] at b1; rw [h2] at b2; rw [h3] at b3; rw [h4] at b4
  simp only [Option.some.injEq] at b1 b2 b3 b4
  exact ⟨b1, b2, b3, b4⟩

section
variable {ord : List Nat → List Nat} {fuel : Nat} {d : SDevice} {dev : Device} {ws : List Warn}

/-- What is behind a processed peripheral. -/
theorem origin_periph (h : processDevice ord fuel d = .ok dev ws) {q : Peripheral} (hq : q ∈ dev.peripherals) :
    ∃ l r0, PeriphFrom d l r0 ∧ q.name = r0.name ∧ q.version = r0.version ∧ q.description = r0.description ∧
      q.alternatePeripheral = r0.alternatePeripheral ∧ q.groupName = r0.groupName ∧ q.prependToName = r0.prependToName ∧
      q.appendToName = r0.appendToName ∧ q.headerStructName = r0.headerStructName ∧
      q.disableCondition = r0.disableCondition ∧ q.baseAddress = r0.baseAddress ∧ q.addressBlocks = r0.addressBlocks ∧
      q.interrupts = r0.interrupts ∧ PropsFrom q.props (l.map (·.props) ++ [d.hd.props]) := by
  obtain ⟨ps, w1, w2, h1, h2, rfl⟩ := processDevice_ok.1 h
  obtain ⟨p, hp, y, ys, w, ab, abs, fp, -, -, hab, hv, rfl⟩ := trace_periph h2 hq
  obtain ⟨⟨ch, hm⟩, -⟩ := (resolvePeripherals_ok h1).1 p hp
  obtain ⟨l, r0, s, -, hf, he⟩ := madeS_periph hm
  refine ⟨l, r0, hf, ?_⟩
  have hab' : r0.addressBlocks = ab :: abs := by rw [← hab, he]
  refine ⟨by rw [he]; rfl, by rw [he]; rfl, by rw [he]; rfl, by rw [he]; rfl, by rw [he]; rfl, by rw [he]; rfl,
    by rw [he]; rfl, by rw [he]; rfl, by rw [he]; rfl, by rw [he]; rfl, hab'.symm, by rw [he]; rfl, ?_⟩
  have : Props4 p.hd.props (l.map (·.props)) := by rw [he]; exact Props4.size (periphFrom_get hf) s
  exact (Props4D.inherit this (props4D_device _)).final hv

theorem regPropValidator_size {p : Props} {f : FProps} {w : List Warn} (h : regPropValidator p = .ok f w) {n : Int}
    (hn : p.size = some n) : f.size = n := by
  unfold regPropValidator at h
  split at h
  · rename_i s a pr rv rm h1 h2 h3 h4 h5
    simp only [M.pure_eq_ok] at h
    rw [h1] at hn
    obtain ⟨rfl, -⟩ := h
    simpa using hn
  · cases h

/-- What is behind a processed cluster or register. -/
theorem origin_rc (h : processDevice ord fuel d = .ok dev ws) {q : Peripheral} (hq : q ∈ dev.peripherals)
    {cs : List ClusterHd} {y : RC} (hy : Path q.rcs cs y) :
    ∃ lp lcs, PeriphOrigin d q.name q.baseAddress lp ∧ ClusterOrigins d cs lcs ∧
    match y with
    | .reg r => ∃ l ir, RegFrom d l ir ∧ r.name = ir.name ∧ r.displayName = ir.displayName ∧
        r.description = ir.description ∧ r.alternateGroup = ir.alternateGroup ∧
        r.alternateRegister = ir.alternateRegister ∧ r.addressOffset = ir.addressOffset ∧ r.dataType = ir.dataType ∧
        r.modifiedWriteValues = ir.modifiedWriteValues ∧ r.writeConstraint = ir.writeConstraint ∧
        r.readAction = ir.readAction ∧ PropsFrom r.props (l.map (·.props) ++ surrounding d lp lcs) ∧
        ∀ n, ir.props.size = some n → r.props.size = n
    | .clu c _ => ∃ l ic, CluFrom d l ic ∧ c.name = ic.name ∧ c.description = ic.description ∧
        c.alternateCluster = ic.alternateCluster ∧ c.headerStructName = ic.headerStructName ∧
        c.addressOffset = ic.addressOffset ∧ PropsFrom c.props (l.map (·.props) ++ surrounding d lp lcs) := by
  obtain ⟨ps, w1, w2, h1, h2, rfl⟩ := processDevice_ok.1 h
  obtain ⟨p, hp, hn, hb, ics, x, w, hpath, hfin, -, hcs⟩ := trace_rc h2 hq hy
  obtain ⟨⟨ch, hm⟩, hok, -⟩ := (resolvePeripherals_ok h1).1 p hp
  obtain ⟨lp, r0, s, -, hf, he⟩ := madeS_periph hm
  obtain ⟨lcs, hls⟩ := OkRC.froms hpath hok
  have hx := OkRC.ipath hpath hok
  have hp4 : Props4 p.hd.props (lp.map (·.props)) := by rw [he]; exact Props4.size (periphFrom_get hf) s
  have henc := hls.props4D (Props4D.inherit hp4 (props4D_device d.hd))
  refine ⟨lp, lcs, ?_, hls.origins hcs, ?_⟩
  · have := hf.origin
    rw [hn, hb, he]; exact this
  · cases hx with
    | @reg ir ifs ch' hmr _ _ =>
      obtain ⟨l, -, hrf⟩ := madeS_reg hmr
      simp only [inheritRC] at hfin
      obtain ⟨_, fp, gs, _, -, -, -, -, -, -, hv, rfl⟩ := finalizeRC_reg_some hfin
      refine ⟨l, ir, hrf, rfl, rfl, rfl, rfl, rfl, rfl, rfl, rfl, rfl, rfl, ?_, ?_⟩
      · have := (Props4D.inherit (regFrom_get hrf) henc).final hv
        rw [← List.append_assoc] at this
        show PropsFrom fp _
        simpa [surrounding, List.append_assoc] using this
      · intro n hn
        exact regPropValidator_size hv (by simp [inheritProps, hn, orIfNone])
    | @clu ic ch _ hmc _ _ =>
      obtain ⟨l, c0, s', -, hcf, hce⟩ := madeS_clu hmc
      simp only [inheritRC] at hfin
      obtain ⟨_, fp, z, zs, _, -, -, -, -, hv, rfl⟩ := finalizeRC_clu_some hfin
      have hc4 : Props4 ic.props (l.map (·.props)) := by rw [hce]; exact Props4.size (cluFrom_get hcf) s'
      refine ⟨l, c0, hcf, by rw [hce]; rfl, by rw [hce]; rfl, by rw [hce]; rfl, by rw [hce]; rfl, by rw [hce]; rfl, ?_⟩
      have := (Props4D.inherit hc4 henc).final hv
      rw [← List.append_assoc] at this
      show PropsFrom fp _
      simpa [surrounding, List.append_assoc] using this

/-- What is behind a processed field. -/
theorem origin_field (h : processDevice ord fuel d = .ok dev ws) {r : Register} (hr : HasRegister dev r) {f : Field}
    (hf : f ∈ r.fields) : ∃ l fi, FieldFrom d l fi ∧ f.name = fi.name ∧ f.description = fi.description ∧
      f.lsb = fi.lsb ∧ f.msb = fi.msb ∧ f.modifiedWriteValues = fi.modifiedWriteValues ∧
      f.writeConstraint = orIfNone fi.writeConstraint r.writeConstraint ∧ f.readAction = fi.readAction ∧
      f.access = (nearest (·.access) l).getD r.props.access := by
  obtain ⟨ps, w1, w2, h1, h2, rfl⟩ := processDevice_ok.1 h
  obtain ⟨p, hp, ics, ir, ifs, hpath, hn, fi, hfi, w, -, -, -, -, -, -, ha, hfe⟩ := trace_field h2 hr hf
  obtain ⟨-, hok, -⟩ := (resolvePeripherals_ok h1).1 p hp
  have hx := OkRC.ipath hpath hok
  cases hx with
  | reg hmr hfs _ =>
    obtain ⟨ch, hm⟩ := (hfs fi hfi).1
    obtain ⟨l, -, hff⟩ := madeS_field hm
    refine ⟨l, fi.hd, hff, by rw [hfe]; rfl, by rw [hfe]; rfl, by rw [hfe]; rfl, by rw [hfe]; rfl, by rw [hfe]; rfl, ?_,
      by rw [hfe]; rfl, ?_⟩
    · rw [hfe]; rfl
    · rw [hff.access] at ha
      cases hh : nearest (fun f : SField => f.access) l <;> rw [hh] at ha <;> simp [orIfNone] at ha <;> simp [ha]
end
end Svd
