import Verif.Lemmas.Inherit
/- Finalisation of fields. -/
namespace Svd
open Spec

/-- The processed field. -/
def fieldOf (f : IField) (a : Access) (cs : List EnumContainer) : Field :=
  { name := f.hd.name, description := f.hd.description, lsb := f.hd.lsb, msb := f.hd.msb
    modifiedWriteValues := f.hd.modifiedWriteValues, writeConstraint := f.hd.writeConstraint
    readAction := f.hd.readAction, access := a, bitOffset := f.hd.lsb
    bitWidth := f.hd.msb - f.hd.lsb + 1, bitRange := (f.hd.msb, f.hd.lsb), containers := cs }

theorem finalizeField_ok {f : IField} {g : Field} {ws : List Warn} (h : finalizeField f = .ok g ws) :
    ∃ cs a, finalizeContainers f.containers f.hd.lsb f.hd.msb = .ok cs ws ∧ f.hd.access = some a ∧
      g = fieldOf f a cs := by
  unfold finalizeField at h
  simp only [M.bind_eq_ok] at h
  obtain ⟨cs, w1, w2, h1, h2, rfl⟩ := h
  split at h2
  · simp at h2
  · rename_i a ha
    simp only [M.pure_eq_ok] at h2
    obtain ⟨rfl, rfl⟩ := h2
    exact ⟨cs, a, by simpa using h1, ha, rfl⟩

/-- One iteration of the first loop, without the test for duplicates. -/
def finalizeFieldOpt (f : IField) : M (Option Field) :=
  if lower f.hd.name = s%"reserved" then .ok none [.fieldReserved]
  else M.bind (finalizeField f) fun g => M.pure (some g)

theorem finalizeFieldOpt_some {f : IField} {g : Field} {ws : List Warn} (h : finalizeFieldOpt f = .ok (some g) ws) :
    lower f.hd.name ≠ s%"reserved" ∧ finalizeField f = .ok g ws := by
  unfold finalizeFieldOpt at h
  split at h
  · simp at h
  · rename_i hn
    simp only [M.bind_eq_ok, M.pure_eq_ok, Option.some.injEq] at h
    obtain ⟨g', w1, w2, h1, ⟨rfl, rfl⟩, rfl⟩ := h
    exact ⟨hn, by simpa using h1⟩

theorem finalizeFieldOpt_none {f : IField} {ws : List Warn} (h : finalizeFieldOpt f = .ok none ws) :
    lower f.hd.name = s%"reserved" ∧ ws = [.fieldReserved] := by
  unfold finalizeFieldOpt at h
  split at h
  · rename_i hn
    simp only [M.ok.injEq, true_and] at h
    exact ⟨hn, h.symm⟩
  · simp [M.bind_eq_ok] at h

theorem finalizeFieldsLoop_ok {seen : List Str} {fs : List IField} {gs : List Field} {ws : List Warn}
    (h : finalizeFieldsLoop seen fs = .ok gs ws) :
    ∃ os, M.Each finalizeFieldOpt fs os ws ∧ gs = os.filterMap id ∧ (gs.map (·.name)).Nodup ∧
      ∀ g ∈ gs, g.name ∉ seen := by
  induction fs generalizing seen gs ws with
  | nil =>
    simp only [finalizeFieldsLoop, M.pure_eq_ok] at h
    obtain ⟨rfl, rfl⟩ := h
    exact ⟨[], .nil, rfl, by simp, by simp⟩
  | cons f fs ih =>
    simp only [finalizeFieldsLoop] at h
    split at h
    · rename_i hn
      simp only [M.bind_eq_ok, M.warn, M.ok.injEq, true_and] at h
      obtain ⟨_, w1, w2, rfl, h2, rfl⟩ := h
      obtain ⟨os, h3, h4, h5, h6⟩ := ih h2
      exact ⟨none :: os, .cons (by simp [finalizeFieldOpt, hn]) h3, by simpa using h4, h5, h6⟩
    · rename_i hn
      split at h
      · simp at h
      · rename_i hs
        simp only [M.bind_eq_ok, M.pure_eq_ok] at h
        obtain ⟨g, w1, w2, h1, ⟨gs', w3, w4, h2, ⟨rfl, rfl⟩, rfl⟩, rfl⟩ := h
        obtain ⟨os, h3, h4, h5, h6⟩ := ih h2
        have hname : g.name = f.hd.name := by
          obtain ⟨cs, a, -, -, rfl⟩ := finalizeField_ok h1
          rfl
        simp only [List.append_nil]
        refine ⟨some g :: os, .cons (by simp only [finalizeFieldOpt, hn, if_false, h1, M.bind, M.pure]; simp) h3, by simp [h4], ?_, ?_⟩
        · rw [List.map_cons, List.nodup_cons]
          refine ⟨?_, h5⟩
          intro hm
          obtain ⟨z, hz, hzn⟩ := List.mem_map.1 hm
          exact h6 z hz (by simp [hzn, hname])
        · intro z hz
          rcases List.mem_cons.1 hz with rfl | hz
          · rw [hname]; simpa using hs
          · exact fun hh => h6 z hz (by simp [hh])

theorem pairwise_mem {α : Type} {R : α → α → Prop} {l : List α} (h : l.Pairwise R) {x y : α} (hx : x ∈ l) (hy : y ∈ l)
    (hne : x ≠ y) : R x y ∨ R y x := by
  induction h with
  | nil => cases hx
  | @cons a l h1 _ ih =>
    rcases List.mem_cons.1 hx with hx' | hx'
    · rcases List.mem_cons.1 hy with hy' | hy'
      · exact absurd (hx'.trans hy'.symm) hne
      · exact Or.inl (hx' ▸ h1 y hy')
    · rcases List.mem_cons.1 hy with hy' | hy'
      · exact Or.inr (hy' ▸ h1 x hx')
      · exact ih hx' hy'

/-- Access kinds that let a field be read (process.py:1019-1047): everything but write-only. -/
def readDomain (f : Field) : Bool := decide (f.access ≠ .writeOnly)
/-- Access kinds that let a field be written: everything but read-only. -/
def writeDomain (f : Field) : Bool := decide (f.access ≠ .readOnly)

/-- The warnings of the second loop. -/
def exceedWarns (size : Int) (gs : List Field) : List Warn :=
  (gs.filter fun f => decide (f.msb ≥ size)).map fun f => .fieldExceeds f.name f.msb size

theorem checkRead_ok {f : Field} {l : List Field} {a : Unit} {ws : List Warn} :
    checkRead f l = .ok a ws ↔ (∀ e ∈ l, fieldsOverlap f e = false) ∧ ws = [] := by
  unfold checkRead
  split
  · rename_i e he
    have h1 := List.mem_of_find?_eq_some he
    have h2 := List.find?_some he
    simp only [M.throw, reduceCtorEq, false_iff, not_and]
    intro h
    rw [h e h1] at h2
    cases h2
  · rename_i he
    simp only [List.find?_eq_none] at he
    simp only [M.pure_eq_ok]
    constructor
    · rintro ⟨-, rfl⟩; exact ⟨fun e h => by simpa using he e h, rfl⟩
    · exact fun h => ⟨trivial, h.2⟩

theorem checkWrite_ok {f : Field} {l : List Field} {a : Unit} {ws : List Warn} :
    checkWrite f l = .ok a ws ↔ (∀ e ∈ l, fieldsOverlap f e = false) ∧ ws = [] := by
  unfold checkWrite
  split
  · rename_i e he
    have h1 := List.mem_of_find?_eq_some he
    have h2 := List.find?_some he
    simp only [M.throw, reduceCtorEq, false_iff, not_and]
    intro h
    rw [h e h1] at h2
    cases h2
  · rename_i he
    simp only [List.find?_eq_none] at he
    simp only [M.pure_eq_ok]
    constructor
    · rintro ⟨-, rfl⟩; exact ⟨fun e h => by simpa using he e h, rfl⟩
    · exact fun h => ⟨trivial, h.2⟩

theorem checkFields_cons {size : Int} {rd wr : List Field} {f : Field} {fs : List Field} {ws : List Warn} :
    checkFields size rd wr (f :: fs) = .ok () ws ↔
      (readDomain f = true → ∀ e ∈ rd, fieldsOverlap f e = false) ∧
      (writeDomain f = true → ∀ e ∈ wr, fieldsOverlap f e = false) ∧
      ∃ w, checkFields size (rd ++ if readDomain f then [f] else []) (wr ++ if writeDomain f then [f] else []) fs
        = .ok () w ∧ ws = (if f.msb ≥ size then [Warn.fieldExceeds f.name f.msb size] else []) ++ w := by
  have hw : ∀ (a : Unit) w, M.warnIf (decide (f.msb ≥ size)) (.fieldExceeds f.name f.msb size) = .ok a w ↔
      w = if f.msb ≥ size then [Warn.fieldExceeds f.name f.msb size] else [] := by
    intro a w
    unfold M.warnIf
    by_cases h : f.msb ≥ size
    · simp only [h, decide_true, if_true, M.warn, M.ok.injEq, true_and, eq_comm]
    · simp only [h, decide_false, if_false, M.pure, M.ok.injEq, true_and, eq_comm, Bool.false_eq_true]
  simp only [checkFields, M.bind_eq_ok, hw]
  cases ha : f.access <;> simp only [readDomain, writeDomain, ha, M.bind_eq_ok, checkRead_ok, checkWrite_ok] <;>
    constructor
  · rintro ⟨_, w1, w2, rfl, ⟨_, w3, w4, ⟨h1, rfl⟩, h3, rfl⟩, rfl⟩
    exact ⟨fun _ => h1, by simp, _, by simpa using h3, by simp⟩
  · rintro ⟨h1, h2, w, h3, rfl⟩
    exact ⟨(), _, w, rfl, ⟨(), [], w, ⟨h1 (by simp), rfl⟩, by simpa using h3, rfl⟩, rfl⟩
  · rintro ⟨_, w1, w2, rfl, ⟨_, w3, w4, ⟨h1, rfl⟩, h3, rfl⟩, rfl⟩
    exact ⟨by simp, fun _ => h1, _, by simpa using h3, by simp⟩
  · rintro ⟨h1, h2, w, h3, rfl⟩
    exact ⟨(), _, w, rfl, ⟨(), [], w, ⟨h2 (by simp), rfl⟩, by simpa using h3, rfl⟩, rfl⟩
  all_goals first
    | (rintro ⟨_, w1, w2, rfl, ⟨_, w3, w4, ⟨h1, rfl⟩, ⟨_, w5, w6, ⟨h2, rfl⟩, h3, rfl⟩, rfl⟩, rfl⟩
       exact ⟨fun _ => h1, fun _ => h2, _, by simpa using h3, by simp⟩)
    | (rintro ⟨h1, h2, w, h3, rfl⟩
       exact ⟨(), _, w, rfl, ⟨(), [], w, ⟨h1 (by simp), rfl⟩, ⟨(), [], w, ⟨h2 (by simp), rfl⟩, by simpa using h3, rfl⟩, rfl⟩, rfl⟩)

/-- Two fields that conflict (in the order of the second loop). -/
def Conflict (e f : Field) : Prop :=
  (readDomain e = true ∧ readDomain f = true ∨ writeDomain e = true ∧ writeDomain f = true) ∧ fieldsOverlap f e = true

/-- What the second loop accepts. -/
theorem checkFields_ok {size : Int} {rd wr gs : List Field} {ws : List Warn} :
    checkFields size rd wr gs = .ok () ws ↔
      (∀ f ∈ gs, readDomain f = true → ∀ e ∈ rd, fieldsOverlap f e = false) ∧
      (∀ f ∈ gs, writeDomain f = true → ∀ e ∈ wr, fieldsOverlap f e = false) ∧
      gs.Pairwise (fun e f => ¬ Conflict e f) ∧ ws = exceedWarns size gs := by
  induction gs generalizing rd wr ws with
  | nil =>
    simp only [checkFields, exceedWarns, M.pure_eq_ok]
    simp
  | cons f fs ih =>
    rw [checkFields_cons]
    have hex : exceedWarns size (f :: fs) =
        (if f.msb ≥ size then [Warn.fieldExceeds f.name f.msb size] else []) ++ exceedWarns size fs := by
      unfold exceedWarns
      by_cases h : f.msb ≥ size
      · simp [h]
      · simp [h]
    constructor
    · rintro ⟨h1, h2, w, h3, rfl⟩
      obtain ⟨h4, h5, h6, rfl⟩ := ih.1 h3
      refine ⟨?_, ?_, ?_, hex.symm⟩
      · intro g hg hr e he
        rcases List.mem_cons.1 hg with rfl | hg
        · exact h1 hr e he
        · exact h4 g hg hr e (by simp [he])
      · intro g hg hr e he
        rcases List.mem_cons.1 hg with rfl | hg
        · exact h2 hr e he
        · exact h5 g hg hr e (by simp [he])
      · rw [List.pairwise_cons]
        refine ⟨?_, h6⟩
        rintro g hg ⟨⟨hf, hg'⟩ | ⟨hf, hg'⟩, ho⟩
        · rw [h4 g hg hg' f (by simp [hf])] at ho; cases ho
        · rw [h5 g hg hg' f (by simp [hf])] at ho; cases ho
    · rintro ⟨h1, h2, h3, rfl⟩
      rw [List.pairwise_cons] at h3
      refine ⟨h1 f (by simp), h2 f (by simp), exceedWarns size fs, ih.2 ⟨?_, ?_, h3.2, rfl⟩, hex⟩
      · intro g hg hr e he
        rcases List.mem_append.1 he with he | he
        · exact h1 g (by simp [hg]) hr e he
        · split at he
          · rename_i hf
            simp only [List.mem_singleton] at he
            subst he
            exact Bool.eq_false_iff.2 fun hc => h3.1 g hg ⟨Or.inl ⟨hf, hr⟩, hc⟩
          · cases he
      · intro g hg hr e he
        rcases List.mem_append.1 he with he | he
        · exact h2 g (by simp [hg]) hr e he
        · split at he
          · rename_i hf
            simp only [List.mem_singleton] at he
            subst he
            exact Bool.eq_false_iff.2 fun hc => h3.1 g hg ⟨Or.inr ⟨hf, hr⟩, hc⟩
          · cases he

/-- `≤` on fields by `lsb`. -/
def lsbLe (a b : Field) : Bool := decide (a.lsb ≤ b.lsb)

theorem lsbLe_total : TotalPre lsbLe := totalPre_of_int (fun f : Field => f.lsb)

/-- The field list of an accepted register. -/
theorem finalizeFields_ok {fs : List IField} {size : Int} {gs : List Field} {ws : List Warn}
    (h : finalizeFields fs size = .ok gs ws) :
    ∃ os w, M.Each finalizeFieldOpt fs os w ∧ gs = sortBy lsbLe (os.filterMap id) ∧ (gs.map (·.name)).Nodup ∧
      gs.Pairwise (fun e f => ¬ Conflict e f) ∧ ws = w ++ exceedWarns size gs := by
  unfold finalizeFields at h
  simp only [M.bind_eq_ok, M.pure_eq_ok] at h
  obtain ⟨raw, w1, w2, h1, ⟨_, w3, w4, h2, ⟨rfl, rfl⟩, rfl⟩, rfl⟩ := h
  obtain ⟨os, h3, rfl, h4, -⟩ := finalizeFieldsLoop_ok h1
  obtain ⟨-, -, h5, rfl⟩ := checkFields_ok.1 h2
  refine ⟨os, w1, h3, rfl, ?_, h5, by simp⟩
  exact ((sortBy_perm _).map _).nodup_iff.2 h4

/-- A processed register traced back to a resolved one. -/
theorem trace_reg {hd : DeviceHd} {ps : List IPeripheral} {dev : Device} {ws : List Warn}
    (h : validateAndFinalize (inheritDevice { hd := hd, peripherals := ps }) = .ok dev ws) {r : Register}
    (hr : HasRegister dev r) :
    ∃ p ∈ ps, ∃ ics ir ifs fp gs base w, IPath p.rcs ics (.reg ir ifs) ∧
      finalizeFields (ifs.map (inheritField fp.access ir.writeConstraint)) r.props.size = .ok gs w ∧
      (∀ u ∈ w, u ∈ ws) ∧
      regPropValidator fp = .ok r.props [] ∧
      fp = inheritProps ir.props (enclosing (inheritProps p.hd.props hd.props.toProps) ics) ∧
      r = registerOf { ir with props := fp } r.props gs base ∧
      (r.props.size = 8 ∨ r.props.size = 16 ∨ r.props.size = 32 ∨ r.props.size = 64 ∨ r.props.size = 128) := by
  obtain ⟨q, hq, hb⟩ := hr
  obtain ⟨cs, hp⟩ := Below.path hb
  obtain ⟨p, hp, -, -, ics, x, w, h1, h2, h3, -⟩ := trace_rc h hq hp
  cases x with
  | clu c ch =>
    simp only [inheritRC] at h2
    obtain ⟨_, _, _, _, _, _, _, _, _, _, h⟩ := finalizeRC_clu_some h2
    cases h
  | reg ir ifs =>
    simp only [inheritRC] at h2
    obtain ⟨s, fp, gs, w', hs, hsz, -, -, h4, h5, h6, h7⟩ := finalizeRC_reg_some h2
    have h8 := regPropValidator_ok h6
    have h9 : r.props = fp := by
      simp only [RC.reg.injEq] at h7; rw [h7]; rfl
    have h10 : r.props.size = s := by
      rw [h9]
      have := h8.1
      simp only at hs this
      rw [hs] at this
      exact (Option.some.inj this).symm
    subst h10
    subst h9
    simp only [RC.reg.injEq] at h7
    exact ⟨p, hp, ics, ir, ifs, _, gs, q.baseAddress + sumList (cs.map (·.addressOffset)) + ir.addressOffset, w', h1, h4,
      fun u hu => h3 u (h5 u hu), h6, rfl, h7, hsz⟩

/-- A processed field traced back to a resolved one. -/
theorem trace_field {hd : DeviceHd} {ps : List IPeripheral} {dev : Device} {ws : List Warn}
    (h : validateAndFinalize (inheritDevice { hd := hd, peripherals := ps }) = .ok dev ws) {r : Register}
    (hr : HasRegister dev r) {f : Field} (hf : f ∈ r.fields) :
    ∃ p ∈ ps, ∃ ics ir ifs, IPath p.rcs ics (.reg ir ifs) ∧ r.name = ir.name ∧ ∃ fi ∈ ifs, ∃ w,
      lower f.name ≠ s%"reserved" ∧ finalizeContainers fi.containers f.lsb f.msb = .ok f.containers w ∧
      (∀ u ∈ w, u ∈ ws) ∧ f.name = fi.hd.name ∧ f.lsb = fi.hd.lsb ∧ f.msb = fi.hd.msb ∧
      some f.access = orIfNone fi.hd.access (some r.props.access) ∧
      f = fieldOf (inheritField (some r.props.access) r.writeConstraint fi) f.access f.containers := by
  obtain ⟨p, hp, ics, ir, ifs, fp, gs, base, w, h1, h2, h3, h4, h5, h6, -⟩ := trace_reg h hr
  have hg : r.fields = gs := by rw [h6]; rfl
  rw [hg] at hf
  obtain ⟨os, w', h7, rfl, -, -, rfl⟩ := finalizeFields_ok h2
  rw [mem_sortBy, List.mem_filterMap] at hf
  obtain ⟨o, ho, h8⟩ := hf
  simp only [id] at h8
  subst h8
  obtain ⟨fi', hfi', w2, h9, h10⟩ := h7.mem_ws ho
  obtain ⟨fi, hfi, rfl⟩ := List.mem_map.1 hfi'
  obtain ⟨h11, h12⟩ := finalizeFieldOpt_some h9
  obtain ⟨cs, a, h13, h14, rfl⟩ := finalizeField_ok h12
  have h15 : fp.access = some r.props.access := (regPropValidator_ok h4).2.1
  rw [h15] at h14
  refine ⟨p, hp, ics, ir, ifs, h1, by rw [h6]; rfl, fi, hfi, w2, h11, h13,
    fun u hu => h3 u (by simp [h10 u hu]), rfl, rfl, rfl, ?_, ?_⟩
  · exact h14.symm
  · have hwc : r.writeConstraint = ir.writeConstraint := by rw [h6]; rfl
    rw [h15, hwc]; rfl

theorem OkRC.ipath {d : SDevice} {W : Warn → Prop} {xs : List IRC} {ics : List IClusterHd} {x : IRC}
    (h : IPath xs ics x) (ho : ∀ x ∈ xs, OkRC d W x) : OkRC d W x := by
  induction h with
  | here h => exact ho _ h
  | inside h _ ih =>
    apply ih
    have := ho _ h
    cases this with
    | clu _ h _ => exact h

/-- A processed field of a device, traced back through the whole pipeline. -/
theorem proc_field {ord : List Nat → List Nat} {fuel : Nat} {d : SDevice} {dev : Device} {ws : List Warn}
    (h : processDevice ord fuel d = .ok dev ws) {f : Field} (hf : HasField dev f) :
    ∃ cs w, ContsOK d (· ∈ ws) f.lsb f.msb cs ∧ finalizeContainers cs f.lsb f.msb = .ok f.containers w ∧
      (∀ u ∈ w, u ∈ ws) := by
  obtain ⟨ps, w1, w2, h1, h2, rfl⟩ := processDevice_ok.1 h
  obtain ⟨r, hr, hf⟩ := hf
  obtain ⟨p, hp, ics, ir, ifs, h3, -, fi, hfi, w, -, h4, h5, -, h6, h7, -⟩ := trace_field h2 hr hf
  have h8 := (resolvePeripherals_ok h1).1 p hp
  have h9 := OkRC.ipath h3 h8.2.1
  cases h9 with
  | reg _ h10 _ =>
    have h11 := (h10 fi hfi).2
    rw [← h6, ← h7] at h11
    refine ⟨fi.containers, w, ?_, h4, fun u hu => by simp [h5 u hu]⟩
    refine ⟨?_, h11.2⟩
    intro c hc
    obtain ⟨ec, w', a, b, c'⟩ := h11.1 c hc
    exact ⟨ec, w', a, b, fun x hx => by simp [c' x hx]⟩

/-- A processed container traced back to a declared one. -/
theorem proc_container {ord : List Nat → List Nat} {fuel : Nat} {d : SDevice} {dev : Device} {ws : List Warn}
    (h : processDevice ord fuel d = .ok dev ws) {f : Field} (hf : HasField dev f) {c : EnumContainer}
    (hc : c ∈ f.containers) :
    ∃ ec vs wa wb, DeclaredContainer d ec ∧ processEnumValues ec.values f.lsb f.msb = .ok vs wa ∧
      finalizeEnumValues vs f.lsb f.msb = .ok c.values wb ∧ (∀ u ∈ wa, u ∈ ws) ∧ (∀ u ∈ wb, u ∈ ws) ∧
      c.name = ec.name ∧ c.headerEnumName = ec.headerEnumName ∧ c.usage = ec.usage.getD .readWrite := by
  obtain ⟨cs, w, h1, h2, h3⟩ := proc_field h hf
  unfold finalizeContainers at h2
  simp only [M.bind_eq_ok, M.mapM_eq_ok, M.pure_eq_ok] at h2
  obtain ⟨fs, w1, w2, h4, ⟨h5, rfl⟩, rfl⟩ := h2
  rw [← h5, mem_sortBy] at hc
  obtain ⟨ic, hic, w3, h6, h7⟩ := h4.mem_ws hc
  simp only [M.bind_eq_ok, M.pure_eq_ok] at h6
  obtain ⟨vs, w4, w5, h8, ⟨rfl, rfl⟩, rfl⟩ := h6
  obtain ⟨ec, w6, h9, h10, h11⟩ := h1.1 ic hic
  unfold createContainer at h10
  simp only [M.bind_eq_ok, M.pure_eq_ok] at h10
  obtain ⟨vs', w7, w8, h12, ⟨rfl, rfl⟩, rfl⟩ := h10
  exact ⟨ec, vs', w7, w4, h9, h12, h8, fun u hu => h11 u (by simp [hu]), fun u hu => h3 u (by simp [h7 u (by simp [hu])]),
    rfl, rfl, rfl⟩

end Svd
