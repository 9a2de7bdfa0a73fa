import Verif.Lemmas.ResolveSat
import Verif.Lemmas.POverlap
import Verif.Lemmas.Inherit
/-
The exceptions of the finalisation.
-/
namespace Svd
open M Spec

/-- The exceptions of the finalisation. -/
def FinErr : Exn → Prop
  | .process .unsupportedSize | .process (.duplicatePeripheral _) | .process (.noAddressBlocks _) => True
  | .process (.duplicateRegCluster _) | .process (.altRegAndGroup _) | .process (.duplicateField _) => True
  | .process (.fieldOverlapRead _ _) | .process (.fieldOverlapWrite _ _) | .process .enumValueNone => True
  | .keyError => True
  | _ => False

/-- All five properties have a value. -/
def FullProps (p : Props) : Prop :=
  p.size.isSome ∧ p.access.isSome ∧ p.protection.isSome ∧ p.resetValue.isSome ∧ p.resetMask.isSome

inductive FullRC : IRC → Prop
  | reg {r fs} : FullProps r.props → (∀ f ∈ fs, f.hd.access.isSome) → FullRC (.reg r fs)
  | clu {c ch} : FullProps c.props → (∀ x ∈ ch, FullRC x) → FullRC (.clu c ch)

theorem orIfNone_some_eq {α : Type} {a b : Option α} (h : b.isSome) : (orIfNone a b).isSome := by
  cases a <;> simp [orIfNone, h]

theorem inheritProps_full {own encl : Props} (h : FullProps encl) : FullProps (inheritProps own encl) :=
  ⟨orIfNone_some_eq h.1, orIfNone_some_eq h.2.1, orIfNone_some_eq h.2.2.1, orIfNone_some_eq h.2.2.2.1, orIfNone_some_eq h.2.2.2.2⟩

theorem inheritRC_full (x : IRC) : ∀ {encl : Props}, FullProps encl → FullRC (inheritRC encl x) := by
  induction x using IRC.induct with
  | hr r fs =>
    intro encl h
    rw [inheritRC]
    refine .reg (inheritProps_full h) ?_
    intro f hf
    obtain ⟨f0, -, rfl⟩ := List.mem_map.1 hf
    exact orIfNone_some_eq (inheritProps_full h).2.1
  | hc c ch ih =>
    intro encl h
    rw [inheritRC]
    refine .clu (inheritProps_full h) ?_
    intro x hx
    obtain ⟨x0, hx0, rfl⟩ := mem_inheritRCs.1 hx
    exact ih x0 hx0 (inheritProps_full h)

abbrev FSat {α : Type} (x : M α) : Prop := Sat FinErr (fun _ => True) x

/-- One step of the analysis of monadic code. -/
macro "fsat1" : tactic => `(tactic| first
  | assumption
  | exact sat_pure _
  | exact sat_ok fun _ _ => trivial
  | (refine sat_throw ?_; exact trivial)
  | (refine sat_warn ?_; exact trivial)
  | (refine sat_warnIf fun _ => ?_; exact trivial)
  | refine sat_bind ?_ (fun _ => ?_)
  | dsimp only
  | split)
macro "fsats" : tactic => `(tactic| repeat' fsat1)

theorem fsat_regPropValidator {p : Props} (h : FullProps p) : FSat (regPropValidator p) := by
  obtain ⟨h1, h2, h3, h4, h5⟩ := h
  obtain ⟨s, hs⟩ := Option.isSome_iff_exists.1 h1
  obtain ⟨a, ha⟩ := Option.isSome_iff_exists.1 h2
  obtain ⟨pr, hp⟩ := Option.isSome_iff_exists.1 h3
  obtain ⟨rv, hv⟩ := Option.isSome_iff_exists.1 h4
  obtain ⟨rm, hm⟩ := Option.isSome_iff_exists.1 h5
  unfold regPropValidator
  rw [hs, ha, hp, hv, hm]
  exact sat_pure _

theorem fsat_finalizeContainers (cs : List IEnumContainer) (l m : Int) : FSat (finalizeContainers cs l m) := by
  refine sat_bind (sat_mapM fun c _ => sat_bind (sat_filterMapM fun v _ => ?_) fun _ => sat_pure _) fun _ => sat_pure _
  unfold finalizeEnumValue
  fsats

theorem fsat_finalizeField {f : IField} (h : f.hd.access.isSome) : FSat (finalizeField f) := by
  refine sat_bind (fsat_finalizeContainers _ _ _) fun cs => ?_
  obtain ⟨a, ha⟩ := Option.isSome_iff_exists.1 h
  rw [ha]
  exact sat_pure _

theorem fsat_finalizeFieldsLoop {fs : List IField} : ∀ (seen : List Str), (∀ f ∈ fs, f.hd.access.isSome) →
    FSat (finalizeFieldsLoop seen fs) := by
  induction fs with
  | nil => intro _ _; exact sat_pure _
  | cons f fs ih =>
    intro seen h
    have h1 := ih seen fun g hg => h g (by simp [hg])
    have h2 := ih (f.hd.name :: seen) fun g hg => h g (by simp [hg])
    have h3 := fsat_finalizeField (h f (by simp))
    rw [finalizeFieldsLoop]
    fsats

theorem fsat_checkRead (f : Field) (l : List Field) : FSat (checkRead f l) := by unfold checkRead; fsats
theorem fsat_checkWrite (f : Field) (l : List Field) : FSat (checkWrite f l) := by unfold checkWrite; fsats

theorem fsat_checkFields {size : Int} {fs : List Field} : ∀ (rd wr : List Field), FSat (checkFields size rd wr fs) := by
  induction fs with
  | nil => intro _ _; exact sat_pure _
  | cons f fs ih =>
    intro rd wr
    rw [checkFields]
    refine sat_bind (sat_warnIf fun _ => trivial) fun _ => ?_
    split
    · exact sat_bind (fsat_checkRead _ _) fun _ => ih _ _
    · exact sat_bind (fsat_checkWrite _ _) fun _ => ih _ _
    · exact sat_bind (fsat_checkRead _ _) fun _ => sat_bind (fsat_checkWrite _ _) fun _ => ih _ _
    · exact sat_bind (fsat_checkRead _ _) fun _ => sat_bind (fsat_checkWrite _ _) fun _ => ih _ _
    · exact sat_bind (fsat_checkRead _ _) fun _ => sat_bind (fsat_checkWrite _ _) fun _ => ih _ _

theorem fsat_finalizeFields {fs : List IField} (h : ∀ f ∈ fs, f.hd.access.isSome) (size : Int) :
    FSat (finalizeFields fs size) :=
  sat_bind (fsat_finalizeFieldsLoop _ h) fun _ => sat_bind (fsat_checkFields _ _) fun _ => sat_pure _

theorem fsat_checkSizeAlign {name : Str} {size : Option Int} (h : size.isSome) (offset : Int) :
    FSat (checkSizeAlign name size offset) := by
  obtain ⟨s, rfl⟩ := Option.isSome_iff_exists.1 h
  unfold checkSizeAlign
  dsimp only
  split
  · fsats
  · rename_i h8
    refine sat_bind ?_ fun _ => sat_bind ?_ fun _ => sat_bind (sat_warnIf fun _ => trivial) fun _ => sat_pure _
    · unfold toByte
      rw [if_neg h8]
      exact sat_pure _
    · unfold getAlignment; fsats

theorem fsat_allowedAlternates {lk : AltLookup} (hn : (lk.map (·.1)).Nodup) (strict : Bool) (alt : Option Str) :
    FSat (allowedAlternates lk strict alt) := by
  cases alt with
  | none => exact sat_pure _
  | some a =>
    rcases allowedAlternates_spec hn strict a with ⟨l, h1, -⟩ | ⟨-, h1, -⟩
    · rw [h1]; exact sat_ok fun _ h => by cases h
    · rw [h1]; exact trivial

theorem fsat_checkRCOverlaps {rl cl : AltLookup} (h1 : (rl.map (·.1)).Nodup) (h2 : (cl.map (·.1)).Nodup) {xs : List RC} :
    ∀ iv : List (Int × Str), FSat (checkRCOverlaps rl cl iv xs) := by
  induction xs with
  | nil => intro _; exact sat_pure _
  | cons x xs ih =>
    intro iv
    cases x with
    | reg r =>
      rw [checkRCOverlaps]
      split
      · exact ih _
      · exact sat_bind (fsat_allowedAlternates h1 _ _) fun _ => sat_bind (sat_ok fun _ _ => trivial) fun _ => ih _
    | clu c ch =>
      rw [checkRCOverlaps]
      exact sat_bind (fsat_allowedAlternates h2 _ _) fun _ => sat_bind (sat_ok fun _ _ => trivial) fun _ => ih _

theorem fsat_finishRCs {raw : List RC} (hn : (raw.map RC.qualName).Nodup) : FSat (finishRCs raw) := by
  unfold finishRCs
  dsimp only
  rw [registerLookup_eq, clusterLookup_eq]
  exact sat_bind (fsat_checkRCOverlaps (altsOf_nodup hn _) (altsOf_nodup hn _) _) fun _ => sat_pure _

theorem fsat_finalizeRegister {r : IRegisterHd} {fs : List IField} {size base : Int} (h1 : FullProps r.props)
    (h2 : ∀ f ∈ fs, f.hd.access.isSome) : FSat (finalizeRegister r fs size base) := by
  have h3 := fsat_regPropValidator h1
  have h4 := fsat_finalizeFields h2 size
  unfold finalizeRegister
  fsats

mutual
theorem fsat_finalizeRC (b : Int) (x : IRC) (h : FullRC x) : FSat (finalizeRC b x) := by
  match x with
  | .reg r fs =>
    cases h with
    | reg h1 h2 =>
      rw [finalizeRC]
      refine sat_bind (fsat_checkSizeAlign h1.1 _) fun o => ?_
      cases o with
      | none => exact sat_pure _
      | some s => exact fsat_finalizeRegister h1 h2
  | .clu c ch =>
    cases h with
    | clu h1 h2 =>
      rw [finalizeRC]
      refine sat_bind (fsat_checkSizeAlign h1.1 _) fun o => ?_
      cases o with
      | none => exact sat_pure _
      | some s =>
        refine sat_bind' (fsat_finalizeRCsLoop _ _ ch h2) fun raw ws hr => ?_
        obtain ⟨os, -, -, hn, -⟩ := finalizeRCsLoop_ok hr
        refine sat_bind (fsat_finishRCs hn) fun ys => ?_
        have h3 := fsat_regPropValidator h1
        cases ys with
        | nil => exact sat_bind (sat_warn trivial) fun _ => sat_pure _
        | cons y ys => exact sat_bind h3 fun _ => sat_pure _
theorem fsat_finalizeRCsLoop (b : Int) (seen : List Str) (xs : List IRC) (h : ∀ x ∈ xs, FullRC x) :
    FSat (finalizeRCsLoop b seen xs) := by
  match xs with
  | [] => rw [finalizeRCsLoop]; exact sat_pure _
  | x :: xs =>
    rw [finalizeRCsLoop]
    refine sat_bind (fsat_finalizeRC b x (h x (by simp))) fun o => ?_
    cases o with
    | none => exact fsat_finalizeRCsLoop b seen xs fun y hy => h y (by simp [hy])
    | some y =>
      dsimp only
      split
      · exact sat_throw trivial
      · exact sat_bind (fsat_finalizeRCsLoop b _ xs fun y hy => h y (by simp [hy])) fun _ => sat_pure _
end

theorem fsat_finalizePeripheral {p : IPeripheral} (h1 : FullProps p.hd.props) (h2 : ∀ x ∈ p.rcs, FullRC x) :
    FSat (finalizePeripheral p) := by
  unfold finalizePeripheral finalizeRCs
  refine sat_bind (sat_bind' (fsat_finalizeRCsLoop _ _ _ h2) fun raw ws hr => ?_) fun rcs => ?_
  · obtain ⟨os, -, -, hn, -⟩ := finalizeRCsLoop_ok hr
    exact fsat_finishRCs hn
  · have h3 := fsat_regPropValidator h1
    cases rcs with
    | nil => exact sat_bind (sat_warn trivial) fun _ => sat_pure _
    | cons y ys =>
      obtain ⟨s, hs⟩ := Option.isSome_iff_exists.1 h1.1
      rw [hs]
      dsimp only
      refine sat_bind (sat_warnIf fun _ => trivial) fun _ => ?_
      split
      · exact sat_bind (sat_warn trivial) fun _ => sat_pure _
      · split
        · exact sat_throw trivial
        · exact sat_bind (sat_ok fun _ _ => trivial) fun _ => sat_bind h3 fun _ => sat_pure _

theorem fsat_finalizePeripheralsLoop {ps : List IPeripheral} (h : ∀ p ∈ ps, FullProps p.hd.props ∧ ∀ x ∈ p.rcs, FullRC x) :
    ∀ seen, FSat (finalizePeripheralsLoop seen ps) := by
  induction ps with
  | nil => intro _; exact sat_pure _
  | cons p ps ih =>
    intro seen
    have ih := ih fun q hq => h q (by simp [hq])
    obtain ⟨h1, h2⟩ := h p (by simp)
    rw [finalizePeripheralsLoop]
    refine sat_bind (fsat_finalizePeripheral h1 h2) fun o => ?_
    cases o with
    | none => exact ih _
    | some q =>
      dsimp only
      split
      · exact sat_throw trivial
      · exact sat_bind (ih _) fun _ => sat_pure _

theorem fsat_checkPeriphOverlaps {lk : AltLookup} (h1 : (lk.map (·.1)).Nodup) {xs : List Peripheral} :
    ∀ iv1 iv2 : List (Int × Str), FSat (checkPeriphOverlaps lk iv1 iv2 xs) := by
  induction xs with
  | nil => intro _ _; exact sat_pure _
  | cons x xs ih =>
    intro iv1 iv2
    rw [checkPeriphOverlaps]
    exact sat_bind (fsat_allowedAlternates h1 _ _) fun _ => sat_bind (sat_ok fun _ _ => trivial) fun _ =>
      sat_bind (sat_ok fun _ _ => trivial) fun _ => ih _ _

/-- The exceptions of the finalisation phase: documented ones, or `KeyError`. -/
theorem fsat_finalize (hd : DeviceHd) (ps : List IPeripheral) :
    FSat (validateAndFinalize (inheritDevice { hd := hd, peripherals := ps })) := by
  have hfull : FullProps hd.props.toProps := ⟨rfl, rfl, rfl, rfl, rfl⟩
  have h : ∀ p ∈ (inheritDevice { hd := hd, peripherals := ps }).peripherals,
      FullProps p.hd.props ∧ ∀ x ∈ p.rcs, FullRC x := by
    intro p hp
    obtain ⟨p0, -, rfl⟩ := List.mem_map.1 hp
    refine ⟨inheritProps_full hfull, fun x hx => ?_⟩
    obtain ⟨x0, -, rfl⟩ := mem_inheritRCs.1 hx
    exact inheritRC_full x0 (inheritProps_full hfull)
  unfold validateAndFinalize finalizePeripherals
  refine sat_bind (sat_bind' (fsat_finalizePeripheralsLoop h _) fun raw ws hr => ?_) fun _ => sat_pure _
  obtain ⟨os, -, -, hn, -⟩ := finalizePeripheralsLoop_ok hr
  have hnn : ((peripheralLookup raw).map (·.1)).Nodup := by
    simp only [peripheralLookup, List.map_map]; exact hn
  exact sat_bind (fsat_checkPeriphOverlaps hnn _ _) fun _ => sat_pure _
end Svd
