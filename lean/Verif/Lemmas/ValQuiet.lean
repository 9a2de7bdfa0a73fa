import Verif.Spec.Notes
import Verif.Lemmas.FinErr
/- The validation phase gives none of the warnings of the resolution phase. -/
namespace Svd
open Spec M

abbrev VSat {α : Type} (x : M α) : Prop := Sat (fun _ => True) (fun w => ¬ ResolutionWarning w) x

/-- One step of the analysis of monadic code. -/
macro "vsat1" : tactic => `(tactic| first
  | assumption
  | exact sat_pure _
  | (refine sat_throw ?_; exact trivial)
  | (refine sat_warn ?_; exact id)
  | (refine sat_warnIf fun _ => ?_; exact id)
  | refine sat_bind ?_ (fun _ => ?_)
  | dsimp only
  | split)
macro "vsats" : tactic => `(tactic| repeat' vsat1)

theorem vsat_regPropValidator (p : Props) : VSat (regPropValidator p) := by unfold regPropValidator; vsats

theorem vsat_finalizeContainers (cs : List IEnumContainer) (l m : Int) : VSat (finalizeContainers cs l m) := by
  refine sat_bind (sat_mapM fun c _ => sat_bind (sat_filterMapM fun v _ => ?_) fun _ => sat_pure _) fun _ => sat_pure _
  unfold finalizeEnumValue
  vsats

theorem vsat_finalizeField (f : IField) : VSat (finalizeField f) := by
  have := vsat_finalizeContainers
  unfold finalizeField
  refine sat_bind (this _ _ _) fun _ => ?_
  vsats

theorem vsat_finalizeFieldsLoop (fs : List IField) : ∀ seen, VSat (finalizeFieldsLoop seen fs) := by
  induction fs with
  | nil => intro seen; exact sat_pure _
  | cons f fs ih =>
    intro seen
    rw [finalizeFieldsLoop]
    split
    · exact sat_bind (sat_warn id) fun _ => ih _
    · split
      · exact sat_throw trivial
      · exact sat_bind (vsat_finalizeField f) fun _ => sat_bind (ih _) fun _ => sat_pure _

theorem vsat_checkFields {size : Int} {fs : List Field} : ∀ (rd wr : List Field), VSat (checkFields size rd wr fs) := by
  have h1 : ∀ f l, VSat (checkRead f l) := fun f l => by unfold checkRead; vsats
  have h2 : ∀ f l, VSat (checkWrite f l) := fun f l => by unfold checkWrite; vsats
  induction fs with
  | nil => intro rd wr; exact sat_pure _
  | cons f fs ih =>
    intro rd wr
    rw [checkFields]
    refine sat_bind (sat_warnIf fun _ => id) fun _ => ?_
    split
    · exact sat_bind (h1 _ _) fun _ => ih _ _
    · exact sat_bind (h2 _ _) fun _ => ih _ _
    all_goals exact sat_bind (h1 _ _) fun _ => sat_bind (h2 _ _) fun _ => ih _ _

theorem vsat_finalizeFields (fs : List IField) (size : Int) : VSat (finalizeFields fs size) :=
  sat_bind (vsat_finalizeFieldsLoop fs _) fun _ => sat_bind (vsat_checkFields _ _) fun _ => sat_pure _

theorem vsat_altClosure (lk : AltLookup) (strict : Bool) : ∀ (f : Nat) (a st : List Str), VSat (altClosure lk strict f a st) := by
  intro f
  induction f with
  | zero =>
    intro a st
    cases st with
    | nil => rw [altClosure]; exact sat_pure _
    | cons x xs => rw [altClosure]; exact sat_throw trivial
  | succ f ih =>
    intro a st
    cases st with
    | nil => rw [altClosure]; exact sat_pure _
    | cons x xs =>
      rw [altClosure]
      split
      · exact ih _ _
      · dsimp only
        split
        · split
          · exact sat_throw trivial
          · exact ih _ _
        · exact ih _ _
        · exact ih _ _

theorem vsat_allowedAlternates (lk : AltLookup) (strict : Bool) (alt : Option Str) : VSat (allowedAlternates lk strict alt) := by
  unfold allowedAlternates
  split
  · exact sat_pure _
  · exact vsat_altClosure _ _ _ _ _

theorem vsat_checkRCOverlaps {rl cl : AltLookup} {xs : List RC} : ∀ iv : List (Int × Str), VSat (checkRCOverlaps rl cl iv xs) := by
  have ho : ∀ b lk n base al (iv : List (Int × Str)), ∀ u ∈ overlapWarns b lk n base al iv, ¬ ResolutionWarning u := by
    intro b lk n base al iv
    induction iv with
    | nil => intro u hu; cases hu
    | cons q iv ih =>
      obtain ⟨e, m⟩ := q
      intro u hu
      rw [overlapWarns] at hu
      rcases List.mem_append.1 hu with hu | hu
      · repeat' split at hu
        all_goals first
          | (rw [List.mem_singleton] at hu; subst hu; exact id)
          | cases hu
      · exact ih u hu
  induction xs with
  | nil => intro iv; exact sat_pure _
  | cons x xs ih =>
    intro iv
    rw [checkRCOverlaps.eq_def]
    dsimp only
    split
    · split
      · exact ih _
      · exact sat_bind (vsat_allowedAlternates _ _ _) fun _ => sat_bind (sat_ok (ho _ _ _ _ _ _)) fun _ => ih _
    · exact sat_bind (vsat_allowedAlternates _ _ _) fun _ => sat_bind (sat_ok (ho _ _ _ _ _ _)) fun _ => ih _

theorem vsat_finishRCs (raw : List RC) : VSat (finishRCs raw) :=
  sat_bind (vsat_checkRCOverlaps _) fun _ => sat_pure _

theorem vsat_checkSizeAlign (n : Str) (s : Option Int) (o : Int) : VSat (checkSizeAlign n s o) := by
  unfold checkSizeAlign toByte getAlignment
  vsats

theorem vsat_finalizeRegister (r : IRegisterHd) (fs : List IField) (s b : Int) : VSat (finalizeRegister r fs s b) := by
  have h1 := vsat_finalizeFields fs s
  have h2 := vsat_regPropValidator r.props
  unfold finalizeRegister
  vsats

mutual
theorem vsat_finalizeRC (b : Int) : ∀ x : IRC, VSat (finalizeRC b x)
  | .reg r fs => by
    rw [finalizeRC]
    refine sat_bind (vsat_checkSizeAlign _ _ _) fun o => ?_
    cases o with
    | none => exact sat_pure _
    | some s => exact vsat_finalizeRegister _ _ _ _
  | .clu c ch => by
    rw [finalizeRC]
    refine sat_bind (vsat_checkSizeAlign _ _ _) fun o => ?_
    cases o with
    | none => exact sat_pure _
    | some s =>
      refine sat_bind (vsat_finalizeRCsLoop _ _ _) fun raw => sat_bind (vsat_finishRCs raw) fun ys => ?_
      cases ys with
      | nil => exact sat_bind (sat_warn id) fun _ => sat_pure _
      | cons y ys => exact sat_bind (vsat_regPropValidator _) fun _ => sat_pure _
theorem vsat_finalizeRCsLoop (b : Int) : ∀ (seen : List Str) (xs : List IRC), VSat (finalizeRCsLoop b seen xs)
  | _, [] => by rw [finalizeRCsLoop]; exact sat_pure _
  | seen, x :: xs => by
    rw [finalizeRCsLoop]
    refine sat_bind (vsat_finalizeRC b x) fun o => ?_
    cases o with
    | none => exact vsat_finalizeRCsLoop b _ xs
    | some y =>
      dsimp only
      split
      · exact sat_throw trivial
      · exact sat_bind (vsat_finalizeRCsLoop b _ xs) fun _ => sat_pure _
end

theorem vsat_finalizePeripheral (p : IPeripheral) : VSat (finalizePeripheral p) := by
  have ha : ∀ l : List AddressBlock, ∀ u ∈ addressBlockWarns l, ¬ ResolutionWarning u := by
    intro l
    induction l with
    | nil => intro u hu; cases hu
    | cons a l ih =>
      cases l with
      | nil => intro u hu; cases hu
      | cons b l =>
        intro u hu
        rw [addressBlockWarns] at hu
        rcases List.mem_append.1 hu with hu | hu
        · split at hu
          · rw [List.mem_singleton] at hu; subst hu; exact id
          · cases hu
        · exact ih u hu
  unfold finalizePeripheral
  refine sat_bind (sat_bind (vsat_finalizeRCsLoop _ _ _) fun raw => vsat_finishRCs raw) fun rcs => ?_
  cases rcs with
  | nil => exact sat_bind (sat_warn id) fun _ => sat_pure _
  | cons y ys =>
    refine sat_bind (sat_warnIf fun _ => id) fun _ => ?_
    dsimp only
    repeat' split
    all_goals first
      | exact sat_bind (sat_warn id) fun _ => sat_pure _
      | exact sat_throw trivial
      | exact sat_bind (sat_ok (ha _)) fun _ => sat_bind (vsat_regPropValidator _) fun _ => sat_pure _

theorem vsat_finalizePeripheralsLoop (ps : List IPeripheral) : ∀ seen, VSat (finalizePeripheralsLoop seen ps) := by
  induction ps with
  | nil => intro seen; exact sat_pure _
  | cons p ps ih =>
    intro seen
    rw [finalizePeripheralsLoop]
    refine sat_bind (vsat_finalizePeripheral p) fun o => ?_
    cases o with
    | none => exact ih _
    | some q =>
      dsimp only
      split
      · exact sat_throw trivial
      · exact sat_bind (ih _) fun _ => sat_pure _

theorem vsat_checkPeriphOverlaps {lk : AltLookup} {xs : List Peripheral} :
    ∀ iv1 iv2 : List (Int × Str), VSat (checkPeriphOverlaps lk iv1 iv2 xs) := by
  have ho : ∀ b n base al (iv : List (Int × Str)), ∀ u ∈ periphOverlapWarns b lk n base al iv, ¬ ResolutionWarning u := by
    intro b n base al iv
    induction iv with
    | nil => intro u hu; cases hu
    | cons q iv ih =>
      obtain ⟨e, m⟩ := q
      intro u hu
      rw [periphOverlapWarns] at hu
      rcases List.mem_append.1 hu with hu | hu
      · repeat' split at hu
        all_goals first
          | (rw [List.mem_singleton] at hu; subst hu; exact id)
          | cases hu
      · exact ih u hu
  induction xs with
  | nil => intro iv1 iv2; exact sat_pure _
  | cons x xs ih =>
    intro iv1 iv2
    rw [checkPeriphOverlaps]
    exact sat_bind (vsat_allowedAlternates _ _ _) fun _ => sat_bind (sat_ok (ho _ _ _ _ _)) fun _ =>
      sat_bind (sat_ok (ho _ _ _ _ _)) fun _ => ih _ _

theorem vsat_validate (d : IDevice) : VSat (validateAndFinalize d) := by
  unfold validateAndFinalize finalizePeripherals
  exact sat_bind (sat_bind (vsat_finalizePeripheralsLoop _ _) fun _ => sat_bind (vsat_checkPeriphOverlaps _ _) fun _ => sat_pure _) fun _ =>
    sat_pure _

end Svd
