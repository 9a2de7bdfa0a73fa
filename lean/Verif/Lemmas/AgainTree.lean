import Verif.Lemmas.AgainFix
import Verif.Lemmas.FinTotal
import Verif.Spec.Again
import Verif.Model.Convert
import Verif.Props.Sizes
import Verif.Props.Derive
/-
The resolved form of a converted processed device.
-/
namespace Svd
open Spec M

def liftFieldHd (f : Field) : IFieldHd :=
  { name := f.name, description := f.description, lsb := f.lsb, msb := f.msb, modifiedWriteValues := f.modifiedWriteValues
    writeConstraint := f.writeConstraint, readAction := f.readAction, dim := {}, access := some f.access }

def liftRegHd (r : Register) : IRegisterHd :=
  { name := r.name, displayName := r.displayName, description := r.description, alternateGroup := r.alternateGroup
    alternateRegister := r.alternateRegister, addressOffset := r.addressOffset, dataType := r.dataType
    modifiedWriteValues := r.modifiedWriteValues, writeConstraint := r.writeConstraint, readAction := r.readAction
    dim := {}, props := convProps r.props }

def liftCluHd (c : ClusterHd) : IClusterHd :=
  { name := c.name, description := c.description, alternateCluster := c.alternateCluster, headerStructName := c.headerStructName
    addressOffset := c.addressOffset, dim := {}, props := convProps c.props }

def liftPeriphHd (p : Peripheral) : IPeripheralHd :=
  { name := p.name, version := p.version, description := p.description, alternatePeripheral := p.alternatePeripheral
    groupName := p.groupName, prependToName := p.prependToName, appendToName := p.appendToName
    headerStructName := p.headerStructName, disableCondition := p.disableCondition, baseAddress := p.baseAddress
    addressBlocks := p.addressBlocks, interrupts := p.interrupts, dim := {}, props := convProps p.props }

def LiftF (f : Field) (x : IField) : Prop := x.hd = liftFieldHd f ∧ x.containers.Perm (f.containers.map liftCont)

mutual
def LiftRC : RC → IRC → Prop
  | .reg r, x => ∃ fs, x = .reg (liftRegHd r) fs ∧ Entrywise LiftF r.fields fs
  | .clu c ch, x => ∃ ys ys', x = .clu (liftCluHd c) ys ∧ LiftRCs ch ys' ∧ ys'.Perm ys
def LiftRCs : List RC → List IRC → Prop
  | [], ys => ys = []
  | x :: xs, ys => ∃ y ys', LiftRC x y ∧ LiftRCs xs ys' ∧ ys = y :: ys'
end

/-- All that is needed to process a tree again. -/
inductive Fix : RC → Prop
  | reg {r} : OkSize r.props.size → RegFix r → ¬ Contains listMark r.name →
      (∀ s, r.displayName = some s → ¬ Contains listMark s) →
      (∀ f ∈ r.fields, ¬ Contains listMark f.name ∧ ∀ c ∈ f.containers, (c.values.map (·.name)).Nodup) → Fix (.reg r)
  | clu {c ch} : OkSize c.props.size → ¬ Contains listMark c.name → (∀ x ∈ ch, x.size ≤ c.props.size) →
      (∃ x ∈ ch, x.size = c.props.size) → AltsKnown (clusterLookup ch) ch → (∀ x ∈ ch, Fix x) → Fix (.clu c ch)

theorem Fix.okSize {x : RC} (h : Fix x) : OkSize x.size := by
  cases h with
  | reg h => exact h
  | clu h => exact h

theorem OkSize.usable {s : Int} (h : OkSize s) : Spec.usable s = s := by
  unfold OkSize at h
  unfold Spec.usable
  rw [if_pos]
  omega

theorem convRCs_isEmpty {ch : List RC} : (convRCs ch).isEmpty = ch.isEmpty := by cases ch <;> rfl

theorem mem_convRCs {ch : List RC} {x : SRC} : x ∈ convRCs ch ↔ ∃ y ∈ ch, x = convRC y := by
  induction ch with
  | nil => simp [convRCs]
  | cons a ch ih => simp [convRCs, ih]

/-- The sizes of a converted tree count as they are. -/
theorem count_conv (x : RC) : Fix x → ∀ E, countRC E (convRC x) = x.size := by
  induction x using RC.induct with
  | hr r =>
    intro h E
    cases h with
    | reg h => simp [convRC, countRC, convRegister, convProps, RC.size, OkSize.usable h]
  | hc c ch ih =>
    intro h E
    cases h with
    | clu h1 h2 h3 h4 h5 h6 =>
      have hne : ch.isEmpty = false := by
        obtain ⟨x, hx, -⟩ := h4
        cases ch with
        | nil => cases hx
        | cons => rfl
      have hk : contentSize c.props.size (convRCs ch) = c.props.size := by
        obtain ⟨x, hx, hs⟩ := h4
        have h7 : c.props.size ≤ contentSize c.props.size (convRCs ch) := by
          rw [← ih x hx (h6 x hx) c.props.size] at hs
          have := contentSize_le c.props.size (convRCs ch) (convRC x) (mem_convRCs.2 ⟨x, hx, rfl⟩)
          omega
        rcases contentSize_mem c.props.size (convRCs ch) with h8 | ⟨y, hy, h8⟩
        · unfold OkSize at h1; omega
        · obtain ⟨z, hz, rfl⟩ := mem_convRCs.1 hy
          rw [ih z hz (h6 z hz)] at h8
          have := h3 z hz
          omega
      simp only [convRC, countRC, convRCs_isEmpty, hne, Bool.false_eq_true, if_false, convClusterHd, convProps, Option.getD_some, RC.size]
      rw [hk, OkSize.usable h1]

theorem content_conv {s : Int} {ch : List RC} (h1 : OkSize s) (h3 : ∀ x ∈ ch, x.size ≤ s) (h4 : ∃ x ∈ ch, x.size = s) (h6 : ∀ x ∈ ch, Fix x) (E : Int) :
    contentSize E (convRCs ch) = s := by
  obtain ⟨x, hx, hs⟩ := h4
  have h7 : s ≤ contentSize E (convRCs ch) := by
    rw [← count_conv x (h6 x hx) E] at hs
    have := contentSize_le E (convRCs ch) (convRC x) (mem_convRCs.2 ⟨x, hx, rfl⟩)
    omega
  rcases contentSize_mem E (convRCs ch) with h8 | ⟨y, hy, h8⟩
  · unfold OkSize at h1; omega
  · obtain ⟨z, hz, rfl⟩ := mem_convRCs.1 hy
    rw [count_conv z (h6 z hz)] at h8
    have := h3 z hz
    omega

/-- A declaration without dim stands for itself. -/
theorem places_plain {n : Str} {disp : Option Str} {dm : SDim} {ex : Bool} {pls : List Place} (h : Places n disp dm ex pls) (hd : dm.dim = none) :
    ex = false ∧ pls = [⟨0, n, disp, 0⟩] := by
  cases h with
  | single => exact ⟨rfl, rfl⟩
  | expanded h => rw [hd] at h; cases h

theorem stands_plain {p : Parsed} {hs : List Processed} (h : StandsFor p hs) (hd : (dimOf p).dim = none) :
    ∃ y, hs = [y] ∧ HeadAt false p ⟨0, nameOfDecl p, displayOf p, 0⟩ y := by
  obtain ⟨ex, pls, h1, h2⟩ := h
  obtain ⟨rfl, rfl⟩ := places_plain h1 hd
  cases h2 with
  | cons h3 h4 => cases h4; exact ⟨_, rfl, h3⟩

theorem entrywise_single {α β : Type} {R : α → β → Prop} {x : α} {ys : List β} (h : Entrywise R [x] ys) : ∃ y, ys = [y] ∧ R x y := by
  cases h with
  | cons h1 h2 => cases h2; exact ⟨_, rfl, h1⟩


theorem pos_conv {f : Field} {m l : Int} {w : List Warn} (h : fieldMsbLsb (convField f) none = .ok (m, l) w) : m = f.msb ∧ l = f.lsb := by
  simp only [fieldMsbLsb, convField, orIfNone, Option.map_none, Option.isSome_some, Option.isSome_none, Bool.or_false, Bool.or_true, if_true, if_false,
    Bool.false_eq_true, M.pure_bind, M.bind_eq_ok, M.pure_eq_ok, Prod.mk.injEq] at h
  obtain ⟨_, _, _, _, ⟨⟨rfl, rfl⟩, -⟩, -⟩ := h
  exact ⟨rfl, rfl⟩

theorem sort_conv {α : Type} {key : α → Int × Str} {l m : List α} (hp : l.Perm m) (hl : SortedBy key l) (hm : SortedBy key m)
    (hn : (l.map fun x => (key x).2).Nodup) : l = m := by
  refine sorted_unique (le := fun a b => intStrLe (key a) (key b)) hp (hl.imp fun h => intStrLe_spec.2 h) (hm.imp fun h => intStrLe_spec.2 h) ?_
  intro a ha b hb h1 h2
  refine inj_of_nodup_map hn ha hb ?_
  rw [intStrLe_spec] at h1 h2
  rcases h1 with h1 | ⟨h1, h3⟩ <;> rcases h2 with h2 | ⟨h2, h4⟩
  · omega
  · omega
  · omega
  · exact strLe_antisymm _ _ ((strLe_iff _ _).2 h3) ((strLe_iff _ _).2 h4)

theorem field_conv {f : Field} {h : Processed} {x : IField} (hc : ContsFix f.lsb f.msb f.containers)
    (hn : ∀ c ∈ f.containers, (c.values.map (·.name)).Nodup) (hh : HeadAt false (.field (convField f)) ⟨0, f.name, none, 0⟩ h)
    (hb : FieldBuilt (convField f) h x) : LiftF f x := by
  obtain ⟨rfl, h2⟩ := hb
  have hx : x.hd = liftFieldHd f := by
    generalize x.hd = y at hh
    cases hh with
    | field hp =>
      obtain ⟨w, hp⟩ := bits_iff.2 hp
      obtain ⟨rfl, rfl⟩ := pos_conv hp
      simp [liftFieldHd, convField, keptDim]
  refine ⟨hx, ?_⟩
  rw [hx] at h2
  obtain ⟨cs', hp, he⟩ := h2.each
  obtain ⟨ks, he', hk⟩ := entrywise_perm hp he
  refine hk.symm.trans ?_
  have : ks = f.containers.map liftCont := by
    simp only [convField] at he'
    clear hk
    have hc' := hc.each
    generalize f.containers = cs at he' hc' hn
    induction cs generalizing ks with
    | nil => cases he'; rfl
    | cons c cs ih =>
      cases he' with
      | cons h3 h4 =>
        obtain ⟨w, h3⟩ := h3
        have h5 := container_again (hc' c (by simp)) (hn c (by simp))
        have h6 := h3.symm.trans h5
        simp only [M.ok.injEq] at h6
        rw [h6.1, ih _ h4 (fun k hk => hc' k (by simp [hk])) (fun k hk => hn k (by simp [hk]))]
        rfl
  rw [this]

theorem fields_conv : ∀ {gs : List Field} {xs : List IField}, (∀ f ∈ gs, ContsFix f.lsb f.msb f.containers) →
    (∀ f ∈ gs, ∀ c ∈ f.containers, (c.values.map (·.name)).Nodup) → FieldsBuilt (gs.map convField) xs → Entrywise LiftF gs xs
  | [], xs, _, _, h => by
    cases h; exact .nil
  | f :: gs, xs, hc, hn, h => by
    rw [List.map_cons] at h
    cases h with
    | cons h1 h2 h3 =>
      obtain ⟨y, rfl, h4⟩ := stands_plain h1 rfl
      obtain ⟨x, rfl, h5⟩ := entrywise_single h2
      exact .cons (field_conv (hc f (by simp)) (hn f (by simp)) h4 h5)
        (fields_conv (fun f hf => hc f (by simp [hf])) (fun f hf => hn f (by simp [hf])) h3)

theorem array_list {s : Str} (h : Contains arrayMark s) : Contains listMark s := by
  obtain ⟨a, b, rfl⟩ := h
  exact ⟨a ++ s%"[", s%"]" ++ b, by simp [arrayMark, listMark]⟩

theorem finishDisplay_plain {o : Option Str} (h : ∀ s, o = some s → ¬ Contains arrayMark s) : o.map (finishDisplay 0) = o := by
  cases o with
  | none => rfl
  | some s =>
    simp only [finishDisplay, Option.map_some, fillArray_eq]
    exact congrArg some (replaceAll_absent (hasSub_false.2 (h s rfl)))

theorem rc_conv (x : RC) : Fix x → ∀ {E : Int} {h : Processed} {y : IRC},
    HeadAt false (declOf (convRC x)) ⟨0, nameOfDecl (declOf (convRC x)), displayOf (declOf (convRC x)), 0⟩ h →
    RCBuilt E (convRC x) h y → LiftRC x y := by
  induction x using RC.induct with
  | hr r =>
    intro hf E h y hh hb
    cases hf with
    | reg f1 f2 f3 f4 f5 =>
      simp only [convRC, RCBuilt] at hb
      obtain ⟨hd, fs, fs', rfl, rfl, h1, h2, h3⟩ := hb
      have he := fields_conv f2.conts (fun f hf => (f5 f hf).2) h1
      have hhd : hd = liftRegHd r := by
        simp only [convRC, declOf] at hh
        cases hh with
        | reg =>
          simp only [liftRegHd, convRegister, nameOfDecl, displayOf, keptDim, Bool.false_eq_true, if_false, Int.add_zero, Option.getD_some]
          rw [finishDisplay_plain fun s hs hc => f4 s hs (array_list hc)]
      subst hhd
      have hk : ∀ (gs : List Field) (xs : List IField), Entrywise LiftF gs xs → xs.map fieldKey = gs.map fun f => (f.lsb, f.name) := by
        intro gs xs h
        induction h with
        | nil => rfl
        | cons h _ ih => simp [ih, fieldKey, h.1, liftFieldHd]
      have hk' := hk _ _ he
      have hs : SortedBy fieldKey fs' := by
        have : (fs'.map fieldKey).Pairwise AddrNameLe := by
          rw [hk', List.pairwise_map]
          exact f2.sorted.imp fun h => intStrLe_spec.1 h
        rwa [List.pairwise_map] at this
      have hn : (fs'.map fun x => (fieldKey x).2).Nodup := by
        have : fs'.map (fun x => (fieldKey x).2) = r.fields.map (·.name) := by
          have := congrArg (List.map Prod.snd) hk'
          simpa [Function.comp_def] using this
        rw [this]; exact f2.names
      have := sort_conv h2 hs h3 hn
      subst this
      exact ⟨_, rfl, he⟩
  | hc c ch ih =>
    intro hf E h y hh hb
    cases hf with
    | clu f1 f2 f3 f4 f5 f6 =>
      simp only [convRC, RCBuilt] at hb
      obtain ⟨hd, ys, ys', rfl, rfl, h1, h2, h3⟩ := hb
      have hhd : hd = liftCluHd c := by
        simp only [convRC, declOf] at hh
        cases hh with
        | clu => simp only [liftCluHd, convClusterHd, nameOfDecl, keptDim, Bool.false_eq_true, if_false, Int.add_zero]
      subst hhd
      have hsz : sizeWith (convClusterHd c).props.size E (convRCs ch) = some c.props.size := by
        have hne : (convRCs ch).isEmpty = false := by
          rw [convRCs_isEmpty]
          obtain ⟨x, hx, -⟩ := f4
          cases ch with
          | nil => cases hx
          | cons => rfl
        simp [sizeWith, hne, convClusterHd, convProps, content_conv f1 f3 f4 f6]
      rw [hsz]
      refine ⟨ys, ys', rfl, ?_, h2⟩
      clear hsz h3 h2 f4 f5 f3 hh
      generalize (convClusterHd c).props.size.getD E = E' at h1
      induction ch generalizing ys' with
      | nil => exact h1
      | cons z zs ih2 =>
        simp only [convRCs, RCsBuilt] at h1
        obtain ⟨hs, a, b, h4, h5, h6, rfl⟩ := h1
        obtain ⟨hd', rfl, h7⟩ := stands_plain h4 (by cases z <;> rfl)
        obtain ⟨y, rfl, h8⟩ := entrywise_single h5
        exact ⟨y, b, ih z (by simp) (f6 z (by simp)) h7 h8, ih2 (fun x hx => ih x (by simp [hx])) (fun x hx => f6 x (by simp [hx])) b h6, rfl⟩

theorem rcs_conv {E : Int} : ∀ {ch : List RC} {ys : List IRC}, (∀ x ∈ ch, Fix x) → RCsBuilt E (convRCs ch) ys → LiftRCs ch ys
  | [], _, _, h => h
  | z :: zs, ys, hf, h => by
    simp only [convRCs, RCsBuilt] at h
    obtain ⟨hs, a, b, h4, h5, h6, rfl⟩ := h
    obtain ⟨hd', rfl, h7⟩ := stands_plain h4 (by cases z <;> rfl)
    obtain ⟨y, rfl, h8⟩ := entrywise_single h5
    exact ⟨y, b, rc_conv z (hf z (by simp)) h7 h8, rcs_conv (fun x hx => hf x (by simp [hx])) h6, rfl⟩

/-- All that is needed to process a peripheral again. -/
structure PFix (p : Peripheral) : Prop where
  ok : PeriphOK p
  fix : ∀ x ∈ p.rcs, Fix x
  alts : AltsKnown (clusterLookup p.rcs) p.rcs
  mark : ¬ Contains listMark p.name
  le : ∀ x ∈ p.rcs, x.size ≤ p.props.size
  eq : ∃ x ∈ p.rcs, x.size = p.props.size
  blocks : SortedOn (·.offset) p.addressBlocks
  ints : SortedOn (·.value) p.interrupts

theorem PFix.okSize {p : Peripheral} (h : PFix p) : OkSize p.props.size := by
  obtain ⟨x, hx, h1⟩ := h.eq
  rw [← h1]
  exact (h.fix x hx).okSize

def LiftP (p : Peripheral) (x : IPeripheral) : Prop := x.hd = liftPeriphHd p ∧ ∃ ys', LiftRCs p.rcs ys' ∧ ys'.Perm x.rcs

theorem stableSort_self {α : Type} {key : α → Int} {l m : List α} (h : StableSort key l m) (hs : SortedOn key l) : m = l :=
  StableSort.unique h ⟨.refl _, hs, fun _ => rfl⟩

theorem block_conv (b : AddressBlock) : blockOf (convAddressBlock b) = b := rfl

theorem periph_conv {p : Peripheral} (hf : PFix p) {h : Processed} {x : IPeripheral}
    (hh : HeadAt false (.periph (convPeripheral p).hd) ⟨0, p.name, none, 0⟩ h) (hb : PeriphBuilt (convPeripheral p) h x) : LiftP p x := by
  obtain ⟨hd, ys', rfl, h1, h2, h3, -⟩ := hb
  have hsz : sizeWith (convPeripheral p).hd.props.size 32 (convPeripheral p).rcs = some p.props.size := by
    have hne : (convRCs p.rcs).isEmpty = false := by
      rw [convRCs_isEmpty]
      obtain ⟨x, hx, -⟩ := hf.eq
      cases hr : p.rcs with
      | nil => rw [hr] at hx; cases hx
      | cons => rfl
    simp [sizeWith, hne, convPeripheral, convProps, content_conv hf.okSize hf.le hf.eq hf.fix]
  refine ⟨?_, ys', rcs_conv hf.fix h2, h3⟩
  rw [h1, hsz]
  cases hh with
  | periph hb hi =>
    have hb' := stableSort_self hb (by
      simp only [convPeripheral, List.map_map]
      have : p.addressBlocks.map (blockOf ∘ convAddressBlock) = p.addressBlocks := by
        rw [show blockOf ∘ convAddressBlock = id from rfl, List.map_id]
      rw [this]; exact hf.blocks)
    have hi' := stableSort_self hi hf.ints
    subst hb' hi'
    simp only [liftPeriphHd, convPeripheral, keptDim, Bool.false_eq_true, if_false, Int.add_zero, List.map_map]
    rw [show blockOf ∘ convAddressBlock = id from rfl, List.map_id]
    rfl

theorem periphs_conv : ∀ {ps : List Peripheral} {xs : List IPeripheral}, (∀ p ∈ ps, PFix p) → PeriphsBuilt (ps.map convPeripheral) xs →
    Entrywise LiftP ps xs
  | [], xs, _, h => by cases h; exact .nil
  | p :: ps, xs, hf, h => by
    rw [List.map_cons] at h
    cases h with
    | cons h1 h2 h3 =>
      obtain ⟨y, rfl, h4⟩ := stands_plain h1 rfl
      obtain ⟨x, rfl, h5⟩ := entrywise_single h2
      exact .cons (periph_conv (hf p (by simp)) h4 h5) (periphs_conv (fun p hp => hf p (by simp [hp])) h3)

end Svd
