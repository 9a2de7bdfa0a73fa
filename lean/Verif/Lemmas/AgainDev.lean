import Verif.Lemmas.AgainFin
import Verif.Lemmas.FinWarn
import Verif.Props.Misc
/-
The converted form of a processed device can be processed again and gives the device back.
-/
namespace Svd
open Spec M

section
variable {ord : List Nat → List Nat} {fuel : Nat} {d : SDevice} {dev : Device} {ws : List Warn}

/-! ### peripherals -/

theorem bind_ex {α β : Type} {x : M α} {f : α → M β} {a : α} {b : β} {w : List Warn} (h : x = .ok a w) (h2 : ∃ w', f a = .ok b w') :
    ∃ w', M.bind x f = .ok b w' := by
  obtain ⟨w', h2⟩ := h2
  exact ⟨_, M.bind_eq_ok.2 ⟨a, w, w', h, h2, rfl⟩⟩

theorem periph_lift {p : Peripheral} {x : IPeripheral} (h : LiftP p x) (hf : PFix p) (dv : Props) :
    ∃ w, finalizePeripheral (inheritPeripheral dv x) = .ok (some p) w := by
  obtain ⟨hd, rcs⟩ := x
  obtain ⟨h1, ys', h2, h3⟩ := h
  simp only at h1 h3
  subst h1
  obtain ⟨raw, w1, w2, h4, h5⟩ := scope_lift (b := p.baseAddress) (e := convProps p.props) hf.ok.scope hf.alts h2 h3
    (fun x hx y hy => rc_lift x (hf.fix x hx) (hf.ok.tree x hx) hy)
  obtain ⟨z, zs, ab, abs, e1, e2, e3, e4⟩ := hf.ok.ends
  have hsz := hf.okSize
  have hmod : p.props.size % 8 = 0 := by unfold OkSize at hsz; omega
  unfold finalizePeripheral inheritPeripheral
  simp only [show (liftPeriphHd p).props = convProps p.props from rfl, inherit_conv]
  have h6 : finalizeRCs p.baseAddress (inheritRCs (convProps p.props) rcs) = .ok (z :: zs) (w1 ++ w2) := by
    rw [← e1]
    exact M.bind_eq_ok.2 ⟨raw, w1, w2, h4, h5, rfl⟩
  refine bind_ex h6 ?_
  simp only
  refine bind_ex (w := if p.baseAddress % 4 ≠ 0 then [.peripheralUnaligned p.name] else [])
    (show M.warnIf (decide (p.baseAddress % 4 ≠ 0)) (.peripheralUnaligned p.name) = .ok () _ by
      by_cases hb : p.baseAddress % 4 = 0 <;> simp [M.warnIf, hb, M.pure, M.warn]) ?_
  rw [if_neg (by simp [convProps, hmod])]
  rw [show (liftPeriphHd p).addressBlocks = ab :: abs from e2]
  simp only
  refine bind_ex rfl ?_
  refine bind_ex (validator_conv p.props) ⟨[], ?_⟩
  simp only [M.pure, M.ok.injEq, Option.some.injEq, and_true, liftPeriphHd]
  rw [← e3, ← e4, ← hf.ok.sizeEff, ← e2, ← e1, ← hf.ok.size, ← hf.ok.regs]

theorem checkP_ok {lk : AltLookup} (hn : (lk.map (·.1)).Nodup) : ∀ (ps : List Peripheral) (a b : List (Int × Str)),
    (∃ w, checkPeriphOverlaps lk a b ps = .ok () w) ↔
      ∀ p ∈ ps, ∀ a, p.alternatePeripheral = some a → ∀ z, Connected lk a z → z ∈ lk.map (·.1)
  | [], a, b => ⟨fun _ p hp => (by simp at hp), fun _ => ⟨[], rfl⟩⟩
  | p :: ps, a, b => by
    rw [checkPeriphOverlaps]
    constructor
    · rintro ⟨w, hw⟩
      obtain ⟨l, w1, w2, h1, h2, -⟩ := M.bind_eq_ok.1 hw
      obtain ⟨_, _, w3, _, h3, _⟩ := M.bind_eq_ok.1 h2
      obtain ⟨_, _, w4, _, h4, _⟩ := M.bind_eq_ok.1 h3
      have h5 := (checkP_ok hn ps _ _).1 ⟨w4, h4⟩
      have h6 : ∃ l, allowedAlternates lk true p.alternatePeripheral = .ok l [] := by
        cases ha : p.alternatePeripheral with
        | none => exact ⟨[], rfl⟩
        | some a =>
          rw [ha] at h1
          rcases allowedAlternates_spec hn true a with ⟨l, h6, -⟩ | ⟨-, h6, -⟩
          · exact ⟨l, h6⟩
          · rw [h6] at h1; cases h1
      intro q hq a ha z hz
      rcases List.mem_cons.1 hq with rfl | hq
      · exact (allowed_ok hn).1 h6 rfl a ha z hz
      · exact h5 q hq a ha z hz
    · intro h
      obtain ⟨l, hl⟩ := (allowed_ok hn (strict := true) (o := p.alternatePeripheral)).2 fun _ => h p (by simp)
      obtain ⟨w, hw⟩ := (checkP_ok hn ps (a ++ [(p.endAddressEffective, p.name)]) (b ++ [(p.endAddress, p.name)])).2 fun q hq => h q (by simp [hq])
      rw [hl, M.bind_ok_nil]
      exact ⟨_, M.bind_eq_ok.2 ⟨(), _, _, rfl, M.bind_eq_ok.2 ⟨(), _, w, rfl, hw, rfl⟩, rfl⟩⟩

theorem periphsLoop_lift {xs : List IPeripheral} {ys : List Peripheral} (h : Entrywise (fun x y => ∃ w, finalizePeripheral x = .ok (some y) w) xs ys) :
    ∀ {seen : List Str}, (∀ y ∈ ys, y.name ∉ seen) → (ys.map (·.name)).Nodup → ∃ w, finalizePeripheralsLoop seen xs = .ok ys w := by
  induction h with
  | nil => intros; exact ⟨[], rfl⟩
  | @cons x y xs ys h1 h2 ih =>
    intro seen hs hn
    simp only [List.map_cons, List.nodup_cons] at hn
    obtain ⟨w, h1⟩ := h1
    obtain ⟨w2, h3⟩ := ih (seen := y.name :: seen) (by
      intro z hz hc
      rcases List.mem_cons.1 hc with hc | hc
      · exact hn.1 (hc ▸ List.mem_map.2 ⟨z, hz, rfl⟩)
      · exact hs z (by simp [hz]) hc) hn.2
    refine ⟨w ++ w2, ?_⟩
    rw [finalizePeripheralsLoop]
    refine M.bind_eq_ok.2 ⟨some y, w, w2, h1, ?_, rfl⟩
    simp only
    rw [if_neg (by simpa using hs y (by simp))]
    exact M.bind_eq_ok.2 ⟨ys, w2, [], h3, rfl, by simp⟩

/-! ### what is known about a processed device -/

theorem proc_fix (h : processDevice ord fuel d = .ok dev ws) (hr : Reprocessable dev) {p : Peripheral} (hp : p ∈ dev.peripherals) :
    ∀ (x : RC), Below p.rcs x → Fix x := by
  have hpo := process_periphOK h hp
  have hfin : ∀ x, Below p.rcs x → ∃ b, FinT b x := by
    intro x hb
    obtain ⟨cs, hpath⟩ := Below.path hb
    exact ⟨_, FinT.path hpath hpo.tree⟩
  intro x
  induction x using RC.induct with
  | hr r =>
    intro hb
    obtain ⟨b, ht⟩ := hfin _ hb
    cases ht with
    | reg t1 t2 t3 t4 =>
      have hreg : HasRegister dev r := ⟨p, hp, hb⟩
      exact .reg t2 (proc_regFix h hreg) (hr.registers r hreg).1 (hr.registers r hreg).2 fun f hf => hr.fields f ⟨r, hreg, hf⟩
  | hc c ch ih =>
    intro hb
    obtain ⟨b, ht⟩ := hfin _ hb
    have hclu : HasCluster dev c ch := ⟨p, hp, hb⟩
    cases ht with
    | clu t1 t2 t3 t4 t5 t6 =>
      refine .clu t2 (hr.clusters c _ hclu).1 (C19_cluster h hclu).1 (hr.clusters c _ hclu).2 ?_ ?_
      · obtain ⟨ps, w1, w2, h1, h2, rfl⟩ := processDevice_ok.1 h
        obtain ⟨cs, hpath⟩ := Below.path hb
        obtain ⟨ip, -, -, -, ics, x, w, -, hfx, -⟩ := trace_rc h2 hp hpath
        cases x with
        | reg r fs =>
          rw [inheritRC] at hfx
          obtain ⟨_, _, _, _, _, _, _, _, _, _, _, h3⟩ := finalizeRC_reg_some hfx
          cases h3
        | clu ic ich =>
          rw [inheritRC] at hfx
          obtain ⟨s, fp, z, zs, w3, -, -, hsc, -, -, h4⟩ := finalizeRC_clu_some hfx
          simp only [RC.clu.injEq] at h4
          rw [h4.2]
          exact hsc.alts
      · intro x hx
        refine ih x hx ?_
        exact Below.trans hb (.here hx)

theorem proc_pfix (h : processDevice ord fuel d = .ok dev ws) (hr : Reprocessable dev) {p : Peripheral} (hp : p ∈ dev.peripherals) : PFix p := by
  have hs := C23_blocks_interrupts_sorted h hp
  refine ⟨process_periphOK h hp, fun x hx => proc_fix h hr hp x (.here hx), ?_, (hr.periphs p hp).1, (C19_peripheral h hp).1, (hr.periphs p hp).2, hs.1, hs.2⟩
  obtain ⟨ps, w1, w2, h1, h2, rfl⟩ := processDevice_ok.1 h
  obtain ⟨ip, -, y, ys, w, ab, abs, fp, hsc, -, -, -, rfl⟩ := trace_periph h2 hp
  exact hsc.alts

theorem cpu_again (c : SCpu) : processCpu (convCpu (processCpu c)) = processCpu c := by
  have h1 : ∀ s : SSauConfig, processSauConfig (convSauConfig (processSauConfig s)) = processSauConfig s := by
    intro s
    simp [processSauConfig, convSauConfig, processSauRegion, convSauRegion]
  simp only [processCpu, convCpu, Option.getD_some, Option.map_map]
  congr 1
  · split <;> simp_all
  · cases c.sauConfig with
    | none => rfl
    | some s => simp [h1]

theorem head_again (h : processDevice ord fuel d = .ok dev ws) : deviceHead (convDevice dev).hd = dev.hd := by
  rw [process_head h]
  obtain ⟨hd, ps⟩ := dev
  have := process_head h
  simp only at this
  subst this
  simp only [deviceHead, convDevice, convProps, deviceProps, Option.getD_some, Option.map_map]
  congr 1
  cases d.hd.cpu with
  | none => rfl
  | some c => simp [cpu_again]


/-! ### resolution of the converted device -/

theorem sbelow_conv {xs : List SRC} {x : SRC} (h : SBelow xs x) : ∀ {ys : List RC}, xs = convRCs ys → ∃ y, Below ys y ∧ x = convRC y := by
  induction h with
  | here hx =>
    rintro ys rfl
    obtain ⟨y, hy, rfl⟩ := mem_convRCs.1 hx
    exact ⟨y, .here hy, rfl⟩
  | inside hx _ ih =>
    rintro ys rfl
    obtain ⟨y, hy, he⟩ := mem_convRCs.1 hx
    cases y with
    | reg r => cases he
    | clu c ch =>
      simp only [convRC, SRC.clu.injEq] at he
      obtain ⟨rfl, rfl⟩ := he
      obtain ⟨z, hz, rfl⟩ := ih rfl
      exact ⟨z, .inside hy hz, rfl⟩

/-- The declared elements of a converted device. -/
inductive ConvDecl (dev : Device) : Parsed → Prop
  | device : ConvDecl dev .device
  | periph {p} : p ∈ dev.peripherals → ConvDecl dev (.periph (convPeripheral p).hd)
  | clu {c ch} : HasCluster dev c ch → ConvDecl dev (.clu (convClusterHd c))
  | reg {r} : HasRegister dev r → ConvDecl dev (.reg (convRegister r))
  | field {f} : HasField dev f → ConvDecl dev (.field (convField f))
  | enum {f c} : HasField dev f → c ∈ f.containers → ConvDecl dev (.enum (convEnumContainer c))

theorem conv_reg {p : SPeriphT} {r : SRegister} (hp : p ∈ (convDevice dev).peripherals) (hb : SBelow p.rcs (.reg r)) :
    ∃ q, r = convRegister q ∧ HasRegister dev q := by
  obtain ⟨q, hq, rfl⟩ := List.mem_map.1 hp
  obtain ⟨y, hy, he⟩ := sbelow_conv hb rfl
  cases y with
  | reg r' =>
    simp only [convRC, SRC.reg.injEq] at he
    exact ⟨r', he, q, hq, hy⟩
  | clu => cases he

theorem declared_conv {p : Parsed} (h : Declared (convDevice dev) p) : ConvDecl dev p := by
  cases h with
  | device => exact .device
  | periph hp =>
    obtain ⟨q, hq, rfl⟩ := List.mem_map.1 hp
    exact .periph hq
  | clu hp hb =>
    obtain ⟨q, hq, rfl⟩ := List.mem_map.1 hp
    obtain ⟨y, hy, he⟩ := sbelow_conv hb rfl
    cases y with
    | reg r' => cases he
    | clu c ch =>
      simp only [convRC, SRC.clu.injEq] at he
      obtain ⟨rfl, rfl⟩ := he
      exact .clu ⟨q, hq, hy⟩
  | reg hp hb =>
    obtain ⟨r, rfl, hr⟩ := conv_reg hp hb
    exact .reg hr
  | field hp hb hf =>
    obtain ⟨r, rfl, hr⟩ := conv_reg hp hb
    obtain ⟨f, hf', rfl⟩ := List.mem_map.1 hf
    exact .field ⟨r, hr, hf'⟩
  | enum hp hb hf he =>
    obtain ⟨r, rfl, hr⟩ := conv_reg hp hb
    obtain ⟨f, hf', rfl⟩ := List.mem_map.1 hf
    obtain ⟨c, hc, rfl⟩ := List.mem_map.1 he
    exact .enum ⟨r, hr, hf'⟩ hc

theorem underived_conv (dev : Device) : Underived (convDevice dev) := by
  intro p hp
  cases declared_conv hp <;> rfl

theorem extractDim_plain {ty : Level} {n : Str} {disp : Option Str} (hn : ¬ Contains listMark n) (hd : ∀ s, disp = some s → ¬ Contains listMark s) :
    ∃ ds, extractDim ty n {} disp none none = .ok (false, [n], [ds]) [] := by
  have h1 : hasSub lstMark n = false := hasSub_false.2 hn
  have h2 : dispHas lstMark (if ty = .register then disp else none) = false := by
    split
    · cases disp with
      | none => rfl
      | some s => exact hasSub_false.2 (hd s rfl)
    · rfl
  refine ⟨if ty = .register then disp else none, ?_⟩
  unfold extractDim
  have h3 : orIfNone disp none = disp := by cases disp <;> rfl
  simp only [orIfNone, Option.bind_none, Option.isNone_none, Option.isSome_none, h1, Bool.and_false, Bool.false_and, Bool.false_eq_true, if_false,
    M.pure_bind, Bool.true_and]
  simp only [orIfNone] at h3
  rw [h3, h2]
  simp only [Bool.false_eq_true, if_false, processDim, M.pure_bind]
  rfl

theorem pos_again (f : Field) : ∃ w, fieldMsbLsb (convField f) none = .ok (f.msb, f.lsb) w := by
  simp only [fieldMsbLsb, convField, orIfNone, Option.map_none, Option.isSome_some, Option.isSome_none, Bool.or_false, Bool.or_true, if_true, if_false,
    Bool.false_eq_true, M.pure_bind]
  refine bind_ex (w := if f.msb < f.lsb then [.msbLtLsb f.name] else [])
    (show M.warnIf (decide (f.msb < f.lsb)) (.msbLtLsb f.name) = .ok () _ by
      by_cases hb : f.msb < f.lsb <;> simp [M.warnIf, hb, M.pure, M.warn]) ⟨[], rfl⟩

theorem expand_plain {p : Parsed} {n : Str} {ds : Option Str} {y : Processed} (h1 : extractDimOf p none = .ok (false, [n], [ds]) [])
    (h2 : ∃ w, createDimable 0 n ds p none = .ok y w) : ∃ w, expandM p = .ok (false, [y]) w := by
  obtain ⟨w, h2⟩ := h2
  unfold expandM
  refine bind_ex h1 ?_
  refine bind_ex (a := [y]) (w := w) ?_ ⟨[], rfl⟩
  simp only [createAll, h2, M.bind, M.pure]
  simp

theorem expand_field {f : Field} (hn : ¬ Contains listMark f.name) : ∃ w, expandM (.field (convField f)) = .ok (false, [.field (liftFieldHd f)]) w := by
  obtain ⟨ds, h1⟩ := extractDim_plain (ty := .field) (disp := none) hn (by simp)
  obtain ⟨w, h2⟩ := pos_again f
  refine expand_plain (p := .field (convField f)) h1 ⟨w, ?_⟩
  simp only [createDimable, processField, h2, M.bind, M.pure]
  simp [convField, liftFieldHd, mergeDim, orIfNone_none, atIndex]

theorem able_conv (h : processDevice ord fuel d = .ok dev ws) (hr : Reprocessable dev) : Able (convDevice dev) := by
  have hsize : ∀ {x : RC} {p}, p ∈ dev.peripherals → Below p.rcs x → 0 ≤ x.size := by
    intro x p hp hb
    have := (proc_fix h hr hp x hb).okSize
    unfold OkSize at this; omega
  refine ⟨?_, ?_, ?_, ?_, ?_⟩
  · intro hc
    exact hr.some (List.map_eq_nil_iff.1 hc)
  · intro p hp hnd hne
    cases declared_conv hp with
    | device => exact absurd rfl hnd
    | @periph q hq =>
      obtain ⟨ds, h1⟩ := extractDim_plain (ty := .peripheral) (disp := none) (hr.periphs _ hq).1 (by simp)
      obtain ⟨w, h2⟩ := expand_plain (p := .periph (convPeripheral q).hd) h1 ⟨[], rfl⟩
      exact ⟨_, w, h2⟩
    | @clu c ch hq =>
      obtain ⟨ds, h1⟩ := extractDim_plain (ty := .cluster) (disp := none) (hr.clusters _ _ hq).1 (by simp)
      obtain ⟨w, h2⟩ := expand_plain (p := .clu (convClusterHd c)) h1 ⟨[], rfl⟩
      exact ⟨_, w, h2⟩
    | @reg r hq =>
      obtain ⟨ds, h1⟩ := extractDim_plain (ty := .register) (hr.registers _ hq).1 (hr.registers _ hq).2
      obtain ⟨w, h2⟩ := expand_plain (p := .reg (convRegister r)) h1 ⟨[], rfl⟩
      exact ⟨_, w, h2⟩
    | field hq =>
      obtain ⟨w, h1⟩ := expand_field (hr.fields _ hq).1
      exact ⟨_, w, h1⟩
    | enum => cases hne
  · intro p hp s hs
    cases declared_conv hp with
    | device => cases hs
    | periph hq =>
      cases hs
      have := (proc_pfix h hr hq).okSize
      unfold OkSize at this; omega
    | clu hq =>
      cases hs
      obtain ⟨q, hq, hb⟩ := hq
      exact hsize hq hb
    | reg hq =>
      cases hs
      obtain ⟨q, hq, hb⟩ := hq
      exact hsize hq hb
    | field => cases hs
    | enum => cases hs
  · intro g hg hd hhd c hc
    obtain ⟨f, rfl, hf⟩ : ∃ f, g = convField f ∧ HasField dev f := by
      generalize hx : Parsed.field g = x at hg
      cases declared_conv hg <;> cases hx
      exact ⟨_, rfl, by assumption⟩
    obtain ⟨w, h1⟩ := expand_field (hr.fields f hf).1
    have : hd = liftFieldHd f := by
      simp only [headsOf, expandO, h1, List.mem_singleton, Processed.field.injEq] at hhd
      exact hhd
    subst this
    obtain ⟨k, hk, rfl⟩ := List.mem_map.1 hc
    exact ⟨_, _, container_again ((proc_contsFix h hf).each k hk) ((hr.fields f hf).2 k hk)⟩
  · intro g hg
    obtain ⟨f, rfl, hf⟩ : ∃ f, g = convField f ∧ HasField dev f := by
      generalize hx : Parsed.field g = x at hg
      cases declared_conv hg <;> cases hx
      exact ⟨_, rfl, by assumption⟩
    have hc := proc_contsFix h hf
    refine ⟨?_, ?_, ?_⟩
    · have : (convField f).containers.map (fun c => c.usage.getD .readWrite) = f.containers.map (·.usage) := by
        simp [convField, convEnumContainer, Function.comp_def]
      rw [this]; exact hc.usages
    · simpa [convField] using hc.two
    · intro h2 c hcm
      obtain ⟨k, hk, rfl⟩ := List.mem_map.1 hcm
      exact hc.both (by simpa [convField] using h2) k hk

/-- The converted form of a processed device is processed to the same device. -/
theorem process_again (h : processDevice ord fuel d = .ok dev ws) (hr : Reprocessable dev) (ord' : List Nat → List Nat) (f : Nat) :
    ∃ ws', processDevice ord' (f + 2) (convDevice dev) = .ok dev ws' := by
  obtain ⟨ps, w1, h1⟩ := resolve_total ord' f (underived_conv dev) (able_conv h hr)
  obtain ⟨ps', h2, h3, -⟩ := resolve_built (underived_conv dev) h1
  have h4 := periphs_conv (fun p hp => proc_pfix h hr hp) h2
  have h5 : Entrywise (fun x p => ∃ w, finalizePeripheral (inheritPeripheral dev.hd.props.toProps x) = .ok (some p) w) ps' dev.peripherals :=
    entrywise_flip (entrywise_imp h4 fun p hp x _ hl => periph_lift hl (proc_pfix h hr hp) _)
  obtain ⟨raw, h6, h7⟩ := entrywise_perm h3 h5
  have h8 : Entrywise (fun x p => ∃ w, finalizePeripheral x = .ok (some p) w) (ps.map (inheritPeripheral dev.hd.props.toProps)) raw := by
    clear h7 h3 h1
    induction h6 with
    | nil => exact .nil
    | cons h _ ih => exact .cons h ih
  obtain ⟨_, _, w2, -, hv, -⟩ := processDevice_ok.1 h
  obtain ⟨os, v1, v2, rw0, -, -, hn, -, hs, hchk, -⟩ := validateAndFinalize_ok hv
  have hp0 : dev.peripherals.Perm rw0 := by rw [hs]; exact sortBy_perm _
  have hnd : (dev.peripherals.map (·.name)).Nodup := (hp0.map _).nodup_iff.2 hn
  have hnr : (raw.map (·.name)).Nodup := (h7.map _).nodup_iff.2 hnd
  obtain ⟨w3, h9⟩ := periphsLoop_lift h8 (seen := []) (by simp) hnr
  have hsort : sortBy periphLe raw = dev.peripherals := by
    refine (sorted_unique ((sortBy_perm _).trans h7).symm (by rw [hs]; exact sortBy_sorted periphLe_total _) (sortBy_sorted periphLe_total _) ?_).symm
    intro a ha b hb hab hba
    refine inj_of_nodup_map hnd ha hb ?_
    have h1 := intStrLe_spec.1 hab
    have h2 := intStrLe_spec.1 hba
    rcases h1 with h1 | ⟨h1, h3⟩ <;> rcases h2 with h2 | ⟨h2, h4⟩
    · simp only at h1 h2; omega
    · simp only at h1 h2; omega
    · simp only at h1 h2; omega
    · exact strLe_antisymm _ _ ((strLe_iff _ _).2 h3) ((strLe_iff _ _).2 h4)
  have hkeys : ∀ l : List Peripheral, (peripheralLookup l).map (·.1) = l.map (·.name) := by
    intro l; simp [peripheralLookup, Function.comp_def]
  have hk := (checkP_ok (by rw [hkeys]; exact hn) dev.peripherals [] []).1 ⟨_, hchk⟩
  have hpl : (peripheralLookup rw0).Perm (peripheralLookup raw) := (hp0.symm.trans h7.symm).map _
  obtain ⟨w4, h10⟩ := (checkP_ok (lk := peripheralLookup raw) (by rw [hkeys]; exact hnr) dev.peripherals [] []).2 (by
    intro p hp a ha z hz
    have h1 := hk p hp a ha z (Connected.congr (fun q hq => hpl.mem_iff.2 hq) hz)
    exact (hpl.map _).mem_iff.1 h1)
  refine ⟨w1 ++ (w3 ++ w4), processDevice_ok.2 ⟨ps, w1, w3 ++ w4, h1, ?_, rfl⟩⟩
  rw [head_again h]
  unfold validateAndFinalize finalizePeripherals
  refine M.bind_eq_ok.2 ⟨dev.peripherals, w3 ++ w4, [], M.bind_eq_ok.2 ⟨raw, w3, w4, h9, ?_, rfl⟩, rfl, by simp⟩
  simp only
  rw [hsort]
  exact M.bind_eq_ok.2 ⟨(), w4, [], h10, rfl, by simp⟩

end
end Svd
