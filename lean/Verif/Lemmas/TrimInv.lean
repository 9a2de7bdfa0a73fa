import Verif.Lemmas.FinField
import Verif.Lemmas.Overlap
import Verif.Lemmas.POverlap
import Verif.Spec.Trim
/-
The finalisation drops elements only with a warning.
-/
namespace Svd
open Spec

theorem filter_of_none {α : Type} {p : α → Bool} {l : List α} (h : ∀ x ∈ l, p x = false) : l.filter p = [] := by
  apply List.filter_eq_nil_iff.2
  intro x hx; simp [h x hx]

theorem trim_values {vs : List IEnumValue} {l m : Int} : ∀ {out : List EnumValue} {ws : List Warn},
    finalizeEnumValues vs l m = .ok out ws → TrimValues vs out (ws.filter SaysIgnored) := by
  induction vs with
  | nil =>
    intro out ws h
    simp only [finalizeEnumValues, M.filterMapM_nil, M.pure_eq_ok] at h
    obtain ⟨rfl, rfl⟩ := h
    exact .nil
  | cons v vs ih =>
    intro out ws h
    obtain ⟨o, wa, zs, wb, ha, hb, rfl, rfl⟩ := M.filterMapM_cons_ok.1 h
    have ih := ih hb
    unfold finalizeEnumValue at ha
    split at ha
    · cases ha
    · rename_i x hx
      split at ha
      · simp only [M.pure_eq_ok] at ha
        obtain ⟨rfl, rfl⟩ := ha
        exact .keep rfl hx ih
      · simp only [M.bind_eq_ok, M.warn, M.ok.injEq, M.pure_eq_ok] at ha
        obtain ⟨_, w6, w7, ⟨-, rfl⟩, ⟨rfl, rfl⟩, rfl⟩ := ha
        exact .drop hx ih

theorem trim_conts {cs : List IEnumContainer} {l m : Int} {out : List EnumContainer} {ws : List Warn}
    (h : finalizeContainers cs l m = .ok out ws) : ∃ cs', TrimConts cs cs' (ws.filter SaysIgnored) ∧ out.Perm cs' := by
  unfold finalizeContainers at h
  simp only [M.bind_eq_ok, M.mapM_eq_ok, M.pure_eq_ok] at h
  obtain ⟨fs, w1, w2, h4, ⟨rfl, rfl⟩, rfl⟩ := h
  refine ⟨fs, ?_, sortBy_perm _⟩
  simp only [List.append_nil]
  induction h4 with
  | nil => exact .nil
  | @cons c c' w cs cs' ws h1 _ ih =>
    simp only [M.bind_eq_ok, M.pure_eq_ok] at h1
    obtain ⟨vs, w4, w5, h8, ⟨rfl, rfl⟩, rfl⟩ := h1
    rw [List.filter_append, List.append_nil]
    exact .keep (trim_values h8) rfl rfl ih

theorem trim_fields {p : Option Access} {wc : Option WriteConstraint} {fs : List IField} {size : Int} {gs : List Field}
    {ws : List Warn} (h : finalizeFields (fs.map (inheritField p wc)) size = .ok gs ws) :
    ∃ gs', TrimFields fs gs' (ws.filter SaysIgnored) ∧ gs.Perm gs' := by
  obtain ⟨os, w, h1, rfl, -, -, rfl⟩ := finalizeFields_ok h
  refine ⟨_, ?_, sortBy_perm _⟩
  have : (exceedWarns size (sortBy lsbLe (os.filterMap id))).filter SaysIgnored = [] := by
    apply filter_of_none
    intro x hx
    unfold exceedWarns at hx
    obtain ⟨g, -, rfl⟩ := List.mem_map.1 hx
    rfl
  rw [List.filter_append, this, List.append_nil]
  generalize hfs : fs.map (inheritField p wc) = fs' at h1
  clear this h
  induction h1 generalizing fs with
  | nil =>
    cases fs with
    | nil => exact .nil
    | cons _ _ => cases hfs
  | @cons f o w fs1 os ws h1 _ ih =>
    cases fs with
    | nil => cases hfs
    | cons f0 fs0 =>
      simp only [List.map_cons, List.cons.injEq] at hfs
      obtain ⟨rfl, hfs⟩ := hfs
      rw [List.filter_append]
      cases o with
      | none =>
        obtain ⟨hn, rfl⟩ := finalizeFieldOpt_none h1
        exact .drop (by rw [lowerText_eq]; exact hn) (ih hfs)
      | some g =>
        obtain ⟨-, h2⟩ := finalizeFieldOpt_some h1
        obtain ⟨cs, a, h3, -, rfl⟩ := finalizeField_ok h2
        obtain ⟨cs', h4, h5⟩ := trim_conts h3
        exact .keep rfl rfl rfl h4 h5 (ih hfs)

theorem overlap_not_ignored {raw zs : List RC} {ws : List Warn} (hn : (raw.map RC.qualName).Nodup) (hz : zs = sortBy rcLe raw)
    (h : checkRCOverlaps (registerLookup raw) (clusterLookup raw) [] zs = .ok () ws) : ws.filter SaysIgnored = [] := by
  apply filter_of_none
  intro w hw
  obtain ⟨x, y, -, -, -, -, -, ⟨-, rfl⟩ | ⟨-, rfl⟩⟩ := (scope_overlaps hn hz h w).1 hw <;> rfl

theorem trim_scope {p : Props} {b : Int} {xs : List IRC} {ys : List RC} {ws : List Warn}
    (h : ScopeFrom b (inheritRCs p xs) ys ws)
    (ih : ∀ x ∈ xs, ∀ {o : Option RC} {w : List Warn}, finalizeRC b (inheritRC p x) = .ok o w →
      TrimRC x o (w.filter SaysIgnored)) :
    ∃ raw, TrimRCs xs raw (ws.filter SaysIgnored) ∧ ys.Perm raw := by
  obtain ⟨os, w1, w2, raw, h1, h2, h3, h4, h5, rfl⟩ := h.ex
  refine ⟨raw, ?_, by rw [h4]; exact sortBy_perm _⟩
  rw [List.filter_append, overlap_not_ignored h3 h4 h5, List.append_nil, h2]
  rw [inheritRCs_eq_map] at h1
  clear h h2 h3 h4 h5
  generalize hxs : xs.map (inheritRC p) = xs' at h1
  induction h1 generalizing xs with
  | nil =>
    cases xs with
    | nil => exact .nil
    | cons _ _ => cases hxs
  | @cons x o w xs1 os ws h1 _ ihl =>
    cases xs with
    | nil => cases hxs
    | cons x0 xs0 =>
      simp only [List.map_cons, List.cons.injEq] at hxs
      obtain ⟨rfl, hxs⟩ := hxs
      rw [List.filter_append]
      have h2 := ih x0 (by simp) h1
      have h3 := ihl (fun x hx _ _ hh => ih x (by simp [hx]) hh) hxs
      cases o with
      | none => exact .drop h2 h3
      | some y => exact .keep h2 h3

theorem trim_rc (x : IRC) : ∀ {p : Props} {b : Int} {o : Option RC} {w : List Warn},
    finalizeRC b (inheritRC p x) = .ok o w → TrimRC x o (w.filter SaysIgnored) := by
  induction x using IRC.induct with
  | hr r fs =>
    intro p b o w h
    rw [inheritRC] at h
    obtain ⟨s, -, ⟨-, rfl, rfl⟩ | ⟨-, -, w1, w2, rfl, hw1, h2⟩⟩ := finalizeRC_reg h
    · exact .registerSize
    · have : w1.filter SaysIgnored = [] := by rcases hw1 with rfl | rfl <;> rfl
      rw [List.filter_append, this, List.nil_append]
      rcases h2 with ⟨hn, rfl, rfl⟩ | ⟨-, -, gs, fp, h3, -, rfl⟩
      · exact .registerReserved (by rw [lowerText_eq]; exact hn)
      · obtain ⟨gs', h4, h5⟩ := trim_fields h3
        exact .register rfl rfl h4 h5
  | hc c ch ih =>
    intro p b o w h
    rw [inheritRC] at h
    obtain ⟨s, -, ⟨-, rfl, rfl⟩ | ⟨-, -, w1, w2, ys, hw1, h2, h3⟩⟩ := finalizeRC_clu h
    · exact .clusterSize
    · have : w1.filter SaysIgnored = [] := by rcases hw1 with rfl | rfl <;> rfl
      obtain ⟨raw, h4, h5⟩ := trim_scope h2 fun x hx _ _ hh => ih x hx hh
      rcases h3 with ⟨rfl, rfl, rfl⟩ | ⟨y, ys', fp, rfl, -, rfl, rfl⟩
      · rw [List.filter_append, List.filter_append, this, List.nil_append]
        have : raw = [] := by simpa using h5.symm
        subst this
        exact .clusterEmpty h4
      · rw [List.filter_append, this, List.nil_append]
        exact .cluster rfl rfl h4 h5

theorem addressBlockWarns_ignored (l : List AddressBlock) : (addressBlockWarns l).filter SaysIgnored = [] := by
  apply filter_of_none
  intro x hx
  induction l with
  | nil => cases hx
  | cons a l ih =>
    cases l with
    | nil => cases hx
    | cons b l =>
      rw [addressBlockWarns] at hx
      rcases List.mem_append.1 hx with hx | hx
      · split at hx
        · rw [List.mem_singleton.1 hx]; rfl
        · cases hx
      · exact ih hx

/-- The processed peripherals are the resolved ones up to what the warnings account for. -/
theorem trim_finalize {hd : DeviceHd} {ps : List IPeripheral} {dev : Device} {ws : List Warn}
    (h : validateAndFinalize (inheritDevice { hd := hd, peripherals := ps }) = .ok dev ws) :
    ∃ raw, TrimPeripherals ps raw (ws.filter SaysIgnored) ∧ dev.peripherals.Perm raw := by
  obtain ⟨os, w1, w2, raw, h1, h2, h3, -, h4, h5, rfl⟩ := validateAndFinalize_ok h
  refine ⟨raw, ?_, by rw [h4]; exact sortBy_perm _⟩
  have : w2.filter SaysIgnored = [] := by
    apply filter_of_none
    intro w hw
    obtain ⟨x, y, -, -, h⟩ := ((periph_overlaps h3 h4 h5).2 w).1 hw
    rcases h with ⟨-, ⟨-, rfl⟩ | ⟨-, rfl⟩⟩ | ⟨-, ⟨-, rfl⟩ | ⟨-, rfl⟩⟩ <;> rfl
  rw [List.filter_append, this, List.append_nil, h2]
  clear h h2 h3 h4 h5 this
  simp only [inheritDevice] at h1
  generalize hps : ps.map (inheritPeripheral hd.props.toProps) = ps' at h1
  induction h1 generalizing ps with
  | nil =>
    cases ps with
    | nil => exact .nil
    | cons _ _ => cases hps
  | @cons p o w ps1 os ws h1 _ ih =>
    cases ps with
    | nil => cases hps
    | cons p0 ps0 =>
      simp only [List.map_cons, List.cons.injEq] at hps
      obtain ⟨rfl, hps⟩ := hps
      rw [List.filter_append]
      have ih := ih hps
      obtain ⟨ys, wa, h2, h3⟩ := finalizePeripheral_ok h1
      obtain ⟨raw, h4, h5⟩ := trim_scope h2 fun x hx _ _ hh => trim_rc x hh
      rcases h3 with ⟨rfl, rfl, rfl⟩ | ⟨y, ys', wb, rfl, hwb, h6⟩
      · have : raw = [] := by simpa using h5.symm
        subst this
        rw [List.filter_append]
        exact .empty h4 ih
      · have hb : wb.filter SaysIgnored = [] := by rcases hwb with rfl | rfl <;> rfl
        rcases h6 with ⟨s, -, -, rfl, rfl⟩ | ⟨-, ab, abs, fp, -, -, rfl, rfl⟩
        · rw [List.filter_append, List.filter_append, hb, List.append_nil]
          exact .size h4 ih
        · rw [List.filter_append, List.filter_append, hb, addressBlockWarns_ignored, List.append_nil, List.append_nil]
          exact .keep rfl rfl h4 h5 ih

/-! ### without warnings nothing is lost -/

theorem perm_flatMap {α β : Type} {l l' : List α} (h : l.Perm l') (f : α → List β) : (l.flatMap f).Perm (l'.flatMap f) := by
  induction h with
  | nil => exact .nil
  | cons x _ ih => simp only [List.flatMap_cons]; exact .append (.refl _) ih
  | swap x y l =>
    simp only [List.flatMap_cons, ← List.append_assoc]
    exact .append List.perm_append_comm (.refl _)
  | trans _ _ ih1 ih2 => exact ih1.trans ih2

theorem values_kept {vs : List IEnumValue} {vs' : List EnumValue} {ws : List Warn} (h : TrimValues vs vs' ws) (hw : ws = []) :
    vs'.map (·.name) = vs.map (·.name) := by
  induction h with
  | nil => rfl
  | keep h1 _ _ ih => simp [h1, ih hw]
  | drop _ _ _ => cases hw

theorem conts_kept {cs : List IEnumContainer} {cs' : List EnumContainer} {ws : List Warn} (h : TrimConts cs cs' ws)
    (hw : ws = []) (pre : List Str) : (cs'.flatMap fun c => c.values.map fun v => pre ++ [v.name]) =
      cs.flatMap fun c => c.values.map fun v => pre ++ [v.name] := by
  induction h with
  | nil => rfl
  | keep h1 _ _ _ ih =>
    obtain ⟨hw1, hw2⟩ := List.append_eq_nil_iff.1 hw
    have := congrArg (List.map fun n => pre ++ [n]) (values_kept h1 hw1)
    simp only [List.map_map, Function.comp_def] at this
    simp [this, ih hw2]

theorem fields_kept {fs : List IField} {fs' : List Field} {ws : List Warn} (h : TrimFields fs fs' ws)
    (hw : ws = []) (pre : List Str) : (fieldPaths pre fs').Perm (iFieldPaths pre fs) := by
  induction h with
  | nil => exact .refl _
  | keep h1 _ _ h4 h5 _ ih =>
    obtain ⟨hw1, hw2⟩ := List.append_eq_nil_iff.1 hw
    have ih := ih hw2
    simp only [fieldPaths, iFieldPaths] at ih
    simp only [fieldPaths, iFieldPaths, List.flatMap_cons]
    refine .append ?_ ih
    rw [h1]
    refine .cons _ ?_
    unfold valuePaths iValuePaths
    rw [← conts_kept h4 hw1]
    exact perm_flatMap h5 _
  | drop _ _ _ => cases hw

theorem pathsRCs_eq (pre : List Str) (xs : List RC) : pathsRCs pre xs = xs.flatMap (pathsRC pre) := by
  induction xs with
  | nil => rfl
  | cons x xs ih => simp [pathsRCs, ih]

theorem rcs_kept {xs : List IRC} {ys : List RC} (pre : List Str)
    (ih : ∀ x ∈ xs, ∀ {o : Option RC}, TrimRC x o [] → ∃ y, o = some y ∧ (pathsRC pre y).Perm (iPaths pre x)) :
    ∀ {ws : List Warn}, TrimRCs xs ys ws → ws = [] → (pathsRCs pre ys).Perm (iPathsL pre xs) := by
  induction xs generalizing ys with
  | nil => intro ws h _; cases h; exact .refl _
  | cons x xs ihl =>
    intro ws h hw
    cases h with
    | keep h1 h2 =>
      obtain ⟨hw1, hw2⟩ := List.append_eq_nil_iff.1 hw
      rw [hw1] at h1
      obtain ⟨y, hy, hp⟩ := ih x (by simp) h1
      cases hy
      simp only [pathsRCs, iPathsL]
      exact .append hp (ihl (fun x hx _ hh => ih x (by simp [hx]) hh) h2 hw2)
    | drop h1 h2 =>
      obtain ⟨hw1, hw2⟩ := List.append_eq_nil_iff.1 hw
      rw [hw1] at h1
      obtain ⟨y, hy, -⟩ := ih x (by simp) h1
      cases hy

theorem rc_kept (x : IRC) : ∀ (pre : List Str) {o : Option RC}, TrimRC x o [] →
    ∃ y, o = some y ∧ (pathsRC pre y).Perm (iPaths pre x) := by
  induction x using IRC.induct with
  | hr r fs =>
    intro pre o h
    cases h with
    | @register _ _ r' _ _ h1 _ h3 h4 =>
      refine ⟨_, rfl, ?_⟩
      simp only [pathsRC, iPaths]
      rw [h1]
      exact .cons _ ((perm_flatMap h4 _).trans (fields_kept h3 rfl _))
  | hc c ch ih =>
    intro pre o h
    generalize hws : ([] : List Warn) = ws at h
    cases h with
    | cluster h1 _ h3 h4 =>
      refine ⟨_, rfl, ?_⟩
      simp only [pathsRC, iPaths]
      rw [h1]
      refine .cons _ (.trans ?_ (rcs_kept _ (fun x hx _ hh => ih x hx _ hh) h3 hws.symm))
      rw [pathsRCs_eq, pathsRCs_eq]
      exact perm_flatMap h4 _
    | clusterSize => cases hws
    | clusterEmpty _ => simp at hws

theorem periphs_kept {ps : List IPeripheral} {qs : List Peripheral} {ws : List Warn} (h : TrimPeripherals ps qs ws)
    (hw : ws = []) : (processedPaths qs).Perm (resolvedPaths ps) := by
  induction h with
  | nil => exact .refl _
  | keep h1 _ h3 h4 _ ih =>
    obtain ⟨hw1, hw2⟩ := List.append_eq_nil_iff.1 hw
    have ih := ih hw2
    simp only [processedPaths, resolvedPaths] at ih
    simp only [processedPaths, resolvedPaths, List.flatMap_cons]
    refine .append ?_ ih
    rw [h1]
    refine .cons _ (.trans ?_ (rcs_kept _ (fun x _ _ hh => rc_kept x _ hh) h3 hw1))
    rw [pathsRCs_eq, pathsRCs_eq]
    exact perm_flatMap h4 _
  | empty _ _ _ => simp at hw
  | size _ _ _ => simp at hw
end Svd
