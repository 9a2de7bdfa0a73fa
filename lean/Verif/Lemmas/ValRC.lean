import Verif.Lemmas.ValField
import Verif.Lemmas.FinWarn
import Verif.Lemmas.AgainFix
/-
Exact warnings and exceptions of the validation of registers and clusters.
-/
namespace Svd
open M Spec

instance (s : Int) : Decidable (Supported s) := by unfold Supported; infer_instance

/-- The first step, as an equation. -/
theorem checkSizeAlign_eq (n : Str) (s off : Int) :
    checkSizeAlign n (some s) off =
      if s % 8 ≠ 0 then .ok none [.regClusterBadSize n]
      else if Supported s then .ok (some s) (if off % min (s / 8) 4 ≠ 0 then [.regClusterUnaligned n] else [])
      else .err (.process .unsupportedSize) := by
  unfold checkSizeAlign
  dsimp only
  by_cases h : s % 8 ≠ 0
  · rw [if_pos h, if_pos h]; rfl
  · rw [if_neg h, if_neg h]
    have h8 : toByte s = .ok (s / 8) [] := by unfold toByte; rw [if_neg h]; rfl
    rw [h8, M.bind_ok_nil]
    by_cases hs : Supported s
    · rw [if_pos hs]
      have hb : getAlignment (s / 8) = .ok (min (s / 8) 4) [] := by
        rcases hs with rfl | rfl | rfl | rfl | rfl <;> rfl
      rw [hb, M.bind_ok_nil]
      by_cases ho : off % min (s / 8) 4 ≠ 0
      · rw [if_pos ho]
        simp only [M.warnIf, decide_eq_true ho, if_true]; rfl
      · rw [if_neg ho]
        simp only [M.warnIf, decide_eq_false ho]; rfl
    · rw [if_neg hs]
      have hb : getAlignment (s / 8) = .err (.process .unsupportedSize) := by
        unfold Supported at hs
        unfold getAlignment
        rw [if_neg (by omega), if_neg (by omega), if_neg (by omega), if_neg (by omega), if_neg (by omega)]
        rfl
      rw [hb]; rfl

/-- Two of the kept elements share a name. -/
theorem finalizeRCsLoop_err {b : Int} {xs : List IRC} : ∀ {seen : List Str} {e : Exn},
    finalizeRCsLoop b seen xs = .err e →
    (∃ x ∈ xs, finalizeRC b x = .err e) ∨
    ∃ pre x post y w, xs = pre ++ x :: post ∧ finalizeRC b x = .ok (some y) w ∧
      e = .process (.duplicateRegCluster y.qualName) ∧
      (y.qualName ∈ seen ∨ ∃ x' ∈ pre, ∃ y' w', finalizeRC b x' = .ok (some y') w' ∧ y'.qualName = y.qualName) := by
  induction xs with
  | nil => intro seen e h; simp [finalizeRCsLoop] at h
  | cons x xs ih =>
    intro seen e h
    rw [finalizeRCsLoop] at h
    rcases M.bind_eq_err.1 h with h | ⟨o, w, h1, h⟩
    · exact Or.inl ⟨x, by simp, h⟩
    · cases o with
      | none =>
        rcases ih h with ⟨z, hz, h2⟩ | ⟨pre, z, post, y, w', rfl, h2, h3, h4⟩
        · exact Or.inl ⟨z, by simp [hz], h2⟩
        · refine Or.inr ⟨x :: pre, z, post, y, w', rfl, h2, h3, h4.imp id ?_⟩
          rintro ⟨x', hx', h5⟩
          exact ⟨x', by simp [hx'], h5⟩
      | some y0 =>
        dsimp only at h
        split at h
        · rename_i hc
          cases h
          exact Or.inr ⟨[], x, xs, y0, w, rfl, h1, rfl, Or.inl (by simpa using hc)⟩
        · simp only [M.bind_eq_err, M.pure_ne_err, and_false, exists_false, or_false] at h
          rcases ih h with ⟨z, hz, h2⟩ | ⟨pre, z, post, y, w', rfl, h2, h3, h4⟩
          · exact Or.inl ⟨z, by simp [hz], h2⟩
          · refine Or.inr ⟨x :: pre, z, post, y, w', rfl, h2, h3, ?_⟩
            rcases h4 with h4 | ⟨x', hx', h5⟩
            · rcases List.mem_cons.1 h4 with h5 | h5
              · exact Or.inr ⟨x, by simp, y0, w, h1, h5.symm⟩
              · exact Or.inl h5
            · exact Or.inr ⟨x', by simp [hx'], h5⟩

/-- The overlap check fails only for a cluster connected with an unknown name. -/
theorem checkRCOverlaps_err {rl cl : AltLookup} (h1 : (rl.map (·.1)).Nodup) (h2 : (cl.map (·.1)).Nodup) {xs : List RC} :
    ∀ {iv : List (Int × Str)} {e : Exn}, checkRCOverlaps rl cl iv xs = .err e →
    e = .keyError ∧ ∃ c ch a z, .clu c ch ∈ xs ∧ c.alternateCluster = some a ∧ Connected cl a z ∧ z ∉ cl.map (·.1) := by
  induction xs with
  | nil => intro iv e h; simp [checkRCOverlaps] at h
  | cons x xs ih =>
    intro iv e h
    have lift : ∀ {iv' : List (Int × Str)}, checkRCOverlaps rl cl iv' xs = .err e →
        e = .keyError ∧ ∃ c ch a z, .clu c ch ∈ x :: xs ∧ c.alternateCluster = some a ∧ Connected cl a z ∧ z ∉ cl.map (·.1) := by
      intro iv' h
      obtain ⟨h3, c, ch, a, z, h4, h5⟩ := ih h
      exact ⟨h3, c, ch, a, z, by simp [h4], h5⟩
    cases x with
    | reg r =>
      rw [checkRCOverlaps] at h
      split at h
      · exact lift h
      · rcases M.bind_eq_err.1 h with h | ⟨al, w, -, h⟩
        · exfalso
          cases ha : r.alternateRegister with
          | none => rw [ha] at h; cases h
          | some a =>
            rw [ha] at h
            rcases allowedAlternates_spec h1 false a with ⟨l, h3, -⟩ | ⟨h3, -⟩
            · rw [h3] at h; cases h
            · cases h3
        · rcases M.bind_eq_err.1 h with h | ⟨_, _, -, h⟩
          · cases h
          · exact lift h
    | clu c ch =>
      rw [checkRCOverlaps] at h
      rcases M.bind_eq_err.1 h with h | ⟨al, w, -, h⟩
      · cases ha : c.alternateCluster with
        | none => rw [ha] at h; cases h
        | some a =>
          rw [ha] at h
          rcases allowedAlternates_spec h2 true a with ⟨l, h3, -⟩ | ⟨-, h3, z, h4, h5⟩
          · rw [h3] at h; cases h
          · rw [h3] at h; cases h
            exact ⟨rfl, c, ch, a, z, by simp, ha, h4, h5⟩
      · rcases M.bind_eq_err.1 h with h | ⟨_, _, -, h⟩
        · cases h
        · exact lift h

/-- An unknown name is the alternate some listed element declares. -/
theorem connected_dangling {l : List (Str × Option Str)} {a z : Str} (h : Connected l a z) (hz : z ∉ l.map (·.1)) :
    z = a ∨ ∃ y, (y, some z) ∈ l := by
  cases h with
  | refl => exact Or.inl rfl
  | step _ hl =>
    rcases hl with hl | hl
    · exact Or.inr ⟨_, hl⟩
    · exact absurd (List.mem_map.2 ⟨_, hl, rfl⟩) hz

/-- What the processed element keeps of the resolved one. -/
structure SameElement (x : IRC) (y : RC) : Prop where
  name : scopeName y = ircScopeName x
  isReg : isRegister y = true ↔ ∃ r fs, x = .reg r fs
  clu : ∀ c ch, x = .clu c ch → ∃ c' ch', y = .clu c' ch' ∧ c'.name = c.name ∧ c'.alternateCluster = c.alternateCluster

theorem sameElement_inherit {e : Props} {x : IRC} {b : Int} {y : RC} {w : List Warn}
    (h : finalizeRC b (inheritRC e x) = .ok (some y) w) : SameElement x y := by
  cases x with
  | reg r fs =>
    rw [inheritRC] at h
    obtain ⟨s, p, gs, w, -, -, -, -, -, -, -, h1⟩ := finalizeRC_reg_some h
    subst h1
    refine ⟨rfl, ⟨fun _ => ⟨r, fs, rfl⟩, fun _ => rfl⟩, fun c ch h => by cases h⟩
  | clu c ch =>
    rw [inheritRC] at h
    obtain ⟨s, p, z, zs, w, -, -, -, -, -, h1⟩ := finalizeRC_clu_some h
    subst h1
    refine ⟨rfl, ⟨(by intro h; cases h), (by rintro ⟨r, fs, h⟩; cases h)⟩, ?_⟩
    intro c' ch' h
    cases h
    exact ⟨_, _, rfl, rfl, rfl⟩


/-- What the validation reports about an element and everything in it. -/
def TreeWarning (e : Props) (x : IRC) (u : Warn) : Prop :=
  ElementWarning e x u ∨ ∃ c ch, x = .clu c ch ∧ WholeBytes (over c.props e) ∧
    ∃ e' ys, Examined (over c.props e) ch e' ys ∧ ∃ y ∈ ys, ElementWarning e' y u

/-- Why an element and everything in it is refused. -/
def TreeDefect (e : Props) (x : IRC) (ex : Exn) : Prop :=
  ElementDefect e x ex ∨ ∃ c ch, x = .clu c ch ∧ WholeBytes (over c.props e) ∧
    ∃ e' ys, Examined (over c.props e) ch e' ys ∧ (ScopeDefect e' ys ex ∨ ∃ y ∈ ys, ElementDefect e' y ex)

theorem examined_warning {e : Props} {xs : List IRC} {u : Warn} :
    (∃ e' ys, Examined e xs e' ys ∧ ∃ y ∈ ys, ElementWarning e' y u) ↔ ∃ x ∈ xs, TreeWarning e x u := by
  constructor
  · rintro ⟨e', ys, h, y, hy, hw⟩
    cases h with
    | here => exact ⟨y, hy, Or.inl hw⟩
    | inside hm h8 h => exact ⟨_, hm, Or.inr ⟨_, _, rfl, h8, e', ys, h, y, hy, hw⟩⟩
  · rintro ⟨x, hx, hw | ⟨c, ch, rfl, h8, e', ys, h, y, hy, hw⟩⟩
    · exact ⟨e, xs, .here, x, hx, hw⟩
    · exact ⟨e', ys, .inside hx h8 h, y, hy, hw⟩

theorem examined_defect {e : Props} {xs : List IRC} {ex : Exn} :
    (∃ e' ys, Examined e xs e' ys ∧ (ScopeDefect e' ys ex ∨ ∃ y ∈ ys, ElementDefect e' y ex)) ↔
      ScopeDefect e xs ex ∨ ∃ x ∈ xs, TreeDefect e x ex := by
  constructor
  · rintro ⟨e', ys, h, hw⟩
    cases h with
    | here =>
      rcases hw with hw | ⟨y, hy, hw⟩
      · exact Or.inl hw
      · exact Or.inr ⟨y, hy, Or.inl hw⟩
    | inside hm h8 h => exact Or.inr ⟨_, hm, Or.inr ⟨_, _, rfl, h8, e', ys, h, hw⟩⟩
  · rintro (hs | ⟨x, hx, hw | ⟨c, ch, rfl, h8, e', ys, h, hw⟩⟩)
    · exact ⟨e, xs, .here, Or.inl hs⟩
    · exact ⟨e, xs, .here, Or.inr ⟨x, hx, hw⟩⟩
    · exact ⟨e', ys, .inside hx h8 h, hw⟩

theorem overlapWarns_other (b : Bool) (lk : AltLookup) (n : Str) (base : Int) (al : List Str) :
    ∀ iv, ∀ u ∈ overlapWarns b lk n base al iv, ¬ ValidationWarning u := by
  intro iv
  induction iv with
  | nil => intro u hu; cases hu
  | cons q rest ih =>
    intro u hu
    obtain ⟨e, m⟩ := q
    rw [overlapWarns, List.mem_append] at hu
    rcases hu with hu | hu
    · revert hu
      (repeat' split) <;> intro hu <;> first | (cases hu; done) | (rcases List.mem_singleton.1 hu with rfl; exact id)
    · exact ih u hu

theorem altClosure_ws {lk : AltLookup} {s : Bool} : ∀ {f : Nat} {al st l : List Str} {w : List Warn},
    altClosure lk s f al st = .ok l w → w = [] := by
  intro f
  induction f with
  | zero =>
    intro al st l w h
    cases st with
    | nil => rw [altClosure] at h; exact (M.pure_eq_ok.1 h).2
    | cons => cases h
  | succ f ih =>
    intro al st l w h
    cases st with
    | nil => rw [altClosure] at h; exact (M.pure_eq_ok.1 h).2
    | cons c st =>
      rw [altClosure] at h
      revert h
      dsimp only
      (repeat' split) <;> intro h <;> first | (cases h; done) | exact ih h

theorem allowedAlternates_ws {lk : AltLookup} {s : Bool} {a : Option Str} {l : List Str} {w : List Warn}
    (h : allowedAlternates lk s a = .ok l w) : w = [] := by
  cases a with
  | none => exact (M.pure_eq_ok.1 h).2
  | some a => exact altClosure_ws h

theorem checkRCOverlaps_other {rl cl : AltLookup} {xs : List RC} : ∀ {iv : List (Int × Str)} {w : List Warn},
    checkRCOverlaps rl cl iv xs = .ok () w → ∀ u ∈ w, ¬ ValidationWarning u := by
  induction xs with
  | nil => intro iv w h; simp [checkRCOverlaps] at h; subst h; simp
  | cons x xs ih =>
    intro iv w h u hu
    cases x with
    | reg r =>
      rw [checkRCOverlaps] at h
      split at h
      · exact ih h u hu
      · simp only [M.bind_eq_ok, M.ok.injEq] at h
        obtain ⟨al, w1, w2, h1, ⟨_, w3, w4, ⟨-, rfl⟩, h2, rfl⟩, rfl⟩ := h
        rw [allowedAlternates_ws h1, List.nil_append, List.mem_append] at hu
        exact hu.elim (overlapWarns_other _ _ _ _ _ _ u) (ih h2 u)
    | clu c ch =>
      rw [checkRCOverlaps] at h
      simp only [M.bind_eq_ok, M.ok.injEq] at h
      obtain ⟨al, w1, w2, h1, ⟨_, w3, w4, ⟨-, rfl⟩, h2, rfl⟩, rfl⟩ := h
      rw [allowedAlternates_ws h1, List.nil_append, List.mem_append] at hu
      exact hu.elim (overlapWarns_other _ _ _ _ _ _ u) (ih h2 u)

/-- What is to be shown of an element. -/
def ElementOK (e : Props) (x : IRC) : Prop :=
  ∀ {b : Int}, (∀ {o : Option RC} {w : List Warn}, finalizeRC b (inheritRC e x) = .ok o w →
      (o.isSome = true ↔ Kept e x) ∧ (∀ u, ValidationWarning u → (u ∈ w ↔ TreeWarning e x u)) ∧ ∀ ex, ¬ TreeDefect e x ex) ∧
    ∀ {ex : Exn}, finalizeRC b (inheritRC e x) = .err ex → TreeDefect e x ex

theorem each_map {α β γ : Type} {f : β → M γ} {g : α → β} {xs : List α} {ys : List γ} {ws : List Warn}
    (h : M.Each f (xs.map g) ys ws) : M.Each (fun x => f (g x)) xs ys ws := by
  induction xs generalizing ys ws with
  | nil => cases h; exact .nil
  | cons x xs ih =>
    cases h with
    | cons h1 h2 => exact .cons h1 (ih h2)

theorem scope_exact {e : Props} {xs : List IRC} (ih : ∀ x ∈ xs, ElementOK e x) {b : Int} {ys : List RC} {ws : List Warn}
    (h : ScopeFrom b (inheritRCs e xs) ys ws) :
    (ys ≠ [] ↔ ∃ x ∈ xs, Kept e x) ∧ (∀ u, ValidationWarning u → (u ∈ ws ↔ ∃ x ∈ xs, TreeWarning e x u)) ∧
      (∀ ex, ¬ ScopeDefect e xs ex) ∧ ∀ x ∈ xs, ∀ ex, ¬ TreeDefect e x ex := by
  obtain ⟨os, w1, w2, raw, h1, h2, h3, h4, h5, rfl⟩ := h.ex
  rw [inheritRCs_eq_map] at h1
  have h1 := each_map h1
  have out : ∀ x ∈ xs, ∃ o w, finalizeRC b (inheritRC e x) = .ok o w ∧ o ∈ os := by
    intro x hx
    obtain ⟨o, ho, w, hw⟩ := h1.mem' hx
    exact ⟨o, w, hw, ho⟩
  have kept : ∀ x ∈ xs, Kept e x → ∃ y w, finalizeRC b (inheritRC e x) = .ok (some y) w ∧ y ∈ raw := by
    intro x hx hk
    obtain ⟨o, w, hw, ho⟩ := out x hx
    cases o with
    | none => exact absurd (((ih x hx).1 hw).1.2 hk) (by simp)
    | some y => exact ⟨y, w, hw, by rw [h2, List.mem_filterMap]; exact ⟨_, ho, rfl⟩⟩
  have from' : ∀ y ∈ raw, ∃ x ∈ xs, Kept e x ∧ ∃ w, finalizeRC b (inheritRC e x) = .ok (some y) w := by
    intro y hy
    rw [h2, List.mem_filterMap] at hy
    obtain ⟨o, ho, hy⟩ := hy
    simp only [id] at hy
    subst hy
    obtain ⟨x, hx, w, hw⟩ := h1.mem ho
    exact ⟨x, hx, ((ih x hx).1 hw).1.1 rfl, w, hw⟩
  refine ⟨?_, ?_, ?_, ?_⟩
  · constructor
    · intro hne
      obtain ⟨y, hy⟩ := List.exists_mem_of_ne_nil ys hne
      rw [h4, mem_sortBy] at hy
      obtain ⟨x, hx, hk, -⟩ := from' y hy
      exact ⟨x, hx, hk⟩
    · rintro ⟨x, hx, hk⟩ rfl
      obtain ⟨y, w, -, hy⟩ := kept x hx hk
      have : y ∈ sortBy rcLe raw := by rw [mem_sortBy]; exact hy
      rw [← h4] at this
      cases this
  · intro u hu
    have h6 : u ∉ w2 := fun hm => checkRCOverlaps_other h5 u hm hu
    rw [List.mem_append, or_iff_left h6, h1.mem_ws_iff]
    constructor
    · rintro ⟨x, hx, o, w, hw, hm⟩
      exact ⟨x, hx, (((ih x hx).1 hw).2.1 u hu).1 hm⟩
    · rintro ⟨x, hx, ht⟩
      obtain ⟨o, w, hw, -⟩ := out x hx
      exact ⟨x, hx, o, w, hw, (((ih x hx).1 hw).2.1 u hu).2 ht⟩
  · rintro ex (⟨x, y, hb, kx, ky, hn, -⟩ | ⟨c, ch, a, hm, hk, ha, -, hno⟩)
    · have hmx : x ∈ xs := hb.subset (by simp)
      have hmy : y ∈ xs := hb.subset (by simp)
      obtain ⟨x', wx, hx, -⟩ := kept x hmx kx
      obtain ⟨y', wy, hy, -⟩ := kept y hmy ky
      have h6 := before_each h1 hb hx hy
      rw [← h2] at h6
      refine before_ne_of_nodup h6 h3 ?_
      rw [qualName_eq, qualName_eq, (sameElement_inherit hx).name, (sameElement_inherit hy).name, hn]
    · obtain ⟨y, w, hy, hym⟩ := kept _ hm hk
      obtain ⟨c', ch', rfl, h7, h8⟩ := (sameElement_inherit hy).clu c ch rfl
      have h9 := (checkRC_ok (registerLookup_nodup h3) (clusterLookup_nodup h3) _ _).1 ⟨_, h5⟩
      have h10 := h9 c' ch' (by rw [h4, mem_sortBy]; exact hym) a (by rw [h8, ha]) a (.refl a)
      rw [clusterLookup_eq] at h10
      obtain ⟨⟨n, o⟩, h11, h12⟩ := List.mem_map.1 h10
      obtain ⟨z, hz, hz1, hz2, -⟩ := mem_altsOf.1 h11
      obtain ⟨x, hx, hk', w', hw'⟩ := from' z hz
      cases x with
      | reg r fs =>
        have := (sameElement_inherit hw').isReg.2 ⟨r, fs, rfl⟩
        rw [hz1] at this
        cases this
      | clu c2 ch2 =>
        refine hno c2 ch2 hx hk' ?_
        have h13 := (sameElement_inherit hw').name
        rw [hz2] at h13
        simp only at h12
        rw [← h12, h13]
        rfl
  · intro x hx ex
    obtain ⟨o, w, hw, -⟩ := out x hx
    exact ((ih x hx).1 hw).2.2 ex

theorem before_of_split {α : Type} {pre post : List α} {x y : α} (h : x ∈ pre) : Before (pre ++ y :: post) x y := by
  have h1 : [x].Sublist pre := List.singleton_sublist.2 h
  have h2 : [y].Sublist (y :: post) := List.singleton_sublist.2 (by simp)
  exact List.Sublist.append h1 h2

theorem scope_err {e : Props} {xs : List IRC} (ih : ∀ x ∈ xs, ElementOK e x) {b : Int} {ex : Exn}
    (h : M.bind (finalizeRCsLoop b [] (inheritRCs e xs)) finishRCs = .err ex) :
    ScopeDefect e xs ex ∨ ∃ x ∈ xs, TreeDefect e x ex := by
  rw [inheritRCs_eq_map] at h
  rcases M.bind_eq_err.1 h with h | ⟨raw, w, h1, h⟩
  · rcases finalizeRCsLoop_err h with ⟨x', hx', h1⟩ | ⟨pre, x', post, y, w, h1, h2, rfl, h3⟩
    · obtain ⟨x, hx, rfl⟩ := List.mem_map.1 hx'
      exact Or.inr ⟨x, hx, (ih x hx).2 h1⟩
    · obtain ⟨pre0, rest, rfl, rfl, h4⟩ := List.map_eq_append_iff.1 h1
      obtain ⟨x, post0, rfl, rfl, rfl⟩ := List.map_eq_cons_iff.1 h4
      rcases h3 with h3 | ⟨z', hz', y', w', h5, h6⟩
      · cases h3
      · obtain ⟨z, hz, rfl⟩ := List.mem_map.1 hz'
        refine Or.inl (Or.inl ⟨z, x, before_of_split hz, ((ih z (by simp [hz])).1 h5).1.1 rfl,
          ((ih x (by simp)).1 h2).1.1 rfl, ?_, ?_⟩)
        · rw [← (sameElement_inherit h5).name, ← (sameElement_inherit h2).name, ← qualName_eq, ← qualName_eq, h6]
        · rw [← (sameElement_inherit h5).name, ← qualName_eq, h6]
  · obtain ⟨os, h2, h3, h4, -⟩ := finalizeRCsLoop_ok h1
    have h2 := each_map h2
    unfold finishRCs at h
    simp only [M.bind_eq_err, M.pure_ne_err, and_false, exists_false, or_false] at h
    obtain ⟨rfl, c, ch, a, z, h5, h6, h7, h8⟩ := checkRCOverlaps_err (registerLookup_nodup h4) (clusterLookup_nodup h4) h
    rw [mem_sortBy] at h5
    have from' : ∀ y ∈ raw, ∃ x ∈ xs, Kept e x ∧ ∃ w, finalizeRC b (inheritRC e x) = .ok (some y) w := by
      intro y hy
      rw [h3, List.mem_filterMap] at hy
      obtain ⟨o, ho, hy⟩ := hy
      simp only [id] at hy
      subst hy
      obtain ⟨x, hx, w, hw⟩ := h2.mem ho
      exact ⟨x, hx, ((ih x hx).1 hw).1.1 rfl, w, hw⟩
    obtain ⟨c', ch', h9, h10⟩ : ∃ c' ch', RC.clu c' ch' ∈ raw ∧ c'.alternateCluster = some z := by
      rcases connected_dangling h7 h8 with rfl | ⟨y, hy⟩
      · exact ⟨c, ch, h5, h6⟩
      · rw [clusterLookup_eq] at hy
        obtain ⟨q, hq, hq1, -, hq2⟩ := mem_altsOf.1 hy
        cases q with
        | reg r => cases hq1
        | clu c' ch' => exact ⟨c', ch', hq, hq2⟩
    obtain ⟨x, hx, hk, w', hw'⟩ := from' _ h9
    cases x with
    | reg r fs => exact absurd ((sameElement_inherit hw').isReg.2 ⟨r, fs, rfl⟩) (by simp [isRegister])
    | clu c2 ch2 =>
      obtain ⟨c3, ch3, h11, h12, h13⟩ := (sameElement_inherit hw').clu c2 ch2 rfl
      cases h11
      refine Or.inl (Or.inr ⟨c2, ch2, z, hx, hk, by rw [← h13, h10], rfl, ?_⟩)
      intro c4 ch4 hm hk4 hn
      obtain ⟨o, ho, w4, hw4⟩ := h2.mem' hm
      cases o with
      | none => exact absurd (((ih _ hm).1 hw4).1.2 hk4) (by simp)
      | some y =>
        refine h8 ?_
        rw [clusterLookup_eq]
        refine List.mem_map.2 ⟨(scopeName y, declaredAlt y), mem_altsOf.2 ⟨y, ?_, ?_, rfl, rfl⟩, ?_⟩
        · rw [h3, List.mem_filterMap]; exact ⟨_, ho, rfl⟩
        · obtain ⟨c5, ch5, rfl, -, -⟩ := (sameElement_inherit hw4).clu c4 ch4 rfl
          rfl
        · rw [(sameElement_inherit hw4).name, ← hn]; rfl

end Svd
