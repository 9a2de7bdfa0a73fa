import Verif.Lemmas.ValElem
import Verif.Lemmas.AgainDev
/-
Exact warnings and exceptions of the validation of peripherals.
-/
namespace Svd
open M Spec

theorem infix_cons_cons {α : Type} {a b x : α} {l : List α} : [a, b] <:+: x :: l ↔ (a = x ∧ [b] <+: l) ∨ [a, b] <:+: l := by
  rw [List.infix_cons_iff, List.cons_prefix_cons]

theorem mem_addressBlockWarns {l : List AddressBlock} {u : Warn} :
    u ∈ addressBlockWarns l ↔
      ∃ a b, u = .addressBlockOverlap b.offset a.offset ∧ [a, b] <:+: l ∧ b.offset < a.offset + a.size := by
  induction l with
  | nil => simp [addressBlockWarns]
  | cons x l ih =>
    cases l with
    | nil =>
      constructor
      · intro h; cases h
      · rintro ⟨a, b, -, h, -⟩
        have := h.length_le
        simp at this
    | cons y l =>
      rw [addressBlockWarns, List.mem_append, mem_if_singleton, ih]
      constructor
      · rintro (⟨h1, h2⟩ | ⟨a, b, h1, h2, h3⟩)
        · exact ⟨x, y, h1, infix_cons_cons.2 (Or.inl ⟨rfl, by simp⟩), h2⟩
        · exact ⟨a, b, h1, infix_cons_cons.2 (Or.inr h2), h3⟩
      · rintro ⟨a, b, h1, h2, h3⟩
        rcases infix_cons_cons.1 h2 with ⟨rfl, h4⟩ | h4
        · rw [List.cons_prefix_cons] at h4
          obtain ⟨rfl, -⟩ := h4
          exact Or.inl ⟨h1, h3⟩
        · exact Or.inr ⟨a, b, h1, h4, h3⟩

/-- Everything reported about a peripheral. -/
def PeriphTreeWarning (e : Props) (p : IPeripheral) (u : Warn) : Prop :=
  PeripheralWarning e p u ∨ ∃ e' ys, Examined (over p.hd.props e) p.rcs e' ys ∧ ∃ x ∈ ys, ElementWarning e' x u

/-- Everything wrong with a peripheral. -/
def PeriphTreeDefect (e : Props) (p : IPeripheral) (ex : Exn) : Prop :=
  (KeptPeripheral e p ∧ p.hd.addressBlocks = [] ∧ ex = .process (.noAddressBlocks p.hd.name)) ∨
  ∃ e' ys, Examined (over p.hd.props e) p.rcs e' ys ∧ (ScopeDefect e' ys ex ∨ ∃ x ∈ ys, ElementDefect e' x ex)

theorem peripheral_exact {e : Props} (he : FullProps e) {p : IPeripheral} {o : Option Peripheral} {w : List Warn}
    (h : finalizePeripheral (inheritPeripheral e p) = .ok o w) :
    (o.isSome = true ↔ KeptPeripheral e p) ∧ (∀ u, ValidationWarning u → (u ∈ w ↔ PeriphTreeWarning e p u)) ∧
      (∀ ex, ¬ PeriphTreeDefect e p ex) ∧
      ∀ q, o = some q → q.name = p.hd.name ∧ q.alternatePeripheral = p.hd.alternatePeripheral := by
  have hfull : FullProps (over p.hd.props e) := by rw [← over_eq]; exact inheritProps_full he
  obtain ⟨s, hs⟩ := Option.isSome_iff_exists.1 hfull.1
  have hwb := wholeBytes_iff hs
  obtain ⟨fp, hfp⟩ := regPropValidator_full hfull
  unfold finalizePeripheral finalizeRCs inheritPeripheral at h
  dsimp only at h
  rw [over_eq] at h
  obtain ⟨ys, w1, w2, h1, h2, rfl⟩ := M.bind_eq_ok.1 h
  obtain ⟨hk, hwarn, hsd, htd⟩ := scope_exact (fun x _ => elementOK x hfull) (finalizeRCs_ok h1)
  have hne : NotEmpty e p ↔ ys ≠ [] := by rw [hk]; exact Iff.rfl
  have tree : ∀ ex, ¬ ∃ e' ys, Examined (over p.hd.props e) p.rcs e' ys ∧ (ScopeDefect e' ys ex ∨ ∃ x ∈ ys, ElementDefect e' x ex) := by
    intro ex
    rw [examined_defect]
    rintro (h | ⟨x, hx, h⟩)
    · exact hsd ex h
    · exact htd x hx ex h
  have tw : ∀ u, PeriphTreeWarning e p u ↔ PeripheralWarning e p u ∨ ∃ x ∈ p.rcs, TreeWarning (over p.hd.props e) x u := by
    intro u
    unfold PeriphTreeWarning
    rw [examined_warning]
  cases ys with
  | nil =>
    dsimp only at h2
    simp only [M.bind_eq_ok, M.pure_eq_ok, M.warn_eq_ok] at h2
    obtain ⟨_, w3, w4, rfl, ⟨rfl, rfl⟩, rfl⟩ := h2
    have hemp : ¬ NotEmpty e p := by simp [hne]
    refine ⟨by simp [KeptPeripheral, hemp], ?_, ?_, by simp⟩
    · intro u hu
      rw [tw, List.mem_append, hwarn u hu, List.append_nil, List.mem_singleton]
      constructor
      · rintro (h | h)
        · exact Or.inr h
        · exact Or.inl (Or.inl ⟨h, hemp⟩)
      · rintro ((⟨h, -⟩ | ⟨-, h, -⟩ | ⟨-, h, -⟩ | ⟨a, b, -, h, -⟩) | h)
        · exact Or.inr h
        · exact absurd h hemp
        · exact absurd h hemp
        · exact absurd h.1 hemp
        · exact Or.inl h
    · rintro ex (⟨h, -⟩ | h)
      · exact hemp h.1
      · exact tree ex h
  | cons y ys =>
    have hnemp : NotEmpty e p := by simp [hne]
    dsimp only at h2
    obtain ⟨_, w3, w4, h3, h4, rfl⟩ := M.bind_eq_ok.1 h2
    rw [M.warnIf_eq_ok] at h3
    have hun : ∀ u, u ∈ w3 ↔ u = .peripheralUnaligned p.hd.name ∧ p.hd.baseAddress % 4 ≠ 0 := by
      intro u
      rw [h3]
      by_cases hb : p.hd.baseAddress % 4 = 0 <;> simp [hb]
    rw [hs] at h4
    by_cases h8 : s % 8 = 0
    · dsimp only at h4
      rw [if_neg (by simp [h8])] at h4
      have hkp : KeptPeripheral e p := ⟨hnemp, hwb.2 h8⟩
      cases hab : p.hd.addressBlocks with
      | nil => rw [hab] at h4; cases h4
      | cons ab abs =>
        rw [hab] at h4
        dsimp only at h4
        rw [hfp] at h4
        simp only [M.bind_eq_ok, M.pure_eq_ok, M.ok.injEq] at h4
        obtain ⟨_, w5, w6, ⟨-, rfl⟩, ⟨_, w7, w8, ⟨rfl, rfl⟩, ⟨rfl, rfl⟩, rfl⟩, rfl⟩ := h4
        refine ⟨by simp [hkp], ?_, ?_, ?_⟩
        · intro u hu
          simp only [List.append_nil]
          rw [tw, List.mem_append, hwarn u hu, List.mem_append, hun, ← hab, mem_addressBlockWarns]
          constructor
          · rintro (h | ⟨h, h'⟩ | ⟨a, b, h⟩)
            · exact Or.inr h
            · exact Or.inl (Or.inr (Or.inl ⟨h, hnemp, h'⟩))
            · exact Or.inl (Or.inr (Or.inr (Or.inr ⟨a, b, h.1, hkp, h.2⟩)))
          · rintro ((⟨-, h⟩ | ⟨h, -, h'⟩ | ⟨-, -, h⟩ | ⟨a, b, h, -, h'⟩) | h)
            · exact absurd hnemp h
            · exact Or.inr (Or.inl ⟨h, h'⟩)
            · exact absurd hkp.2 h
            · exact Or.inr (Or.inr ⟨a, b, h, h'⟩)
            · exact Or.inl h
        · rintro ex (⟨-, h, -⟩ | h)
          · rw [hab] at h; cases h
          · exact tree ex h
        · rintro q hq
          cases hq
          exact ⟨rfl, rfl⟩
    · dsimp only at h4
      rw [if_pos (by simp [h8])] at h4
      simp only [M.bind_eq_ok, M.pure_eq_ok, M.warn_eq_ok] at h4
      obtain ⟨_, w5, w6, rfl, ⟨rfl, rfl⟩, rfl⟩ := h4
      have hnw : ¬ WholeBytes (over p.hd.props e) := by rw [hwb]; exact h8
      have hnk : ¬ KeptPeripheral e p := fun h => hnw h.2
      refine ⟨by simp [hnk], ?_, ?_, by simp⟩
      · intro u hu
        rw [tw, List.mem_append, hwarn u hu, List.mem_append, hun, List.append_nil, List.mem_singleton]
        constructor
        · rintro (h | ⟨h, h'⟩ | h)
          · exact Or.inr h
          · exact Or.inl (Or.inr (Or.inl ⟨h, hnemp, h'⟩))
          · exact Or.inl (Or.inr (Or.inr (Or.inl ⟨h, hnemp, hnw⟩)))
        · rintro ((⟨-, h⟩ | ⟨h, -, h'⟩ | ⟨h, -, -⟩ | ⟨a, b, -, h, -⟩) | h)
          · exact absurd hnemp h
          · exact Or.inr (Or.inl ⟨h, h'⟩)
          · exact Or.inr (Or.inr h)
          · exact absurd h hnk
          · exact Or.inl h
      · rintro ex (⟨h, -⟩ | h)
        · exact hnk h
        · exact tree ex h

theorem peripheral_err {e : Props} (he : FullProps e) {p : IPeripheral} {ex : Exn}
    (h : finalizePeripheral (inheritPeripheral e p) = .err ex) : PeriphTreeDefect e p ex := by
  have hfull : FullProps (over p.hd.props e) := by rw [← over_eq]; exact inheritProps_full he
  obtain ⟨s, hs⟩ := Option.isSome_iff_exists.1 hfull.1
  have hwb := wholeBytes_iff hs
  obtain ⟨fp, hfp⟩ := regPropValidator_full hfull
  unfold finalizePeripheral finalizeRCs inheritPeripheral at h
  dsimp only at h
  rw [over_eq] at h
  rcases M.bind_eq_err.1 h with h | ⟨ys, w1, h1, h2⟩
  · exact Or.inr (examined_defect.2 (scope_err (fun x _ => elementOK x hfull) h))
  · obtain ⟨hk, -⟩ := scope_exact (fun x _ => elementOK x hfull) (finalizeRCs_ok h1)
    cases ys with
    | nil =>
      dsimp only at h2
      simp only [M.bind_eq_err, M.pure_ne_err, and_false, exists_false, or_false] at h2
      cases h2
    | cons y ys =>
      have hnemp : NotEmpty e p := hk.1 (by simp)
      dsimp only at h2
      rcases M.bind_eq_err.1 h2 with h3 | ⟨_, w3, -, h4⟩
      · exact (M.warnIf_ne_err.1 h3).elim
      · rw [hs] at h4
        dsimp only at h4
        by_cases h8 : s % 8 = 0
        · rw [if_neg (by simp [h8])] at h4
          cases hab : p.hd.addressBlocks with
          | nil =>
            rw [hab] at h4
            cases h4
            exact Or.inl ⟨⟨hnemp, hwb.2 h8⟩, hab, rfl⟩
          | cons ab abs =>
            rw [hab] at h4
            dsimp only at h4
            rw [hfp] at h4
            simp [M.bind_eq_err] at h4
        · rw [if_pos (by simp [h8])] at h4
          simp only [M.bind_eq_err, M.pure_ne_err, and_false, exists_false, or_false] at h4
          cases h4

theorem periphsLoop_err {xs : List IPeripheral} : ∀ {seen : List Str} {e : Exn},
    finalizePeripheralsLoop seen xs = .err e →
    (∃ x ∈ xs, finalizePeripheral x = .err e) ∨
    ∃ pre x post y w, xs = pre ++ x :: post ∧ finalizePeripheral x = .ok (some y) w ∧
      e = .process (.duplicatePeripheral y.name) ∧
      (y.name ∈ seen ∨ ∃ x' ∈ pre, ∃ y' w', finalizePeripheral x' = .ok (some y') w' ∧ y'.name = y.name) := by
  induction xs with
  | nil => intro seen e h; simp [finalizePeripheralsLoop] at h
  | cons x xs ih =>
    intro seen e h
    rw [finalizePeripheralsLoop] at h
    rcases M.bind_eq_err.1 h with h | ⟨o, w, h1, h⟩
    · exact Or.inl ⟨x, by simp, h⟩
    · cases o with
      | none =>
        rcases ih h with ⟨z, hz, h2⟩ | ⟨pre, z, post, y, w', rfl, h2, h3, h4⟩
        · exact Or.inl ⟨z, by simp [hz], h2⟩
        · refine Or.inr ⟨x :: pre, z, post, y, w', rfl, h2, h3, h4.imp id ?_⟩
          rintro ⟨x', hx', h5⟩
          exact ⟨x', by simp [hx'], h5⟩
      | some y0 =>
        dsimp only at h
        split at h
        · rename_i hc
          cases h
          exact Or.inr ⟨[], x, xs, y0, w, rfl, h1, rfl, Or.inl (by simpa using hc)⟩
        · simp only [M.bind_eq_err, M.pure_ne_err, and_false, exists_false, or_false] at h
          rcases ih h with ⟨z, hz, h2⟩ | ⟨pre, z, post, y, w', rfl, h2, h3, h4⟩
          · exact Or.inl ⟨z, by simp [hz], h2⟩
          · refine Or.inr ⟨x :: pre, z, post, y, w', rfl, h2, h3, ?_⟩
            rcases h4 with h4 | ⟨x', hx', h5⟩
            · rcases List.mem_cons.1 h4 with h5 | h5
              · exact Or.inr ⟨x, by simp, y0, w, h1, h5.symm⟩
              · exact Or.inl h5
            · exact Or.inr ⟨x', by simp [hx'], h5⟩

theorem checkPeriphOverlaps_err {lk : AltLookup} (hn : (lk.map (·.1)).Nodup) {xs : List Peripheral} :
    ∀ {a b : List (Int × Str)} {e : Exn}, checkPeriphOverlaps lk a b xs = .err e →
    e = .keyError ∧ ∃ p ∈ xs, ∃ a z, p.alternatePeripheral = some a ∧ Connected lk a z ∧ z ∉ lk.map (·.1) := by
  induction xs with
  | nil => intro a b e h; simp [checkPeriphOverlaps] at h
  | cons x xs ih =>
    intro a b e h
    rw [checkPeriphOverlaps] at h
    rcases M.bind_eq_err.1 h with h | ⟨al, w, -, h⟩
    · cases ha : x.alternatePeripheral with
      | none => rw [ha] at h; cases h
      | some n =>
        rw [ha] at h
        rcases allowedAlternates_spec hn true n with ⟨l, h3, -⟩ | ⟨-, h3, z, h4, h5⟩
        · rw [h3] at h; cases h
        · rw [h3] at h; cases h
          exact ⟨rfl, x, by simp, n, z, ha, h4, h5⟩
    · simp only [M.bind_eq_err] at h
      rcases h with h | ⟨_, _, -, h | ⟨_, _, -, h⟩⟩
      · cases h
      · cases h
      · obtain ⟨h3, p, hp, h4⟩ := ih h
        exact ⟨h3, p, by simp [hp], h4⟩

theorem periphOverlapWarns_other (b : Bool) (lk : AltLookup) (n : Str) (base : Int) (al : List Str) :
    ∀ iv, ∀ u ∈ periphOverlapWarns b lk n base al iv, ¬ ValidationWarning u := by
  intro iv
  induction iv with
  | nil => intro u hu; cases hu
  | cons q rest ih =>
    intro u hu
    obtain ⟨e, m⟩ := q
    rw [periphOverlapWarns, List.mem_append] at hu
    rcases hu with hu | hu
    · revert hu
      cases b <;> (repeat' split) <;> intro hu <;> first | (cases hu; done) | (rcases List.mem_singleton.1 hu with rfl; exact id)
    · exact ih u hu

theorem checkPeriphOverlaps_other {lk : AltLookup} {xs : List Peripheral} : ∀ {a b : List (Int × Str)} {w : List Warn},
    checkPeriphOverlaps lk a b xs = .ok () w → ∀ u ∈ w, ¬ ValidationWarning u := by
  induction xs with
  | nil => intro a b w h; simp [checkPeriphOverlaps] at h; subst h; simp
  | cons x xs ih =>
    intro a b w h u hu
    rw [checkPeriphOverlaps] at h
    simp only [M.bind_eq_ok, M.ok.injEq] at h
    obtain ⟨al, w1, w2, h1, ⟨_, w3, w4, ⟨-, rfl⟩, ⟨_, w5, w6, ⟨-, rfl⟩, h2, rfl⟩, rfl⟩, rfl⟩ := h
    rw [allowedAlternates_ws h1, List.nil_append, List.mem_append, List.mem_append] at hu
    exact hu.elim (periphOverlapWarns_other _ _ _ _ _ _ u) fun hu => hu.elim (periphOverlapWarns_other _ _ _ _ _ _ u) (ih h2 u)

theorem deviceLevel_eq (d : SDevice) : (deviceHead d.hd).props.toProps = deviceLevel d := by
  unfold deviceLevel over deviceHead deviceProps FProps.toProps
  dsimp only
  have : ∀ {α : Type} (o : Option α) (x : α), some (o.getD x) = o.or (some x) := by intro α o x; cases o <;> rfl
  simp only [this]

theorem validate_exact {d : SDevice} {ps : List IPeripheral} {dev : Device} {ws : List Warn}
    (h : validateAndFinalize (inheritDevice { hd := deviceHead d.hd, peripherals := ps }) = .ok dev ws) :
    (∀ u, ValidationWarning u → (u ∈ ws ↔ Warranted d ps u)) ∧ ∀ ex, ¬ Defect d ps ex := by
  have he : FullProps (deviceLevel d) := by rw [← deviceLevel_eq]; exact ⟨rfl, rfl, rfl, rfl, rfl⟩
  obtain ⟨os, w1, w2, raw, h1, h2, h3, -, h4, h5, rfl⟩ := validateAndFinalize_ok h
  unfold inheritDevice at h1
  dsimp only at h1
  rw [deviceLevel_eq] at h1
  have h1 := each_map h1
  have out : ∀ x ∈ ps, ∃ o w, finalizePeripheral (inheritPeripheral (deviceLevel d) x) = .ok o w ∧ o ∈ os := by
    intro x hx
    obtain ⟨o, ho, w, hw⟩ := h1.mem' hx
    exact ⟨o, w, hw, ho⟩
  have kept : ∀ x ∈ ps, KeptPeripheral (deviceLevel d) x →
      ∃ y w, finalizePeripheral (inheritPeripheral (deviceLevel d) x) = .ok (some y) w ∧ y ∈ raw := by
    intro x hx hk
    obtain ⟨o, w, hw, ho⟩ := out x hx
    cases o with
    | none => exact absurd ((peripheral_exact he hw).1.2 hk) (by simp)
    | some y => exact ⟨y, w, hw, by rw [h2, List.mem_filterMap]; exact ⟨_, ho, rfl⟩⟩
  refine ⟨?_, ?_⟩
  · intro u hu
    have h6 : u ∉ w2 := fun hm => checkPeriphOverlaps_other h5 u hm hu
    rw [List.mem_append, or_iff_left h6, h1.mem_ws_iff]
    constructor
    · rintro ⟨x, hx, o, w, hw, hm⟩
      exact ⟨x, hx, ((peripheral_exact he hw).2.1 u hu).1 hm⟩
    · rintro ⟨x, hx, ht⟩
      obtain ⟨o, w, hw, -⟩ := out x hx
      exact ⟨x, hx, o, w, hw, ((peripheral_exact he hw).2.1 u hu).2 ht⟩
  · rintro ex ((⟨p, hp, hd⟩ | ⟨p, q, hb, kp, kq, hn, -⟩ | ⟨p, hp, a, hk, ha, -, hno⟩) | ⟨p, hp, hd⟩)
    · obtain ⟨o, w, hw, -⟩ := out p hp
      exact (peripheral_exact he hw).2.2.1 ex (Or.inl hd)
    · obtain ⟨x', wx, hx, -⟩ := kept p (hb.subset (by simp)) kp
      obtain ⟨y', wy, hy, -⟩ := kept q (hb.subset (by simp)) kq
      have h6 := before_each h1 hb hx hy
      rw [← h2] at h6
      refine before_ne_of_nodup h6 h3 ?_
      rw [((peripheral_exact he hx).2.2.2 _ rfl).1, ((peripheral_exact he hy).2.2.2 _ rfl).1, hn]
    · obtain ⟨y, w, hy, hym⟩ := kept p hp hk
      have hnn : ((peripheralLookup raw).map (·.1)).Nodup := by
        simp only [peripheralLookup, List.map_map]; exact h3
      have h9 := (checkP_ok hnn _ _ _).1 ⟨_, h5⟩ y (by rw [h4, mem_sortBy]; exact hym) a
        (by rw [((peripheral_exact he hy).2.2.2 _ rfl).2, ha]) a (.refl a)
      simp only [peripheralLookup, List.map_map] at h9
      obtain ⟨z, hz, hzn⟩ := List.mem_map.1 h9
      rw [h2, List.mem_filterMap] at hz
      obtain ⟨o, ho, hz⟩ := hz
      simp only [id] at hz
      subst hz
      obtain ⟨x, hx, w', hw'⟩ := h1.mem ho
      refine hno x hx ((peripheral_exact he hw').1.1 rfl) ?_
      rw [← ((peripheral_exact he hw').2.2.2 _ rfl).1]
      exact hzn
    · obtain ⟨o, w, hw, -⟩ := out p hp
      exact (peripheral_exact he hw).2.2.1 ex (Or.inr hd)

theorem validate_err {d : SDevice} {ps : List IPeripheral} {ex : Exn}
    (h : validateAndFinalize (inheritDevice { hd := deviceHead d.hd, peripherals := ps }) = .err ex) : Defect d ps ex := by
  have he : FullProps (deviceLevel d) := by rw [← deviceLevel_eq]; exact ⟨rfl, rfl, rfl, rfl, rfl⟩
  unfold validateAndFinalize finalizePeripherals inheritDevice at h
  dsimp only at h
  rw [deviceLevel_eq] at h
  simp only [M.bind_eq_err, M.pure_ne_err, and_false, exists_false, or_false] at h
  rcases h with h | ⟨raw, w, h1, h⟩
  · rcases periphsLoop_err h with ⟨x', hx', h1⟩ | ⟨pre, x', post, y, w, h1, h2, rfl, h3⟩
    · obtain ⟨x, hx, rfl⟩ := List.mem_map.1 hx'
      rcases peripheral_err he h1 with h2 | h2
      · exact Or.inl (Or.inl ⟨x, hx, h2⟩)
      · exact Or.inr ⟨x, hx, h2⟩
    · obtain ⟨pre0, rest, rfl, rfl, h4⟩ := List.map_eq_append_iff.1 h1
      obtain ⟨x, post0, rfl, rfl, rfl⟩ := List.map_eq_cons_iff.1 h4
      rcases h3 with h3 | ⟨z', hz', y', w', h5, h6⟩
      · cases h3
      · obtain ⟨z, hz, rfl⟩ := List.mem_map.1 hz'
        have hx := peripheral_exact he h2
        have hz2 := peripheral_exact he h5
        refine Or.inl (Or.inr (Or.inl ⟨z, x, before_of_split hz, hz2.1.1 rfl, hx.1.1 rfl, ?_, ?_⟩))
        · rw [← (hx.2.2.2 _ rfl).1, ← (hz2.2.2.2 _ rfl).1, h6]
        · rw [← (hz2.2.2.2 _ rfl).1, h6]
  · obtain ⟨os, h2, h3, h4, -⟩ := finalizePeripheralsLoop_ok h1
    have h2 := each_map h2
    have hnn : ((peripheralLookup raw).map (·.1)).Nodup := by
      simp only [peripheralLookup, List.map_map]; exact h4
    obtain ⟨rfl, p, hp, a, z, h5, h6, h7⟩ := checkPeriphOverlaps_err hnn h
    rw [mem_sortBy] at hp
    obtain ⟨p', hp', ha'⟩ : ∃ p' ∈ raw, p'.alternatePeripheral = some z := by
      rcases connected_dangling h6 h7 with rfl | ⟨y, hy⟩
      · exact ⟨p, hp, h5⟩
      · obtain ⟨q, hq, hq1⟩ := List.mem_map.1 hy
        exact ⟨q, hq, (Prod.mk.inj hq1).2⟩
    rw [h3, List.mem_filterMap] at hp'
    obtain ⟨o, ho, hy⟩ := hp'
    simp only [id] at hy
    subst hy
    obtain ⟨x, hx, w, hw⟩ := h2.mem ho
    have hex := peripheral_exact he hw
    refine Or.inl (Or.inr (Or.inr ⟨x, hx, z, hex.1.1 rfl, by rw [← (hex.2.2.2 _ rfl).2, ha'], rfl, ?_⟩))
    intro q hq hkq hn
    obtain ⟨o, ho, wq, hwq⟩ := h2.mem' hq
    cases o with
    | none => exact absurd ((peripheral_exact he hwq).1.2 hkq) (by simp)
    | some y =>
      refine h7 ?_
      simp only [peripheralLookup, List.map_map]
      refine List.mem_map.2 ⟨y, by rw [h3, List.mem_filterMap]; exact ⟨_, ho, rfl⟩, ?_⟩
      rw [← hn, ← ((peripheral_exact he hwq).2.2.2 _ rfl).1]
      rfl

end Svd
