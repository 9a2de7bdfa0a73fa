import Verif.Spec.Misc
import Verif.Props.Layout
/-
Theorems on CPU defaults (C49), XML loading (C50) and the default schema (C51).
-/
namespace Svd
open Spec

variable {ord : List Nat → List Nat} {fuel : Nat} {d : SDevice} {dev : Device} {ws : List Warn}

/-! ### C49 -/

theorem givenOr_getD {α : Type} (o : Option α) (x : α) : GivenOr o x (o.getD x) := by
  cases o with
  | none => exact Or.inr ⟨rfl, rfl⟩
  | some a => exact Or.inl rfl

theorem entrywise_map {α β : Type} {R : α → β → Prop} {f : α → β} (h : ∀ x, R x (f x)) (xs : List α) :
    Entrywise R xs (xs.map f) := by
  induction xs with
  | nil => exact .nil
  | cons x xs ih => exact .cons (h x) ih

theorem optRel_map {α β : Type} {R : α → β → Prop} {f : α → β} (h : ∀ x, R x (f x)) (o : Option α) :
    OptRel R o (o.map f) := by
  cases o with
  | none => exact Or.inl ⟨rfl, rfl⟩
  | some a => exact Or.inr ⟨a, f a, rfl, rfl, h a⟩

theorem regionOf (s : SSauRegion) : RegionOf s (processSauRegion s) := ⟨givenOr_getD _ _, rfl, rfl, rfl, rfl⟩

theorem sauOf (s : SSauConfig) : SauOf s (processSauConfig s) :=
  ⟨givenOr_getD _ _, givenOr_getD _ _, entrywise_map regionOf _⟩

theorem cpuOf (s : SCpu) : CpuOf s (processCpu s) where
  name := by
    unfold processCpu
    by_cases h : s.name = .CM0_PLUS
    · exact Or.inl ⟨h, by simp [h]⟩
    · exact Or.inr ⟨h, by simp [h]⟩
  revision := rfl
  endian := rfl
  mpu := givenOr_getD _ _
  fpu := givenOr_getD _ _
  fpuDp := givenOr_getD _ _
  dsp := givenOr_getD _ _
  icache := givenOr_getD _ _
  dcache := givenOr_getD _ _
  itcm := givenOr_getD _ _
  dtcm := givenOr_getD _ _
  vtor := givenOr_getD _ _
  nvic := rfl
  systick := rfl
  interrupts := rfl
  sauNum := rfl
  sau := optRel_map sauOf _

theorem process_head (h : processDevice ord fuel d = .ok dev ws) : dev.hd = deviceHead d.hd := by
  obtain ⟨ps, w1, w2, -, h2, -⟩ := processDevice_ok.1 h
  obtain ⟨_, _, _, _, _, _, _, h3, _⟩ := validateAndFinalize_ok h2
  exact h3

/-- C49: the CPU of a processed device has the given values, the documented defaults elsewhere, and is absent iff the
description has none. -/
theorem C49_cpu (h : processDevice ord fuel d = .ok dev ws) : OptRel CpuOf d.hd.cpu dev.hd.cpu := by
  rw [process_head h]
  exact optRel_map cpuOf _

/-- The remaining attributes of the device are copied; the device level properties get the documented defaults. -/
theorem C49_device (h : processDevice ord fuel d = .ok dev ws) :
    dev.hd.name = d.hd.name ∧ dev.hd.vendor = d.hd.vendor ∧ dev.hd.vendorId = d.hd.vendorId ∧
    dev.hd.series = d.hd.series ∧ dev.hd.version = d.hd.version ∧ dev.hd.description = d.hd.description ∧
    dev.hd.licenseText = d.hd.licenseText ∧ dev.hd.headerSystemFilename = d.hd.headerSystemFilename ∧
    dev.hd.headerDefinitionsPrefix = d.hd.headerDefinitionsPrefix ∧
    dev.hd.addressUnitBits = d.hd.addressUnitBits ∧ dev.hd.width = d.hd.width ∧
    GivenOr d.hd.props.size 32 dev.hd.props.size ∧ GivenOr d.hd.props.access .readWrite dev.hd.props.access ∧
    GivenOr d.hd.props.protection .any dev.hd.props.protection ∧
    GivenOr d.hd.props.resetValue 0 dev.hd.props.resetValue ∧
    GivenOr d.hd.props.resetMask 0xFFFFFFFF dev.hd.props.resetMask := by
  rw [process_head h]
  exact ⟨rfl, rfl, rfl, rfl, rfl, rfl, rfl, rfl, rfl, rfl, rfl, givenOr_getD _ _, givenOr_getD _ _, givenOr_getD _ _,
    givenOr_getD _ _, givenOr_getD _ _⟩

/-- A CPU with a SAU configuration. -/
def someCpu : SCpu :=
  { name := .CM0_PLUS, revision := s%"r0p1", endian := .little, fpuPresent := some true, nvicPrioBits := 2
    vendorSystickConfig := false
    sauConfig := some { regions := [{ base := 0, limit := 31, access := .nonSecure }] } }

example : Sample.okAnd (processDevice id 10 { Sample.dev with hd := { Sample.dev.hd with cpu := some someCpu } })
    (fun dev _ => dev.hd.cpu == some
      { name := .CM0PLUS, revision := s%"r0p1", endian := .little, mpuPresent := false, fpuPresent := true, fpuDp := false
        dspPresent := false, icachePresent := false, dcachePresent := false, itcmPresent := false, dtcmPresent := false
        vtorPresent := true, nvicPrioBits := 2, vendorSystickConfig := false, deviceNumInterrupts := none
        sauNumRegions := none, sauConfig := some { enabled := true, protectionWhenDisabled := .secure, regions := [
          { enabled := true, name := none, base := 0, limit := 31, access := .nonSecure }] } }) = true := by decide +kernel

/-! ### C50 -/

section
variable {α : Type} {lib : XOpts → XRes α}

theorem tryEncodings_fail {r : Bool} {es : List Str} (h : ∀ e ∈ es, Fails lib ⟨some e, r⟩) :
    tryEncodings lib r es = .ok none [] := by
  induction es with
  | nil => rfl
  | cons e es ih =>
    obtain ⟨n, hn⟩ := h e List.mem_cons_self
    rw [tryEncodings, hn]
    exact ih fun e he => h e (List.mem_cons_of_mem _ he)

theorem tryEncodings_split {r : Bool} {pre post : List Str} {e : Str} (h : ∀ e ∈ pre, Fails lib ⟨some e, r⟩) :
    tryEncodings lib r (pre ++ e :: post) = tryEncodings lib r (e :: post) := by
  induction pre with
  | nil => rfl
  | cons x pre ih =>
    obtain ⟨n, hn⟩ := h x List.mem_cons_self
    rw [List.cons_append, tryEncodings, hn]
    exact ih fun e he => h e (List.mem_cons_of_mem _ he)

/-- C50: if the plain strict parse succeeds its result is returned, without a warning. -/
theorem C50_strict {a : α} (h : lib ⟨none, false⟩ = .doc a) : safeLoad lib = .ok a [] := by
  unfold safeLoad
  rw [h]
  rfl

theorem attempts_eq : attempts = commonEncodings.map (·, false) ++ commonEncodings.map (·, true) := rfl

theorem safeLoad_fallback {n : Nat} (h0 : lib ⟨none, false⟩ = .syntaxError n) :
    safeLoad lib = M.bind (tryEncodings lib false commonEncodings) fun
        | some a => M.pure a
        | none => M.bind (tryEncodings lib true commonEncodings) fun
            | some a => M.pure a
            | none => M.throw (.xmlSyntax n) := by
  unfold safeLoad
  rw [h0]
  rfl

theorem map_split {β : Type} {f : Str → β} {xs : List Str} {pre post : List β} {y : β} (h : xs.map f = pre ++ y :: post) :
    ∃ p e q, xs = p ++ e :: q ∧ p.map f = pre ∧ f e = y := by
  obtain ⟨p, q', rfl, h1, h2⟩ := List.map_eq_append_iff.1 h
  obtain ⟨e, q, rfl, h3, -⟩ := List.map_eq_cons_iff.1 h2
  exact ⟨p, e, q, rfl, h1, h3⟩

/-- Where the first attempt that is no syntax error lies. -/
theorem attempts_split {pre post : List (Str × Bool)} {e : Str} {r : Bool} (h : attempts = pre ++ (e, r) :: post) :
    (r = false ∧ ∃ p q, commonEncodings = p ++ e :: q ∧ pre = p.map (·, false)) ∨
    (r = true ∧ ∃ p q, commonEncodings = p ++ e :: q ∧ pre = commonEncodings.map (·, false) ++ p.map (·, true)) := by
  rw [attempts_eq] at h
  rcases List.append_eq_append_iff.1 h with ⟨as, h1, h2⟩ | ⟨bs, h1, h2⟩
  · obtain ⟨p, e', q, h3, h4, h5⟩ := map_split h2
    cases h5
    exact Or.inr ⟨rfl, p, q, h3, by rw [h1, h4]⟩
  · cases bs with
    | nil =>
      rw [List.append_nil] at h1
      rw [List.nil_append] at h2
      obtain ⟨p, e', q, h3, h4, h5⟩ := map_split (pre := []) h2.symm
      cases h5
      exact Or.inr ⟨rfl, p, q, h3, by rw [h4, ← h1, List.append_nil]⟩
    | cons b bs =>
      rw [List.cons_append, List.cons.injEq] at h2
      obtain ⟨rfl, -⟩ := h2
      obtain ⟨p, e', q, h3, h4, h5⟩ := map_split h1
      cases h5
      exact Or.inl ⟨rfl, p, q, h3, h4.symm⟩

/-- C50: otherwise the first success in the documented order is returned, with exactly one warning, which names it. -/
theorem C50_fallback {n : Nat} (h0 : lib ⟨none, false⟩ = .syntaxError n) {pre post : List (Str × Bool)} {e : Str} {r : Bool}
    (hs : attempts = pre ++ (e, r) :: post) (hf : ∀ a ∈ pre, Fails lib (fallback a)) {a : α}
    (ha : lib ⟨some e, r⟩ = .doc a) : safeLoad lib = .ok a [.fallbackEncoding e r] := by
  rw [safeLoad_fallback h0]
  rcases attempts_split hs with ⟨rfl, p, q, h1, rfl⟩ | ⟨rfl, p, q, h1, rfl⟩
  · rw [h1, tryEncodings_split (fun e he => hf (e, false) (List.mem_map.2 ⟨e, he, rfl⟩)), tryEncodings, ha]
    rfl
  · rw [tryEncodings_fail (fun e he => hf (e, false) (List.mem_append.2 (Or.inl (List.mem_map.2 ⟨e, he, rfl⟩))))]
    conv => lhs; rw [h1]
    rw [tryEncodings_split (fun e he => hf (e, true) (List.mem_append.2 (Or.inr (List.mem_map.2 ⟨e, he, rfl⟩)))),
      tryEncodings, ha]
    rfl

/-- C50: an exception that is no syntax error (a missing file, ...) ends the loading at once. -/
theorem C50_other_error {n : Nat} (h0 : lib ⟨none, false⟩ = .syntaxError n) {pre post : List (Str × Bool)} {e : Str}
    {r : Bool} (hs : attempts = pre ++ (e, r) :: post) (hf : ∀ a ∈ pre, Fails lib (fallback a)) {x : Exn}
    (ha : lib ⟨some e, r⟩ = .other x) : safeLoad lib = .err x := by
  rw [safeLoad_fallback h0]
  rcases attempts_split hs with ⟨rfl, p, q, h1, rfl⟩ | ⟨rfl, p, q, h1, rfl⟩
  · rw [h1, tryEncodings_split (fun e he => hf (e, false) (List.mem_map.2 ⟨e, he, rfl⟩)), tryEncodings, ha]
    rfl
  · rw [tryEncodings_fail (fun e he => hf (e, false) (List.mem_append.2 (Or.inl (List.mem_map.2 ⟨e, he, rfl⟩))))]
    conv => lhs; rw [h1]
    rw [tryEncodings_split (fun e he => hf (e, true) (List.mem_append.2 (Or.inr (List.mem_map.2 ⟨e, he, rfl⟩)))),
      tryEncodings, ha]
    rfl

/-- C50: if all attempts fail the error of the first one is raised. -/
theorem C50_all_fail {n : Nat} (h0 : lib ⟨none, false⟩ = .syntaxError n) (hf : ∀ a ∈ attempts, Fails lib (fallback a)) :
    safeLoad lib = .err (.xmlSyntax n) := by
  rw [attempts_eq] at hf
  rw [safeLoad_fallback h0, tryEncodings_fail (fun e he => hf (e, false) (List.mem_append.2 (Or.inl (List.mem_map.2 ⟨e, he, rfl⟩))))]
  simp only [M.bind]
  rw [tryEncodings_fail (fun e he => hf (e, true) (List.mem_append.2 (Or.inr (List.mem_map.2 ⟨e, he, rfl⟩))))]
  rfl
end

/-- A file that only the recovering latin-1 parser reads. -/
example : safeLoad (fun o => if o = ⟨some (s%"iso-8859-1"), true⟩ then .doc 7 else .syntaxError (if o.encoding.isNone then 3 else 4)) =
    .ok 7 [.fallbackEncoding (s%"iso-8859-1") true] := by decide +kernel
example : safeLoad (α := Nat) (fun o => .syntaxError (if o.encoding.isNone then 3 else 4)) = .err (.xmlSyntax 3) := by
  decide +kernel

/-! ### C51 -/

theorem comp_cons_zero (a : Nat) (as : List Nat) : comp (a :: as) 0 = a := rfl
theorem comp_cons_succ (a : Nat) (as : List Nat) (i : Nat) : comp (a :: as) (i + 1) = comp as i := rfl
theorem comp_nil (i : Nat) : comp [] i = 0 := rfl

theorem older_cons {a b : Nat} {as bs : List Nat} : Older (a :: as) (b :: bs) ↔ a < b ∨ (a = b ∧ Older as bs) := by
  constructor
  · rintro ⟨i, h1, h2⟩
    cases i with
    | zero => exact Or.inl h2
    | succ i => exact Or.inr ⟨h1 0 (by omega), i, fun j hj => h1 (j + 1) (by omega), h2⟩
  · rintro (h | ⟨rfl, i, h1, h2⟩)
    · exact ⟨0, fun j hj => by omega, h⟩
    · refine ⟨i + 1, fun j hj => ?_, h2⟩
      cases j with
      | zero => rfl
      | succ j => exact h1 j (by omega)

theorem stripZeros_comp (v : List Nat) (i : Nat) : comp (stripZeros v) i = comp v i := by
  unfold stripZeros
  generalize hr : v.reverse = r
  have : v = r.reverse := by rw [← hr, List.reverse_reverse]
  subst this
  clear hr
  induction r with
  | nil => rfl
  | cons x r ih =>
    rw [List.dropWhile_cons]
    split
    · rename_i hx
      have hx : x = 0 := by simpa using hx
      subst hx
      rw [ih, List.reverse_cons]
      unfold comp
      by_cases h : i < r.reverse.length
      · rw [List.getD_eq_getElem?_getD, List.getD_eq_getElem?_getD, List.getElem?_append_left h]
      · have h : r.reverse.length ≤ i := by omega
        rw [List.getD_eq_getElem?_getD, List.getD_eq_getElem?_getD, List.getElem?_append_right h,
          List.getElem?_eq_none h]
        cases hk : i - r.reverse.length with
        | zero => rfl
        | succ k => rfl
    · rfl

/-- The last component is not 0. -/
def NoTail (v : List Nat) : Prop := ∀ x ∈ v.getLast?, x ≠ 0

theorem stripZeros_noTail (v : List Nat) : NoTail (stripZeros v) := by
  unfold NoTail stripZeros
  intro x hx
  rw [List.getLast?_reverse] at hx
  have := List.head?_dropWhile_not (p := fun n : Nat => n == 0) v.reverse
  cases hd : (List.dropWhile (fun n : Nat => n == 0) v.reverse).head? with
  | none => rw [hd] at hx; cases hx
  | some y =>
    rw [hd] at hx this
    simp at hx this
    rw [← hx]; exact this

theorem noTail_pos {v : List Nat} (h : NoTail v) (hv : v ≠ []) : ∃ i, 0 < comp v i := by
  refine ⟨v.length - 1, ?_⟩
  have h1 : v.getLast? = some (v.getLast hv) := List.getLast?_eq_some_getLast hv
  have h2 := h _ (by rw [h1]; rfl)
  have h3 : v.length - 1 < v.length := by
    cases v with
    | nil => exact absurd rfl hv
    | cons x xs => simp
  unfold comp
  rw [List.getD_eq_getElem?_getD, List.getElem?_eq_getElem h3, ← List.getLast_eq_getElem hv, Option.getD_some]
  omega

theorem noTail_cons {x : Nat} {v : List Nat} (h : NoTail (x :: v)) : NoTail v := by
  intro y hy
  cases v with
  | nil => cases hy
  | cons z v => exact h y (by rw [List.getLast?_cons_cons]; exact hy)

theorem tupleLe_spec {a b : List Nat} (ha : NoTail a) (hb : NoTail b) : tupleLe a b = true ↔ ¬ Older b a := by
  induction a generalizing b with
  | nil =>
    simp only [tupleLe, true_iff]
    rintro ⟨i, -, h2⟩
    rw [comp_nil] at h2
    omega
  | cons x a ih =>
    cases b with
    | nil =>
      simp only [tupleLe, Bool.false_eq_true, false_iff, Classical.not_not]
      obtain ⟨i, hi⟩ := noTail_pos ha (List.cons_ne_nil _ _)
      obtain ⟨k, hk⟩ : ∃ k, 0 < comp (x :: a) k ∧ ∀ j, j < k → comp (x :: a) j = 0 := by
        induction i using Nat.strongRecOn with
        | ind i ihi =>
          by_cases hj : ∃ j, j < i ∧ 0 < comp (x :: a) j
          · obtain ⟨j, hj1, hj2⟩ := hj
            exact ihi j hj1 hj2
          · refine ⟨i, hi, fun j hji => ?_⟩
            exact Nat.eq_zero_of_not_pos fun hp => hj ⟨j, hji, hp⟩
      exact ⟨k, fun j hj => by rw [comp_nil, hk.2 j hj], by rw [comp_nil]; exact hk.1⟩
    | cons y b =>
      rw [older_cons, tupleLe]
      have := ih (b := b) (noTail_cons ha) (noTail_cons hb)
      split
      · simp; omega
      · split
        · simp; omega
        · rw [this]
          have : x = y := by omega
          subst this
          simp

theorem older_stripZeros {a b : List Nat} : Older (stripZeros a) (stripZeros b) ↔ Older a b := by
  unfold Older
  simp only [stripZeros_comp]

theorem versionLe_spec {a b : Version} : versionLe a b = true ↔ ¬ Older b a := by
  unfold versionLe
  rw [tupleLe_spec (stripZeros_noTail a) (stripZeros_noTail b), older_stripZeros]

theorem older_trichotomy {a b : List Nat} (h1 : Older a b) (h2 : Older b a) : False := by
  obtain ⟨i, h3, h4⟩ := h1
  obtain ⟨j, h5, h6⟩ := h2
  rcases Nat.lt_trichotomy i j with h | h | h
  · have := h5 i h; omega
  · subst h; omega
  · have := h3 j h; omega

theorem versionLe_total : TotalPre versionLe where
  total a b := by
    rw [versionLe_spec, versionLe_spec]
    by_cases h : Older b a
    · exact Or.inr fun h' => older_trichotomy h h'
    · exact Or.inl h
  trans a b c := by
    rw [versionLe_spec, versionLe_spec, versionLe_spec]
    intro h1 h2
    rintro ⟨i, h3, h4⟩
    -- the first component at which `b` differs from `a` or from `c`
    by_cases hb : ∃ k, k ≤ i ∧ (comp b k ≠ comp a k ∨ comp b k ≠ comp c k)
    · obtain ⟨k, hk, hne, hmin⟩ : ∃ k, k ≤ i ∧ (comp b k ≠ comp a k ∨ comp b k ≠ comp c k) ∧
          ∀ j, j < k → comp b j = comp a j ∧ comp b j = comp c j := by
        obtain ⟨k, hk, hne⟩ := hb
        induction k using Nat.strongRecOn with
        | ind k ihk =>
          by_cases hj : ∃ j, j < k ∧ (comp b j ≠ comp a j ∨ comp b j ≠ comp c j)
          · obtain ⟨j, hj1, hj2⟩ := hj
            exact ihk j hj1 (by omega) hj2
          · refine ⟨k, hk, hne, fun j hjk => ?_⟩
            constructor
            · exact Classical.byContradiction fun hp => hj ⟨j, hjk, Or.inl hp⟩
            · exact Classical.byContradiction fun hp => hj ⟨j, hjk, Or.inr hp⟩
      have h5 : ¬ comp b k < comp a k := fun h => h1 ⟨k, fun j hj => (hmin j hj).1, h⟩
      have h6 : ¬ comp c k < comp b k := fun h => h2 ⟨k, fun j hj => (hmin j hj).2.symm, h⟩
      rcases Nat.lt_or_ge k i with h7 | h7
      · have := h3 k h7; omega
      · have : k = i := by omega
        subst this; omega
    · have h5 : ¬ (comp b i ≠ comp a i ∨ comp b i ≠ comp c i) := fun h => hb ⟨i, Nat.le_refl _, h⟩
      omega

/-- C51, for any set of schema versions: the default is one of them, and none of them is newer. -/
theorem C51_newest {vs : List Version} {v : Version} (h : latestOf vs = some v) :
    v ∈ vs ∧ ∀ w ∈ vs, ¬ Older v w := by
  unfold latestOf at h
  have hs := sortBy_sorted versionLe_total vs
  have hm : ∀ b, b ∈ sortBy versionLe vs ↔ b ∈ vs := fun b => (sortBy_perm vs).mem_iff
  refine ⟨(hm v).1 (List.mem_of_getLast? h), fun w hw => ?_⟩
  have hw := (hm w).2 hw
  obtain ⟨ys, hy⟩ := List.getLast?_eq_some_iff.1 h
  rw [hy] at hw hs
  rcases List.mem_append.1 hw with hw | hw
  · exact versionLe_spec.1 ((List.pairwise_append.1 hs).2.2 w hw v (List.mem_singleton.2 rfl))
  · rw [List.mem_singleton.1 hw]; exact fun h => older_trichotomy h h

/-- ... and there is one, unless the set is empty. -/
theorem C51_exists {vs : List Version} (h : vs ≠ []) : ∃ v, latestOf vs = some v := by
  unfold latestOf
  have : sortBy versionLe vs ≠ [] := fun h' => h (sortBy_eq_nil.1 h')
  exact ⟨_, List.getLast?_eq_some_getLast this⟩

/-- C51: the default schema of the package is 1.3.11, the newest of the shipped ones. -/
theorem C51_latest : getLatest = some [1, 3, 11] ∧ ∀ w ∈ schemaVersions, ¬ Older [1, 3, 11] w := by
  have h : getLatest = some [1, 3, 11] := by decide +kernel
  exact ⟨h, (C51_newest (vs := schemaVersions) h).2⟩

/-- C51: the shipped schemas: 1.0, 1.1, 1.2 and 1.3.1 to 1.3.11, each once. -/
theorem C51_shipped : schemaVersions.Nodup ∧ ∀ v, v ∈ schemaVersions ↔
    (∃ n : Nat, n ≤ 2 ∧ v = [1, n]) ∨ ∃ n : Nat, 1 ≤ n ∧ n ≤ 11 ∧ v = [1, 3, n] := by
  refine ⟨by decide, fun v => ⟨fun h => ?_, ?_⟩⟩
  · simp only [schemaVersions, List.mem_cons, List.not_mem_nil, or_false] at h
    rcases h with h | h | h | h | h | h | h | h | h | h | h | h | h | h <;> subst h
    · exact .inl ⟨_, by decide, rfl⟩
    · exact .inl ⟨_, by decide, rfl⟩
    · exact .inl ⟨_, by decide, rfl⟩
    all_goals exact .inr ⟨_, by decide, by decide, rfl⟩
  · have h1 : ∀ n : Nat, n ≤ 2 → [1, n] ∈ schemaVersions := by decide
    have h2 : ∀ n : Nat, n ≤ 11 → 1 ≤ n → [1, 3, n] ∈ schemaVersions := by decide
    rintro (⟨n, hn, rfl⟩ | ⟨n, hn, hn', rfl⟩)
    · exact h1 n hn
    · exact h2 n hn' hn

/-- Numerically 1.3.9 is older than 1.3.11 (as strings it would be the other way round). -/
example : Older [1, 3, 9] [1, 3, 11] := ⟨2, fun j hj => by
  match j, hj with
  | 0, _ => rfl
  | 1, _ => rfl, by decide⟩

end Svd
