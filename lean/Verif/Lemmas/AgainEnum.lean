import Verif.Model.Convert
import Verif.Lemmas.EnumDev
import Verif.Lemmas.FinTotal
/-
Processing converted enumerated values again.
-/
namespace Svd
open Spec M

def liftValue (v : EnumValue) : IEnumValue := ⟨v.name, v.description, some v.value, false⟩
def liftCont (c : EnumContainer) : IEnumContainer := ⟨c.name, c.headerEnumName, c.usage, c.values.map liftValue⟩

structure ContFix (lsb msb : Int) (c : EnumContainer) : Prop where
  names : ∀ v ∈ c.values, lower v.name ≠ s%"reserved"
  range : ∀ v ∈ c.values, inFieldRange v.value (msb - lsb + 1) = true
  asc : (c.values.map (·.value)).Pairwise (· < ·)

theorem intStr_nonneg {i : Int} (h : 0 ≤ i) : intStr i = natStr i.toNat := by
  cases i with
  | ofNat n => rfl
  | negSucc n => exact absurd h (by simp)

theorem convert_intStr {i : Int} (h : 0 ≤ i) : convertEnumValue (intStr i) = .ok [i] [] := by
  rw [intStr_nonneg h]
  have h1 : ∀ c ∈ natStr i.toNat, IsDec c := fun c hc => isDec_iff.2 (natStr_digits _ c hc)
  have h2 := convert_dec (natStr_ne_nil i.toNat) h1
  unfold convertEnumValue at h2 ⊢
  have hl : lower (natStr i.toNat) = natStr i.toNat := lower_dec h1
  have hh : replaceAll ['#'] (s%"0b") (natStr i.toNat) = natStr i.toNat :=
    replaceAll_single_not_mem _ _ _ fun hc => hash_not_hex (dec_isHex (h1 _ hc))
  rw [hl, hh] at h2 ⊢
  have hd := isDigitStr_natStr i.toNat
  have hx : ∀ c ∈ natStr i.toNat, c ≠ 'b' ∧ c ≠ 'x' := by
    intro c hc
    have := natStr_digits _ c hc
    constructor <;> rintro rfl <;> revert this <;> decide
  have hp : ∀ a : Char, (a = 'b' ∨ a = 'x') → (['0', a] : Str).isPrefixOf (natStr i.toNat) = false := by
    intro a ha
    match hs : natStr i.toNat with
    | [] => rfl
    | [_] => simp [List.isPrefixOf]
    | c :: e :: t =>
      have := hx e (by rw [hs]; simp)
      simp only [List.isPrefixOf]
      rcases ha with rfl | rfl
      · have : ('b' == e) = false := by simp; exact fun h => this.1 h.symm
        simp [this]
      · have : ('x' == e) = false := by simp; exact fun h => this.2 h.symm
        simp [this]
  have hb := hp 'b' (Or.inl rfl)
  have hx' := hp 'x' (Or.inr rfl)
  simp only [hb, hx', hd, Bool.false_eq_true, if_false, if_true, pyInt_natStr10, M.ofOption, Option.map_some]
  have : ((i.toNat : Nat) : Int) = i := by omega
  rw [this]
  rfl

theorem hasWildcard_intStr {i : Int} (h : 0 ≤ i) : hasWildcard (intStr i) = false := by
  rw [intStr_nonneg h]
  have h1 : ∀ c ∈ natStr i.toNat, IsDec c := fun c hc => isDec_iff.2 (natStr_digits _ c hc)
  have h2 : ∀ s : Str, (∀ c ∈ s, IsDec c) → (lower s).contains 'x' = false := by
    intro s hs
    rw [Bool.eq_false_iff]
    intro hc
    exact hex_no_x (fun c hc => dec_isHex (hs c hc)) (lower_contains_x.1 hc)
  rw [hasWildcard_eq]
  split
  · exact h2 _ fun c hc => h1 c (List.mem_of_mem_drop hc)
  · exact h2 _ h1

theorem inFieldRange_nonneg {v w : Int} (h : inFieldRange v w = true) : 0 ≤ v := by
  have := (inFieldRange_iff v w).1 h
  exact ((mem_fieldValues _ _).1 this.2).1

theorem resolve_again {v : EnumValue} (hn : lower v.name ≠ s%"reserved") (h0 : 0 ≤ v.value) :
    resolveWildcard (convEnumValue v) = .ok [liftValue v] [] := by
  unfold resolveWildcard
  have hne : (intStr v.value).isEmpty = false := by
    rw [intStr_nonneg h0]
    cases hs : natStr v.value.toNat with
    | nil => exact absurd hs (natStr_ne_nil _)
    | cons => rfl
  simp only [convEnumValue, hne, Bool.false_eq_true, if_false, convert_intStr h0, M.bind_ok_nil, M.pure_bind, List.map_cons, List.map_nil]
  refine M.filterMapM_cons_ok.2 ⟨some (liftValue v), [], [], [], ?_, rfl, rfl, rfl⟩
  unfold resolveOne
  simp only [hn, if_false, hasWildcard_intStr h0, Bool.false_eq_true]
  rfl

theorem validate_again : ∀ (vs : List EnumValue) (st : EVState) (acc : List IEnumValue), st.seenDefault = none →
    (∀ v ∈ vs, lower v.name ≠ s%"reserved" ∧ 0 ≤ v.value) → (vs.map (·.name)).Nodup → (vs.map (·.value)).Nodup →
    (∀ v ∈ vs, v.name ∉ st.seenNames ∧ v.value ∉ st.seenValues) →
    ∃ st', st'.seenDefault = none ∧ validateLoop (st, acc) (vs.map convEnumValue) = .ok (st', acc ++ vs.map liftValue) []
  | [], st, acc, hd, _, _, _, _ => ⟨st, hd, by simp [validateLoop, M.foldM, M.pure]⟩
  | v :: vs, st, acc, hd, hv, hn, hva, hs => by
    simp only [List.map_cons, List.nodup_cons] at hn hva
    obtain ⟨h1, h2⟩ := hv v (by simp)
    obtain ⟨h3, h4⟩ := hs v (by simp)
    have hst : ∃ st1, st1.seenDefault = none ∧ st1.seenNames = v.name :: st.seenNames ∧ st1.seenValues = v.value :: st.seenValues ∧
        validateStep (st, acc) (liftValue v) = .ok (st1, acc ++ [liftValue v]) [] := by
      refine ⟨{ st with seenNames := v.name :: st.seenNames, seenValues := v.value :: st.seenValues }, hd, rfl, rfl, ?_⟩
      unfold validateStep isValueValid
      have e1 : st.seenNames.contains v.name = false := by simpa using h3
      have e2 : st.seenValues.contains v.value = false := by simpa using h4
      simp only [liftValue, e1, seenValue, e2, Bool.false_eq_true, if_false, M.pure_bind]
      rfl
    obtain ⟨st1, h5, h6, h7, h8⟩ := hst
    obtain ⟨st', h9, h10⟩ := validate_again vs st1 (acc ++ [liftValue v]) h5 (fun u hu => hv u (by simp [hu])) hn.2 hva.2 (by
      intro u hu
      obtain ⟨q1, q2⟩ := hs u (by simp [hu])
      rw [h6, h7]
      constructor
      · intro hc
        rcases List.mem_cons.1 hc with hc | hc
        · exact hn.1 (hc ▸ List.mem_map.2 ⟨u, hu, rfl⟩)
        · exact q1 hc
      · intro hc
        rcases List.mem_cons.1 hc with hc | hc
        · exact hva.1 (hc ▸ List.mem_map.2 ⟨u, hu, rfl⟩)
        · exact q2 hc)
    refine ⟨st', h9, ?_⟩
    unfold validateLoop at h10 ⊢
    rw [List.map_cons, M.foldM]
    simp only [resolve_again h1 h2, M.bind_ok_nil, M.foldM, h8]
    rw [show (M.pure (st1, acc ++ [liftValue v]) : M _) = .ok (st1, acc ++ [liftValue v]) [] from rfl, M.bind_ok_nil, h10]
    simp

theorem ascending_nodup {l : List Int} (h : l.Pairwise (· < ·)) : l.Nodup := h.imp fun h => by omega

theorem values_again {lsb msb : Int} {c : EnumContainer} (h : ContFix lsb msb c) (hn : (c.values.map (·.name)).Nodup) :
    processEnumValues (c.values.map convEnumValue) lsb msb = .ok (c.values.map liftValue) [] := by
  obtain ⟨st', h1, h2⟩ := validate_again c.values {} [] rfl (fun v hv => ⟨h.names v hv, inFieldRange_nonneg (h.range v hv)⟩) hn
    (ascending_nodup h.asc) (by simp)
  unfold processEnumValues
  rw [h2]
  simp only [M.bind_ok_nil, h1, M.pure_bind, List.nil_append]
  rw [sortBy_of_sorted]
  · rfl
  · rw [List.pairwise_map]
    have := h.asc
    rw [List.pairwise_map] at this
    refine this.imp ?_
    intro a b hab
    have hab : a.value < b.value := hab
    exact decide_eq_true (show a.value ≤ b.value by omega)

theorem container_again {lsb msb : Int} {c : EnumContainer} (h : ContFix lsb msb c) (hn : (c.values.map (·.name)).Nodup) :
    createContainer (convEnumContainer c) lsb msb = .ok (liftCont c) [] := by
  unfold createContainer
  simp only [convEnumContainer, values_again h hn, M.bind_ok_nil]
  rfl

theorem finalizeValues_again {lsb msb : Int} : ∀ (vs : List EnumValue), (∀ v ∈ vs, inFieldRange v.value (msb - lsb + 1) = true) →
    finalizeEnumValues (vs.map liftValue) lsb msb = .ok vs []
  | [], _ => rfl
  | v :: vs, h => by
    unfold finalizeEnumValues
    rw [List.map_cons]
    refine M.filterMapM_cons_ok.2 ⟨some v, [], vs, [], ?_, finalizeValues_again vs (fun u hu => h u (by simp [hu])), rfl, rfl⟩
    simp only [finalizeEnumValue, liftValue, h v (by simp), if_true]
    rfl

/-- A sorted list is determined by its members, if the order is antisymmetric on them. -/
theorem sorted_unique {α : Type} {le : α → α → Bool} : ∀ {l m : List α}, l.Perm m → l.Pairwise (fun a b => le a b = true) →
    m.Pairwise (fun a b => le a b = true) → (∀ a ∈ l, ∀ b ∈ l, le a b = true → le b a = true → a = b) → l = m
  | [], m, hp, _, _, _ => by rw [List.nil_perm.1 hp]
  | a :: l, [], hp, _, _, _ => by have := hp.length_eq; simp at this
  | a :: l, b :: m, hp, h1, h2, ha => by
    have hab : a = b := by
      have hb : b ∈ a :: l := hp.mem_iff.2 (by simp)
      have ham : a ∈ b :: m := hp.mem_iff.1 (by simp)
      rcases List.mem_cons.1 hb with h | h
      · exact h.symm
      · rcases List.mem_cons.1 ham with h' | h'
        · exact h'
        · exact ha a (by simp) b (by simp [h]) ((List.pairwise_cons.1 h1).1 b h) ((List.pairwise_cons.1 h2).1 a h')
    subst hab
    rw [sorted_unique (List.Perm.cons_inv hp) (List.pairwise_cons.1 h1).2 (List.pairwise_cons.1 h2).2
      (fun x hx y hy => ha x (by simp [hx]) y (by simp [hy]))]

theorem usage_val_inj {a b : Usage} (h : a.val = b.val) : a = b := by
  cases a <;> cases b <;> first | rfl | (exfalso; revert h; decide)

/-- The containers of a processed field. -/
structure ContsFix (lsb msb : Int) (cs : List EnumContainer) : Prop where
  each : ∀ c ∈ cs, ContFix lsb msb c
  usages : (cs.map (·.usage)).Nodup
  two : cs.length ≤ 2
  both : cs.length = 2 → ∀ c ∈ cs, c.usage = .read ∨ c.usage = .write
  sorted : cs.Pairwise fun a b => containerLe a b = true

theorem containers_again {lsb msb : Int} {cs : List EnumContainer} (h : ContsFix lsb msb cs) {ks : List IEnumContainer}
    (hk : ks.Perm (cs.map liftCont)) : finalizeContainers ks lsb msb = .ok cs [] := by
  have h1 : ∃ cs' : List EnumContainer, cs'.Perm cs ∧ ks = cs'.map liftCont := by
    have hunl : ∀ k ∈ ks, ∃ c ∈ cs, liftCont c = k := fun k hk' => by simpa using hk.mem_iff.1 hk'
    let f : IEnumContainer → EnumContainer := fun k => ⟨k.name, k.headerEnumName, k.usage, k.values.map fun v => ⟨v.name, v.description, v.value.getD 0⟩⟩
    have hf : ∀ c, f (liftCont c) = c := by
      intro c
      simp only [f, liftCont, List.map_map]
      have : (fun v : IEnumValue => (⟨v.name, v.description, v.value.getD 0⟩ : EnumValue)) ∘ liftValue = id := by
        funext v; rfl
      rw [this]; simp
    refine ⟨ks.map f, ?_, ?_⟩
    · have := hk.map f
      rw [List.map_map] at this
      have e : f ∘ liftCont = id := by funext c; exact hf c
      rwa [e, List.map_id] at this
    · rw [List.map_map]
      conv => lhs; rw [← List.map_id ks]
      refine List.map_congr_left ?_
      intro k hk'
      obtain ⟨c, -, rfl⟩ := hunl k hk'
      simp [hf]
  obtain ⟨cs', h2, rfl⟩ := h1
  unfold finalizeContainers
  have h3 : M.mapM (fun (c : IEnumContainer) => M.bind (finalizeEnumValues c.values lsb msb) fun vs =>
      M.pure ({ name := c.name, headerEnumName := c.headerEnumName, usage := c.usage, values := vs } : EnumContainer)) (cs'.map liftCont) = .ok cs' [] := by
    have : ∀ l : List EnumContainer, (∀ c ∈ l, ContFix lsb msb c) → M.mapM (fun (c : IEnumContainer) => M.bind (finalizeEnumValues c.values lsb msb) fun vs =>
      M.pure ({ name := c.name, headerEnumName := c.headerEnumName, usage := c.usage, values := vs } : EnumContainer)) (l.map liftCont) = .ok l [] := by
      intro l
      induction l with
      | nil => intro _; rfl
      | cons c l ih =>
        intro hl
        rw [List.map_cons]
        refine M.mapM_eq_ok.2 (.cons (w := []) (ws := []) ?_ (M.mapM_eq_ok.1 (ih fun c hc => hl c (by simp [hc]))))
        simp only [liftCont, finalizeValues_again c.values (hl c (by simp)).range, M.bind_ok_nil]
        rfl
    exact this cs' fun c hc => h.each c (h2.mem_iff.1 hc)
  rw [h3, M.bind_ok_nil]
  have h4 : sortBy containerLe cs' = cs := by
    refine (sorted_unique ((sortBy_perm _).trans h2).symm h.sorted (sortBy_sorted containerLe_total _) ?_).symm
    intro a ha b hb hab hba
    have hu : a.usage = b.usage := by
      apply usage_val_inj
      unfold containerLe at hab hba
      by_cases he : a.usage.val = b.usage.val
      · exact he
      · rw [if_neg he] at hab
        rw [if_neg (fun hc => he hc.symm)] at hba
        exact absurd (strLe_antisymm _ _ hab hba) he
    exact inj_of_nodup_map h.usages ha hb hu
  rw [h4]
  rfl

end Svd
