import Verif.Lemmas.AgainTree
/-
Finalisation of the resolved form of a converted processed device gives the device back.
-/
namespace Svd
open Spec M

theorem inherit_conv (p : FProps) (e : Props) : inheritProps (convProps p) e = convProps p := rfl

theorem validator_conv (p : FProps) : regPropValidator (convProps p) = .ok p [] := rfl

theorem align_conv {n : Str} {s off : Int} (h : OkSize s) : ∃ w, checkSizeAlign n (some s) off = .ok (some s) w := by
  unfold OkSize at h
  rcases h with rfl | rfl | rfl | rfl | rfl <;> by_cases ho : off % 4 = 0 <;> by_cases ho2 : off % 2 = 0 <;>
    exact ⟨_, by simp [checkSizeAlign, toByte, getAlignment, M.warnIf, M.bind, M.pure, M.warn, ho, ho2]; rfl⟩

theorem inheritField_lift {r : Register} {f : Field} {x : IField} (h : LiftF f x) (hw : orIfNone f.writeConstraint r.writeConstraint = f.writeConstraint)
    (a : Option Access) : inheritField a r.writeConstraint x = x := by
  obtain ⟨hd, cs⟩ := x
  obtain ⟨h1, -⟩ := h
  simp only at h1
  subst h1
  simp only [inheritField, liftFieldHd, hw]
  rfl

theorem finalizeField_lift {f : Field} {x : IField} (h : LiftF f x) (hc : ContsFix f.lsb f.msb f.containers)
    (hp : f.bitWidth = f.msb - f.lsb + 1 ∧ f.bitOffset = f.lsb ∧ f.bitRange = (f.msb, f.lsb)) : finalizeField x = .ok f [] := by
  obtain ⟨hd, cs⟩ := x
  obtain ⟨h1, h2⟩ := h
  simp only at h1 h2
  subst h1
  unfold finalizeField
  simp only [liftFieldHd]
  rw [containers_again hc h2, M.bind_ok_nil]
  simp only [M.pure, M.ok.injEq, and_true]
  obtain ⟨p1, p2, p3⟩ := hp
  cases f
  simp only at p1 p2 p3
  subst p1 p2 p3
  rfl

theorem fieldsLoop_lift {gs : List Field} {xs : List IField} (h : Entrywise LiftF gs xs) : ∀ {seen : List Str},
    (∀ f ∈ gs, lower f.name ≠ s%"reserved" ∧ ContsFix f.lsb f.msb f.containers ∧
      f.bitWidth = f.msb - f.lsb + 1 ∧ f.bitOffset = f.lsb ∧ f.bitRange = (f.msb, f.lsb)) →
    (∀ f ∈ gs, f.name ∉ seen) → (gs.map (·.name)).Nodup → finalizeFieldsLoop seen xs = .ok gs [] := by
  induction h with
  | nil => intros; rfl
  | @cons f x gs xs h1 h2 ih =>
    intro seen ha hs hn
    simp only [List.map_cons, List.nodup_cons] at hn
    have hname : x.hd.name = f.name := by rw [h1.1]; rfl
    have hf := ha f (by simp)
    unfold finalizeFieldsLoop
    rw [hname, if_neg hf.1, if_neg (by simpa using hs f (by simp)), finalizeField_lift h1 hf.2.1 hf.2.2, M.bind_ok_nil, ih (fun g hg => ha g (by simp [hg])) ?_ hn.2, M.bind_ok_nil]
    · rfl
    · intro g hg hc
      rcases List.mem_cons.1 hc with hc | hc
      · exact hn.1 (hc ▸ List.mem_map.2 ⟨g, hg, rfl⟩)
      · exact hs g (by simp [hg]) hc

theorem fields_lift {r : Register} {xs : List IField} (h : Entrywise LiftF r.fields xs) (hf : RegFix r) (s : Int) :
    ∃ w, finalizeFields xs s = .ok r.fields w := by
  unfold finalizeFields
  rw [fieldsLoop_lift h (fun f hf' => ⟨hf.name f hf', hf.conts f hf', hf.pos f hf'⟩) (by simp) hf.names, M.bind_ok_nil]
  have hs : sortBy (fun a b : Field => decide (a.lsb ≤ b.lsb)) r.fields = r.fields := by
    refine sortBy_of_sorted _ (hf.sorted.imp ?_)
    intro a b hab
    have := intStrLe_spec.1 hab
    rcases this with h | ⟨h, -⟩ <;> simp only at h <;> exact decide_eq_true (by omega)
  simp only [hs]
  refine ⟨exceedWarns s r.fields, M.bind_eq_ok.2 ⟨(), _, [], checkFields_ok.2 ⟨?_, ?_, hf.apart, rfl⟩, rfl, by simp⟩⟩
  · intro _ _ _ e he; cases he
  · intro _ _ _ e he; cases he

theorem map_inherit_lift {r : Register} {gs : List Field} {xs : List IField} (h : Entrywise LiftF gs xs)
    (hw : ∀ f ∈ gs, orIfNone f.writeConstraint r.writeConstraint = f.writeConstraint) (a : Option Access) :
    xs.map (inheritField a r.writeConstraint) = xs := by
  induction h with
  | nil => rfl
  | cons h _ ih => rw [List.map_cons, inheritField_lift h (hw _ (by simp)), ih (fun f hf => hw f (by simp [hf]))]

theorem inheritRCs_map {e : Props} {xs : List IRC} : inheritRCs e xs = xs.map (inheritRC e) := by
  induction xs with
  | nil => rfl
  | cons x xs ih => simp [inheritRCs, ih]

/-- The loop over the children, in any order. -/
theorem rcsLoop_lift {b : Int} {xs : List IRC} {ys : List RC} (h : Entrywise (fun x y => ∃ w, finalizeRC b x = .ok (some y) w) xs ys) :
    ∀ {seen : List Str}, (∀ y ∈ ys, y.qualName ∉ seen) → (ys.map RC.qualName).Nodup → ∃ w, finalizeRCsLoop b seen xs = .ok ys w := by
  induction h with
  | nil => intros; exact ⟨[], by rw [finalizeRCsLoop]; rfl⟩
  | @cons x y xs ys h1 h2 ih =>
    intro seen hs hn
    simp only [List.map_cons, List.nodup_cons] at hn
    obtain ⟨w, h1⟩ := h1
    obtain ⟨w2, h3⟩ := ih (seen := y.qualName :: seen) (by
      intro z hz hc
      rcases List.mem_cons.1 hc with hc | hc
      · exact hn.1 (hc ▸ List.mem_map.2 ⟨z, hz, rfl⟩)
      · exact hs z (by simp [hz]) hc) hn.2
    refine ⟨w ++ w2, ?_⟩
    rw [finalizeRCsLoop]
    refine M.bind_eq_ok.2 ⟨some y, w, w2, h1, ?_, rfl⟩
    simp only
    rw [if_neg (by simpa using hs y (by simp))]
    exact M.bind_eq_ok.2 ⟨ys, w2, [], h3, rfl, by simp⟩

theorem entrywise_flip {α β : Type} {R : α → β → Prop} {xs : List α} {ys : List β} (h : Entrywise R xs ys) : Entrywise (fun y x => R x y) ys xs := by
  induction h with
  | nil => exact .nil
  | cons h _ ih => exact .cons h ih

theorem liftRCs_entrywise : ∀ {ch : List RC} {ys : List IRC}, LiftRCs ch ys → Entrywise LiftRC ch ys
  | [], ys, h => by rw [LiftRCs] at h; subst h; exact .nil
  | x :: ch, ys, h => by
    rw [LiftRCs] at h
    obtain ⟨y, ys', h1, h2, rfl⟩ := h
    exact .cons h1 (liftRCs_entrywise h2)

/-- The children of an element, in any order, give the children back. -/
theorem scope_lift {b : Int} {e : Props} {ch : List RC} {ys ys' : List IRC} (hs : ScopeOK ch) (ha : AltsKnown (clusterLookup ch) ch)
    (hl : LiftRCs ch ys') (hp : ys'.Perm ys) (hx : ∀ x ∈ ch, ∀ y, LiftRC x y → ∃ w, finalizeRC b (inheritRC e y) = .ok (some x) w) :
    ∃ raw w w2, finalizeRCsLoop b [] (inheritRCs e ys) = .ok raw w ∧ finishRCs raw = .ok ch w2 := by
  have h1 : Entrywise (fun y x => ∃ w, finalizeRC b (inheritRC e y) = .ok (some x) w) ys' ch :=
    entrywise_flip (entrywise_imp (liftRCs_entrywise hl) fun x hx' y _ h => hx x hx' y h)
  obtain ⟨raw, h2, h3⟩ := entrywise_perm hp h1
  have h4 : Entrywise (fun y x => ∃ w, finalizeRC b y = .ok (some x) w) (inheritRCs e ys) raw := by
    rw [inheritRCs_map]
    clear h3 hp
    induction h2 with
    | nil => exact .nil
    | cons h _ ih => exact .cons h ih
  obtain ⟨w, h5⟩ := rcsLoop_lift h4 (seen := []) (by simp) ((h3.map _).nodup_iff.2 hs.2)
  obtain ⟨w2, h6⟩ := finish_again hs ha h3
  exact ⟨raw, w, w2, h5, h6⟩

theorem rc_lift (x : RC) : Fix x → ∀ {b : Int} {e : Props} {y : IRC}, FinT b x → LiftRC x y → ∃ w, finalizeRC b (inheritRC e y) = .ok (some x) w := by
  induction x using RC.induct with
  | hr r =>
    intro hf b e y ht hl
    rw [LiftRC] at hl
    obtain ⟨fs, rfl, h1⟩ := hl
    cases hf with
    | reg f1 f2 f3 f4 f5 =>
    cases ht with
    | reg t1 t2 t3 t4 =>
    obtain ⟨w1, h2⟩ := align_conv (n := r.name) (off := r.addressOffset) f1
    obtain ⟨w2, h3⟩ := fields_lift h1 f2 r.props.size
    refine ⟨w1 ++ w2, ?_⟩
    rw [inheritRC, finalizeRC]
    refine M.bind_eq_ok.2 ⟨_, w1, w2, h2, ?_, rfl⟩
    simp only [finalizeRegister]
    rw [if_neg (show ¬ lower (liftRegHd r).name = s%"reserved" from t3), if_neg (show ¬ ((liftRegHd r).alternateRegister.isSome && (liftRegHd r).alternateGroup.isSome) = true by
      rw [Bool.and_eq_true]; exact t4)]
    refine M.bind_eq_ok.2 ⟨r.fields, w2, [], ?_, ?_, by simp⟩
    · rw [show (liftRegHd r).writeConstraint = r.writeConstraint from rfl, map_inherit_lift h1 f2.wc]
      exact h3
    · refine M.bind_eq_ok.2 ⟨r.props, [], [], validator_conv r.props, ?_, rfl⟩
      simp only [M.pure, M.ok.injEq, Option.some.injEq, RC.reg.injEq, and_true, liftRegHd]
      rw [← t1]
  | hc c ch ih =>
    intro hf b e y ht hl
    rw [LiftRC] at hl
    obtain ⟨ys, ys', rfl, h1, h2⟩ := hl
    cases hf with
    | clu f1 f2 f3 f4 f5 f6 =>
    cases ht with
    | @clu _ _ z zs t1 t2 t3 t4 t5 t6 =>
    obtain ⟨w1, h3⟩ := align_conv (n := c.name) (off := c.addressOffset) f1
    obtain ⟨raw, w2, w3, h4, h5⟩ := scope_lift (b := c.baseAddress) (e := convProps c.props) t5 f5 h1 h2
      (fun x hx y hy => ih x hx (f6 x hx) (t6 x hx) hy)
    refine ⟨w1 ++ (w2 ++ w3), ?_⟩
    rw [inheritRC, finalizeRC]
    refine M.bind_eq_ok.2 ⟨_, w1, w2 ++ w3, h3, ?_, rfl⟩
    simp only
    refine M.bind_eq_ok.2 ⟨raw, w2, w3, ?_, ?_, rfl⟩
    · rw [show b + (liftCluHd c).addressOffset = c.baseAddress from t1.symm]
      exact h4
    · refine M.bind_eq_ok.2 ⟨z :: zs, w3, [], h5, ?_, by simp⟩
      simp only
      refine M.bind_eq_ok.2 ⟨c.props, [], [], validator_conv c.props, ?_, rfl⟩
      simp only [M.pure, M.ok.injEq, Option.some.injEq, RC.clu.injEq, and_true, liftCluHd]
      rw [← t1]
      have t3' : maxList (z.baseAddress + z.extent - 1) (zs.map fun z => z.baseAddress + z.extent - 1) = c.endAddress := t3.symm
      rw [t3', ← t4]

end Svd
