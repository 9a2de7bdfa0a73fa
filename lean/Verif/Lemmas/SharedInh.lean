import Verif.Lemmas.SharedStep
/-
Inheritance in place, on objects.
-/
namespace Svd
open Graph Spec

/-- What an object becomes when it is visited with the given values. -/
def inherited (e : Props × Option WriteConstraint) : Processed → Processed
  | .periph p => .periph { p with props := inheritProps p.props e.1 }
  | .clu c => .clu { c with props := inheritProps c.props e.1 }
  | .reg r => .reg { r with props := inheritProps r.props e.1 }
  | .field f => .field { f with access := orIfNone f.access e.1.access, writeConstraint := orIfNone f.writeConstraint e.2 }

/-- The values handed down from an object. -/
def handed (e : Props × Option WriteConstraint) (p : Processed) : Props × Option WriteConstraint :=
  (inheritProps (statOf p).1 e.1, (statOf p).2)

theorem orIfNone_idem {α : Type} (a b : Option α) : orIfNone (orIfNone a b) b = orIfNone a b := by
  cases a <;> cases b <;> rfl

theorem inheritProps_idem (a b : Props) : inheritProps (inheritProps a b) b = inheritProps a b := by
  unfold inheritProps
  simp only [orIfNone_idem]

theorem inherited_idem (e : Props × Option WriteConstraint) (p : Processed) : inherited e (inherited e p) = inherited e p := by
  cases p <;> simp only [inherited, inheritProps_idem, orIfNone_idem]

theorem handed_idem (e : Props × Option WriteConstraint) (p : Processed) (h : procLevel p ≠ .field) : handed e (inherited e p) = handed e p := by
  cases p <;> first | exact absurd rfl h | simp only [inherited, handed, statOf, inheritProps_idem]

/-- The objects visited, with the values. -/
inductive Visit (h : Heap) (os : List Nat) (dev : Props) : Nat → Props × Option WriteConstraint → Prop
  | root {o} : o ∈ os → Visit h os dev o (dev, none)
  | kid {o e p k} : Visit h os dev o e → h.head o = some p → k ∈ h.kids o → Visit h os dev k (handed e p)

/-- An object is always visited with the same values. -/
def Steady (h : Heap) (os : List Nat) (dev : Props) : Prop :=
  ∀ o e e', Visit h os dev o e → Visit h os dev o e' → e = e'

/-- Some of the objects visited have inherited. -/
structure Inh (h : Heap) (os : List Nat) (dev : Props) (x : Heap) : Prop where
  kids : x.kids = h.kids
  conts : x.conts = h.conts
  head : ∀ o, x.head o = h.head o ∨ ∃ e p, Visit h os dev o e ∧ h.head o = some p ∧ x.head o = some (inherited e p)

/-- Objects that have inherited keep what they have. -/
def Adv (h : Heap) (os : List Nat) (dev : Props) (x x' : Heap) : Prop :=
  ∀ o e p, Visit h os dev o e → h.head o = some p → x.head o = some (inherited e p) → x'.head o = some (inherited e p)

section
variable {h x x' x'' : Heap} {os : List Nat} {dev : Props}

theorem Adv.refl (x : Heap) : Adv h os dev x x := fun _ _ _ _ _ hx => hx
theorem Adv.trans (a : Adv h os dev x x') (b : Adv h os dev x' x'') : Adv h os dev x x'' :=
  fun o e p h1 h2 h3 => b o e p h1 h2 (a o e p h1 h2 h3)

/-- One object. -/
theorem Inh.set (F : Steady h os dev) (I : Inh h os dev x) {o : Nat} {e : Props × Option WriteConstraint} {p : Processed}
    (hv : Visit h os dev o e) (hp : h.head o = some p) :
    (x.head o = some p ∨ x.head o = some (inherited e p)) ∧
    Inh h os dev (x.setHead o (inherited e p)) ∧ Adv h os dev x (x.setHead o (inherited e p)) ∧
    ∀ y, Adv h os dev (x.setHead o (inherited e p)) y → y.head o = some (inherited e p) := by
  have hown : (x.setHead o (inherited e p)).head o = some (inherited e p) := by
    show (if o = o then _ else _) = _
    rw [if_pos rfl]
  refine ⟨?_, ⟨I.kids, I.conts, ?_⟩, ?_, fun y hy => hy o e p hv hp hown⟩
  · rcases I.head o with h1 | ⟨e', p', h1, h2, h3⟩
    · exact Or.inl (by rw [h1, hp])
    · rw [hp] at h2
      cases h2
      rw [F o e' e h1 hv] at h3
      exact Or.inr h3
  · intro k
    by_cases hk : k = o
    · subst hk
      exact Or.inr ⟨e, p, hv, hp, hown⟩
    · show (if k = o then _ else _) = _ ∨ ∃ e p, _ ∧ _ ∧ (if k = o then _ else _) = _
      simp only [if_neg hk]
      exact I.head k
  · intro k e' p' h1 h2 h3
    show (if k = o then _ else _) = _
    split
    · rename_i hk
      subst hk
      rw [hp] at h2
      cases h2
      rw [F k e e' hv h1]
    · exact h3

/-- What is known after an object has been visited. -/
def Visited (h : Heap) (os : List Nat) (dev : Props) (x : Heap) (m : M Heap) (Q : Heap → Prop) : Prop :=
  ∃ x1, m = .ok x1 [] ∧ Inh h os dev x1 ∧ Adv h os dev x x1 ∧ ∀ y, Inh h os dev y → Adv h os dev x1 y → Q y

theorem eachObj_visited {α : Type} {step : Heap → Nat → M Heap} {read : Heap → Nat → Option α} {ks : List Nat} {ys : List α}
    {f : α → α} {R : Nat → α → Prop} (hr : Entrywise R ks ys)
    (hs : ∀ k ∈ ks, ∀ y, R k y → ∀ x, Inh h os dev x → Visited h os dev x (step x k) fun z => read z k = some (f y)) :
    ∀ x, Inh h os dev x → Visited h os dev x (eachObj step x ks) fun z => readAll (read z) ks = some (ys.map f) := by
  induction hr with
  | nil =>
    intro x I
    exact ⟨x, rfl, I, Adv.refl x, fun _ _ _ => rfl⟩
  | cons h1 _ ih =>
    rename_i k y ks ys _
    intro x I
    obtain ⟨x1, g1, g2, g3, g4⟩ := hs k (by simp) y h1 x I
    obtain ⟨x2, f1, f2, f3, f4⟩ := ih (fun k' hk' => hs k' (by simp [hk'])) x1 g2
    refine ⟨x2, ?_, f2, g3.trans f3, ?_⟩
    · simp only [eachObj]
      rw [g1]
      show M.bind (M.pure x1) _ = _
      rw [M.pure_bind, f1]
    · intro z hz1 hz2
      simp only [readAll]
      rw [g4 z hz1 (f3.trans hz2), f4 z hz1 hz2]
      rfl

theorem inheritField_visited (F : Steady h os dev) {k : Nat} {y : IField} {e : Props × Option WriteConstraint} (hv : Visit h os dev k e)
    (hr : readField h k = some y) (x : Heap) (I : Inh h os dev x) :
    Visited h os dev x (inheritFieldH e.1.access e.2 x k) fun z => readField z k = some (inheritField e.1.access e.2 y) := by
  unfold readField at hr
  split at hr
  · rename_i fd hfd
    cases hr
    obtain ⟨g1, g2, g3, g4⟩ := I.set F hv hfd
    refine ⟨_, ?_, g2, g3, ?_⟩
    · unfold inheritFieldH
      rcases g1 with g1 | g1
      · rw [g1]; rfl
      · rw [g1]
        show M.pure _ = _
        have := inherited_idem e (.field fd)
        simp only [inherited] at this ⊢
        rw [this]
        rfl
    · intro z hz1 hz2
      unfold readField
      rw [g4 z hz2, hz1.conts]
      rfl
  · cases hr

theorem inheritRCs_each (e : Props) (l : List IRC) : inheritRCs e l = l.map (inheritRC e) := by
  induction l with
  | nil => simp [inheritRCs]
  | cons x l ih => simp [inheritRCs, ih]

theorem inheritRC_visited (F : Steady h os dev) : ∀ (f : Nat) {k : Nat} {y : IRC} {e : Props × Option WriteConstraint}, Visit h os dev k e →
    readRC h f k = some y → ∀ (x : Heap), Inh h os dev x →
    Visited h os dev x (inheritRCH f e.1 x k) fun z => readRC z f k = some (inheritRC e.1 y) := by
  intro f
  induction f with
  | zero => intro k y e _ hr; cases hr
  | succ f ih =>
    intro k y e hv hr x I
    unfold readRC at hr
    split at hr
    · rename_i r hh
      obtain ⟨fs, h1, rfl⟩ := Option.map_eq_some_iff.1 hr
      obtain ⟨g1, g2, g3, g4⟩ := I.set F hv hh
      have hkids := eachObj_visited (step := inheritFieldH (inheritProps r.props e.1).access r.writeConstraint) (read := readField)
        (f := inheritField (inheritProps r.props e.1).access r.writeConstraint) (readAll_some.1 h1) (by
          intro k' hk' y' hy' x' I'
          exact inheritField_visited F (e := handed e (.reg r)) (.kid hv hh hk') hy' x' I') _ g2
      obtain ⟨x1, f1, f2, f3, f4⟩ := hkids
      refine ⟨x1, ?_, f2, g3.trans f3, ?_⟩
      · simp only [inheritRCH]
        rw [I.kids]
        rcases g1 with g1 | g1
        · rw [g1]; exact f1
        · rw [g1]
          simp only [inherited, inheritProps_idem]
          exact f1
      · intro z hz1 hz2
        simp only [readRC]
        rw [g4 z (f3.trans hz2), hz1.kids]
        show (readAll _ _).map _ = _
        rw [f4 z hz1 hz2]
        simp only [inheritRC]
        rfl
    · rename_i c hh
      obtain ⟨fs, h1, rfl⟩ := Option.map_eq_some_iff.1 hr
      obtain ⟨g1, g2, g3, g4⟩ := I.set F hv hh
      have hkids := eachObj_visited (step := inheritRCH f (inheritProps c.props e.1)) (read := fun z => readRC z f)
        (f := inheritRC (inheritProps c.props e.1)) (readAll_some.1 h1) (by
          intro k' hk' y' hy' x' I'
          exact ih (e := handed e (.clu c)) (.kid hv hh hk') hy' x' I') _ g2
      obtain ⟨x1, f1, f2, f3, f4⟩ := hkids
      refine ⟨x1, ?_, f2, g3.trans f3, ?_⟩
      · simp only [inheritRCH]
        rw [I.kids]
        rcases g1 with g1 | g1
        · rw [g1]; exact f1
        · rw [g1]
          simp only [inherited, inheritProps_idem]
          exact f1
      · intro z hz1 hz2
        simp only [readRC]
        rw [g4 z (f3.trans hz2), hz1.kids]
        show (readAll _ _).map _ = _
        rw [f4 z hz1 hz2]
        simp only [inheritRC, inheritRCs_each]
        rfl
    · cases hr

theorem inheritPeripheral_visited (F : Steady h os dev) (f : Nat) {k : Nat} {y : IPeripheral} (hv : k ∈ os)
    (hr : readPeripheral h f k = some y) (x : Heap) (I : Inh h os dev x) :
    Visited h os dev x (inheritPeripheralH f dev x k) fun z => readPeripheral z f k = some (inheritPeripheral dev y) := by
  have hv := Visit.root (h := h) (dev := dev) hv
  unfold readPeripheral at hr
  split at hr
  · rename_i c hh
    obtain ⟨fs, h1, rfl⟩ := Option.map_eq_some_iff.1 hr
    obtain ⟨g1, g2, g3, g4⟩ := I.set F hv hh
    have hkids := eachObj_visited (step := inheritRCH f (inheritProps c.props dev)) (read := fun z => readRC z f)
      (f := inheritRC (inheritProps c.props dev)) (readAll_some.1 h1) (by
        intro k' hk' y' hy' x' I'
        exact inheritRC_visited F f (e := handed (dev, none) (.periph c)) (.kid hv hh hk') hy' x' I') _ g2
    obtain ⟨x1, f1, f2, f3, f4⟩ := hkids
    refine ⟨x1, ?_, f2, g3.trans f3, ?_⟩
    · simp only [inheritPeripheralH]
      rw [I.kids]
      rcases g1 with g1 | g1
      · rw [g1]; exact f1
      · rw [g1]
        simp only [inherited, inheritProps_idem]
        exact f1
    · intro z hz1 hz2
      simp only [readPeripheral]
      rw [g4 z (f3.trans hz2), hz1.kids]
      show (readAll _ _).map _ = _
      rw [f4 z hz1 hz2]
      simp only [inheritPeripheral, inheritRCs_each]
      rfl
  · cases hr

/-- Inheritance in place is inheritance by value. -/
theorem inherit_heap (F : Steady h os dev) (f : Nat) {ps : List IPeripheral}
    (hr : Entrywise (fun o p => readPeripheral h f o = some p) os ps) :
    ∃ x, eachObj (inheritPeripheralH f dev) h os = .ok x [] ∧ readAll (readPeripheral x f) os = some (ps.map (inheritPeripheral dev)) := by
  obtain ⟨x, h1, h2, -, h4⟩ := eachObj_visited (h := h) (os := os) (dev := dev) (step := inheritPeripheralH f dev)
    (read := fun z => readPeripheral z f) (f := inheritPeripheral dev) hr
    (fun k hk y hy x I => inheritPeripheral_visited F f hk hy x I) h ⟨rfl, rfl, fun _ => Or.inl rfl⟩
  exact ⟨x, h1, h4 x h2 (Adv.refl x)⟩

end
end Svd
