import Verif.Lemmas.FinFlat
/-
The finalisation of a device without derivedFrom builds exactly the declared content.
-/
namespace Svd
open Graph Spec

/-! ### lists -/

theorem entrywise_perm {α β : Type} {R : α → β → Prop} {l l' : List α} (hp : l.Perm l') : ∀ {xs : List β}, Entrywise R l xs →
    ∃ xs', Entrywise R l' xs' ∧ xs'.Perm xs := by
  induction hp with
  | nil => intro xs h; exact ⟨xs, h, .refl _⟩
  | cons a _ ih =>
    intro xs h
    cases h with
    | cons h1 h2 =>
      obtain ⟨zs, h3, h4⟩ := ih h2
      exact ⟨_, .cons h1 h3, h4.cons _⟩
  | swap a b l =>
    intro xs h
    cases h with
    | cons h1 h2 =>
      cases h2 with
      | cons h3 h4 => exact ⟨_, .cons h3 (.cons h1 h4), List.Perm.swap ..⟩
  | trans _ _ ih1 ih2 =>
    intro xs h
    obtain ⟨ys, h1, h2⟩ := ih1 h
    obtain ⟨zs, h3, h4⟩ := ih2 h1
    exact ⟨zs, h3, h4.trans h2⟩

theorem entrywise_append {α β : Type} {R : α → β → Prop} : ∀ {a b : List α} {xs : List β}, Entrywise R (a ++ b) xs →
    ∃ x y, xs = x ++ y ∧ Entrywise R a x ∧ Entrywise R b y
  | [], b, xs, h => ⟨[], xs, rfl, .nil, h⟩
  | c :: a, b, xs, h => by
    cases h with
    | cons h1 h2 =>
      obtain ⟨x, y, rfl, h3, h4⟩ := entrywise_append h2
      exact ⟨_ :: x, y, rfl, .cons h1 h3, h4⟩

theorem entrywise_comp {α β γ : Type} {R : α → β → Prop} {S : β → γ → Prop} {T : α → γ → Prop} {a : List α} {b : List β} {c : List γ}
    (h1 : Entrywise R a b) (h2 : Entrywise S b c) (h : ∀ x ∈ a, ∀ y ∈ b, ∀ z ∈ c, R x y → S y z → T x z) : Entrywise T a c := by
  induction h1 generalizing c with
  | nil => cases h2; exact .nil
  | cons hr _ ih =>
    cases h2 with
    | cons hs h3 =>
      exact .cons (h _ (by simp) _ (by simp) _ (by simp) hr hs) (ih h3 fun x hx y hy z hz =>
        h x (by simp [hx]) y (by simp [hy]) z (by simp [hz]))

theorem entrywise_nonempty {α β : Type} {R : α → β → Prop} {a : List α} {b : List β} (h : Entrywise R a b) (ha : a ≠ []) : ∃ y, y ∈ b := by
  cases h with
  | nil => exact absurd rfl ha
  | cons _ _ => exact ⟨_, List.mem_cons_self⟩

theorem entrywise_imp {α β : Type} {R S : α → β → Prop} {a : List α} {b : List β} (h : Entrywise R a b)
    (hi : ∀ x ∈ a, ∀ y ∈ b, R x y → S x y) : Entrywise S a b := by
  induction h with
  | nil => exact .nil
  | cons hr _ ih => exact .cons (hi _ (by simp) _ (by simp) hr) (ih fun x hx y hy => hi x (by simp [hx]) y (by simp [hy]))

/-! ### picking the content -/

def rcsOf : Option Content → List IRC
  | some (.rcs xs) => xs
  | _ => []
def fieldsOf : Option Content → List IField
  | some (.fields xs) => xs
  | _ => []
def contsOf : Option Content → List IEnumContainer
  | some (.conts xs) => xs
  | _ => []

theorem rcs_eq (s : FinState) (i : Nat) : s.rcs i = rcsOf (s.content.lookup i) := by
  unfold FinState.rcs rcsOf; cases s.content.lookup i with | none => rfl | some c => cases c <;> rfl
theorem fields_eq (s : FinState) (i : Nat) : s.fields i = fieldsOf (s.content.lookup i) := by
  unfold FinState.fields fieldsOf; cases s.content.lookup i with | none => rfl | some c => cases c <;> rfl
theorem conts_eq (s : FinState) (i : Nat) : s.conts i = contsOf (s.content.lookup i) := by
  unfold FinState.conts contsOf; cases s.content.lookup i with | none => rfl | some c => cases c <;> rfl

/-- `y` is what is picked at node `c`. -/
def PickOf {α : Type} (s : FinState) (pick : Nat → Processed → M α) (c : Nat) (y : α) : Prop :=
  ∃ e p, s.g.elem? c = some e ∧ e.processed = some p ∧ pick c p = .ok y []

theorem collect_eq {α : Type} {s : FinState} {pick : Nat → Processed → M α} {cs : List Nat}
    (h : ∀ c ∈ cs, ∃ e, s.g.elem? c = some e ∧ (e.isDimTemplate = false → ∃ y, PickOf s pick c y)) :
    ∃ xs, collect s pick cs = .ok xs [] ∧ Entrywise (PickOf s pick) (cs.filter (live s.g)) xs := by
  induction cs with
  | nil => exact ⟨[], rfl, .nil⟩
  | cons c cs ih =>
    obtain ⟨xs, h1, h2⟩ := ih fun d hd => h d (by simp [hd])
    obtain ⟨e, h3, h4⟩ := h c (by simp)
    cases ht : e.isDimTemplate with
    | true =>
      refine ⟨xs, ?_, ?_⟩
      · unfold collect at h1 ⊢
        rw [M.filterMapM_cons_ok]
        refine ⟨none, [], xs, [], ?_, h1, rfl, rfl⟩
        simp [templateOf, h3, M.bind, M.pure, ht]
      · rw [List.filter_cons_of_neg]
        · exact h2
        · simp [live, h3, ht]
    | false =>
      obtain ⟨y, hy⟩ := h4 ht
      have hy' := hy
      obtain ⟨e', p, h5, h6, h7⟩ := hy
      rw [h3] at h5
      cases h5
      refine ⟨y :: xs, ?_, ?_⟩
      · unfold collect at h1 ⊢
        rw [M.filterMapM_cons_ok]
        refine ⟨some y, [], xs, [], ?_, h1, rfl, rfl⟩
        simp [templateOf, procOf, h3, M.bind, M.pure, ht, h6, h7]
      · rw [List.filter_cons_of_pos]
        · exact .cons hy' h2
        · simp [live, h3, ht]

theorem collect_inv {α : Type} {s : FinState} {pick : Nat → Processed → M α} {cs : List Nat} {xs : List α} {w : List Warn}
    (hp : ∀ c p y w, pick c p = .ok y w → w = []) (h : collect s pick cs = .ok xs w) :
    w = [] ∧ Entrywise (PickOf s pick) (cs.filter (live s.g)) xs := by
  induction cs generalizing xs w with
  | nil =>
    simp only [collect, M.filterMapM, M.pure_eq_ok] at h
    obtain ⟨rfl, rfl⟩ := h
    exact ⟨rfl, .nil⟩
  | cons c cs ih =>
    unfold collect at h
    rw [M.filterMapM_cons_ok] at h
    obtain ⟨o, w1, zs, w2, h1, h2, rfl, rfl⟩ := h
    obtain ⟨rfl, h3⟩ := ih h2
    rw [M.bind_eq_ok] at h1
    obtain ⟨t, v1, v2, h4, h5, rfl⟩ := h1
    obtain ⟨e, h6, h7, rfl⟩ := templateOf_ok h4
    cases t with
    | true =>
      simp only [if_true, M.pure_eq_ok] at h5
      obtain ⟨rfl, rfl⟩ := h5
      refine ⟨rfl, ?_⟩
      rw [List.filter_cons_of_neg]
      · exact h3
      · simp [live, h6, h7]
    | false =>
      simp only [Bool.false_eq_true, if_false, M.bind_eq_ok, M.pure_eq_ok] at h5
      obtain ⟨p, v3, v4, h8, ⟨y, v5, v6, h9, ⟨rfl, rfl⟩, rfl⟩, rfl⟩ := h5
      obtain ⟨e', h10, h11, rfl⟩ := procOf_ok h8
      have hv := hp _ _ _ _ h9
      subst hv
      refine ⟨rfl, ?_⟩
      rw [List.filter_cons_of_pos]
      · exact .cons ⟨e', p, h10, h11, h9⟩ h3
      · simp [live, h6, h7]

theorem pickRC_nw {s : FinState} {c : Nat} {p : Processed} {y : IRC} {w : List Warn} (h : pickRC s c p = .ok y w) : w = [] := by
  cases p <;> simp [pickRC, M.throw, M.pure] at h
  all_goals exact h.2
theorem pickField_nw {s : FinState} {c : Nat} {p : Processed} {y : IField} {w : List Warn} (h : pickField s c p = .ok y w) : w = [] := by
  cases p <;> simp [pickField, M.throw, M.pure] at h
  exact h.2
theorem pickPeripheral_nw {s : FinState} {c : Nat} {p : Processed} {y : IPeripheral} {w : List Warn} (h : pickPeripheral s c p = .ok y w) :
    w = [] := by
  cases p <;> simp [pickPeripheral, M.throw, M.pure] at h
  exact h.2

/-! ### sizes in force -/

def isBox : Parsed → Bool
  | .periph _ => true
  | .clu _ => true
  | _ => false

/-- The size in force around element `b`. -/
inductive EffIn (L : List (Nat × Parsed)) : Nat → Int → Prop
  | top {b p} : 1 ≤ b → L[b]? = some (0, p) → EffIn L b 32
  | own {b q q' p p' s} : 1 ≤ b → L[b]? = some (q, p) → 1 ≤ q → L[q]? = some (q', p') → isBox p' = true → declSize p' = some s → EffIn L b s
  | up {b q q' p p' s} : 1 ≤ b → L[b]? = some (q, p) → 1 ≤ q → L[q]? = some (q', p') → isBox p' = true → declSize p' = none →
      EffIn L q s → EffIn L b s

theorem EffIn.pos {L : List (Nat × Parsed)} {b : Nat} {E : Int} (h : EffIn L b E) : 1 ≤ b := by cases h <;> assumption

/-- The size in force around a child. -/
theorem EffIn.child {L : List (Nat × Parsed)} {q q' b : Nat} {p p' : Parsed} {E : Int} (h : EffIn L q E) (hb : 1 ≤ b)
    (h1 : L[b]? = some (q, p)) (h2 : L[q]? = some (q', p')) (h3 : isBox p' = true) : EffIn L b ((declSize p').getD E) := by
  cases hs : declSize p' with
  | none => exact .up hb h1 h.pos h2 h3 hs h
  | some s => exact .own hb h1 h.pos h2 h3 hs

/-- What the finalisation has kept so far. -/
structure Base (g0 : Graph) (done : List Nat) (s : FinState) : Prop where
  plain : Plain s.g
  ends : ends s.g = ends g0
  len : s.g.nodes.length = g0.nodes.length
  same : ∀ i e0, g0.elem? i = some e0 → ∃ e, s.g.elem? i = some e ∧ e.level = e0.level ∧ e.parsed = e0.parsed ∧
    e.isDimTemplate = e0.isDimTemplate ∧ e.processed.isSome = e0.processed.isSome
  fresh : ∀ i, i ∉ done → s.g.elem? i = g0.elem? i ∧ s.content.lookup i = none
  tmpl : ∀ i e0, g0.elem? i = some e0 → e0.isDimTemplate = true → s.g.elem? i = some e0

theorem ins_congr {g g' : Graph} (h : Svd.ends g' = Svd.ends g) (i : Nat) : ins g' i = ins g i := by
  unfold ins; rw [h]
theorem outs_congr {g g' : Graph} (h : Svd.ends g' = Svd.ends g) (i : Nat) : outs g' i = outs g i := by
  unfold outs; rw [h]

theorem box_level {p : Parsed} {h : Processed} (hl : procLevel h = levelOf p) (hb : isBox p = true) :
    (∃ x, h = .periph x) ∨ ∃ x, h = .clu x := by
  cases p <;> simp [isBox] at hb <;> cases h <;> simp [procLevel, levelOf] at hl
  · exact Or.inl ⟨_, rfl⟩
  · exact Or.inr ⟨_, rfl⟩

section
variable {L : List (Nat × Parsed)} {org : Nat → Nat} {g0 : Graph} {done : List Nat} {s : FinState}

theorem Final.done_up (F : Final L org g0) {q : List Nat} (T : Trav g0 q done) {a i : Nat} (hi : i ∉ done) (hm : (a, i) ∈ ends g0) :
    a ∉ done := by
  intro ha
  refine hi (T.ds a ha i ?_)
  rw [successors_eq F.shape.nodup]
  exact mem_outs.2 hm

/-- The size around a node that has not been handled yet. -/
theorem parentSize_eff (F : Final L org g0) (B : Base g0 done s) {q : List Nat} (T : Trav g0 q done) {b : Nat} {E : Int} (he : EffIn L b E) :
    ∀ (i f : Nat), org i = b → i < g0.nodes.length → i ∉ done → b < f → parentSize s.g f i = .ok E [] := by
  induction he with
  | @top b p hb hp =>
    intro i f ho hi hd hf
    obtain ⟨f, rfl⟩ : ∃ f', f = f' + 1 := ⟨f - 1, by omega⟩
    obtain ⟨a, rest, p', h1, h2, h3, -⟩ := F.parent hi (by omega)
    rw [ho, hp] at h3
    have ha := F.org_zero h2 (congrArg Prod.fst (Option.some.inj h3)).symm
    subst ha
    have hl : s.g.hasLevel 0 .device = true := by
      have h4 := F.shape.node 0 _ F.ok.root
      simp only [Nat.zero_le, if_true] at h4
      obtain ⟨e, h5, h6, -⟩ := B.same 0 _ h4
      unfold Graph.hasLevel
      rw [h5]
      simp only [h6]
      rfl
    unfold parentSize
    rw [B.plain.parents, ins_congr B.ends, h1]
    simp only [hl, if_true]
    rfl
  | @own b q q' p p' s' hb hp hq hp' hbox hs =>
    intro i f ho hi hd hf
    obtain ⟨f, rfl⟩ : ∃ f', f = f' + 1 := ⟨f - 1, by omega⟩
    obtain ⟨a, rest, p2, h1, h2, h3, -⟩ := F.parent hi (by omega)
    rw [ho, hp] at h3
    cases h3
    have hm : (a, i) ∈ ends g0 := mem_ins.1 (by rw [h1]; simp)
    have hda := F.done_up T hd hm
    obtain ⟨q2, p2, e, h4, h5, h6⟩ := F.info h2 hq
    rw [hp'] at h4
    cases h4
    obtain ⟨h, h7, h8, h9, -⟩ := h6.head (by cases p' <;> simp [isBox] at hbox <;> rfl)
    have hl : s.g.hasLevel a .device = false := by
      unfold Graph.hasLevel
      rw [(B.fresh a hda).1, h5]
      simp only [h6.level]
      cases p' <;> simp [isBox] at hbox <;> rfl
    have hpr : procOf s.g a = .ok h [] := by
      unfold procOf
      rw [(B.fresh a hda).1, h5]
      simp only [h7]
      rfl
    unfold parentSize
    rw [B.plain.parents, ins_congr B.ends, h1]
    simp only [hl, Bool.false_eq_true, if_false, hpr]
    rw [hs] at h8
    rcases box_level h9 hbox with ⟨x, rfl⟩ | ⟨x, rfl⟩ <;> simp only [sizeOfP] at h8 <;> simp [M.bind, h8, M.pure]
  | @up b q q' p p' s' hb hp hq hp' hbox hs hup ih =>
    intro i f ho hi hd hf
    obtain ⟨f, rfl⟩ : ∃ f', f = f' + 1 := ⟨f - 1, by omega⟩
    obtain ⟨a, rest, p2, h1, h2, h3, -⟩ := F.parent hi (by omega)
    rw [ho, hp] at h3
    cases h3
    have hm : (a, i) ∈ ends g0 := mem_ins.1 (by rw [h1]; simp)
    have hda := F.done_up T hd hm
    obtain ⟨q2, p2, e, h4, h5, h6⟩ := F.info h2 hq
    rw [hp'] at h4
    cases h4
    obtain ⟨h, h7, h8, h9, -⟩ := h6.head (by cases p' <;> simp [isBox] at hbox <;> rfl)
    have hl : s.g.hasLevel a .device = false := by
      unfold Graph.hasLevel
      rw [(B.fresh a hda).1, h5]
      simp only [h6.level]
      cases p' <;> simp [isBox] at hbox <;> rfl
    have hpr : procOf s.g a = .ok h [] := by
      unfold procOf
      rw [(B.fresh a hda).1, h5]
      simp only [h7]
      rfl
    have hr := ih a f rfl h2 hda (by have := F.shape.rank F.ok hm; omega)
    unfold parentSize
    rw [B.plain.parents, ins_congr B.ends, h1]
    simp only [hl, Bool.false_eq_true, if_false, hpr]
    rw [hs] at h8
    rcases box_level h9 hbox with ⟨x, rfl⟩ | ⟨x, rfl⟩ <;> simp only [sizeOfP] at h8 <;> simp [M.bind, h8, hr]


/-! ### what has been built -/

structure Good (L : List (Nat × Parsed)) (org : Nat → Nat) (s : FinState) (i : Nat) (h : Processed) : Prop where
  field : ∀ f, Rep L (org i) (ofField f) → ∃ x, PickOf s (pickField s) i x ∧ FieldBuilt f h x
  rc : ∀ x E, Rep L (org i) (ofRC x) → EffIn L (org i) E → ∃ y, PickOf s (pickRC s) i y ∧ RCBuilt E x h y
  periph : ∀ p, Rep L (org i) (ofPeriph p) → EffIn L (org i) 32 → ∃ y, PickOf s (pickPeripheral s) i y ∧ PeriphBuilt p h y

structure FInv (L : List (Nat × Parsed)) (org : Nat → Nat) (g0 : Graph) (done : List Nat) (s : FinState) : Prop where
  base : Base g0 done s
  good : ∀ i ∈ done, ∀ e0 h, g0.elem? i = some e0 → e0.isDimTemplate = false → e0.processed = some h → 1 ≤ org i → Good L org s i h
  root : ∀ ps, s.resolved = some ps → ∀ ts ks, Kids L 0 ks → Reps L ks (ts.map ofPeriph) →
    ∃ ps', PeriphsBuilt ts ps' ∧ ps'.Perm ps ∧ SortedBy periphKey ps

theorem PickOf.unique {α : Type} {pick : Nat → Processed → M α} {c : Nat} {y y' : α} (h : PickOf s pick c y) (h' : PickOf s pick c y') :
    y = y' := by
  obtain ⟨e, p, h1, h2, h3⟩ := h
  obtain ⟨e', p', h4, h5, h6⟩ := h'
  rw [h1] at h4
  cases h4
  rw [h2] at h5
  cases h5
  rw [h3] at h6
  cases h6
  rfl

theorem pick_congr {s' : FinState} {i : Nat} (h1 : s'.g.elem? i = s.g.elem? i) (h2 : s'.content.lookup i = s.content.lookup i) :
    (∀ y, PickOf s (pickField s) i y → PickOf s' (pickField s') i y) ∧ (∀ y, PickOf s (pickRC s) i y → PickOf s' (pickRC s') i y) ∧
    ∀ y, PickOf s (pickPeripheral s) i y → PickOf s' (pickPeripheral s') i y := by
  refine ⟨?_, ?_, ?_⟩ <;> rintro y ⟨e, p, h3, h4, h5⟩ <;> refine ⟨e, p, by rw [h1]; exact h3, h4, ?_⟩ <;> rw [← h5] <;> cases p <;>
    simp only [pickField, pickRC, pickPeripheral, rcs_eq, fields_eq, conts_eq, h2]

theorem Good.congr {s' : FinState} {i : Nat} {h : Processed} (hg : Good L org s i h) (h1 : s'.g.elem? i = s.g.elem? i)
    (h2 : s'.content.lookup i = s.content.lookup i) : Good L org s' i h := by
  obtain ⟨c1, c2, c3⟩ := pick_congr (s := s) (s' := s') h1 h2
  constructor
  · intro f hf
    obtain ⟨x, h3, h4⟩ := hg.field f hf
    exact ⟨x, c1 _ h3, h4⟩
  · intro x E hx hE
    obtain ⟨y, h3, h4⟩ := hg.rc x E hx hE
    exact ⟨y, c2 _ h3, h4⟩
  · intro x hx hE
    obtain ⟨y, h3, h4⟩ := hg.periph x hx hE
    exact ⟨y, c3 _ h3, h4⟩

/-- The children of a node: they represent the trees. -/
structure KidsOf (L : List (Nat × Parsed)) (b : Nat) (ks : List Nat) : Prop where
  ok : ∀ k ∈ ks, 1 ≤ k ∧ ∃ p, L[k]? = some (b, p)

theorem Reps.cons {t : DTree} {ts : List DTree} {ks : List Nat} (h : Reps L ks (t :: ts)) :
    ∃ k ks', ks = k :: ks' ∧ Rep L k t ∧ Reps L ks' ts := by
  cases ks with
  | nil => simp [Reps] at h
  | cons k ks => exact ⟨k, ks, rfl, h.1, h.2⟩

theorem Reps.nil {ks : List Nat} (h : Reps L ks []) : ks = [] := by
  cases ks with
  | nil => rfl
  | cons k ks => simp [Reps] at h

/-- One declared child. -/
theorem built_one {α : Type} (F : Final L org g0) (I : FInv L org g0 done s) {i : Nat} (hi : i < g0.nodes.length)
    (V : ∀ c, (i, c) ∈ ends g0 → c ∈ done) {pick : Nat → Processed → M α} {b : Nat} {p : Parsed} (hb : 1 ≤ b) (hp : L[b]? = some (org i, p))
    (hen : p.isEnum = false) {R : Processed → α → Prop}
    (hg : ∀ c h, org c = b → Good L org s c h → ∃ y, PickOf s pick c y ∧ R h y) {ys : List α}
    (hy : Entrywise (PickOf s pick) (repsAt L org g0 i b) ys) :
    StandsFor p (headsOf p) ∧ Entrywise R (headsOf p) ys := by
  obtain ⟨y, w, hx⟩ := F.exp b _ hb hp hen
  refine ⟨headsOf_stands hx, ?_⟩
  refine entrywise_comp (F.reps_heads hi hb hp hen) hy ?_
  rintro h hh c hc z hz ⟨e, h1, h2, h3⟩ h4
  obtain ⟨h5, h6, h7⟩ := (F.mem_reps hi hb hp).1 hc
  obtain ⟨y, h8, h9⟩ := hg c h h6 (I.good c (V c h5) e h h1 h2 h3 (by omega))
  rw [h4.unique h8]
  exact h9

theorem built_rcs (F : Final L org g0) (I : FInv L org g0 done s) {i : Nat} (hi : i < g0.nodes.length)
    (V : ∀ c, (i, c) ∈ ends g0 → c ∈ done) {E : Int} : ∀ (ch : List SRC) (ks : List Nat) (ys : List IRC),
    (∀ k ∈ ks, EffIn L k E ∧ ∃ p, L[k]? = some (org i, p)) → Reps L ks (ofRCs ch) →
    Entrywise (PickOf s (pickRC s)) (ks.flatMap (repsAt L org g0 i)) ys → RCsBuilt E ch ys
  | [], ks, ys, _, hr, hy => by
    simp only [ofRCs] at hr
    have := Reps.nil hr
    subst this
    simp only [List.flatMap_nil] at hy
    cases hy
    simp [RCsBuilt]
  | x :: ch, ks, ys, hk, hr, hy => by
    simp only [ofRCs] at hr
    obtain ⟨k, ks, rfl, h1, h2⟩ := Reps.cons hr
    rw [List.flatMap_cons] at hy
    obtain ⟨ya, yb, rfl, h3, h4⟩ := entrywise_append hy
    obtain ⟨h5, p, h6⟩ := hk k (by simp)
    have h7 := built_rcs F I hi V ch ks yb (fun k' hk' => hk k' (by simp [hk'])) h2 h4
    have hpx : p = declOf x ∧ p.isEnum = false := by
      cases x <;> simp only [ofRC, Rep] at h1 <;> obtain ⟨⟨q, hq⟩, -⟩ := h1 <;> rw [h6] at hq <;> cases hq <;> exact ⟨rfl, rfl⟩
    obtain ⟨rfl, hen⟩ := hpx
    obtain ⟨h8, h9⟩ := built_one (R := RCBuilt E x) F I hi V h5.pos h6 hen (fun c h hc hg => by
      subst hc; exact hg.rc x E h1 h5) h3
    simp only [RCsBuilt]
    exact ⟨_, ya, yb, h8, h9, h7, rfl⟩

theorem built_fields (F : Final L org g0) (I : FInv L org g0 done s) {i : Nat} (hi : i < g0.nodes.length)
    (V : ∀ c, (i, c) ∈ ends g0 → c ∈ done) : ∀ (fs : List SField) (ks : List Nat) (ys : List IField),
    (∀ k ∈ ks, 1 ≤ k ∧ ∃ p, L[k]? = some (org i, p)) → Reps L ks (fs.map ofField) →
    Entrywise (PickOf s (pickField s)) (ks.flatMap (repsAt L org g0 i)) ys → FieldsBuilt fs ys
  | [], ks, ys, _, hr, hy => by
    have := Reps.nil hr
    subst this
    simp only [List.flatMap_nil] at hy
    cases hy
    exact .nil
  | x :: ch, ks, ys, hk, hr, hy => by
    simp only [List.map_cons] at hr
    obtain ⟨k, ks, rfl, h1, h2⟩ := Reps.cons hr
    rw [List.flatMap_cons] at hy
    obtain ⟨ya, yb, rfl, h3, h4⟩ := entrywise_append hy
    obtain ⟨h5, p, h6⟩ := hk k (by simp)
    have h7 := built_fields F I hi V ch ks yb (fun k' hk' => hk k' (by simp [hk'])) h2 h4
    have hpx : p = .field x := by
      simp only [ofField, Rep] at h1
      obtain ⟨⟨q, hq⟩, -⟩ := h1
      rw [h6] at hq
      cases hq
      rfl
    subst hpx
    obtain ⟨h8, h9⟩ := built_one (R := FieldBuilt x) F I hi V h5 h6 rfl (fun c h hc hg => by subst hc; exact hg.field x h1) h3
    exact .cons h8 h9 h7

theorem built_periphs (F : Final L org g0) (I : FInv L org g0 done s) {i : Nat} (hi : i < g0.nodes.length) (h0 : org i = 0)
    (V : ∀ c, (i, c) ∈ ends g0 → c ∈ done) : ∀ (ps : List SPeriphT) (ks : List Nat) (ys : List IPeripheral),
    (∀ k ∈ ks, 1 ≤ k ∧ ∃ p, L[k]? = some (org i, p)) → Reps L ks (ps.map ofPeriph) →
    Entrywise (PickOf s (pickPeripheral s)) (ks.flatMap (repsAt L org g0 i)) ys → PeriphsBuilt ps ys
  | [], ks, ys, _, hr, hy => by
    have := Reps.nil hr
    subst this
    simp only [List.flatMap_nil] at hy
    cases hy
    exact .nil
  | x :: ch, ks, ys, hk, hr, hy => by
    simp only [List.map_cons] at hr
    obtain ⟨k, ks, rfl, h1, h2⟩ := Reps.cons hr
    rw [List.flatMap_cons] at hy
    obtain ⟨ya, yb, rfl, h3, h4⟩ := entrywise_append hy
    obtain ⟨h5, p, h6⟩ := hk k (by simp)
    have h7 := built_periphs F I hi h0 V ch ks yb (fun k' hk' => hk k' (by simp [hk'])) h2 h4
    have hpx : p = .periph x.hd := by
      simp only [ofPeriph, Rep] at h1
      obtain ⟨⟨q, hq⟩, -⟩ := h1
      rw [h6] at hq
      cases hq
      rfl
    subst hpx
    obtain ⟨h8, h9⟩ := built_one (R := PeriphBuilt x) F I hi V h5 h6 rfl (fun c h hc hg => by
      subst hc; exact hg.periph x h1 (.top h5 (by rw [← h0]; exact h6))) h3
    exact .cons h8 h9 h7


/-! ### the size of a container -/

theorem contentSize_ge (E : Int) : ∀ ch, -1 ≤ contentSize E ch
  | [] => by simp [contentSize]
  | x :: ch => by
    have := contentSize_ge E ch
    simp only [contentSize]
    omega

theorem contentSize_le (E : Int) : ∀ (ch : List SRC) x, x ∈ ch → countRC E x ≤ contentSize E ch
  | [], _, h => by cases h
  | y :: ch, x, h => by
    simp only [contentSize]
    rcases List.mem_cons.1 h with rfl | h
    · omega
    · have := contentSize_le E ch x h
      omega

theorem contentSize_mem (E : Int) : ∀ ch, contentSize E ch = -1 ∨ ∃ x ∈ ch, countRC E x = contentSize E ch
  | [] => Or.inl (by simp [contentSize])
  | y :: ch => by
    simp only [contentSize]
    by_cases h : contentSize E ch ≤ countRC E y
    · exact Or.inr ⟨y, by simp, by omega⟩
    · rcases contentSize_mem E ch with h1 | ⟨x, h1, h2⟩
      · exact Or.inl (by omega)
      · exact Or.inr ⟨x, by simp [h1], by omega⟩

/-- Element `b` is a container with declared size `D` and content `ch`, the size around it is `E`. -/
def Box (L : List (Nat × Parsed)) (b : Nat) (D : Option Int) (E : Int) (ch : List SRC) : Prop :=
  EffIn L b E ∧ ((∃ c, Rep L b (ofRC (.clu c ch)) ∧ c.props.size = D) ∨
    (∃ p, Rep L b (ofPeriph p) ∧ p.rcs = ch ∧ p.hd.props.size = D ∧ E = 32))

theorem Box.decl {b : Nat} {D : Option Int} {E : Int} {ch : List SRC} (h : Box L b D E ch) :
    ∃ q p, L[b]? = some (q, p) ∧ isBox p = true ∧ declSize p = D ∧ ∃ ks, Kids L b ks ∧ Reps L ks (ofRCs ch) := by
  obtain ⟨-, ⟨c, h1, h2⟩ | ⟨p, h1, h2, h3, -⟩⟩ := h
  · simp only [ofRC, Rep] at h1
    obtain ⟨⟨q, h1⟩, h4⟩ := h1
    exact ⟨q, _, h1, rfl, h2, h4⟩
  · simp only [ofPeriph, Rep] at h1
    obtain ⟨⟨q, h1⟩, h4⟩ := h1
    subst h2
    exact ⟨q, _, h1, rfl, h3, h4⟩

theorem Good.boxSize {a : Nat} {h : Processed} (hg : Good L org s a h) {D : Option Int} {E : Int} {ch : List SRC} (hb : Box L (org a) D E ch)
    (hne : ch ≠ []) : ∃ e p, s.g.elem? a = some e ∧ e.processed = some p ∧ sizeOfP p = some (contentSize (D.getD E) ch) ∧
      ((∃ x, p = .periph x) ∨ ∃ x, p = .clu x) := by
  have hs : ∀ D, sizeWith D E ch = some (contentSize (D.getD E) ch) := by
    intro D
    cases ch with
    | nil => exact absurd rfl hne
    | cons x ch => simp [sizeWith]
  obtain ⟨he, ⟨c, h1, rfl⟩ | ⟨p, h1, rfl, rfl, rfl⟩⟩ := hb
  · obtain ⟨y, ⟨e, p, h2, h3, h4⟩, h5⟩ := hg.rc _ _ h1 he
    simp only [RCBuilt] at h5
    obtain ⟨hd, ys, ys', rfl, rfl, -⟩ := h5
    refine ⟨e, p, h2, h3, ?_⟩
    cases p <;> simp [pickRC, M.throw, M.pure] at h4
    rename_i x
    refine ⟨?_, Or.inr ⟨x, rfl⟩⟩
    simp only [sizeOfP, h4.1, hs]
  · obtain ⟨y, ⟨e, p', h2, h3, h4⟩, h5⟩ := hg.periph _ h1 he
    obtain ⟨hd, ys', rfl, h6, -⟩ := h5
    refine ⟨e, p', h2, h3, ?_⟩
    cases p' <;> simp [pickPeripheral, M.throw, M.pure] at h4
    rename_i x
    refine ⟨?_, Or.inl ⟨x, rfl⟩⟩
    subst h4
    simp only at h6
    simp only [sizeOfP, h6, hs]

/-- The processed element of a handled register or cluster. -/
theorem Good.rcSize {c : Nat} {h : Processed} (hg : Good L org s c h) {x : SRC} {E : Int} (hr : Rep L (org c) (ofRC x)) (he : EffIn L (org c) E)
    (hh : sizeOfP h = declSize (declOf x)) :
    ∃ e p, s.g.elem? c = some e ∧ e.processed = some p ∧ ((∃ r, p = .reg r) ∨ ∃ r, p = .clu r) ∧
      ((sizeOfP p).map usable).getD E = countRC E x := by
  obtain ⟨y, ⟨e, p, h2, h3, h4⟩, h5⟩ := hg.rc _ _ hr he
  refine ⟨e, p, h2, h3, ?_⟩
  cases x with
  | reg r =>
    simp only [RCBuilt] at h5
    obtain ⟨hd, fs, fs', rfl, rfl, -⟩ := h5
    cases p <;> simp [pickRC, M.throw, M.pure] at h4
    rename_i x
    obtain ⟨rfl, -⟩ := h4
    refine ⟨Or.inl ⟨_, rfl⟩, ?_⟩
    simp only [declOf, declSize] at hh
    rw [hh]
    simp [countRC]
  | clu c0 ch =>
    simp only [RCBuilt] at h5
    obtain ⟨hd, ys, ys', rfl, rfl, -⟩ := h5
    cases p <;> simp [pickRC, M.throw, M.pure] at h4
    rename_i x
    refine ⟨Or.inr ⟨_, rfl⟩, ?_⟩
    simp only [sizeOfP, h4.1, sizeWith, countRC]
    cases ch <;> simp

theorem filterMapM_mem {α β : Type} {f : α → M (Option β)} {cs : List α} (h : ∀ c ∈ cs, ∃ o, f c = .ok o []) :
    ∃ zs, M.filterMapM f cs = .ok zs [] ∧ ∀ z, z ∈ zs ↔ ∃ c ∈ cs, f c = .ok (some z) [] := by
  induction cs with
  | nil => exact ⟨[], rfl, by simp⟩
  | cons c cs ih =>
    obtain ⟨zs, h1, h2⟩ := ih fun d hd => h d (by simp [hd])
    obtain ⟨o, h3⟩ := h c (by simp)
    refine ⟨o.toList ++ zs, M.filterMapM_cons_ok.2 ⟨o, [], zs, [], h3, h1, rfl, rfl⟩, ?_⟩
    intro z
    simp only [List.mem_append, Option.mem_toList, h2, List.mem_cons, exists_eq_or_imp, h3]
    simp

theorem Reps.mem {ks : List Nat} {ts : List DTree} (h : Reps L ks ts) : (∀ k ∈ ks, ∃ t ∈ ts, Rep L k t) ∧ ∀ t ∈ ts, ∃ k ∈ ks, Rep L k t := by
  induction ts generalizing ks with
  | nil =>
    have := Reps.nil h
    subst this
    simp
  | cons t ts ih =>
    obtain ⟨k, ks, rfl, h1, h2⟩ := Reps.cons h
    obtain ⟨h3, h4⟩ := ih h2
    constructor
    · intro k' hk
      rcases List.mem_cons.1 hk with rfl | hk
      · exact ⟨t, by simp, h1⟩
      · obtain ⟨t', h5, h6⟩ := h3 k' hk
        exact ⟨t', by simp [h5], h6⟩
    · intro t' ht
      rcases List.mem_cons.1 ht with rfl | ht
      · exact ⟨k, by simp, h1⟩
      · obtain ⟨k', h5, h6⟩ := h4 t' ht
        exact ⟨k', by simp [h5], h6⟩

theorem mem_ofRCs {ch : List SRC} {t : DTree} : t ∈ ofRCs ch ↔ ∃ x ∈ ch, t = ofRC x := by
  induction ch with
  | nil => simp [ofRCs]
  | cons x ch ih => simp [ofRCs, ih]

theorem rep_declOf {b : Nat} {x : SRC} (h : Rep L b (ofRC x)) : ∃ q, L[b]? = some (q, declOf x) := by
  cases x <;> simp only [ofRC, Rep] at h <;> exact h.1

theorem declOf_notEnum (x : SRC) : (declOf x).isEnum = false := by cases x <;> rfl

/-- The size around a handled child of the node `i` that is being handled. -/
theorem parentSize_kid (F : Final L org g0) (I : FInv L org g0 done s) {q : List Nat} (T : Trav g0 q done) {i c : Nat}
    (hd : i ∉ done) (hm : (i, c) ∈ ends g0) {D : Option Int} {E : Int} {ch : List SRC} (hb : Box L (org i) D E ch) (hne : ch ≠ []) :
    ∃ v, parentSize s.g (s.g.nodes.length + 1) c = .ok v [] ∧ (v = D.getD E ∨ v = contentSize (D.getD E) ch) := by
  have B := I.base
  have hv := F.shape.plain.lt hm
  obtain ⟨hc1, p0, hc2⟩ := F.edge hm
  obtain ⟨a, rest, p1, h1, h2, h3, h4⟩ := F.parent hv.2 hc1
  rw [hc2] at h3
  have hoa : org i = org a := congrArg Prod.fst (Option.some.inj h3)
  obtain ⟨q0, p, h5, h6, h7, -⟩ := hb.decl
  have hpos := hb.1.pos
  obtain ⟨q1, p2, e, h8, h9, h10⟩ := F.info h2 (by omega)
  rw [← hoa, h5] at h8
  cases h8
  have hl : s.g.hasLevel a .device = false := by
    obtain ⟨e', h11, h12, -⟩ := B.same a e h9
    unfold Graph.hasLevel
    rw [h11]
    simp only [h12, h10.level]
    cases p <;> simp [isBox] at h6 <;> rfl
  by_cases hda : a ∈ done
  · have hlive : ∃ e, g0.elem? a = some e ∧ e.isDimTemplate = false := by
      by_cases hcl : c < L.length
      · exact h4 hcl
      · have hma : (a, c) ∈ ends g0 := mem_ins.1 (by rw [h1]; simp)
        have := F.shape.single a i c (by omega) hma hm
        subst this
        exact absurd hda hd
    obtain ⟨e', h11, h12⟩ := hlive
    rw [h9] at h11
    cases h11
    obtain ⟨h, h13, -⟩ := h10.head (by cases p <;> simp [isBox] at h6 <;> rfl)
    have hg := I.good a hda e h h9 h12 h13 (by omega)
    obtain ⟨e2, p2, h14, h15, h16, h17⟩ := hg.boxSize (hoa ▸ hb) hne
    refine ⟨contentSize (D.getD E) ch, ?_, Or.inr rfl⟩
    have hpr : procOf s.g a = .ok p2 [] := by
      unfold procOf
      rw [h14]
      simp only [h15]
      rfl
    unfold parentSize
    rw [B.plain.parents, ins_congr B.ends, h1]
    simp only [hl, Bool.false_eq_true, if_false, hpr]
    rcases h17 with ⟨x, rfl⟩ | ⟨x, rfl⟩ <;> simp only [sizeOfP] at h16 <;> simp [M.bind, h16, M.pure]
  · refine ⟨D.getD E, ?_, Or.inl rfl⟩
    obtain ⟨h, h13, h14, h15, -⟩ := h10.head (by cases p <;> simp [isBox] at h6 <;> rfl)
    have hpr : procOf s.g a = .ok h [] := by
      unfold procOf
      rw [(B.fresh a hda).1, h9]
      simp only [h13]
      rfl
    have hup := parentSize_eff F B T hb.1 a s.g.nodes.length hoa.symm h2 hda (by
      have := (List.getElem?_eq_some_iff.1 h5).1
      have := F.shape.len
      rw [B.len]; omega)
    unfold parentSize
    rw [B.plain.parents, ins_congr B.ends, h1]
    simp only [hl, Bool.false_eq_true, if_false, hpr]
    rw [h7] at h14
    rcases box_level h15 h6 with ⟨x, rfl⟩ | ⟨x, rfl⟩ <;> simp only [sizeOfP] at h14 <;> cases D <;> simp [M.bind, h14, M.pure, hup]

theorem usable_ite (z : Int) : (if z % 8 ≠ 0 then 0 else z) = usable z := by
  unfold usable
  by_cases h : z % 8 = 0 <;> simp [h]

theorem childSize_kid (F : Final L org g0) (I : FInv L org g0 done s) {q : List Nat} (T : Trav g0 q done) {i c : Nat}
    (hd : i ∉ done) (hm : (i, c) ∈ ends g0) (hcd : c ∈ done) {D : Option Int} {E : Int} {ch : List SRC} (hb : Box L (org i) D E ch)
    (hne : ch ≠ []) {x : SRC} (hx : Rep L (org c) (ofRC x)) :
    (live g0 c = false ∧ childSize s.g c = .ok none []) ∨
    (live g0 c = true ∧ ∃ v, childSize s.g c = .ok (some v) [] ∧ (v = countRC (D.getD E) x ∨ v = contentSize (D.getD E) ch)) := by
  have B := I.base
  have hv := F.shape.plain.lt hm
  obtain ⟨hc1, p0, hc2⟩ := F.edge hm
  obtain ⟨q0, hq0⟩ := rep_declOf hx
  rw [hc2] at hq0
  cases hq0
  obtain ⟨q1, p, h5, h6, h7, -⟩ := hb.decl
  obtain ⟨q2, p2, e, h8, h9, h10⟩ := F.info hv.2 hc1
  rw [hc2] at h8
  cases h8
  obtain ⟨h, h11, h12, h13, -⟩ := h10.head (declOf_notEnum x)
  have hlive : live g0 c = !e.isDimTemplate := by unfold live; rw [h9]
  have heff : EffIn L (org c) (D.getD E) := h7 ▸ hb.1.child hc1 hc2 h5 h6
  cases ht : e.isDimTemplate with
  | true =>
    refine Or.inl ⟨by rw [hlive, ht]; rfl, ?_⟩
    have h14 := B.tmpl c e h9 ht
    have hk : (∃ r, h = .reg r) ∨ ∃ r, h = .clu r := by
      cases x <;> cases h <;> simp [procLevel, levelOf, declOf] at h13
      · exact Or.inl ⟨_, rfl⟩
      · exact Or.inr ⟨_, rfl⟩
    unfold childSize procOf templateOf
    rw [h14]
    simp only [h11, ht]
    rcases hk with ⟨r, rfl⟩ | ⟨r, rfl⟩ <;> rfl
  | false =>
    refine Or.inr ⟨by rw [hlive, ht]; rfl, ?_⟩
    have hg := I.good c hcd e h h9 ht h11 hc1
    obtain ⟨e2, p2, h14, h15, h16, h17⟩ := hg.rcSize hx heff h12
    obtain ⟨e3, h18, -, -, h19, -⟩ := B.same c e h9
    rw [h14] at h18
    cases h18
    rw [ht] at h19
    obtain ⟨v, h20, h21⟩ := parentSize_kid F I T hd hm hb hne
    unfold childSize procOf templateOf
    rw [h14]
    simp only [h15, h19]
    cases hsz : sizeOfP p2 with
    | some z =>
      refine ⟨usable z, ?_, Or.inl (by rw [← h17, hsz]; rfl)⟩
      rcases h16 with ⟨r, rfl⟩ | ⟨r, rfl⟩ <;> simp only [sizeOfP] at hsz <;>
        simp only [M.bind, M.pure, hsz, Bool.false_eq_true, if_false, usable_ite] <;> rfl
    | none =>
      refine ⟨v, ?_, ?_⟩
      · rcases h16 with ⟨r, rfl⟩ | ⟨r, rfl⟩ <;> simp only [sizeOfP] at hsz <;>
          simp [M.bind, M.pure, hsz, h20]
      · rw [hsz] at h17
        simp only [Option.map_none, Option.getD_none] at h17
        rw [← h17]
        exact h21

/-- The size computed for a container is the largest size of its content. -/
theorem calculateSize_box (F : Final L org g0) (I : FInv L org g0 done s) {q : List Nat} (T : Trav g0 q done) {i : Nat}
    (hi : i < g0.nodes.length) (hd : i ∉ done) (V : ∀ c, (i, c) ∈ ends g0 → c ∈ done) {D : Option Int} {E : Int} {ch : List SRC}
    (hb : Box L (org i) D E ch) (hne : ch ≠ []) :
    calculateSize s.g (outs g0 i) =
      if contentSize (D.getD E) ch = -1 then .err (.resolve 425) else .ok (contentSize (D.getD E) ch) [] := by
  obtain ⟨q1, p, h5, h6, h7, ks, h8, h9⟩ := hb.decl
  obtain ⟨hks1, hks2⟩ := Reps.mem h9
  have hrep : ∀ c, (i, c) ∈ ends g0 → ∃ x ∈ ch, Rep L (org c) (ofRC x) := by
    intro c hm
    obtain ⟨h10, p0, h11⟩ := F.edge hm
    obtain ⟨t, h12, h13⟩ := hks1 (org c) ((h8.2 _).2 ⟨h10, p0, h11⟩)
    obtain ⟨x, h14, rfl⟩ := mem_ofRCs.1 h12
    exact ⟨x, h14, h13⟩
  have hval := fun c (hm : (i, c) ∈ ends g0) x (hx : Rep L (org c) (ofRC x)) => childSize_kid F I T hd hm (V c hm) hb hne hx
  obtain ⟨zs, h10, h11⟩ := filterMapM_mem (f := childSize s.g) (cs := outs g0 i) (by
    intro c hc
    rw [mem_outs] at hc
    obtain ⟨x, -, hx⟩ := hrep c hc
    rcases hval c hc x hx with ⟨-, h⟩ | ⟨-, v, h, -⟩
    · exact ⟨_, h⟩
    · exact ⟨_, h⟩)
  have hmax : maxList (-1) zs = contentSize (D.getD E) ch := by
    have hle := le_maxList (-1) zs
    have hge := contentSize_ge (D.getD E) ch
    have hub : ∀ z ∈ zs, z ≤ contentSize (D.getD E) ch := by
      intro z hz
      obtain ⟨c, hc, hcz⟩ := (h11 z).1 hz
      rw [mem_outs] at hc
      obtain ⟨x, hxm, hx⟩ := hrep c hc
      rcases hval c hc x hx with ⟨-, h⟩ | ⟨-, v, h, h'⟩
      · rw [h] at hcz; cases hcz
      · rw [h] at hcz
        cases hcz
        rcases h' with rfl | rfl
        · exact contentSize_le _ _ _ hxm
        · omega
    have hup : maxList (-1) zs ≤ contentSize (D.getD E) ch := by
      rcases maxList_mem (-1) zs with h | h
      · omega
      · exact hub _ h
    have hlo : contentSize (D.getD E) ch ≤ maxList (-1) zs := by
      rcases contentSize_mem (D.getD E) ch with h | ⟨x, hxm, hx⟩
      · omega
      · obtain ⟨k, hk, hkr⟩ := hks2 _ (mem_ofRCs.2 ⟨x, hxm, rfl⟩)
        obtain ⟨hk1, p0, hk2⟩ := (h8.2 k).1 hk
        obtain ⟨q0, hq0⟩ := rep_declOf hkr
        rw [hk2] at hq0
        cases hq0
        obtain ⟨y, w, hy⟩ := F.exp k _ hk1 hk2 (declOf_notEnum x)
        have hew := F.reps_heads hi hk1 hk2 (declOf_notEnum x)
        have hhne : headsOf (declOf x) ≠ [] := by
          rw [headsOf_eq hy]
          have := expandM_ne hy
          split <;> simpa using this
        obtain ⟨c, hc⟩ : ∃ c, c ∈ repsAt L org g0 i k := by
          exact entrywise_nonempty hew hhne
        obtain ⟨hc1, hc2, hc3⟩ := (F.mem_reps hi hk1 hk2).1 hc
        subst hc2
        rcases hval c hc1 x hkr with ⟨h, -⟩ | ⟨-, v, h, h'⟩
        · rw [hc3] at h; cases h
        · have := hle.2 v ((h11 v).2 ⟨c, mem_outs.2 hc1, h⟩)
          rcases h' with rfl | rfl <;> omega
    omega
  unfold calculateSize
  rw [h10]
  simp only [M.bind, hmax]
  by_cases hc : contentSize (D.getD E) ch = -1
  · rw [if_pos hc, if_pos hc]
    rfl
  · rw [if_neg hc, if_neg hc]
    rfl

end
end Svd
