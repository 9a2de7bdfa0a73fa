import Verif.Lemmas.FolRound
/-
Which nodes stand for the same declared element: below one parent, or below parents that share a child, they are the same node unless the
element is a dim element.
-/
namespace Svd
open Graph Spec

/-- The name of the element declared at `x` has a dim marker. -/
def Marked (d : SDevice) (x : Pos) : Prop := ∃ p, DeclAt d x p ∧ p.level ≠ .enumcont ∧ hasSub lstMark p.name = true

/-- Nodes for one declared element below the same parent, or below parents with a common child. -/
def Kin (d : SDevice) (g : Graph) (lab : Nat → Pos) : Prop :=
  ∀ a a' x c c', Ch g a x → Ch g a' x → Ch g a c → Ch g a' c' → lab c = lab c' → c = c' ∨ Marked d (lab c)

/-- Dim templates have a dim marker. -/
def Tmpl (d : SDevice) (g : Graph) (lab : Nat → Pos) : Prop := ∀ k e, g.elem? k = some e → e.level ≠ .enumcont → e.level ≠ .device → e.isDimTemplate = true → Marked d (lab k)

theorem hasChild_from {d : SDevice} (hb : ∀ x, ¬ Precedes d x x) {s y : Pos} : HasChild d s y → ∃ z, OwnChild d z y ∧ (z = s ∨ Precedes d z s)
  | .own h => ⟨s, h, Or.inl rfl⟩
  | .inherited h1 h2 => by
    obtain ⟨z, h3, h4⟩ := hasChild_from hb h2
    refine ⟨z, h3, Or.inr ?_⟩
    rcases h4 with rfl | h4
    · exact .ref h1
    · exact .trans h4 (.ref h1)
  | .nested h => (not_nested hb h).elim

/-- What is declared in an element is not what its base has. -/
theorem own_not_base {d : SDevice} (hb : ∀ x, ¬ Precedes d x x) {x s y : Pos} (h1 : Refers d x s) (h2 : HasChild d s y) (h3 : OwnChild d x y) : False := by
  obtain ⟨z, h4, h5⟩ := hasChild_from hb h2
  obtain ⟨k, p, h6, -⟩ := h3
  obtain ⟨k', p', h7, -⟩ := h4
  rw [h6] at h7
  have : x = z := (List.append_inj' h7 rfl).1
  subst this
  rcases h5 with rfl | h5
  · exact hb _ (.ref h1)
  · exact hb _ (.trans h5 (.ref h1))

theorem raw_own {d : SDevice} {g : Graph} {lab : Nat → Pos} (h : Lab d g lab) (hb : ∀ x, ¬ Precedes d x x) {i c : Nat} {e : ElemNode}
    (he : g.elem? i = some e) (hp : e.isProcessed = false) (hc : Ch g i c) : OwnChild d (lab i) (lab c) := by
  by_cases hl : e.level = .enumcont
  · exact absurd hc (h.leaf i e c he hl).1
  · obtain ⟨l, h1, h2⟩ := h.cont i e id he hl
    rcases h2.sub c hc with ⟨z, h3, h4⟩ | h3
    · rw [h1.raw hp] at h3
      rw [List.mem_singleton.1 h3] at h4
      exact h4
    · exact (not_nested hb h3).elim

theorem kin_congr {d : SDevice} {g g' : Graph} {lab : Nat → Pos} (h : ∀ a b, Ch g' a b ↔ Ch g a b) (K : Kin d g lab) : Kin d g' lab := by
  intro a a' x c c' h1 h2 h3 h4
  rw [h] at h1 h2 h3 h4
  exact K a a' x c c' h1 h2 h3 h4

theorem kin_replicate {d : SDevice} {g g' : Graph} {lab lab' : Nat → Pos} {src tgt : Nat} {φ : Nat → Nat} {e : ElemNode}
    (hw : WF g) (h : Lab d g lab) (hb : ∀ x, ¬ Precedes d x x) (hr : Replica g g' src tgt (· ∈ g.descendants src) φ)
    (hsrc : IsE g src) (ht : g.elem? tgt = some e) (hp : e.isProcessed = false) (href : Refers d (lab tgt) (lab src))
    (hS : ∀ a a' x, Ch g a x → Ch g a' x → a ≠ a' → a ≠ tgt ∧ a' ≠ tgt ∧ lab a = lab a') (lo : ∀ k, (g.node? k).isSome → lab' k = lab k)
    (lc : ∀ k, k ∈ g.descendants src → lab' (φ k) = lab k) (K : Kin d g lab) : Kin d g' lab' := by
  have hN : ∀ j, j ∈ g.descendants src → ¬ De g src j := fun j hj hs =>
    not_endless hb (h.der _ _ hs) ((inside_of h ((mem_descendants hw).1 hj) (h.tde _ _ hs).2).1 hsrc)
  have vc := (replica_views h hr hsrc hN).1
  have some_ : ∀ a b, Ch g a b → (g.node? a).isSome ∧ (g.node? b).isSome := fun a b hc => ⟨(h.tch _ _ hc).1.some, (h.tch _ _ hc).2.some⟩
  have nf : ∀ k, (g.node? k).isSome → ∀ j, j ∈ g.descendants src → k ≠ φ j := by
    rintro k hk j hj rfl
    rw [hr.fresh j hj] at hk
    cases hk
  have htgt : (g.node? tgt).isSome := IsE.some ⟨e, ht⟩
  have labo : ∀ a b, Ch g a b → lab' b = lab b := fun a b hc => lo b (some_ a b hc).2
  -- the children of the old nodes, the target and the copies
  have cOld : ∀ a c, (g.node? a).isSome → a ≠ tgt → Ch g' a c → Ch g a c := by
    intro a c ha hne hc
    rcases (vc a c).1 hc with h1 | ⟨i, j, h1, -, rfl, -⟩ | ⟨rfl, -⟩
    · exact h1
    · exact absurd rfl (nf _ ha i h1)
    · exact absurd rfl hne
  have cTgt : ∀ c, Ch g' tgt c → Ch g tgt c ∨ ∃ j, j ∈ g.descendants src ∧ c = φ j ∧ Ch g src j := by
    intro c hc
    rcases (vc tgt c).1 hc with h1 | ⟨i, j, h1, -, h2, -⟩ | ⟨-, h1⟩
    · exact Or.inl h1
    · exact absurd h2 (nf _ htgt i h1)
    · exact Or.inr h1
  have cCopy : ∀ i c, i ∈ g.descendants src → Ch g' (φ i) c → ∃ j, j ∈ g.descendants src ∧ c = φ j ∧ Ch g i j := by
    intro i c hi hc
    rcases (vc _ c).1 hc with h1 | ⟨i', j, h1, h2, h3, h4, h5⟩ | ⟨h1, -⟩
    · exact absurd rfl (nf _ (some_ _ _ h1).1 i hi)
    · rw [hr.inj _ _ hi h1 h3]
      exact ⟨j, h2, h4, h5⟩
    · exact absurd h1.symm (nf _ htgt i hi)
  have tgtKin : ∀ c c', Ch g' tgt c → Ch g' tgt c' → lab' c = lab' c' → c = c' ∨ Marked d (lab' c) := by
    have clash : ∀ c j, Ch g tgt c → j ∈ g.descendants src → Ch g src j → lab' c = lab' (φ j) → False := by
      intro c j h1 h2 h3 h4
      rw [labo _ _ h1, lc j h2] at h4
      have h5 := raw_own h hb ht hp h1
      have h6 := h.hasChild h3 id
      rw [h4] at h5
      exact own_not_base hb href h6 h5
    intro c c' k1 k2 h3
    rcases cTgt c k1 with h1 | ⟨j, h4, rfl, h1⟩ <;> rcases cTgt c' k2 with h2 | ⟨j', h5, rfl, h2⟩
    · rw [labo _ _ h1, labo _ _ h2] at h3
      rw [labo _ _ h1]
      exact K tgt tgt c c c' h1 h1 h1 h2 h3
    · exact (clash c j' h1 h5 h2 h3).elim
    · exact (clash c' j h2 h4 h1 h3.symm).elim
    · rw [lc _ h4, lc _ h5] at h3
      rw [lc _ h4]
      rcases K src src j j j' h1 h1 h1 h2 h3 with h6 | h6
      · exact Or.inl (by rw [h6])
      · exact Or.inr h6
  have odd : ∀ i j, i ∈ g.descendants src → Ch g src j → Ch g i j → False := by
    intro i j hi h1 h2
    have hin := (inside_of h ((mem_descendants hw).1 hi) (h.tch _ _ h2).1).1 hsrc
    by_cases hne : src = i
    · subst hne
      exact hb _ (precedes_inside hin)
    · obtain ⟨-, -, h3⟩ := hS _ _ _ h1 h2 hne
      rw [← h3] at hin
      exact hb _ (precedes_inside hin)
  intro a a' x c c' h1 h2 h3 h4 h5
  rcases (vc a x).1 h1 with p1 | ⟨i, j, s1, s2, rfl, rfl, p1⟩ | ⟨rfl, j, s2, rfl, p1⟩
  · have p2 : Ch g a' x := by
      rcases (vc a' x).1 h2 with q | ⟨i, j, -, s2, -, q, -⟩ | ⟨-, j, s2, q, -⟩
      · exact q
      · exact absurd q (nf _ (some_ _ _ p1).2 j s2)
      · exact absurd q (nf _ (some_ _ _ p1).2 j s2)
    by_cases ha : a = a'
    · subst ha
      by_cases hat : a = tgt
      · subst hat
        exact tgtKin c c' h3 h4 h5
      · have h3 := cOld a c (some_ _ _ p1).1 hat h3
        have h4 := cOld a c' (some_ _ _ p1).1 hat h4
        rw [labo _ _ h3, labo _ _ h4] at h5
        rw [labo _ _ h3]
        exact K a a x c c' p1 p2 h3 h4 h5
    · obtain ⟨d1, d2, -⟩ := hS _ _ _ p1 p2 ha
      have h3 := cOld a c (some_ _ _ p1).1 d1 h3
      have h4 := cOld a' c' (some_ _ _ p2).1 d2 h4
      rw [labo _ _ h3, labo _ _ h4] at h5
      rw [labo _ _ h3]
      exact K a a' x c c' p1 p2 h3 h4 h5
  · rcases (vc a' _).1 h2 with q | ⟨i', j', t1, t2, rfl, q, p2⟩ | ⟨rfl, j', t2, q, p2⟩
    · exact absurd rfl (nf _ (some_ _ _ q).2 j s2)
    · have := hr.inj _ _ s2 t2 q
      subst this
      obtain ⟨k, u1, rfl, u2⟩ := cCopy _ _ s1 h3
      obtain ⟨k', u3, rfl, u4⟩ := cCopy _ _ t1 h4
      rw [lc _ u1, lc _ u3] at h5
      rw [lc _ u1]
      rcases K i i' j k k' p1 p2 u2 u4 h5 with h6 | h6
      · exact Or.inl (by rw [h6])
      · exact Or.inr h6
    · have := hr.inj _ _ s2 t2 q
      subst this
      exact (odd i j s1 p2 p1).elim
  · rcases (vc a' _).1 h2 with q | ⟨i', j', t1, t2, rfl, q, p2⟩ | ⟨rfl, -⟩
    · exact absurd rfl (nf _ (some_ _ _ q).2 j s2)
    · have := hr.inj _ _ s2 t2 q
      subst this
      exact (odd i' j t1 p1 p2).elim
    · exact tgtKin c c' h3 h4 h5

theorem kin_finish {d : SDevice} {g g' : Graph} {lab lab' : Nat → Pos} {i : Nat} {e : ElemNode} {x0 : Processed} {t : Bool}
    {I : Nat → Nat → Processed → Prop} (N : Finish g g' i e x0 t I) (ht : ∀ a b, Ch g a b → IsE g a ∧ IsE g b) (hi : IsE g i)
    (lo : ∀ k, (g.node? k).isSome → lab' k = lab k) (ln : ∀ j a x, I j a x → lab' j = lab i) (hm : (∃ j a x, I j a x) → Marked d (lab i))
    (K : Kin d g lab) : Kin d g' lab' := by
  have labo : ∀ a b, Ch g a b → lab' b = lab b := fun a b hc => lo b (ht _ _ hc).2.some
  have nI : ∀ j, (g.node? j).isSome → ∀ a x, ¬ I j a x := by
    intro j hj a x hI
    rw [N.fresh _ _ _ hI] at hj
    cases hj
  have base : ∀ a c, Ch g' a c → (∃ x, I c a x) ∨ (∃ a0, Ch g a0 c ∧ ((a0 = a) ∨ (a0 = i ∧ ∃ p x, I a p x))) := by
    intro a c hc
    rcases (N.ch a c).1 hc with h1 | h1 | ⟨h1, h2⟩
    · exact Or.inr ⟨a, h1, Or.inl rfl⟩
    · exact Or.inl h1
    · exact Or.inr ⟨i, h2, Or.inr ⟨rfl, h1⟩⟩
  have same : ∀ a a0 a1 c c', Ch g a0 c → Ch g a1 c' → (a0 = a ∨ (a0 = i ∧ ∃ p x, I a p x)) → (a1 = a ∨ (a1 = i ∧ ∃ p x, I a p x)) → a0 = a1 := by
    intro a a0 a1 c c' h1 h2 h3 h4
    rcases h3 with rfl | ⟨rfl, p, x, h3⟩ <;> rcases h4 with rfl | ⟨rfl, p', x', h4⟩
    · rfl
    · exact absurd h4 (nI _ (ht _ _ h1).1.some _ _)
    · exact absurd h3 (nI _ (ht _ _ h2).1.some _ _)
    · rfl
  intro a a' x c c' k1 k2 k3 k4 h5
  rcases base a c k3 with ⟨z, h3⟩ | ⟨a0, h3, h6⟩
  · right
    rw [ln _ _ _ h3]
    exact hm ⟨_, _, _, h3⟩
  rcases base a' c' k4 with ⟨z, h4⟩ | ⟨a1, h4, h7⟩
  · right
    rw [h5, ln _ _ _ h4]
    exact hm ⟨_, _, _, h4⟩
  rw [labo _ _ h3, labo _ _ h4] at h5
  rw [labo _ _ h3]
  rcases base a x k1 with ⟨z, h1⟩ | ⟨b0, h1, h8⟩
  · have hne : ∀ b, ¬ Ch g b x := fun b hc => nI _ (ht _ _ hc).2.some _ _ h1
    rcases base a' x k2 with ⟨z', h2⟩ | ⟨b1, h2, h9⟩
    · have := N.fn _ _ _ _ _ h1 h2
      subst this
      have := same a a0 a1 _ _ h3 h4 h6 h7
      subst this
      exact K a0 a0 c c c' h3 h3 h3 h4 h5
    · exact absurd h2 (hne _)
  · rcases base a' x k2 with ⟨z', h2⟩ | ⟨b1, h2, h9⟩
    · exact absurd h2 (nI _ (ht _ _ h1).2.some _ _)
    · have e0 := same a a0 b0 _ _ h3 h1 h6 h8
      have e1 := same a' a1 b1 _ _ h4 h2 h7 h9
      subst e0 e1
      exact K a0 a1 x c c' h1 h2 h3 h4 h5

theorem kin_advance {d : SDevice} {g g' : Graph} {lab lab' : Nat → Pos} {old : Nat → Prop} {i : Nat} (hw : WF g) (h : Lab d g lab)
    (hb : ∀ x, ¬ Precedes d x x) (A : Advance d g lab i g' lab') (hun : i ∈ g.unprocessed) (F : Fol d g lab old (Done g))
    (K : Kin d g lab) (T : Tmpl d g lab) : Kin d g' lab' ∧ Tmpl d g' lab' := by
  obtain ⟨ei, hei, hpi⟩ := unprocessed_iff.1 hun
  cases A with
  | @enum e e' es he hl hl' hp hes =>
    have hch : ∀ a b, Ch (({ g with edges := es } : Graph).setElem i e') a b ↔ Ch g a b := by
      intro a b
      rcases hes with rfl | ⟨s, hd, rfl⟩
      · exact Iff.rfl
      · obtain ⟨n1, n2⟩ := de_not h hb hd
        exact (erase_views n1 n2 rfl).1 a b
    refine ⟨kin_congr hch K, ?_⟩
    intro k ek hk hne hdv ht
    rw [setElem_elem? (g := { g with edges := es }) (show ((g.node? i).isSome) by rw [elem?_node?.1 he]; rfl)] at hk
    split at hk
    · injection hk with hk
      subst hk
      exact absurd hl' hne
    · exact T k ek hk hne hdv ht
  | @dim g1 lab1 e x0 t I _ _ he hl hp hw1 hx ha hf lo ln hI hmk =>
    rw [he] at hei
    injection hei with hei
    subst hei
    have mk : t = true → Marked d (lab i) := fun ht => by
      obtain ⟨p, hn⟩ := h.node i e he
      refine ⟨p, hn.decl, by rw [← hn.level]; exact hl, ?_⟩
      rw [← hn.parsed hl]
      exact hmk ht
    have key : Kin d g1 lab1 ∧ Tmpl d g1 lab1 ∧ lab1 i = lab i ∧ g1.elem? i = some e := by
      cases ha with
      | none => exact ⟨K, T, rfl, he⟩
      | @some _ _ b φ hd hr l1 l2 hbase =>
        obtain ⟨n1, n2⟩ := de_not h hb hd
        have hnd : ¬ Done g i := not_done hun
        have hw0 : WF { g with edges := eraseEdge b i g.edges } := hw.of_eq rfl rfl fun e he => Or.inl (eraseEdge_sub he)
        obtain ⟨hEb, hEi⟩ := h.tde _ _ hd
        have hch := (erase_views (g' := { g with edges := eraseEdge b i g.edges }) n1 n2 rfl).1
        refine ⟨kin_replicate (g := { g with edges := eraseEdge b i g.edges }) hw0 (lab_erase h hd) hb hr hEb he hpi (h.der _ _ hd) ?_ l1 l2 (kin_congr hch K), ?_, l1 i (IsE.some ⟨e, he⟩), hr.ext.elem he⟩
        · intro a a' x h1 h2 hne
          rw [hch] at h1 h2
          obtain ⟨h3, h4, h5⟩ := F.shared _ _ _ h1 h2 hne
          exact ⟨fun hh => hnd (hh ▸ h3), fun hh => hnd (hh ▸ h4), h5⟩
        · intro k ek hk hlk hdv ht
          rcases hr.only k (IsE.some ⟨ek, hk⟩) with h1 | ⟨j, h1, rfl⟩
          · obtain ⟨n, hn⟩ := Option.isSome_iff_exists.1 h1
            rw [l1 k h1]
            refine T k ek ?_ hlk hdv ht
            have := hr.ext k n hn
            rw [elem?_node?] at hk ⊢
            rw [this] at hk
            injection hk with hk
            subst hk
            exact hn
          · rw [l2 j h1]
            refine T j ek ?_ hlk hdv ht
            have := (hr.copy j h1).2
            rw [elem?_node?] at hk ⊢
            rw [this] at hk
            exact hk
    obtain ⟨K1, T1, hli, he1⟩ := key
    have mI : (∃ j a x, I j a x) → t = true := by
      rintro ⟨j, a, x, hh⟩
      cases t with
      | true => rfl
      | false => exact absurd hh (hI rfl j a x)
    refine ⟨kin_finish hf hx.tch ⟨e, he1⟩ lo ln (fun hh => hli ▸ mk (mI hh)) K1, ?_⟩
    intro k ek hk hlk hdv ht
    by_cases hki : k = i
    · subst hki
      rw [hf.self] at hk
      injection hk with hk
      subst hk
      rw [lo _ (IsE.some ⟨e, he1⟩), hli]
      exact mk ht
    · by_cases hIk : ∃ a x, I k a x
      · obtain ⟨a, x, hIk⟩ := hIk
        rw [ln _ _ _ hIk, hli]
        exact mk (mI ⟨_, _, _, hIk⟩)
      · have := hf.old k hki fun a x hh => hIk ⟨a, x, hh⟩
        rw [elem?_node?, this] at hk
        rw [lo k (by rw [hk]; rfl)]
        exact T1 k ek (elem?_node?.2 hk) hlk hdv ht
/-! ### the way down to a node -/

/-- Every node has one way down to it: the declared elements from the device to the node do not depend on which of its
parents is taken. -/
def Route (g : Graph) (lab : Nat → Pos) : Prop := ∃ K : Nat → List Pos, ∀ a c, Ch g a c → K c = lab c :: K a

theorem route_congr {g g' : Graph} {lab : Nat → Pos} (h : ∀ a b, Ch g' a b ↔ Ch g a b) : Route g lab → Route g' lab := by
  rintro ⟨K, hK⟩
  exact ⟨K, fun a c hc => hK a c ((h a c).1 hc)⟩

/-- What lies below a node has a way that is not shorter. -/
theorem route_below {d : SDevice} {g : Graph} {lab : Nat → Pos} (h : Lab d g lab) (pc : ∀ a h c, IsP g h → Pl g a h → Pl g h c → Ch g a c)
    {K : Nat → List Pos} (hK : ∀ a c, Ch g a c → K c = lab c :: K a) {x j : Nat}
    (hc : Conn (g.edges.filter fun e => e.ty != .derive) x j) (hj : IsE g j) :
    (IsE g x → (K x).length ≤ (K j).length) ∧ (IsP g x → ∀ a, Pl g a x → (K a).length ≤ (K j).length) := by
  have one : ∀ a c, Ch g a c → (K a).length ≤ (K c).length := fun a c h => by rw [hK a c h]; simp
  have view : ∀ e ∈ g.edges.filter fun e => e.ty != .derive, Ch g e.src e.dst ∨ Pl g e.src e.dst := by
    intro e he
    obtain ⟨he, hty⟩ := List.mem_filter.1 he
    obtain ⟨a, b, ty⟩ := e
    cases ty with
    | childU => exact Or.inl (Or.inl he)
    | childR => exact Or.inl (Or.inr he)
    | placeholder => exact Or.inr he
    | derive => simp at hty
  induction hc with
  | edge he =>
    rename_i e
    have hv := view e he
    constructor
    · intro hx
      rcases hv with hv | hv
      · exact one _ _ hv
      · rcases h.tpl _ _ hv with ⟨-, h1⟩ | ⟨h1, -⟩
        · exact (isE_notP hj h1).elim
        · exact (isE_notP hx h1).elim
    · intro hx a ha
      rcases hv with hv | hv
      · exact (isE_notP (h.tch _ _ hv).1 hx).elim
      · exact one _ _ (pc a _ _ hx ha hv)
  | step he _ ih =>
    rename_i e _ _
    obtain ⟨ih1, ih2⟩ := ih hj
    have hv := view e he
    constructor
    · intro hx
      rcases hv with hv | hv
      · exact Nat.le_trans (one _ _ hv) (ih1 (h.tch _ _ hv).2)
      · rcases h.tpl _ _ hv with ⟨-, h1⟩ | ⟨h1, -⟩
        · exact ih2 h1 _ hv
        · exact (isE_notP hx h1).elim
    · intro hx a ha
      rcases hv with hv | hv
      · exact (isE_notP (h.tch _ _ hv).1 hx).elim
      · rcases h.tpl _ _ hv with ⟨h1, -⟩ | ⟨-, h1⟩
        · exact (isE_notP h1 hx).elim
        · exact Nat.le_trans (one _ _ (pc a _ _ hx ha hv)) (ih1 h1)

open Classical in
theorem route_replicate {d : SDevice} {g g' : Graph} {lab lab' : Nat → Pos} {src tgt : Nat} {φ : Nat → Nat} {e : ElemNode}
    (hw : WF g) (h : Lab d g lab) (hb : ∀ x, ¬ Precedes d x x) (hr : Replica g g' src tgt (· ∈ g.descendants src) φ)
    (hsrc : IsE g src) (ht : g.elem? tgt = some e) (pc : ∀ a h c, IsP g h → Pl g a h → Pl g h c → Ch g a c)
    (lo : ∀ k, (g.node? k).isSome → lab' k = lab k)
    (lc : ∀ k, k ∈ g.descendants src → lab' (φ k) = lab k) (R : Route g lab) : Route g' lab' := by
  obtain ⟨K, hK⟩ := R
  have hN : ∀ j, j ∈ g.descendants src → ¬ De g src j := fun j hj hs =>
    not_endless hb (h.der _ _ hs) ((inside_of h ((mem_descendants hw).1 hj) (h.tde _ _ hs).2).1 hsrc)
  have vc := (replica_views h hr hsrc hN).1
  have some_ : ∀ a b, Ch g a b → (g.node? a).isSome ∧ (g.node? b).isSome := fun a b hc => ⟨(h.tch _ _ hc).1.some, (h.tch _ _ hc).2.some⟩
  have nf : ∀ k, (g.node? k).isSome → ∀ j, j ∈ g.descendants src → k ≠ φ j := by
    rintro k hk j hj rfl
    rw [hr.fresh j hj] at hk
    cases hk
  have htgt : (g.node? tgt).isSome := IsE.some ⟨e, ht⟩
  obtain ⟨K', hK'⟩ : ∃ K' : Nat → List Pos, K' = fun k => if hk : ∃ j, j ∈ g.descendants src ∧ k = φ j then
      (K hk.choose).take ((K hk.choose).length - (K src).length) ++ K tgt else K k := ⟨_, rfl⟩
  have kOld : ∀ k, (g.node? k).isSome → K' k = K k := by
    intro k hk
    rw [hK']
    simp only
    rw [dif_neg]
    rintro ⟨j, h1, h2⟩
    exact nf k hk j h1 h2
  have kNew : ∀ j, j ∈ g.descendants src → K' (φ j) = (K j).take ((K j).length - (K src).length) ++ K tgt := by
    intro j hj
    have hx : ∃ i, i ∈ g.descendants src ∧ φ j = φ i := ⟨j, hj, rfl⟩
    rw [hK']
    simp only
    rw [dif_pos hx]
    have := hr.inj _ _ hj hx.choose_spec.1 hx.choose_spec.2
    rw [← this]
  refine ⟨K', fun a c hc => ?_⟩
  rcases (vc a c).1 hc with p1 | ⟨i, j, s1, s2, rfl, rfl, p1⟩ | ⟨rfl, j, s2, rfl, p1⟩
  · rw [kOld a (some_ _ _ p1).1, kOld c (some_ _ _ p1).2, lo c (some_ _ _ p1).2]
    exact hK a c p1
  · rw [kNew i s1, kNew j s2, lc j s2, hK i j p1]
    have hle := (route_below h pc hK ((mem_descendants hw).1 s1) (h.tch _ _ p1).1).1 hsrc
    rw [List.length_cons, Nat.succ_sub hle, List.take_succ_cons]
    rfl
  · rw [kOld _ htgt, kNew j s2, lc j s2, hK src j p1]
    rw [List.length_cons, Nat.succ_sub (Nat.le_refl _), Nat.sub_self, List.take_succ_cons, List.take_zero]
    rfl

open Classical in
theorem route_finish {g g' : Graph} {lab lab' : Nat → Pos} {i : Nat} {e : ElemNode} {x0 : Processed} {t : Bool}
    {I : Nat → Nat → Processed → Prop} (N : Finish g g' i e x0 t I) (ht : ∀ a b, Ch g a b → IsE g a ∧ IsE g b)
    (lo : ∀ k, (g.node? k).isSome → lab' k = lab k) (ln : ∀ j a x, I j a x → lab' j = lab i) (R : Route g lab) : Route g' lab' := by
  obtain ⟨K, hK⟩ := R
  have nI : ∀ j, (g.node? j).isSome → ∀ a x, ¬ I j a x := by
    intro j hj a x hI
    rw [N.fresh _ _ _ hI] at hj
    cases hj
  obtain ⟨K', hK'⟩ : ∃ K' : Nat → List Pos, K' = fun k => if ∃ a x, I k a x then K i else K k := ⟨_, rfl⟩
  have kOld : ∀ k, (g.node? k).isSome → K' k = K k := by
    intro k hk
    rw [hK']
    simp only
    rw [if_neg]
    rintro ⟨a, x, h⟩
    exact nI k hk a x h
  have kNew : ∀ j a x, I j a x → K' j = K i := by
    intro j a x h
    rw [hK']
    simp only
    rw [if_pos ⟨a, x, h⟩]
  refine ⟨K', fun a c hc => ?_⟩
  rcases (N.ch a c).1 hc with h1 | ⟨x, h1⟩ | ⟨⟨p, x, h1⟩, h2⟩
  · rw [kOld a (ht _ _ h1).1.some, kOld c (ht _ _ h1).2.some, lo c (ht _ _ h1).2.some]
    exact hK a c h1
  · have h2 := N.par _ _ _ h1
    rw [kNew _ _ _ h1, kOld a (ht _ _ h2).1.some, ln _ _ _ h1]
    exact hK a i h2
  · rw [kNew _ _ _ h1, kOld c (ht _ _ h2).2.some, lo c (ht _ _ h2).2.some]
    exact hK i c h2

theorem route_advance {d : SDevice} {g g' : Graph} {lab lab' : Nat → Pos} {old : Nat → Prop} {i : Nat} (hw : WF g) (h : Lab d g lab)
    (hb : ∀ x, ¬ Precedes d x x) (A : Advance d g lab i g' lab') (F : Fol d g lab old (Done g)) (R : Route g lab) : Route g' lab' := by
  cases A with
  | @enum e e' es he hl hl' hp hes =>
    refine route_congr (fun a b => ?_) R
    rcases hes with rfl | ⟨s, hd, rfl⟩
    · exact Iff.rfl
    · obtain ⟨n1, n2⟩ := de_not h hb hd
      exact (erase_views n1 n2 rfl).1 a b
  | @dim g1 lab1 e x0 t I _ _ he hl hp hw1 hx ha hf lo ln hI hmk =>
    have key : Route g1 lab1 := by
      cases ha with
      | none => exact R
      | @some _ _ b φ hd hr l1 l2 hbase =>
        obtain ⟨n1, n2⟩ := de_not h hb hd
        have hw0 : WF { g with edges := eraseEdge b i g.edges } := hw.of_eq rfl rfl fun e he => Or.inl (eraseEdge_sub he)
        obtain ⟨hEb, hEi⟩ := h.tde _ _ hd
        have hv := erase_views (g' := { g with edges := eraseEdge b i g.edges }) n1 n2 rfl
        refine route_replicate (g := { g with edges := eraseEdge b i g.edges }) hw0 (lab_erase h hd) hb hr hEb he ?_ l1 l2 (route_congr hv.1 R)
        intro a k c h1 h2 h3
        rw [hv.1]
        exact F.plCh a k c h1 ((hv.2.2.2 _ _).1 h2) ((hv.2.2.2 _ _).1 h3)
    exact route_finish hf hx.tch lo ln key

/-- The positions above a position. -/
def above (x : Pos) : Nat → List Pos
  | 0 => []
  | n + 1 => x.take (n + 1) :: above x n

theorem above_append (x y : Pos) : ∀ n, n ≤ x.length → above (x ++ y) n = above x n
  | 0, _ => rfl
  | n + 1, h => by
    simp only [above]
    rw [List.take_append_of_le_length h, above_append x y n (by omega)]

/-- In the declared tree. -/
theorem route_start {d : SDevice} {g : Graph} {lab : Nat → Pos} (h : ∀ a c, Ch g a c → OwnChild d (lab a) (lab c)) : Route g lab := by
  refine ⟨fun k => above (lab k) (lab k).length, fun a c hc => ?_⟩
  obtain ⟨k, p, hk, -⟩ := h a c hc
  simp only
  rw [hk, List.length_append, List.length_singleton]
  simp only [above]
  rw [above_append _ _ _ (Nat.le_refl _), List.take_of_length_le (by simp)]

end Svd
