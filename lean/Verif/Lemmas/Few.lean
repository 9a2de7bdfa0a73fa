import Verif.Lemmas.WaitE
/-
Processed elements have no derive edges and no placeholders left, for the kinds of elements where nothing derived is copied.
-/
namespace Svd
open Graph Spec M

/-- At most one derive or placeholder edge before an element of these kinds is processed, and none afterwards. -/
def Few (Q : Level → Prop) (g : Graph) : Prop :=
  ∀ k e, g.elem? k = some e → Q e.level → (waitE g.edges k).length ≤ 1 ∧ (e.isProcessed = true → waitE g.edges k = [])

/-- No element of these kinds is derived from its own parent, and none inside a base is derived. -/
structure Tame (d : SDevice) (Q : Level → Prop) : Prop where
  own : ∀ x b p, DeclAt d x p → Q p.level → Refers d x b → ¬ HasChild d b x
  base : ∀ x b y q, Refers d x b → Inside d b y → DeclAt d y q → Q q.level → q.derivedFrom = none

theorem refers_nonempty {d : SDevice} {x b : Pos} (h : Refers d x b) : ∃ p, DeclAt d x p ∧ p.derivedFrom ≠ none := by
  cases h with
  | intro h1 h2 _ _ _ _ => exact ⟨_, h1, by rw [h2]; simp⟩

theorem waitE_underived {d : SDevice} {g : Graph} {lab : Nat → Pos} (A : LabAt d g lab) {i : Nat} (hi : IsE g i) {p : Parsed} (hp : DeclAt d (lab i) p)
    (hn : p.derivedFrom = none) : waitE g.edges i = [] := by
  rw [List.eq_nil_iff_forall_not_mem]
  rintro ⟨a, c, ty⟩ hx
  obtain ⟨x1, x2, x3⟩ := mem_waitE.1 hx
  dsimp only at x2 x3
  subst x2
  rcases x3 with rfl | rfl
  · obtain ⟨q, h1, h2⟩ := refers_nonempty (A.lab.der a c x1)
    rw [declAt_unique h1 hp] at h2
    exact h2 hn
  · rcases A.lab.tpl a c x1 with h | ⟨⟨path, h⟩, -⟩
    · exact isE_notP hi h.2
    · obtain ⟨q, h1, h2⟩ := A.lab.ph a c path h x1
      rw [declAt_unique h1 hp, hn] at h2
      cases h2

theorem few_processNode {d : SDevice} {Q : Level → Prop} (T : Tame d Q) {ord : List Nat → List Nat} (hord : ∀ l, (ord l).Perm l) {g g' : Graph}
    {lab : Nat → Pos} {i : Nat} {ws : List Warn} (A : LabAt d g lab) (F : Few Q g) (hr : processNode ord g i = .ok g' ws) : Few Q g' := by
  obtain ⟨h1, h2, h3⟩ := waitE_processNode hord A hr
  obtain ⟨e0, -, -, -, he0, -⟩ := processNode_cases hr
  obtain ⟨lab', -, -, hstep, -⟩ := lab_processNode hord A.inv A.ac A.lab hr
  intro k e he hq
  by_cases hk : (g.node? k).isSome
  · by_cases hki : k = i
    · subst hki
      obtain ⟨p, hp⟩ := A.lab.node k e0 he0
      have hl : e.level = e0.level := by
        obtain ⟨p', hp'⟩ := (lab_processNode hord A.inv A.ac A.lab hr).choose_spec.1.node k e he
        have := (lab_processNode hord A.inv A.ac A.lab hr).choose_spec.2.1 k hk
        rw [this] at hp'
        rw [hp'.level, hp.level, declAt_unique hp'.decl hp.decl]
      rw [hl] at hq
      have hF := F k e0 he0 hq
      suffices hz : waitE g'.edges k = [] by rw [hz]; exact ⟨by simp, fun _ => rfl⟩
      by_cases hd : p.derivedFrom = none
      · have := h1 k hk
        rw [waitE_underived A ⟨_, he0⟩ hp.decl hd] at this
        exact List.eq_nil_of_length_eq_zero (Nat.le_zero.1 this)
      · cases hpr : e0.isProcessed with
        | true =>
          have := h1 k hk
          rw [hF.2 hpr] at this
          exact List.eq_nil_of_length_eq_zero (Nat.le_zero.1 this)
        | false =>
          have hpp : e0.parsed = p := by
            by_cases hen : e0.level = .enumcont
            · cases hpe : p with
              | enum c =>
                obtain ⟨-, c', hc1, -, hc2⟩ := hp.enum c hpe
                rw [hc1, hc2 hpr]
              | _ => rw [hp.level, hpe] at hen; cases hen
            · exact hp.parsed hen
          have := h2 e0 he0 (by rw [hpp]; exact hd) fun b hb hc =>
            T.own _ _ _ hp.decl (by rw [← hp.level]; exact hq) (A.lab.der b k hb) (A.lab.hasChild hc id)
          exact List.eq_nil_of_length_eq_zero (by omega)
    · have hold := hstep.old k hk hki
      have he1 : g.elem? k = some e := by
        rw [elem?_node?] at he ⊢
        rw [← hold, he]
      obtain ⟨f1, f2⟩ := F k e he1 hq
      refine ⟨Nat.le_trans (h1 k hk) f1, fun hp => ?_⟩
      have := h1 k hk
      rw [f2 hp] at this
      exact List.eq_nil_of_length_eq_zero (Nat.le_zero.1 this)
  · have hn : g.node? k = none := by
      cases h : g.node? k with
      | none => rfl
      | some n => rw [h] at hk; simp at hk
    suffices hz : waitE g'.edges k = [] by rw [hz]; exact ⟨by simp, fun _ => rfl⟩
    rcases h3 k e he hn with h | ⟨b, j, y1, y2, ⟨ej, y3, y4, -⟩, y5⟩
    · exact h
    · obtain ⟨q, hq'⟩ := A.lab.node j ej y3
      have hb := (A.lab.tde b i y1).1
      refine y5.nil (waitE_underived A ⟨_, y3⟩ hq'.decl ?_)
      exact T.base _ _ _ _ (A.lab.der b i y1) ((inside_of A.lab y2 ⟨_, y3⟩).1 hb) hq'.decl (by rw [← hq'.level, y4]; exact hq)

theorem few_processNodes {d : SDevice} {Q : Level → Prop} (T : Tame d Q) {ord : List Nat → List Nat} (hord : ∀ l, (ord l).Perm l) {is : List Nat} :
    ∀ {g g' : Graph} {ws : List Warn}, Sound d g → Few Q g → processNodes ord g is = .ok g' ws → Few Q g' := by
  induction is with
  | nil =>
    intro g g' ws S F hr
    simp only [processNodes, M.pure_eq_ok] at hr
    exact hr.1 ▸ F
  | cons i is ih =>
    intro g g' ws S F hr
    simp only [processNodes, M.bind_eq_ok] at hr
    obtain ⟨g1, w1, w2, h1, h2, -⟩ := hr
    obtain ⟨lab, A⟩ := S.1
    exact ih (sound_processNode hord S h1).1 (few_processNode T hord A F h1) h2

theorem waitE_resolvePlaceholder {d : SDevice} {g g' : Graph} {h : Nat} {ws : List Warn} (S : Sound d g)
    (hr : resolvePlaceholder g h = .ok g' ws) (k : Nat) : (waitE g'.edges k).length ≤ (waitE g.edges k).length := by
  obtain ⟨⟨lab, A⟩, H, L⟩ := S
  obtain ⟨path, hn, hc⟩ := resolvePlaceholder_cases hr
  rcases hc with rfl | ⟨i, e, b, w, h1, h2, h3, h4⟩
  · exact Nat.le_refl _
  · obtain ⟨rfl, -, -⟩ := rawAddEdge_nodes h4
    obtain ⟨c, h5, h6, h7⟩ := placeholderChild_total H A.lab.typed ⟨_, hn⟩
    rw [h1] at h5
    injection h5 with h5 _
    subst h5
    have hrem : (g.removePlaceholder h).edges = g.edges.filter fun e => !(e.src == h || e.dst == h) := by
      unfold Graph.removePlaceholder Graph.removeNode
      simp only [Bool.not_or]
      rfl
    simp only [hrem]
    have hsub : (waitE (g.edges.filter fun e => !(e.src == h || e.dst == h)) k).length ≤ (waitE g.edges k).length := by
      unfold waitE
      rw [List.filter_filter]
      have : (fun a : Edge => (a.dst == k && (a.ty == .derive || a.ty == .placeholder)) && !(a.src == h || a.dst == h)) =
        fun a => (!(a.src == h || a.dst == h)) && (a.dst == k && (a.ty == .derive || a.ty == .placeholder)) := by funext a; rw [Bool.and_comm]
      rw [this, ← List.filter_filter]
      exact (List.filter_sublist).length_le
    by_cases hk : k = i
    · subst hk
      rw [waitE_pos (by simp)]
      simp only [List.length_cons]
      have : ∀ es : List Edge, (⟨h, k, .placeholder⟩ : Edge) ∈ es →
          (waitE (es.filter fun e => !(e.src == h || e.dst == h)) k).length < (waitE es k).length := by
        intro es
        induction es with
        | nil => intro hm; cases hm
        | cons x xs ih =>
          intro hm
          by_cases hx : x.src = h ∨ x.dst = h
          · rw [List.filter_cons, if_neg (by rcases hx with hx | hx <;> simp [hx])]
            rcases List.mem_cons.1 hm with rfl | hm
            · rw [waitE_pos (by simp)]
              simp only [List.length_cons]
              refine Nat.lt_succ_of_le ?_
              unfold waitE
              exact (List.filter_sublist.filter _).length_le
            · refine Nat.lt_of_lt_of_le (ih hm) ?_
              unfold waitE
              exact ((List.sublist_cons_self _ _).filter _).length_le
          · rw [List.filter_cons, if_pos (by simpa using hx)]
            rcases List.mem_cons.1 hm with rfl | hm
            · simp at hx
            · have := ih hm
              by_cases hy : (x.dst == k && (x.ty == .derive || x.ty == .placeholder)) = true
              · rw [waitE_pos hy, waitE_pos hy]; simp only [List.length_cons]; omega
              · rw [waitE_neg hy, waitE_neg hy]; exact this
      exact this _ h6
    · rw [waitE_neg (by simp [Ne.symm hk])]
      exact hsub

theorem few_resolvePlaceholder {d : SDevice} {Q : Level → Prop} {g g' : Graph} {h : Nat} {ws : List Warn} (S : Sound d g) (F : Few Q g)
    (hr : resolvePlaceholder g h = .ok g' ws) : Few Q g' := by
  intro k e he hq
  obtain ⟨lab, A⟩ := S.1
  have he1 := (resolvePlaceholder_elem A.inv hr).2 k
  have hle := waitE_resolvePlaceholder S hr k
  obtain ⟨f1, f2⟩ := F k e (by rw [← he1]; exact he) hq
  refine ⟨Nat.le_trans hle f1, fun hp => ?_⟩
  rw [f2 hp] at hle
  exact List.eq_nil_of_length_eq_zero (Nat.le_zero.1 hle)

theorem few_resolvePlaceholders {d : SDevice} {Q : Level → Prop} {phs : List Nat} : ∀ {g g' : Graph} {ws : List Warn}, Sound d g → Few Q g →
    resolvePlaceholders g phs = .ok g' ws → Few Q g' := by
  induction phs with
  | nil =>
    intro g g' ws S F hr
    simp only [resolvePlaceholders, M.pure_eq_ok] at hr
    exact hr.1 ▸ F
  | cons k ks ih =>
    intro g g' ws S F hr
    simp only [resolvePlaceholders, M.bind_eq_ok] at hr
    obtain ⟨g1, w1, w2, h1, h2, -⟩ := hr
    exact ih (sound_resolvePlaceholder S h1) (few_resolvePlaceholder S F h1) h2

theorem few_rounds {d : SDevice} {Q : Level → Prop} (T : Tame d Q) {ord : List Nat → List Nat} (hord : ∀ l, (ord l).Perm l) {f : Nat} :
    ∀ {g g' : Graph} {prev : List Nat} {ws : List Warn}, Sound d g → Few Q g → rounds ord f g prev = .ok g' ws → Few Q g' := by
  induction f with
  | zero => intro g g' prev ws _ _ hr; simp [rounds] at hr
  | succ f ih =>
    intro g g' prev ws S F hr
    rw [rounds] at hr
    simp only [M.bind_eq_ok] at hr
    obtain ⟨g1, w1, w2, h1, h2, -⟩ := hr
    have S1 := sound_resolvePlaceholders S h1
    have F1 := few_resolvePlaceholders S F h1
    split at h2
    · simp only [M.pure_eq_ok] at h2
      exact h2.1 ▸ F1
    · split at h2
      · simp at h2
      · simp only [M.bind_eq_ok] at h2
        obtain ⟨g2, w3, w4, h3, h4, -⟩ := h2
        exact ih (sound_processNodes hord S1 h3) (few_processNodes T hord S1 F1 h3) h4

theorem few_initialization {d : SDevice} {Q : Level → Prop} (hQ : ¬ Q .device) {g : Graph} {ws : List Warn} (hr : initialization d = .ok g ws) :
    Few Q g := by
  obtain ⟨g', h1, h2, h3⟩ := initialization_total d
  obtain ⟨lab, A⟩ := (sound_initialization hr).1
  rw [hr] at h1
  injection h1 with h1 _
  subst h1
  unfold initialization at hr
  simp only [M.bind_eq_ok] at hr
  obtain ⟨G, w1, w2, k1, k2, -⟩ := hr
  have hG := grown_construct k1
  obtain ⟨n1, n2, n3, n4, n5, n6⟩ := grown_ensure hG (phs := G.placeholders) (S := fun _ => False) (fun k hk => (hG.listed.2 k).1 hk)
    (fun _ h => h.elim) rfl rfl (fun _ h => h) (fun _ _ => Iff.rfl) hG.noDe (fun a b => by simp) k2
  intro k e he hq
  have hkE : IsE G k := by
    refine ⟨e, ?_⟩
    rw [elem?_node?] at he ⊢
    rw [← node?_congr n1]
    exact he
  constructor
  · have hnd : (waitE g.edges k).Nodup ∧ ∀ x ∈ waitE g.edges k, ∀ y ∈ waitE g.edges k, x = y := by
      have hpl : ∀ x ∈ waitE g.edges k, x.ty = .placeholder := by
        rintro ⟨a, c, ty⟩ hx
        obtain ⟨x1, x2, x3⟩ := mem_waitE.1 hx
        rcases x3 with h | h
        · dsimp only at h
          subst h
          exact absurd x1 (n5 _ _)
        · exact h
      constructor
      · have : waitE g.edges k = (pls g.edges).filter fun e => e.dst == k := by
          unfold waitE pls
          rw [List.filter_filter]
          refine List.filter_congr fun x hx => ?_
          obtain ⟨a, c, ty⟩ := x
          cases ty with
          | derive => exact absurd hx (n5 _ _)
          | _ => cases c == k <;> simp
        rw [this]
        exact h2.nodup.filter _
      · have hup : ∀ x ∈ waitE g.edges k, Pl G x.src k := by
          intro x hx
          have hty := hpl x hx
          obtain ⟨a, c, ty⟩ := x
          obtain ⟨x1, x2, x3⟩ := mem_waitE.1 hx
          dsimp only at hty x2
          subst hty x2
          rcases (n6 _ _).1 x1 with h | ⟨-, c', h, -⟩
          · exact h
          · exact absurd (hG.ph _ _ h).1 fun hP => isE_notP hkE hP
        intro x hx y hy
        have h4 := hG.uni _ _ _ (hup x hx) (hup y hy)
        have h5 := hpl x hx
        have h6 := hpl y hy
        obtain ⟨-, h7, -⟩ := mem_waitE.1 hx
        obtain ⟨-, h8, -⟩ := mem_waitE.1 hy
        obtain ⟨a, c, ty⟩ := x
        obtain ⟨a', c', ty'⟩ := y
        simp only at h4 h5 h6 h7 h8
        rw [h4, h5, h6, h7, h8]
    match hw : waitE g.edges k, hnd with
    | [], _ => simp
    | [x], _ => simp
    | x :: y :: l, hnd =>
      exfalso
      have := hnd.2 x (by simp) y (by simp)
      subst this
      simpa using hnd.1
  · intro hp
    exfalso
    have : Done G k := by
      refine ⟨e, ?_, hp⟩
      rw [elem?_node?] at he ⊢
      rw [← node?_congr n1]
      exact he
    have := hG.done k this
    subst this
    obtain ⟨e', he', hl⟩ := A.lab.root.2
    rw [he] at he'
    injection he' with he'
    subst he'
    rw [hl] at hq
    exact hQ hq

end Svd
