import Verif.Lemmas.Few
import Verif.Lemmas.Kin
import Verif.Lemmas.FolInit
import Verif.Spec.Quiet
import Verif.Lemmas.EscapeFin
/-
References that can be followed, and quiet bases: which edges are left, and which nodes stand for the same element.
-/
namespace Svd
open Graph Spec M

/-- Everything but the device itself. -/
abbrev NotDev (l : Level) : Prop := l ≠ .device

structure Neat (d : SDevice) (g : Graph) (lab : Nat → Pos) : Prop where
  held : Held g
  few : Few NotDev g
  kin : Kin d g lab
  tmpl : Tmpl d g lab
  route : Route g lab

/-- Only peripherals are derived already. -/
def DeP (g : Graph) : Prop := ∀ b c e, De g b c → g.elem? c = some e → e.level = .peripheral

theorem kindOf_per {p : Parsed} : kindOf p = .peripheral ↔ p.level = .peripheral := by rw [kindOf_level]

theorem inside_not_per {d : SDevice} {g : Graph} {lab : Nat → Pos} (A : LabAt d g lab) {b j : Nat} {eb ej : ElemNode}
    (heb : g.elem? b = some eb) (hej : g.elem? j = some ej) (hb : eb.level ≠ .device) (hin : Inside d (lab b) (lab j)) : ej.level ≠ .peripheral := by
  intro hl
  rcases node_rank A.lab heb hej hin with h | ⟨-, h⟩
  · rw [hl] at h
    generalize eb.level = l at h hb
    cases l <;> simp_all [kindRank]
  · rw [hl] at h; cases h

theorem one_of {l : List Edge} (h1 : l.Nodup) (h2 : ∀ x ∈ l, ∀ y ∈ l, x = y) : l.length ≤ 1 := by
  match l, h1, h2 with
  | [], _, _ => simp
  | [x], _, _ => simp
  | x :: y :: l, h1, h2 =>
    exfalso
    have := h2 x (by simp) y (by simp)
    subst this
    simp at h1

theorem one_wait {g : Graph} {k : Nat} (H : Held g) (h : ∀ x ∈ waitE g.edges k, ∀ y ∈ waitE g.edges k, x.ty = .placeholder ∧ x.src = y.src) :
    (waitE g.edges k).length ≤ 1 := by
  refine one_of ?_ ?_
  · have : waitE g.edges k = (pls g.edges).filter fun e => e.dst == k := by
      unfold waitE pls
      rw [List.filter_filter]
      refine List.filter_congr fun x hx => ?_
      by_cases hw : x ∈ waitE g.edges k
      · have h1 := (h x hw x hw).1
        have h2 := (mem_waitE.1 hw).2.1
        simp [h1, h2]
      · have : ¬ (x.dst = k ∧ (x.ty = .derive ∨ x.ty = .placeholder)) := fun hh => hw (mem_waitE.2 ⟨hx, hh⟩)
        obtain ⟨a, c, ty⟩ := x
        simp only at this ⊢
        by_cases hc : c = k
        · subst hc
          cases ty with
          | derive => exact absurd ⟨rfl, Or.inl rfl⟩ this
          | placeholder => exact absurd ⟨rfl, Or.inr rfl⟩ this
          | childU => exact (Bool.and_false _).trans (Bool.and_false _).symm
          | childR => exact (Bool.and_false _).trans (Bool.and_false _).symm
        · have h0 : (c == k) = false := beq_eq_false_iff_ne.2 hc
          show (c == k && _) = (c == k && _)
          rw [h0]
          rfl
    rw [this]
    exact H.nodup.filter _
  · intro x hx y hy
    obtain ⟨h1, h2⟩ := h x hx y hy
    have h3 := (h y hy y hy).1
    obtain ⟨-, h7, -⟩ := mem_waitE.1 hx
    obtain ⟨-, h8, -⟩ := mem_waitE.1 hy
    obtain ⟨a, c, ty⟩ := x
    obtain ⟨a', c', ty'⟩ := y
    simp only at h1 h2 h3 h7 h8
    rw [h1, h2, h3, h7, h8]

set_option maxHeartbeats 1000000 in
theorem neat_advance {d : SDevice} {ord : List Nat → List Nat} (hord : ∀ l, (ord l).Perm l) (hf : Followable d) (hq : Quiet d) {old : Nat → Prop}
    {g g' : Graph} {lab : Nat → Pos} {i : Nat} {is : List Nat} {ws : List Warn} (G : Going d old g lab (i :: is)) (N : Neat d g lab)
    (hc : DeP g ∨ ∀ k ∈ i :: is, ∀ e, g.elem? k = some e → e.level ≠ .peripheral) (hr : processNode ord g i = .ok g' ws) :
    ∃ lab', (Going d old g' lab' is ∧ Done g' i ∧ ∀ k, Done g k → Done g' k) ∧ Neat d g' lab' ∧
      (DeP g' ∨ ∀ k ∈ is, ∀ e, g'.elem? k = some e → e.level ≠ .peripheral) ∧
      (∀ k, (g.node? k).isSome → lab' k = lab k) ∧ Advance d g lab i g' lab' := by
  have A := G.at_
  have hb := hf.acyclic
  obtain ⟨lab', h1, h2, h3, h4⟩ := lab_processNode hord A.inv A.ac A.lab hr
  obtain ⟨w1, w2, w3⟩ := waitE_processNode hord A hr
  obtain ⟨hoi, hui, hpl⟩ := G.todo i (by simp)
  obtain ⟨ei, hei, hpi⟩ := unprocessed_iff.1 hui
  have hH := held_processNode hord A N.held hr
  have going := going_advance hf G hr h1 h2 h3 h4
  obtain ⟨pi, hpi'⟩ := A.lab.node i ei hei
  have hnd : ei.level ≠ .device := fun hl => by
    have := device_zero A.lab G.fol hei hl
    subst this
    exact not_done hui G.root
  have hpp : ei.parsed = pi := by
    by_cases hen : ei.level = .enumcont
    · cases hpe : pi with
      | enum c =>
        obtain ⟨-, c', hc1, -, hc2⟩ := hpi'.enum c hpe
        rw [hc1, hc2 hpi]
      | _ => rw [hpi'.level, hpe] at hen; cases hen
    · exact hpi'.parsed hen
  -- what is copied
  have src : ∀ b j ej, De g b i → Conn (g.edges.filter fun e => e.ty != .derive) b j → g.elem? j = some ej →
      Inside d (lab b) (lab j) ∧ j ≠ i ∧ ej.level ≠ .peripheral ∧ ej.level ≠ .device := by
    intro b j ej hd hcn hej
    obtain ⟨eb, heb⟩ := (A.lab.tde b i hd).1
    have hin := (inside_of A.lab hcn ⟨_, hej⟩).1 ⟨_, heb⟩
    have hlb : eb.level = ei.level := by
      obtain ⟨pb, hpb⟩ := A.lab.node b eb heb
      rw [hpb.level, hpi'.level]
      exact (sameKind_level (refers_kind (A.lab.der b i hd)) hpi'.decl hpb.decl).symm
    have hbd : eb.level ≠ .device := by rw [hlb]; exact hnd
    refine ⟨hin, ?_, inside_not_per A heb hej hbd hin, ?_⟩
    · rintro rfl
      exact not_endless hb (A.lab.der _ _ hd) hin
    · intro hl
      rcases node_rank A.lab heb hej hin with h | ⟨-, h⟩
      · rw [hl] at h; simp [kindRank] at h
      · rw [hl] at h; cases h
  have lev : ∀ k e e', g.elem? k = some e → g'.elem? k = some e' → e'.level = e.level := by
    intro k e e' he he'
    obtain ⟨p, hp⟩ := A.lab.node k e he
    obtain ⟨p', hp'⟩ := h1.node k e' he'
    rw [h2 k (IsE.some ⟨e, he⟩)] at hp'
    rw [hp.level, hp'.level, declAt_unique hp.decl hp'.decl]
  refine ⟨lab', going, ⟨hH, ?_, ?_, ?_, ?_⟩, ?_, h2, h4⟩
  · -- the edges
    intro k e he hqd
    by_cases hk : (g.node? k).isSome
    · by_cases hki : k = i
      · subst hki
        have hF := N.few k ei hei hnd
        suffices hz : waitE g'.edges k = [] by rw [hz]; exact ⟨by simp, fun _ => rfl⟩
        by_cases hd : pi.derivedFrom = none
        · have := w1 k hk
          rw [waitE_underived A ⟨_, hei⟩ hpi'.decl hd] at this
          exact List.eq_nil_of_length_eq_zero (Nat.le_zero.1 this)
        · have := w2 ei hei (by rw [hpp]; exact hd) fun b hdb => (de_not A.lab hb hdb).1
          exact List.eq_nil_of_length_eq_zero (by omega)
      · have hold := h3.old k hk hki
        have he1 : g.elem? k = some e := by
          rw [elem?_node?] at he ⊢
          rw [← hold, he]
        obtain ⟨f1, f2⟩ := N.few k e he1 hqd
        refine ⟨Nat.le_trans (w1 k hk) f1, fun hp => ?_⟩
        have := w1 k hk
        rw [f2 hp] at this
        exact List.eq_nil_of_length_eq_zero (Nat.le_zero.1 this)
    · have hn : g.node? k = none := by
        cases h : g.node? k with
        | none => rfl
        | some n => rw [h] at hk; simp at hk
      rcases w3 k e he hn with h | ⟨b, j, y1, y2, ⟨ej, y3, y4, y4'⟩, y5⟩
      · rw [h]; exact ⟨by simp, fun _ => rfl⟩
      obtain ⟨hin, hji, hnp, hjd⟩ := src b j ej y1 y2 y3
      have := y4' hji
      subst this
      obtain ⟨q, hq'⟩ := A.lab.node j ej y3
      by_cases hper : ei.level = .peripheral
      · have hD : DeP g := by
          rcases hc with hc | hc
          · exact hc
          · exact absurd hper (hc i (by simp) ei hei)
        constructor
        · obtain ⟨φ, y5⟩ := y5
          have key : ∀ x ∈ waitE g'.edges k, ∃ h, x.ty = .placeholder ∧ x.src = φ h ∧ Pl g h j := by
            intro x hx
            rcases y5 x hx with ⟨-, c, hcj⟩ | h
            · exact absurd (hD c j ej hcj y3) hnp
            · exact h
          refine one_wait hH fun x hx y hy => ?_
          obtain ⟨h, p1, p2, p3⟩ := key x hx
          obtain ⟨h', q1, q2, q3⟩ := key y hy
          exact ⟨p1, by rw [p2, q2, G.fol.uni h h' j ⟨_, y3⟩ p3 q3]⟩
        · exact fun hp => y5.nil ((N.few j ej y3 hjd).2 hp)
      · have hz := y5.nil (waitE_underived A ⟨_, y3⟩ hq'.decl (hq _ _ _ _ _ hpi'.decl (fun h => hper (by rw [hpi'.level]; exact kindOf_per.1 h))
          (A.lab.der b i y1) hin hq'.decl))
        rw [hz]; exact ⟨by simp, fun _ => rfl⟩
  · exact (kin_advance A.inv.wf A.lab hb h4 hui G.fol N.kin N.tmpl).1
  · exact (kin_advance A.inv.wf A.lab hb h4 hui G.fol N.kin N.tmpl).2
  · exact route_advance A.inv.wf A.lab hb h4 G.fol N.route
  · rcases hc with hc | hc
    · left
      intro b c e hd he
      cases hn : g.node? c with
      | some n =>
        obtain ⟨e0, he0⟩ : IsE g c := by
          by_cases hci : c = i
          · subst hci; exact ⟨_, hei⟩
          · have := h3.old c (by rw [hn]; rfl) hci
            exact ⟨e, by rw [elem?_node?] at he ⊢; rw [← this]; exact he⟩
        rw [lev c e0 e he0 he]
        exact hc b c e0 ((advance_in A.inv.wf A.lab hb h4 (by rw [hn]; rfl)).1 b hd) he0
      | none =>
        exfalso
        have hm : (⟨b, c, .derive⟩ : Edge) ∈ waitE g'.edges c := mem_waitE.2 ⟨hd, rfl, Or.inl rfl⟩
        rcases w3 c e he hn with h | ⟨b', j, y1, y2, ⟨ej, y3, y4, y4'⟩, y5⟩
        · rw [h] at hm; cases hm
        obtain ⟨φ, y5⟩ := y5
        rcases y5 _ hm with ⟨-, c', hcj⟩ | ⟨h, y, -⟩
        · exact (src b' j ej y1 y2 y3).2.2.1 (hc c' j ej hcj y3)
        · cases y
    · right
      intro k hk e he
      obtain ⟨-, hku, -⟩ := G.todo k (List.mem_cons_of_mem _ hk)
      obtain ⟨e0, he0, -⟩ := unprocessed_iff.1 hku
      rw [lev k e0 e he0 he]
      exact hc k (List.mem_cons_of_mem _ hk) e0 he0

theorem neat_step {d : SDevice} {ord : List Nat → List Nat} (hord : ∀ l, (ord l).Perm l) (hf : Followable d) (hq : Quiet d) {old : Nat → Prop}
    {g g' : Graph} {lab : Nat → Pos} {i : Nat} {is : List Nat} {ws : List Warn} (G : Going d old g lab (i :: is)) (N : Neat d g lab)
    (hc : DeP g ∨ ∀ k ∈ i :: is, ∀ e, g.elem? k = some e → e.level ≠ .peripheral) (hr : processNode ord g i = .ok g' ws) :
    ∃ lab', (Going d old g' lab' is ∧ Done g' i ∧ ∀ k, Done g k → Done g' k) ∧ Neat d g' lab' ∧
      (DeP g' ∨ ∀ k ∈ is, ∀ e, g'.elem? k = some e → e.level ≠ .peripheral) := by
  obtain ⟨lab', h1, h2, h3, -⟩ := neat_advance hord hf hq G N hc hr
  exact ⟨lab', h1, h2, h3⟩

/-- Derived already are only peripherals, or all peripherals are complete. -/
def Calm (g : Graph) : Prop := DeP g ∨ ∀ k e, g.elem? k = some e → e.level = .peripheral → Done g k

theorem neat_phase {d : SDevice} {g g' : Graph} {lab : Nat → Pos} (hf : Followable d) (P : Phase d g lab) (N : Neat d g lab) (C : Calm g) {k : Nat}
    {ws : List Warn} (hr : resolvePlaceholder g k = .ok g' ws) : Neat d g' lab ∧ Calm g' := by
  have A := P.at_
  obtain ⟨P', he, hpl, hch, -⟩ := phase_step hf P hr
  have S : Sound d g := ⟨⟨lab, A⟩, N.held, P.listed⟩
  refine ⟨⟨held_resolvePlaceholder A N.held hr, few_resolvePlaceholder S N.few hr, kin_congr hch N.kin, fun k e hk => N.tmpl k e (by rw [← he]; exact hk), route_congr hch N.route⟩, ?_⟩
  have right : (∀ k e, g.elem? k = some e → e.level = .peripheral → Done g k) → ∀ k e, g'.elem? k = some e → e.level = .peripheral → Done g' k := by
    intro h k e hk hl
    rw [he] at hk
    exact (done_congr he k).2 (h k e hk hl)
  rcases C with C | C
  rotate_left
  · exact Or.inr (right C)
  rcases P.per with hz | hz
  rotate_left
  · exact Or.inr (right hz)
  left
  obtain ⟨path, par, hk, hpar, h⟩ := resolvePlaceholder_ok hr
  rcases h with ⟨rfl, -⟩ | ⟨c, ec, b, w, hD, hc, hec, -, hadd⟩
  · exact C
  · intro x y e hd hy
    rw [he] at hy
    obtain ⟨rfl, -, -⟩ := rawAddEdge_nodes hadd
    rcases List.mem_cons.1 hd with hd | hd
    · injection hd with h1 h2
      subst h2
      rw [hec] at hy
      injection hy with hy
      subst hy
      have h0 := hz par hD
      subst h0
      obtain ⟨c', h5, h6, h7⟩ := placeholderChild_total N.held A.lab.typed ⟨_, hk⟩
      rw [hc] at h5
      injection h5 with h5 _
      subst h5
      have hch0 : Ch g 0 y := P.fol.plCh 0 k y ⟨_, hk⟩ (placeholderParent_unique hpar).1 h6
      obtain ⟨er, her, hlr⟩ := A.lab.root.2
      obtain ⟨pr, hpr⟩ := A.lab.node 0 er her
      obtain ⟨pc, hpc⟩ := A.lab.node y ec hec
      have := hasChild_kind hpr.decl hpc.decl (A.lab.hasChild hch0 id)
      rw [← hpr.level, ← hpc.level, hlr] at this
      generalize ec.level = l at this
      cases l <;> first | rfl | cases this
    · have : De g x y := by
        unfold Graph.removePlaceholder Graph.removeNode at hd
        exact (List.mem_filter.1 hd).1
      exact C x y e this hy

theorem neat_phases {d : SDevice} {lab : Nat → Pos} (hf : Followable d) {phs : List Nat} : ∀ {g g' : Graph} {ws : List Warn}, Phase d g lab →
    Neat d g lab → Calm g → resolvePlaceholders g phs = .ok g' ws → Neat d g' lab ∧ Calm g' := by
  induction phs with
  | nil =>
    intro g g' ws _ N C hr
    simp only [resolvePlaceholders, M.pure_eq_ok] at hr
    exact hr.1 ▸ ⟨N, C⟩
  | cons k ks ih =>
    intro g g' ws P N C hr
    simp only [resolvePlaceholders, M.bind_eq_ok] at hr
    obtain ⟨g1, w1, w2, h1, h2, -⟩ := hr
    obtain ⟨N1, C1⟩ := neat_phase hf P N C h1
    exact ih (phase_step hf P h1).1 N1 C1 h2

theorem neat_run {d : SDevice} {ord : List Nat → List Nat} (hord : ∀ l, (ord l).Perm l) (hf : Followable d) (hq : Quiet d) {old : Nat → Prop} {is : List Nat} :
    ∀ {g g' : Graph} {lab : Nat → Pos} {ws : List Warn}, Going d old g lab is → Neat d g lab →
      (DeP g ∨ ∀ k ∈ is, ∀ e, g.elem? k = some e → e.level ≠ .peripheral) → processNodes ord g is = .ok g' ws →
      ∃ lab', Going d old g' lab' [] ∧ (∀ k ∈ is, Done g' k) ∧ (∀ k, Done g k → Done g' k) ∧ Neat d g' lab' := by
  induction is with
  | nil =>
    intro g g' lab ws G N C hr
    simp only [processNodes, M.pure_eq_ok] at hr
    obtain ⟨rfl, -⟩ := hr
    exact ⟨lab, G, by simp, fun _ h => h, N⟩
  | cons i is ih =>
    intro g g' lab ws G N C hr
    simp only [processNodes, M.bind_eq_ok] at hr
    obtain ⟨g1, w1, w2, h1, h2, -⟩ := hr
    obtain ⟨lab1, ⟨G1, hi, hm⟩, N1, C1⟩ := neat_step hord hf hq G N C h1
    obtain ⟨lab2, G2, h3, h4, N2⟩ := ih G1 N1 C1 h2
    refine ⟨lab2, G2, fun k hk => ?_, fun k hk => h4 k (hm k hk), N2⟩
    rcases List.mem_cons.1 hk with rfl | hk
    · exact h4 _ hi
    · exact h3 k hk

theorem calm_start {g : Graph} (C : Calm g) : DeP g ∨ ∀ k ∈ sortedProcessable g, ∀ e, g.elem? k = some e → e.level ≠ .peripheral :=
  C.imp id fun h k hk e he hl => not_done (sorted_sub.2 k hk) (h k e he hl)

/-- Errors of the single steps are excluded: then only the fuel can run out. -/
theorem neat_rounds {d : SDevice} {ord : List Nat → List Nat} (hord : ∀ l, (ord l).Perm l) (hf : Followable d) (hq : Quiet d) {fuel : Nat} :
    ∀ {g g' : Graph} {lab : Nat → Pos} {prev : List Nat} {ws : List Warn}, Phase d g lab → Neat d g lab → Calm g → (∀ k ∈ prev, Done g k) →
      rounds ord fuel g prev = .ok g' ws → g'.unprocessed = [] ∧ ∃ lab', Phase d g' lab' ∧ Neat d g' lab' := by
  induction fuel with
  | zero => intro g g' lab prev ws _ _ _ _ hr; simp [rounds] at hr
  | succ f ih =>
    intro g g' lab prev ws P N C hprev hr
    refine ⟨(follow_rounds hord hf P hprev).2 g' ws hr, ?_⟩
    simp only [rounds, M.bind_eq_ok] at hr
    obtain ⟨g1, w1, w2, h1, h, -⟩ := hr
    have R := ready_of hf P h1
    obtain ⟨N1, C1⟩ := neat_phases hf P N C h1
    split at h
    · simp only [M.pure_eq_ok] at h
      obtain ⟨rfl, -⟩ := h
      exact ⟨lab, R.phase, N1⟩
    · split at h
      · simp at h
      · simp only [M.bind_eq_ok] at h
        obtain ⟨g2, w3, w4, h2, h, -⟩ := h
        obtain ⟨lab2, G2, h3, -, N2⟩ := neat_run hord hf hq (going_start hf R) N1 (calm_start C1) h2
        exact (ih (phase_next G2) N2 (Or.inr fun k e he hl => (G2.per k e he hl).resolve_right (by simp)) h3 h).2

theorem neat_initial {d : SDevice} {g : Graph} {ws : List Warn} (hb : ∀ x, ¬ Precedes d x x) (hr : initialization d = .ok g ws) :
    ∃ lab, Phase d g lab ∧ Neat d g lab ∧ Calm g := by
  obtain ⟨lab, hl, -, hsib⟩ := lab_initialization hr
  have A : LabAt d g lab := ⟨inv_initialization hr, ac_initialization hr, hl⟩
  obtain ⟨g', h1, h2, h3⟩ := initialization_total d
  rw [hr] at h1
  injection h1 with h1 _
  subst h1
  have hr' := hr
  unfold initialization at hr'
  simp only [M.bind_eq_ok] at hr'
  obtain ⟨G, w1, w2, k1, k2, -⟩ := hr'
  have hG := grown_construct k1
  obtain ⟨n1, n2, n3, n4, n5, n6⟩ := grown_ensure hG (phs := G.placeholders) (S := fun _ => False) (fun k hk => (hG.listed.2 k).1 hk)
    (fun _ h => h.elim) rfl rfl (fun _ h => h) (fun _ _ => Iff.rfl) hG.noDe (fun a b => by simp) k2
  have S := hsib G w1 k1
  refine ⟨lab, phase_initial hr A, ⟨h2, few_initialization (by simp) hr, ?_, ?_, ?_⟩, Or.inl fun b c e hd => absurd hd (n5 _ _)⟩
  · intro a a' x c c' q1 q2 q3 q4 q5
    rw [n4] at q1 q2 q3 q4
    have := hG.one _ _ _ q1 q2
    subst this
    exact Or.inl (S a c c' q3 q4 q5)
  · intro k e he hne hdv ht
    exfalso
    by_cases hp : e.isProcessed = true
    · have hD : Done G k := ⟨e, by rw [elem?_node?] at he ⊢; rw [← node?_congr n1]; exact he, hp⟩
      have := hG.done k hD
      subst this
      obtain ⟨er, her, hlr⟩ := hl.root.2
      rw [he] at her
      injection her with her
      subst her
      exact hdv hlr
    · obtain ⟨p, hp'⟩ := hl.node k e he
      rw [hp'.plain (by simpa using hp)] at ht
      cases ht
  · refine route_start (d := d) fun a c hc => ?_
    have hEa := (hl.tch _ _ hc).1
    obtain ⟨e, he⟩ := hEa
    by_cases hp : e.isProcessed = true
    · have hD : Done G a := ⟨e, by rw [elem?_node?] at he ⊢; rw [← node?_congr n1]; exact he, hp⟩
      have := hG.done a hD
      subst this
      have hh := hl.hasChild hc id
      rw [hl.root.1] at hh ⊢
      have hdev : DeclAt d [] .device := ⟨_, rfl⟩
      generalize hx : ([] : Pos) = x at hh ⊢
      cases hh with
      | own h => exact h
      | inherited h _ =>
        subst hx
        cases h with
        | intro h1 h2 =>
          have := declAt_unique h1 hdev
          subst this
          cases h2
      | nested h => exact (not_nested hb h).elim
    · exact raw_own hl hb he (by simpa using hp) hc

end Svd
