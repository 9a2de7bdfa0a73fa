import Verif.Lemmas.ResTotal
/-
References that can be followed, and quiet bases: what the graph is like when all nodes are processed.
-/
namespace Svd
open Graph Spec M

/-! ### the device itself -/

/-- The node of the device. -/
def RootOK (g : Graph) : Prop := ∃ e, g.elem? 0 = some e ∧ e.isDimTemplate = false ∧ e.isProcessed = true

theorem root_processNodes {d : SDevice} {ord : List Nat → List Nat} (hord : ∀ l, (ord l).Perm l) {is : List Nat} : ∀ {g g' : Graph} {lab : Nat → Pos} {ws : List Warn},
    LabAt d g lab → 0 ∉ is → RootOK g → processNodes ord g is = .ok g' ws → RootOK g' ∧ ∃ lab', LabAt d g' lab' := by
  induction is with
  | nil =>
    intro g g' lab ws A _ R hr
    simp only [processNodes, M.pure_eq_ok] at hr
    obtain ⟨rfl, -⟩ := hr
    exact ⟨R, lab, A⟩
  | cons i is ih =>
    intro g g' lab ws A hn R hr
    simp only [processNodes, M.bind_eq_ok] at hr
    obtain ⟨g1, w1, w2, h1, h2, -⟩ := hr
    obtain ⟨lab', q1, q2, q3, -⟩ := lab_processNode hord A.inv A.ac A.lab h1
    obtain ⟨e, he, ht⟩ := R
    have hold := q3.old 0 (IsE.some ⟨e, he⟩) (fun h => hn (by simp [h]))
    refine ih (lab := lab') ⟨(inv_processNode A.inv h1).1, ac_processNode A.ac h1, q1⟩ (fun h => hn (by simp [h])) ⟨e, ?_, ht⟩ h2
    rw [elem?_node?] at he ⊢
    rw [hold, he]

theorem root_placeholders {d : SDevice} {lab : Nat → Pos} {phs : List Nat} : ∀ {g g' : Graph} {ws : List Warn}, LabAt d g lab → RootOK g →
    resolvePlaceholders g phs = .ok g' ws → RootOK g' := by
  induction phs with
  | nil =>
    intro g g' ws A R hr
    simp only [resolvePlaceholders, M.pure_eq_ok] at hr
    exact hr.1 ▸ R
  | cons k ks ih =>
    intro g g' ws A R hr
    simp only [resolvePlaceholders, M.bind_eq_ok] at hr
    obtain ⟨g1, w1, w2, h1, h2, -⟩ := hr
    refine ih (at_resolvePlaceholder A h1).1 ?_ h2
    obtain ⟨e, he, ht⟩ := R
    exact ⟨e, by rw [(resolvePlaceholder_elem A.inv h1).2]; exact he, ht⟩

theorem root_rounds {d : SDevice} {ord : List Nat → List Nat} (hord : ∀ l, (ord l).Perm l) {f : Nat} : ∀ {g g' : Graph} {lab : Nat → Pos} {prev : List Nat}
    {ws : List Warn}, LabAt d g lab → RootOK g → rounds ord f g prev = .ok g' ws → RootOK g' := by
  induction f with
  | zero => intro g g' lab prev ws _ _ hr; simp [rounds] at hr
  | succ f ih =>
    intro g g' lab prev ws A R hr
    simp only [rounds, M.bind_eq_ok] at hr
    obtain ⟨g1, w1, w2, h1, h, -⟩ := hr
    have A1 := (at_resolvePlaceholders A h1).1
    have R1 := root_placeholders A R h1
    split at h
    · simp only [M.pure_eq_ok] at h
      exact h.1 ▸ R1
    · split at h
      · simp at h
      · simp only [M.bind_eq_ok] at h
        obtain ⟨g2, w3, w4, h2, h, -⟩ := h
        have h0 : 0 ∉ sortedProcessable g1 := fun h => by
          obtain ⟨e, he, -, hp⟩ := R1
          exact not_done (sorted_sub.2 0 h) ⟨e, he, hp⟩
        obtain ⟨R2, lab2, A2⟩ := root_processNodes hord A1 h0 R1 h2
        exact ih A2 R2 h

theorem root_initialization {d : SDevice} {g : Graph} {ws : List Warn} (hr : initialization d = .ok g ws) : RootOK g := by
  unfold initialization at hr
  simp only [M.bind_eq_ok] at hr
  obtain ⟨G, w1, w2, h1, h2, -⟩ := hr
  have hG := grown_construct h1
  obtain ⟨k1, -⟩ := grown_ensure hG (S := fun _ => False) (fun k hk => (hG.listed.2 k).1 hk) (fun _ h => h.elim) rfl rfl
    (fun _ h => h) (fun _ _ => Iff.rfl) hG.noDe (fun a b => by simp) h2
  have hel : g.elem? 0 = G.elem? 0 := by unfold Graph.elem?; rw [node?_congr k1]
  unfold constructGraph at h1
  rw [constrPeripherals_eq] at h1
  generalize hg0 : ({ nodes := [some (.elem ⟨some (s%"Device"), .device, true, .device, none, false⟩)] } : Graph) = g0 at h1
  have hed : g0.edges = [] := by subst hg0; rfl
  have W0 : WF g0 := by
    subst hg0
    exact ⟨fun i hi => (by cases hi), List.nodup_nil, fun e he => (by cases he)⟩
  have hz : (g0.node? 0).isSome := by subst hg0; rfl
  have hx := (single_trees _ W0 (by unfold Single; rw [hed]; exact List.nodup_nil) hz h1).2.2
  have h0 : g0.node? 0 = some (.elem ⟨some (s%"Device"), .device, true, .device, none, false⟩) := by subst hg0; rfl
  exact ⟨_, by rw [hel, elem?_node?]; exact hx _ _ h0, rfl, rfl⟩

/-! ### all nodes are processed -/

structure Tidy (d : SDevice) (g : Graph) (lab : Nat → Pos) : Prop where
  at_ : LabAt d g lab
  all : ∀ i e, g.elem? i = some e → e.isProcessed = true
  edges : ∀ e ∈ g.edges, Ch g e.src e.dst
  up : ∀ c, IsE g c → c = 0 ∨ ∃ a, Ch g a c
  kin : Kin d g lab
  root : RootOK g
  tmpl : Tmpl d g lab
  route : Route g lab

theorem tidy_of {d : SDevice} {g : Graph} {lab : Nat → Pos} (hun : g.unprocessed = []) (P : Phase d g lab) (N : Neat d g lab) (R : RootOK g) :
    Tidy d g lab := by
  have hall : ∀ i e, g.elem? i = some e → e.isProcessed = true := by
    intro i e he
    cases hp : e.isProcessed with
    | true => rfl
    | false =>
      exfalso
      have := unprocessed_iff.2 ⟨e, he, hp⟩
      rw [hun] at this
      cases this
  have noW : ∀ e ∈ g.edges, (e.ty = .derive ∨ e.ty = .placeholder) → ∀ ed, g.elem? e.dst = some ed → ed.level ≠ .device → False := by
    intro e he ht ed hed hl
    have := (N.few e.dst ed hed hl).2 (hall _ _ hed)
    rw [List.eq_nil_iff_forall_not_mem] at this
    exact this _ (mem_waitE.2 ⟨he, rfl, ht⟩)
  have dev : ∀ k e, g.elem? k = some e → e.level = .device → lab k = [] := by
    intro k e he hl
    obtain ⟨p, hp⟩ := P.at_.lab.node k e he
    exact device_pos hp.decl (by rw [← hp.level]; exact hl)
  have hdev : DeclAt d [] .device := ⟨_, rfl⟩
  have noO : ∀ k b, IsP g k → Pl g k b → False := by
    intro k b hk hb
    rcases P.at_.lab.tpl _ _ hb with h | h
    · exact isE_notP h.1 hk
    obtain ⟨eb, heb⟩ := h.2
    refine noW _ hb (Or.inr rfl) eb heb fun hl => ?_
    obtain ⟨path, hk'⟩ := hk
    obtain ⟨p, h1, h2⟩ := P.at_.lab.ph k b path hk' hb
    rw [dev _ _ heb hl] at h1
    rw [declAt_unique h1 hdev] at h2
    cases h2
  refine ⟨P.at_, hall, fun e he => ?_, P.fol.up, N.kin, R, N.tmpl, N.route⟩
  obtain ⟨a, b, ty⟩ := e
  cases ty with
  | childU => exact Or.inl he
  | childR => exact Or.inr he
  | derive =>
    exfalso
    obtain ⟨-, eb, heb⟩ := P.at_.lab.tde a b he
    refine noW _ he (Or.inl rfl) eb heb fun hl => ?_
    have := P.at_.lab.der a b he
    rw [dev _ _ heb hl] at this
    exact device_none this
  | placeholder =>
    exfalso
    rcases P.at_.lab.tpl a b he with h | h
    · obtain ⟨c, hc⟩ := N.held.outE b h.2
      exact noO _ _ h.2 hc
    · exact noO _ _ h.1 he

/-- What can be followed, and is quiet, ends with a tidy graph. -/
theorem tidy_rounds {d : SDevice} {ord : List Nat → List Nat} (hord : ∀ l, (ord l).Perm l) (hf : Followable d) (hq : Quiet d) {fuel : Nat}
    {g0 g : Graph} {ws w : List Warn} (h0 : initialization d = .ok g0 w) (hr : rounds ord fuel g0 [] = .ok g ws) : g.unprocessed = [] ∧ ∃ lab, Tidy d g lab := by
  obtain ⟨lab0, P, N, C⟩ := neat_initial hf.acyclic h0
  have R := root_rounds hord P.at_ (root_initialization h0) hr
  obtain ⟨hun, lab, P', N'⟩ := neat_rounds hord hf hq P N C (by simp) hr
  exact ⟨hun, lab, tidy_of hun P' N' R⟩

end Svd
