import Verif.Lemmas.LabAdopt
import Verif.Lemmas.Heads
/-
Labels: an element is finished, alone or with the elements a dim element stands for.
-/
namespace Svd
open Graph Spec

/-- The node of one of the elements a dim element stands for. -/
def instOf (e : ElemNode) (x : Processed) : ElemNode := ⟨some x.name, e.level, true, e.parsed, some x, false⟩

/-- The element `i` is finished; `I j a x` says that the new node `j` is made as child of `a` with head `x`. -/
structure Finish (g g' : Graph) (i : Nat) (e : ElemNode) (x0 : Processed) (t : Bool) (I : Nat → Nat → Processed → Prop) : Prop where
  wf : WF g'
  fresh : ∀ j a x, I j a x → g.node? j = none
  par : ∀ j a x, I j a x → Ch g a i
  self : g'.elem? i = some { e with isProcessed := true, processed := some x0, isDimTemplate := t }
  inst : ∀ j a x, I j a x → g'.elem? j = some (instOf e x)
  old : ∀ k, k ≠ i → (∀ a x, ¬ I k a x) → g'.node? k = g.node? k
  ch : ∀ a b, Ch g' a b ↔ Ch g a b ∨ (∃ x, I b a x) ∨ ((∃ p x, I a p x) ∧ Ch g i b)
  de : ∀ a b, De g' a b → De g a b
  pl : ∀ a b, Pl g' a b → Pl g a b
  deK : ∀ a b, De g a b → ¬ (a = i ∧ Ch g i b) → De g' a b
  plK : ∀ a b, Pl g a b → ¬ (a = i ∧ Ch g i b) → Pl g' a b
  resK : ∀ a b, (⟨a, b, .childR⟩ : Edge) ∈ g.edges → (⟨a, b, .childR⟩ : Edge) ∈ g'.edges
  resI : ∀ b, IsE g b → Ch g i b → (⟨i, b, .childR⟩ : Edge) ∈ g'.edges
  resJ : ∀ j a x, I j a x → ∀ b, Ch g i b → (⟨j, b, .childR⟩ : Edge) ∈ g'.edges
  resN : ∀ j a x, I j a x → (⟨a, j, .childR⟩ : Edge) ∈ g'.edges
  phs : g'.placeholders = g.placeholders
  fn : ∀ j a a' x x', I j a x → I j a' x' → a = a'

open Classical in
/-- The labels: the new nodes belong to the same declaration. -/
noncomputable def instLab (I : Nat → Nat → Processed → Prop) (lab : Nat → Pos) (i k : Nat) : Pos :=
  if ∃ a x, I k a x then lab i else lab k

set_option maxHeartbeats 1000000 in
theorem lab_finish {d : SDevice} {g g' : Graph} {lab : Nat → Pos} {i : Nat} {e : ElemNode} {x0 : Processed} {t : Bool}
    {I : Nat → Nat → Processed → Prop} {l : List Pos} {hs : List Processed} (hw : WF g) (h : LabX d g lab (· = i))
    (he : g.elem? i = some e) (hp : e.isProcessed = false) (hne : e.level ≠ .enumcont) (hloop : ¬ Ch g i i)
    (F : Finish g g' i e x0 t I) (hch : Chain d (lab i) l) (hcont : Cont d g lab i l) (hm0 : MadeAlong d l x0)
    (hmI : ∀ j a x, I j a x → MadeAlong d l x) (hst : Stands d (lab i) l hs) (hi0 : t = false → x0 ∈ hs) (hiI : ∀ j a x, I j a x → x ∈ hs)
    (hheads : ∀ k, Ch g k i → ∀ x ∈ hs, (t = false ∧ x = x0) ∨ ∃ j, I j k x) :
    ∃ lab', Lab d g' lab' ∧ (∀ k, (g.node? k).isSome → lab' k = lab k) ∧ ∀ j a x, I j a x → lab' j = lab i := by
  refine ⟨instLab I lab i, ?_⟩
  have ln : ∀ {j a x}, I j a x → instLab I lab i j = lab i := fun hj => by
    unfold instLab; rw [if_pos ⟨_, _, hj⟩]
  have ni : ∀ {k j a x}, (g.node? k).isSome → I j a x → k ≠ j := by
    rintro k j a x hk hj rfl
    rw [F.fresh _ _ _ hj] at hk
    cases hk
  have lo : ∀ {k}, (g.node? k).isSome → instLab I lab i k = lab k := by
    intro k hk
    unfold instLab
    rw [if_neg]
    rintro ⟨a, x, hj⟩
    exact ni hk hj rfl
  generalize instLab I lab i = lab' at ln lo
  refine ⟨?_, fun k hk => lo hk, fun j a x hj => ln hj⟩
  have hil : (g.node? i).isSome := IsE.some ⟨e, he⟩
  have node_old : ∀ {k}, (g.node? k).isSome → k ≠ i → g'.node? k = g.node? k := fun hk hki =>
    F.old _ hki fun a x hj => ni hk hj rfl
  have elem_old : ∀ {k}, (g.node? k).isSome → k ≠ i → g'.elem? k = g.elem? k := by
    intro k hk hki
    unfold Graph.elem?
    rw [node_old hk hki]
  have E_old : ∀ {k}, IsE g k → IsE g' k := by
    rintro k ⟨x, hx⟩
    by_cases hki : k = i
    · subst hki; exact ⟨_, F.self⟩
    · exact ⟨x, by rw [elem_old (IsE.some ⟨x, hx⟩) hki]; exact hx⟩
  have nodeCase : ∀ {k x}, g'.elem? k = some x → (k = i) ∨ (∃ a y, I k a y ∧ x = instOf e y) ∨ (k ≠ i ∧ g.elem? k = some x) := by
    intro k x hk
    by_cases hki : k = i
    · exact Or.inl hki
    · by_cases hI : ∃ a y, I k a y
      · obtain ⟨a, y, hI⟩ := hI
        rw [F.inst _ _ _ hI] at hk
        injection hk with hk
        exact Or.inr (Or.inl ⟨a, y, hI, hk.symm⟩)
      · have h1 := F.old k hki fun a x hj => hI ⟨a, x, hj⟩
        unfold Graph.elem? at hk ⊢
        rw [h1] at hk
        exact Or.inr (Or.inr ⟨hki, hk⟩)
  have ph_iff : ∀ {k path}, g'.node? k = some (.ph path) ↔ g.node? k = some (.ph path) := by
    intro k path
    constructor
    · intro hk
      by_cases hki : k = i
      · subst hki
        rw [elem?_node?.1 F.self] at hk
        cases hk
      · by_cases hI : ∃ a y, I k a y
        · obtain ⟨a, y, hI⟩ := hI
          rw [elem?_node?.1 (F.inst _ _ _ hI)] at hk
          cases hk
        · rw [F.old k hki fun a x hj => hI ⟨a, x, hj⟩] at hk
          exact hk
    · intro hk
      rw [node_old (by rw [hk]; rfl) ?_]
      · exact hk
      · rintro rfl
        rw [elem?_node?.1 he] at hk
        cases hk
  have P_iff : ∀ {k}, IsP g' k ↔ IsP g k := by
    intro k; unfold IsP; simp only [ph_iff]
  -- the presence of children
  have pres : ∀ {k k' y}, (∀ c, Ch g k c → Ch g' k' c) → (∀ x ∈ hs, Ch g k i → (t = false ∧ x = x0) ∨ ∃ j, I j k' x) →
      PresentIn d g lab k y → PresentIn d g' lab' k' y := by
    rintro k k' y hc hh ⟨c, ec, h1, h2, h3, h4⟩
    by_cases hci : c = i
    · subst hci
      refine ⟨c, _, hc _ h1, F.self, by rw [lo hil]; exact h3, Or.inr (Or.inr ⟨l, hs, by rw [← h3]; exact hst, fun x hx => ?_⟩)⟩
      rcases hh x hx h1 with ⟨h5, rfl⟩ | ⟨j, h5⟩
      · exact ⟨c, hc _ h1, _, F.self, by rw [lo hil]; exact h3, rfl, h5, rfl⟩
      · exact ⟨j, (F.ch _ _).2 (Or.inr (Or.inl ⟨x, h5⟩)), _, F.inst _ _ _ h5, by rw [ln h5]; exact h3, rfl, rfl, rfl⟩
    · have hcl := IsE.some ⟨ec, h2⟩
      refine ⟨c, ec, hc _ h1, by rw [elem_old hcl hci]; exact h2, by rw [lo hcl]; exact h3, ?_⟩
      rcases h4 with h4 | h4 | ⟨l', hs', h5, h6⟩
      · exact Or.inl h4
      · exact Or.inr (Or.inl h4)
      · refine Or.inr (Or.inr ⟨l', hs', h5, fun x hx => ?_⟩)
        obtain ⟨j, h7, ej, h8, h9, h10, h11⟩ := h6 x hx
        have hji : j ≠ i := by
          rintro rfl
          rw [he] at h8
          injection h8 with h8
          subst h8
          rw [hp] at h10
          cases h10
        have hjl := IsE.some ⟨ej, h8⟩
        exact ⟨j, hc _ h7, ej, by rw [elem_old hjl hji]; exact h8, by rw [lo hjl]; exact h9, h10, h11⟩
  have nodeLab : ∀ x, MadeAlong d l x → ∀ n t' q, NodeLab d (lab i) e q →
      NodeLab d (lab i) ⟨n, e.level, true, e.parsed, some x, t'⟩ q := by
    intro x _ n t' q hq
    refine ⟨hq.decl, hq.level, hq.parsed, ?_, fun h1 => (by cases h1)⟩
    rintro c rfl
    exact absurd hq.level hne
  obtain ⟨q, hq⟩ := h.node i e he
  constructor
  · obtain ⟨h0, e0, h1, h2⟩ := h.root
    have h3 := IsE.some ⟨e0, h1⟩
    rw [lo h3]
    refine ⟨h0, ?_⟩
    by_cases h4 : (0 : Nat) = i
    · rw [h4, F.self]
      rw [h4, he] at h1
      injection h1 with h1
      exact ⟨_, rfl, by rw [← h2, ← h1]⟩
    · rw [elem_old h3 h4]
      exact ⟨e0, h1, h2⟩
  · intro k x hk
    rcases nodeCase hk with rfl | ⟨a, y, hI, rfl⟩ | ⟨h1, h2⟩
    · rw [F.self] at hk
      injection hk with hk
      subst hk
      rw [lo hil]
      exact ⟨q, nodeLab _ hm0 _ _ _ hq⟩
    · rw [ln hI]
      exact ⟨q, nodeLab _ (hmI _ _ _ hI) _ _ _ hq⟩
    · rw [lo (IsE.some ⟨x, h2⟩)]
      exact h.node k x h2
  · intro a b hc
    rcases (F.ch a b).1 hc with h1 | ⟨x, h1⟩ | ⟨⟨p, x, h1⟩, h2⟩
    · exact (h.tch _ _ h1).imp E_old E_old
    · exact ⟨E_old (h.tch _ _ (F.par _ _ _ h1)).1, ⟨_, F.inst _ _ _ h1⟩⟩
    · exact ⟨⟨_, F.inst _ _ _ h1⟩, E_old (h.tch _ _ h2).2⟩
  · intro a b hc
    exact (h.tde _ _ (F.de _ _ hc)).imp E_old E_old
  · intro a b hc
    rw [P_iff, P_iff]
    exact (h.tpl _ _ (F.pl _ _ hc)).imp (fun h1 => h1.imp E_old id) fun h1 => h1.imp id E_old
  · intro k x b hk hx
    rcases nodeCase hk with rfl | ⟨a, y, hI, rfl⟩ | ⟨h1, h2⟩
    · rw [F.self] at hk
      injection hk with hk
      subst hk
      exact absurd hx hne
    · exact absurd hx hne
    · refine ⟨fun hc => ?_, fun hc => (h.leaf k x b h2 hx).2 (F.pl _ _ hc)⟩
      rcases (F.ch k b).1 hc with h3 | ⟨y, h3⟩ | ⟨⟨p, y, h3⟩, -⟩
      · exact (h.leaf k x b h2 hx).1 h3
      · exact (h.leaf k x i h2 hx).1 (F.par _ _ _ h3)
      · exact ni (IsE.some ⟨x, h2⟩) h3 rfl
  · intro a b hc
    have hc := F.de _ _ hc
    rw [lo (de_some hw hc).1, lo (de_some hw hc).2]
    exact h.der _ _ hc
  · intro a b path ha hc
    have hc := F.pl _ _ hc
    rw [lo (pl_some hw hc).2]
    exact h.ph _ _ _ (ph_iff.1 ha) hc
  · intro a k b hk h1 h2
    have h1 := F.pl _ _ h1
    have h2 := F.pl _ _ h2
    rw [lo (pl_some hw h1).1, lo (pl_some hw h2).2]
    exact h.phIn _ _ _ (P_iff.1 hk) h1 h2
  · intro k x _ hk hx
    rcases nodeCase hk with rfl | ⟨a, y, hI, rfl⟩ | ⟨h1, h2⟩
    · rw [F.self] at hk
      injection hk with hk
      subst hk
      rw [lo hil]
      refine ⟨l, ⟨fun h1 => (by cases h1), fun _ => hch, fun x hx => ?_, fun x hx ht => ?_⟩, ?_, ?_⟩
      · injection hx with hx
        subst hx
        exact hm0
      · injection hx with hx
        subst hx
        exact ⟨hs, hst, hi0 ht⟩
      · intro c hc
        rw [lo hil]
        rcases (F.ch _ _).1 hc with h1 | ⟨y, h1⟩ | ⟨⟨p, y, h1⟩, -⟩
        · rw [lo (ch_some hw h1).2]; exact hcont.sub c h1
        · exact absurd (F.par _ _ _ h1) hloop
        · exact absurd rfl (ni hil h1)
      · intro y hy
        exact (hcont.all y hy).imp id (pres (fun c hc => (F.ch _ _).2 (Or.inl hc)) fun x _ h1 => absurd h1 hloop)
    · rw [ln hI]
      refine ⟨l, ⟨fun h1 => (by cases h1), fun _ => hch, fun x hx => ?_, fun x hx _ => ?_⟩, ?_, ?_⟩
      · injection hx with hx
        subst hx
        exact hmI _ _ _ hI
      · injection hx with hx
        subst hx
        exact ⟨hs, hst, hiI _ _ _ hI⟩
      · intro c hc
        rw [ln hI]
        rcases (F.ch _ _).1 hc with h1 | ⟨y', h1⟩ | ⟨-, h1⟩
        · exact absurd rfl (ni (ch_some hw h1).1 hI)
        · exact absurd rfl (ni (ch_some hw (F.par _ _ _ h1)).1 hI)
        · rw [lo (ch_some hw h1).2]; exact hcont.sub c h1
      · intro y' hy
        exact (hcont.all y' hy).imp id
          (pres (fun c hc => (F.ch _ _).2 (Or.inr (Or.inr ⟨⟨a, y, hI⟩, hc⟩))) fun x _ h1 => absurd h1 hloop)
    · have hkl := IsE.some ⟨x, h2⟩
      obtain ⟨l', h3, h4⟩ := h.cont k x h1 h2 hx
      rw [lo hkl]
      refine ⟨l', h3, ?_, ?_⟩
      · intro c hc
        rw [lo hkl]
        rcases (F.ch _ _).1 hc with h5 | ⟨y', h5⟩ | ⟨⟨p, y', h5⟩, -⟩
        · rw [lo (ch_some hw h5).2]; exact h4.sub c h5
        · rw [ln h5]; exact h4.sub i (F.par _ _ _ h5)
        · exact absurd rfl (ni hkl h5)
      · intro y hy
        exact (h4.all y hy).imp id (pres (fun c hc => (F.ch _ _).2 (Or.inl hc)) fun x hx h5 => hheads k h5 x hx)

/-! ### the steps of the resolver -/

theorem retype_keep {a b : Nat} {ty : EdgeT} {es : List Edge} {e : Edge} (h : e ∈ es) (hn : ¬ (e.src = a ∧ e.dst = b)) :
    e ∈ retypeEdge a b ty es := by
  induction es with
  | nil => cases h
  | cons x xs ih =>
    simp only [retypeEdge]
    rcases List.mem_cons.1 h with rfl | h
    · rw [if_neg (by simpa using fun h1 h2 => hn ⟨h1, h2⟩)]
      simp
    · split
      · exact List.mem_cons_of_mem _ h
      · exact List.mem_cons_of_mem _ (ih h)

theorem retype_new {a b : Nat} {ty : EdgeT} {es : List Edge} (h : ∃ e ∈ es, e.src = a ∧ e.dst = b) :
    (⟨a, b, ty⟩ : Edge) ∈ retypeEdge a b ty es := by
  induction es with
  | nil => obtain ⟨e, he, -⟩ := h; cases he
  | cons x xs ih =>
    simp only [retypeEdge]
    split
    · rename_i hx
      simp only [Bool.and_eq_true, beq_iff_eq] at hx
      obtain ⟨x1, x2, x3⟩ := x
      obtain ⟨rfl, rfl⟩ := hx
      simp
    · rename_i hx
      obtain ⟨e, he, h1, h2⟩ := h
      rcases List.mem_cons.1 he with rfl | he
      · simp [h1, h2] at hx
      · exact List.mem_cons_of_mem _ (ih ⟨e, he, h1, h2⟩)

theorem retype_mem2 {a b : Nat} {ty : EdgeT} {es : List Edge} {e : Edge} (h : e ∈ retypeEdge a b ty es) :
    e ∈ es ∨ ((∃ e' ∈ es, e'.src = a ∧ e'.dst = b) ∧ e = ⟨a, b, ty⟩) := by
  induction es with
  | nil => cases h
  | cons x xs ih =>
    simp only [retypeEdge] at h
    split at h
    · rename_i hx
      simp only [Bool.and_eq_true, beq_iff_eq] at hx
      rcases List.mem_cons.1 h with rfl | h
      · refine Or.inr ⟨⟨x, by simp, hx⟩, ?_⟩
        rw [hx.1, hx.2]
      · exact Or.inl (List.mem_cons_of_mem _ h)
    · rcases List.mem_cons.1 h with rfl | h
      · exact Or.inl (by simp)
      · rcases ih h with h1 | ⟨⟨e', h1, h2⟩, h3⟩
        · exact Or.inl (List.mem_cons_of_mem _ h1)
        · exact Or.inr ⟨⟨e', List.mem_cons_of_mem _ h1, h2⟩, h3⟩

theorem resolveChildEdges_views {i : Nat} {cs : List Nat} : ∀ {g : Graph}, (∀ c ∈ cs, Ch g i c) →
    (∀ a b, Ch (resolveChildEdges i g cs) a b ↔ Ch g a b) ∧ (∀ a b, De (resolveChildEdges i g cs) a b → De g a b) ∧
      ∀ a b, Pl (resolveChildEdges i g cs) a b → Pl g a b := by
  induction cs with
  | nil => intro g _; exact ⟨fun _ _ => Iff.rfl, fun _ _ h => h, fun _ _ h => h⟩
  | cons c cs ih =>
    intro g hc
    simp only [resolveChildEdges]
    have hcc := hc c (by simp)
    have v : (∀ a b, Ch (g.updateEdge i c .childR) a b ↔ Ch g a b) ∧ (∀ a b, De (g.updateEdge i c .childR) a b → De g a b) ∧
        ∀ a b, Pl (g.updateEdge i c .childR) a b → Pl g a b := by
      refine ⟨fun a b => ⟨fun h => ?_, fun h => ?_⟩, fun a b h => ?_, fun a b h => ?_⟩
      · rcases h with h | h
        · rcases retype_mem2 h with h1 | ⟨-, h1⟩
          · exact Or.inl h1
          · cases h1
        · rcases retype_mem2 h with h1 | ⟨-, h1⟩
          · exact Or.inr h1
          · injection h1 with h1 h2
            subst h1 h2
            exact hcc
      · by_cases hab : a = i ∧ b = c
        · obtain ⟨rfl, rfl⟩ := hab
          refine Or.inr (retype_new ?_)
          rcases h with h | h
          · exact ⟨_, h, rfl, rfl⟩
          · exact ⟨_, h, rfl, rfl⟩
        · exact h.imp (fun h => retype_keep h hab) fun h => retype_keep h hab
      · rcases retype_mem2 h with h1 | ⟨-, h1⟩
        · exact h1
        · cases h1
      · rcases retype_mem2 h with h1 | ⟨-, h1⟩
        · exact h1
        · cases h1
    obtain ⟨h1, h2, h3⟩ := ih (g := g.updateEdge i c .childR) fun c' hc' => (v.1 _ _).2 (hc c' (List.mem_cons_of_mem _ hc'))
    exact ⟨fun a b => (h1 a b).trans (v.1 a b), fun a b h => v.2.1 a b (h2 a b h), fun a b h => v.2.2 a b (h3 a b h)⟩

theorem resolveChildEdges_keep {i : Nat} {ed : Edge} {cs : List Nat} : ∀ {g : Graph}, ed ∈ g.edges → ¬ (ed.src = i ∧ ed.dst ∈ cs) →
    ed ∈ (resolveChildEdges i g cs).edges := by
  induction cs with
  | nil => intro g h _; exact h
  | cons c cs ih =>
    intro g h hn
    refine ih ?_ fun h1 => hn ⟨h1.1, List.mem_cons_of_mem _ h1.2⟩
    exact retype_keep h fun h1 => hn ⟨h1.1, h1.2 ▸ List.mem_cons_self⟩

theorem resolveChildEdges_resolved {i a b : Nat} {cs : List Nat} : ∀ {g : Graph}, (⟨a, b, .childR⟩ : Edge) ∈ g.edges →
    (⟨a, b, .childR⟩ : Edge) ∈ (resolveChildEdges i g cs).edges := by
  induction cs with
  | nil => intro g h; exact h
  | cons c cs ih =>
    intro g h
    refine ih ?_
    by_cases h1 : a = i ∧ b = c
    · obtain ⟨rfl, rfl⟩ := h1
      exact retype_new ⟨_, h, rfl, rfl⟩
    · exact retype_keep h h1

theorem resolveChildEdges_new {i b : Nat} {cs : List Nat} : ∀ {g : Graph}, (∀ c ∈ cs, Ch g i c) → b ∈ cs →
    (⟨i, b, .childR⟩ : Edge) ∈ (resolveChildEdges i g cs).edges := by
  induction cs with
  | nil => intro g _ hb; cases hb
  | cons c cs ih =>
    intro g h hb
    have hc : ∀ a b, Ch g a b → Ch (g.updateEdge i c .childR) a b := by
      intro a b hab
      have := (resolveChildEdges_views (i := i) (cs := [c]) (g := g) (fun c' hc' => h c' (by
        rw [List.mem_singleton] at hc'; rw [hc']; exact List.mem_cons_self))).1 a b
      exact this.2 hab
    rcases List.mem_cons.1 hb with rfl | hb
    · obtain ⟨e, h1, h2, h3, -⟩ := ch_iff.1 (h b List.mem_cons_self)
      have hn : (⟨i, b, .childR⟩ : Edge) ∈ (g.updateEdge i b .childR).edges := retype_new ⟨e, h1, h2, h3⟩
      exact resolveChildEdges_resolved (cs := cs) hn
    · exact ih (fun c' hc' => hc _ _ (h c' (List.mem_cons_of_mem _ hc'))) hb

theorem resolveChildEdges_phs {i : Nat} {cs : List Nat} : ∀ {g : Graph}, (resolveChildEdges i g cs).placeholders = g.placeholders := by
  induction cs with
  | nil => intro g; rfl
  | cons c cs ih => intro g; exact ih

/-- The element alone. -/
theorem finish_alone {g : Graph} (hw : WF g) {i : Nat} {e : ElemNode}
    (he : g.elem? i = some e) {x0 : Processed} {t : Bool} {g2 g' : Graph}
    (hg2 : g2 = g.setElem i { e with isProcessed := true, processed := some x0, isDimTemplate := t })
    (hg : g' = resolveChildEdges i g2 (g2.elementChildren i)) : Finish g g' i e x0 t (fun _ _ _ => False) := by
  have hil : (g.node? i).isSome := IsE.some ⟨e, he⟩
  have hs := setElem_wf (e := { e with isProcessed := true, processed := some x0, isDimTemplate := t }) hw hil
  rw [← hg2] at hs
  have hed : g2.edges = g.edges := by rw [hg2]; rfl
  have hv := edges_eq_view hed
  have hc2 : ∀ c ∈ g2.elementChildren i, Ch g2 i c := by
    intro c hc
    obtain ⟨ed, h1, h2, h3, h4, -⟩ := elementChildren_edge hc
    exact ch_iff.2 ⟨ed, h1, h2, h3, h4⟩
  have hr := resolveChildEdges_views hc2
  rw [← hg] at hr
  have hn : ∀ k, g'.node? k = g2.node? k := by
    intro k; rw [hg]; exact node?_congr resolveChildEdges_nodes.1 k
  constructor
  · refine hs.1.of_eq (by rw [hg]; exact resolveChildEdges_nodes.1) (by rw [hg]; exact resolveChildEdges_nodes.2.2) ?_
    intro ed h1
    rw [hg] at h1
    obtain ⟨e', h2, h3, h4, -⟩ := resolveChildEdges_mem h1
    have := hs.1.edges_valid e' h2
    rw [h3, h4] at this
    exact Or.inr this
  · intro j a x hf; exact hf.elim
  · intro j a x hf; exact hf.elim
  · rw [elem?_node?, hn, hs.2, if_pos rfl]
  · intro j a x hf; exact hf.elim
  · intro k hk _
    rw [hn, hs.2, if_neg hk]
  · intro a b
    rw [hr.1, hv.1]
    simp
  · intro a b h1; exact (hv.2.1 a b).1 (hr.2.1 a b h1)
  · intro a b h1; exact (hv.2.2 a b).1 (hr.2.2 a b h1)
  · intro a b h1 h2
    have : De g2 a b := (hv.2.1 a b).2 h1
    rw [hg]
    exact resolveChildEdges_keep this fun h3 => h2 ⟨h3.1, (hv.1 _ _).1 (hc2 _ h3.2)⟩
  · intro a b h1 h2
    have : Pl g2 a b := (hv.2.2 a b).2 h1
    rw [hg]
    exact resolveChildEdges_keep this fun h3 => h2 ⟨h3.1, (hv.1 _ _).1 (hc2 _ h3.2)⟩
  · intro a b h1
    rw [hg]
    exact resolveChildEdges_resolved (by rw [hed]; exact h1)
  · intro b hb h1
    rw [hg]
    refine resolveChildEdges_new hc2 ?_
    obtain ⟨ed, h2, h3, h4, h5⟩ := ch_iff.1 h1
    unfold Graph.elementChildren
    simp only [List.mem_map, List.mem_filter, Graph.outEdges]
    refine ⟨ed, ⟨⟨by rw [hed]; exact h2, by simp [h3]⟩, ?_⟩, h4⟩
    have hb2 : IsE g2 b := by
      obtain ⟨x, hx⟩ := hb
      unfold IsE
      simp only [elem?_node?, hs.2]
      by_cases hbi : b = i
      · rw [if_pos hbi]; exact ⟨_, rfl⟩
      · rw [if_neg hbi]; exact ⟨x, elem?_node?.1 hx⟩
    rw [h4, isE_iff.2 hb2, h5]; rfl
  · intro j a x hf; exact hf.elim
  · intro j a x hf; exact hf.elim
  · rw [hg, resolveChildEdges_phs, hg2]; rfl
  · intro j a a' x x' hf; exact hf.elim

theorem addInstances_effect {e : ElemNode} {xs : List (Nat × Processed)} : ∀ {g g' : Graph} {js : List Nat} {ws : List Warn}, WF g →
    addInstances e.level e.parsed g xs = .ok (g', js) ws → (∀ x ∈ xs, (g.node? x.1).isSome) →
    WF g' ∧ Ext g g' ∧ (∀ j ∈ js, g.node? j = none) ∧ (∀ j a x, (j, (a, x)) ∈ js.zip xs → g'.elem? j = some (instOf e x)) ∧
      js.length = xs.length ∧ (∀ k, k ∉ js → g'.node? k = g.node? k) ∧
      ∀ ed : Edge, ed ∈ g'.edges ↔ ed ∈ g.edges ∨ ∃ j a x, (j, (a, x)) ∈ js.zip xs ∧ ed = ⟨a, j, .childR⟩ := by
  induction xs with
  | nil =>
    intro g g' js ws hw hr _
    simp only [addInstances, M.pure_eq_ok, Prod.mk.injEq] at hr
    obtain ⟨⟨rfl, rfl⟩, -⟩ := hr
    exact ⟨hw, Ext.refl _, by simp, by simp, rfl, fun _ _ => rfl, by simp⟩
  | cons x xs ih =>
    intro g g' js ws hw hr hx
    obtain ⟨par, y⟩ := x
    simp only [addInstances, M.bind_eq_ok, M.pure_eq_ok, Prod.mk.injEq] at hr
    obtain ⟨⟨g1, j⟩, w1, w2, h1, ⟨⟨g2, js'⟩, w3, w4, h2, ⟨⟨rfl, rfl⟩, -⟩, -⟩, -⟩ := hr
    obtain ⟨a1, b1, c1, d1⟩ := addElementChild_wf hw h1 (hx (par, y) (by simp))
    obtain ⟨hj, hg1, -, -⟩ := addElementChild_ok h1
    have hs := addNode_spec hw (.elem (instOf e y))
    have hnode : ∀ k, k ≠ j → g1.node? k = g.node? k := by
      intro k hk
      rw [hg1]
      show (g.addNode (.elem (instOf e y))).1.node? k = _
      have : k ≠ (g.addNode (.elem (instOf e y))).2 := by rw [hj] at hk; exact hk
      rw [hs.2.1, if_neg this]
    have hedge : g1.edges = ⟨par, j, .childR⟩ :: g.edges := by
      rw [hg1]
      show ⟨par, j, .childR⟩ :: (g.addNode (.elem (instOf e y))).1.edges = _
      rw [hs.2.2.1]
    obtain ⟨a2, b2, c2, d2, l2, o2, e2⟩ := ih a1 h2 fun x hx' => b1.isSome (hx x (List.mem_cons_of_mem _ hx'))
    refine ⟨a2, b1.trans b2, ?_, ?_, by simp [l2], ?_, ?_⟩
    · intro k hk
      rcases List.mem_cons.1 hk with rfl | hk
      · exact d1
      · cases hg : g.node? k with
        | none => rfl
        | some n =>
          have := c2 k hk
          rw [b1 _ _ hg] at this
          cases this
    · intro k a z hz
      rw [List.zip_cons_cons, List.mem_cons] at hz
      rcases hz with hz | hz
      · injection hz with hz1 hz2
        injection hz2 with hz2 hz3
        subst hz1 hz2 hz3
        exact b2.elem (elem?_node?.2 c1)
      · exact d2 k a z hz
    · intro k hk
      simp only [List.mem_cons, not_or] at hk
      rw [o2 k hk.2, hnode k hk.1]
    · intro ed
      rw [e2, hedge]
      simp only [List.mem_cons, List.zip_cons_cons]
      constructor
      · rintro ((h3 | h3) | ⟨k, a, z, h3, h4⟩)
        · exact Or.inr ⟨j, par, y, Or.inl rfl, h3⟩
        · exact Or.inl h3
        · exact Or.inr ⟨k, a, z, Or.inr h3, h4⟩
      · rintro (h3 | ⟨k, a, z, h3 | h3, h4⟩)
        · exact Or.inl (Or.inr h3)
        · injection h3 with h5 h6
          injection h6 with h6 h7
          subst h5 h6 h7
          exact Or.inl (Or.inl h4)
        · exact Or.inr ⟨k, a, z, h3, h4⟩

theorem linkInstances_effect {i : Nat} {C : Nat → Prop} {js : List Nat} : ∀ {g g' : Graph} {ws : List Warn},
    linkInstances i g js = .ok g' ws → i ∉ js → (∀ c, c ∈ g.elementChildren i ↔ C c) →
    g'.nodes = g.nodes ∧ g'.free = g.free ∧ ∀ ed : Edge, ed ∈ g'.edges ↔ ed ∈ g.edges ∨ ∃ j c, j ∈ js ∧ C c ∧ ed = ⟨j, c, .childR⟩ := by
  induction js with
  | nil =>
    intro g g' ws hr _ _
    simp only [linkInstances, M.pure_eq_ok] at hr
    obtain ⟨rfl, -⟩ := hr
    exact ⟨rfl, rfl, by simp⟩
  | cons j js ih =>
    intro g g' ws hr hi hC
    simp only [linkInstances, M.bind_eq_ok] at hr
    obtain ⟨g1, w1, w2, h1, h2, -⟩ := hr
    obtain ⟨n1, -, f1, e1, -⟩ := linkChildren_nodes h1
    simp only [List.mem_cons, not_or] at hi
    have hC1 : ∀ c, c ∈ g1.elementChildren i ↔ C c := by
      intro c
      rw [← hC]
      have : g1.outEdges i = g.outEdges i := by
        unfold Graph.outEdges
        rw [e1, List.filter_append]
        have : ((g.elementChildren i).map fun c => (⟨j, c, .childR⟩ : Edge)).reverse.filter (fun e => e.src == i) = [] := by
          rw [List.filter_eq_nil_iff]
          intro a ha
          simp only [List.mem_reverse, List.mem_map] at ha
          obtain ⟨c, -, rfl⟩ := ha
          simpa using fun h => hi.1 h.symm
        rw [this]
        rfl
      unfold Graph.elementChildren Graph.isElem
      rw [this]
      have hel : ∀ k, g1.elem? k = g.elem? k := fun k => elem?_congr n1 k
      simp only [hel]
    obtain ⟨n2, f2, e2⟩ := ih h2 hi.2 hC1
    refine ⟨n2.trans n1, f2.trans f1, ?_⟩
    intro ed
    rw [e2, e1]
    simp only [List.mem_append, List.mem_reverse, List.mem_map, List.mem_cons]
    constructor
    · rintro ((⟨c, h3, rfl⟩ | h3) | ⟨k, c, h3, h4, h5⟩)
      · exact Or.inr ⟨j, c, Or.inl rfl, (hC c).1 h3, rfl⟩
      · exact Or.inl h3
      · exact Or.inr ⟨k, c, Or.inr h3, h4, h5⟩
    · rintro (h3 | ⟨k, c, rfl | h3, h4, h5⟩)
      · exact Or.inl (Or.inr h3)
      · exact Or.inl (Or.inl ⟨c, (hC c).2 h4, h5.symm⟩)
      · exact Or.inr ⟨k, c, h3, h4, h5⟩

theorem mem_children_iff {g : Graph} (ht : ∀ a b, Ch g a b → IsE g a ∧ IsE g b) {i c : Nat} : c ∈ g.elementChildren i ↔ Ch g i c := by
  constructor
  · intro hc
    obtain ⟨e, h1, h2, h3, h4, -⟩ := elementChildren_edge hc
    exact ch_iff.2 ⟨e, h1, h2, h3, h4⟩
  · intro hc
    obtain ⟨-, hb⟩ := ht i c hc
    obtain ⟨e, h1, h2, h3, h4⟩ := ch_iff.1 hc
    unfold Graph.elementChildren
    simp only [List.mem_map, List.mem_filter, Graph.outEdges]
    refine ⟨e, ⟨⟨h1, by simp [h2]⟩, ?_⟩, h3⟩
    rw [h3, isE_iff.2 hb, h4]; rfl

theorem mem_parents_iff {g : Graph} (ht : ∀ a b, Ch g a b → IsE g a ∧ IsE g b) {i p : Nat} : p ∈ g.elementParents i ↔ Ch g p i := by
  constructor
  · intro hc
    obtain ⟨e, h1, h2, h3, h4, -⟩ := elementParents_edge hc
    exact ch_iff.2 ⟨e, h1, h2, h3, h4⟩
  · intro hc
    obtain ⟨ha, -⟩ := ht p i hc
    obtain ⟨e, h1, h2, h3, h4⟩ := ch_iff.1 hc
    unfold Graph.elementParents
    simp only [List.mem_map, List.mem_filter, Graph.inEdges]
    refine ⟨e, ⟨⟨h1, by simp [h3]⟩, ?_⟩, h2⟩
    rw [h2, isE_iff.2 ha, h4]; rfl

theorem addInstances_phs {lvl : Level} {p : Parsed} {xs : List (Nat × Processed)} : ∀ {g g' : Graph} {js : List Nat} {ws : List Warn},
    addInstances lvl p g xs = .ok (g', js) ws → g'.placeholders = g.placeholders := by
  induction xs with
  | nil =>
    intro g g' js ws hr
    simp only [addInstances, M.pure_eq_ok, Prod.mk.injEq] at hr
    obtain ⟨⟨rfl, -⟩, -⟩ := hr
    rfl
  | cons x xs ih =>
    intro g g' js ws hr
    obtain ⟨par, y⟩ := x
    simp only [addInstances, M.bind_eq_ok, M.pure_eq_ok, Prod.mk.injEq] at hr
    obtain ⟨⟨g1, j⟩, w1, w2, h1, ⟨⟨g2, js'⟩, w3, w4, h2, ⟨⟨rfl, -⟩, -⟩, -⟩, -⟩ := hr
    rw [ih h2]
    obtain ⟨-, hg1, -, -⟩ := addElementChild_ok h1
    rw [hg1]
    show (g.addNode _).1.placeholders = _
    unfold Graph.addNode
    split <;> rfl

theorem linkChildren_phs {j : Nat} {cs : List Nat} : ∀ {g g' : Graph} {ws : List Warn}, linkChildren j g cs = .ok g' ws → g'.placeholders = g.placeholders := by
  induction cs with
  | nil =>
    intro g g' ws hr
    simp only [linkChildren, M.pure_eq_ok] at hr
    obtain ⟨rfl, -⟩ := hr
    rfl
  | cons c cs ih =>
    intro g g' ws hr
    simp only [linkChildren, M.bind_eq_ok] at hr
    obtain ⟨g1, w1, w2, h1, h2, -⟩ := hr
    rw [ih h2]
    unfold Graph.addEdge Graph.rawAddEdge at h1
    split at h1
    · simp at h1
    · simp only [M.pure_eq_ok] at h1
      obtain ⟨rfl, -⟩ := h1
      rfl

theorem linkInstances_phs {i : Nat} {js : List Nat} : ∀ {g g' : Graph} {ws : List Warn}, linkInstances i g js = .ok g' ws → g'.placeholders = g.placeholders := by
  induction js with
  | nil =>
    intro g g' ws hr
    simp only [linkInstances, M.pure_eq_ok] at hr
    obtain ⟨rfl, -⟩ := hr
    rfl
  | cons j js ih =>
    intro g g' ws hr
    simp only [linkInstances, M.bind_eq_ok] at hr
    obtain ⟨g1, w1, w2, h1, h2, -⟩ := hr
    rw [ih h2, linkChildren_phs h1]

theorem addInstances_nodup {e : ElemNode} {xs : List (Nat × Processed)} : ∀ {g g' : Graph} {js : List Nat} {ws : List Warn}, WF g →
    addInstances e.level e.parsed g xs = .ok (g', js) ws → (∀ x ∈ xs, (g.node? x.1).isSome) → js.Nodup := by
  induction xs with
  | nil =>
    intro g g' js ws hw hr _
    simp only [addInstances, M.pure_eq_ok, Prod.mk.injEq] at hr
    obtain ⟨⟨-, rfl⟩, -⟩ := hr
    simp
  | cons x xs ih =>
    intro g g' js ws hw hr hx
    obtain ⟨par, y⟩ := x
    simp only [addInstances, M.bind_eq_ok, M.pure_eq_ok, Prod.mk.injEq] at hr
    obtain ⟨⟨g1, j⟩, w1, w2, h1, ⟨⟨g2, js'⟩, w3, w4, h2, ⟨⟨rfl, rfl⟩, -⟩, -⟩, -⟩ := hr
    obtain ⟨a1, b1, c1, d1⟩ := addElementChild_wf hw h1 (hx (par, y) (by simp))
    have hx1 : ∀ x ∈ xs, (g1.node? x.1).isSome := fun x hx' => b1.isSome (hx x (List.mem_cons_of_mem _ hx'))
    obtain ⟨-, -, c2, -⟩ := addInstances_effect a1 h2 hx1
    refine List.nodup_cons.2 ⟨fun hj => ?_, ih a1 h2 hx1⟩
    have h3 := c2 j hj
    rw [c1] at h3
    cases h3

theorem zip_fn {α β : Type} : ∀ {js : List α} {ps : List β}, js.Nodup → ∀ {j p p'}, (j, p) ∈ js.zip ps → (j, p') ∈ js.zip ps → p = p'
  | [], _, _, _, _, _, h, _ => by simp at h
  | _ :: _, [], _, _, _, _, h, _ => by simp at h
  | j0 :: js, p0 :: ps, hn, j, p, p', h, h' => by
    rw [List.nodup_cons] at hn
    rw [List.zip_cons_cons, List.mem_cons] at h h'
    rcases h with h | h <;> rcases h' with h' | h'
    · injection h with _ h; injection h' with _ h'; rw [h, h']
    · injection h with h _; exact absurd (h ▸ (List.of_mem_zip h').1) hn.1
    · injection h' with h' _; exact absurd (h' ▸ (List.of_mem_zip h).1) hn.1
    · exact zip_fn hn.2 h h'

/-- With the elements a dim element stands for. -/
theorem finish_dim {g g1 g2 g' : Graph} {i : Nat} {e e1 : ElemNode} {x0 : Processed} {xs : List Processed} {js : List Nat} {w1 w2 : List Warn}
    (ht : ∀ a b, Ch g a b → IsE g a ∧ IsE g b) (hloop : ¬ Ch g i i) (he : g.elem? i = some e)
    (F : Finish g g1 i e x0 true (fun _ _ _ => False)) (he1 : g1.elem? i = some e1)
    (ha : addInstances e1.level e1.parsed g1 ((g1.elementParents i).flatMap fun par => xs.map fun x => (par, x)) = .ok (g2, js) w1)
    (hl : linkInstances i g2 js = .ok g' w2) :
    ∃ I, Finish g g' i e x0 true I ∧ (∀ j a x, I j a x → x ∈ xs) ∧ ∀ k, Ch g k i → ∀ x ∈ xs, ∃ j, I j k x := by
  rw [F.self] at he1
  injection he1 with he1
  have hlv : e1.level = e.level := by rw [← he1]
  have hpa : e1.parsed = e.parsed := by rw [← he1]
  rw [hlv, hpa] at ha
  have hnoI : ∀ k, k ≠ i → g1.node? k = g.node? k := fun k hk => F.old k hk fun _ _ h => h
  have hil : (g.node? i).isSome := IsE.some ⟨e, he⟩
  have hil1 : (g1.node? i).isSome := IsE.some ⟨_, F.self⟩
  have hE1 : ∀ k, IsE g k → IsE g1 k := by
    rintro k ⟨x, hx⟩
    by_cases hki : k = i
    · subst hki; exact ⟨_, F.self⟩
    · refine ⟨x, ?_⟩
      rw [elem?_node?, hnoI k hki]
      exact elem?_node?.1 hx
  have hc1 : ∀ a b, Ch g1 a b ↔ Ch g a b := by
    intro a b
    rw [F.ch]
    simp
  have ht1 : ∀ a b, Ch g1 a b → IsE g1 a ∧ IsE g1 b := fun a b h => (ht a b ((hc1 a b).1 h)).imp (hE1 a) (hE1 b)
  have hpar : ∀ x ∈ ((g1.elementParents i).flatMap fun par => xs.map fun x => (par, x)), (g1.node? x.1).isSome := by
    intro x hx
    obtain ⟨p, hp, hx⟩ := List.mem_flatMap.1 hx
    obtain ⟨y, -, rfl⟩ := List.mem_map.1 hx
    exact (ht1 _ _ ((mem_parents_iff ht1).1 hp)).1.some
  have hnd := addInstances_nodup F.wf ha hpar
  obtain ⟨W, X, fr, inst, len, old, ed⟩ := addInstances_effect F.wf ha hpar
  generalize hps : ((g1.elementParents i).flatMap fun par => xs.map fun x => (par, x)) = ps at inst len ed
  have hps : ∀ a x, (a, x) ∈ ps ↔ Ch g a i ∧ x ∈ xs := by
    intro a x
    rw [← hps, List.mem_flatMap]
    constructor
    · rintro ⟨p, hp, hx⟩
      obtain ⟨y, hy, h1⟩ := List.mem_map.1 hx
      injection h1 with h1 h2
      subst h1 h2
      exact ⟨(hc1 _ _).1 ((mem_parents_iff ht1).1 hp), hy⟩
    · rintro ⟨h1, h2⟩
      exact ⟨a, (mem_parents_iff ht1).2 ((hc1 _ _).2 h1), List.mem_map.2 ⟨x, h2, rfl⟩⟩
  have hij : i ∉ js := by
    intro h1
    rw [fr i h1] at hil1
    cases hil1
  have hzjs : ∀ j a x, (j, (a, x)) ∈ js.zip ps → j ∈ js ∧ (a, x) ∈ ps := fun j a x h1 => ⟨(List.of_mem_zip h1).1, (List.of_mem_zip h1).2⟩
  have hjz : ∀ j ∈ js, ∃ a x, (j, (a, x)) ∈ js.zip ps := by
    intro j hj
    obtain ⟨n, hn, rfl⟩ := List.getElem_of_mem hj
    refine ⟨(ps[n]'(by omega)).1, (ps[n]'(by omega)).2, ?_⟩
    have : (js.zip ps)[n]'(by simp; omega) ∈ js.zip ps := List.getElem_mem _
    rw [List.getElem_zip] at this
    exact this
  have hpz : ∀ a x, (a, x) ∈ ps → ∃ j, (j, (a, x)) ∈ js.zip ps := by
    intro a x hx
    obtain ⟨n, hn, hh⟩ := List.getElem_of_mem hx
    refine ⟨js[n]'(by omega), ?_⟩
    have : (js.zip ps)[n]'(by simp; omega) ∈ js.zip ps := List.getElem_mem _
    rw [List.getElem_zip, hh] at this
    exact this
  have hc2 : ∀ a b, Ch g2 a b ↔ Ch g a b ∨ ∃ x, (b, (a, x)) ∈ js.zip ps := by
    intro a b
    rw [← hc1]
    constructor
    · rintro (h1 | h1)
      · rcases (ed _).1 h1 with h2 | ⟨j, a', x, h2, h3⟩
        · exact Or.inl (Or.inl h2)
        · cases h3
      · rcases (ed _).1 h1 with h2 | ⟨j, a', x, h2, h3⟩
        · exact Or.inl (Or.inr h2)
        · injection h3 with h3 h4
          subst h3 h4
          exact Or.inr ⟨x, h2⟩
    · rintro (h1 | ⟨x, h1⟩)
      · exact h1.imp (fun h => (ed _).2 (Or.inl h)) fun h => (ed _).2 (Or.inl h)
      · exact Or.inr ((ed _).2 (Or.inr ⟨_, _, _, h1, rfl⟩))
  have ht2 : ∀ a b, Ch g2 a b → IsE g2 a ∧ IsE g2 b := by
    intro a b h1
    rcases (hc2 a b).1 h1 with h2 | ⟨x, h2⟩
    · exact (ht1 a b ((hc1 a b).2 h2)).imp X.isE X.isE
    · exact ⟨X.isE (hE1 _ (ht _ _ ((hps _ _).1 (hzjs _ _ _ h2).2).1).1), ⟨_, inst _ _ _ h2⟩⟩
  obtain ⟨nn, ff, ee⟩ := linkInstances_effect (C := fun c => Ch g i c) hl hij (by
    intro c
    rw [mem_children_iff ht2, hc2]
    constructor
    · rintro (h1 | ⟨x, h1⟩)
      · exact h1
      · exact absurd ((hps _ _).1 (hzjs _ _ _ h1).2).1 hloop
    · exact Or.inl)
  have hn' : ∀ k, g'.node? k = g2.node? k := fun k => node?_congr nn k
  have hx' : ∀ k, g'.elem? k = g2.elem? k := fun k => elem?_congr nn k
  refine ⟨fun j a x => (j, (a, x)) ∈ js.zip ps, ⟨?_, ?_, ?_, ?_, ?_, ?_, ?_, ?_, ?_, ?_, ?_, ?_, ?_, ?_, ?_, ?_, ?_⟩, ?_, ?_⟩
  · refine W.of_eq nn ff ?_
    intro ed' h1
    rcases (ee ed').1 h1 with h2 | ⟨j, c, h2, h3, rfl⟩
    · exact Or.inl h2
    · right
      obtain ⟨a, x, h4⟩ := hjz j h2
      refine ⟨IsE.some ⟨_, inst _ _ _ h4⟩, ?_⟩
      exact (X.isE (hE1 _ (ht _ _ h3).2)).some
  · intro j a x h1
    have h2 := fr j (hzjs _ _ _ h1).1
    have h3 : j ≠ i := by rintro rfl; exact hij (hzjs _ _ _ h1).1
    rw [← hnoI j h3]; exact h2
  · intro j a x h1
    exact ((hps _ _).1 (hzjs _ _ _ h1).2).1
  · rw [hx']; exact X.elem F.self
  · intro j a x h1
    rw [hx']; exact inst _ _ _ h1
  · intro k hk hI
    have h1 : k ∉ js := by
      intro h1
      obtain ⟨a, x, h2⟩ := hjz k h1
      exact hI a x h2
    rw [hn', old k h1, hnoI k hk]
  · intro a b
    constructor
    · rintro (h1 | h1)
      · rcases (ee _).1 h1 with h2 | ⟨j, c, h2, h3, h4⟩
        · rcases (hc2 a b).1 (Or.inl h2) with h3 | h3
          · exact Or.inl h3
          · exact Or.inr (Or.inl h3)
        · cases h4
      · rcases (ee _).1 h1 with h2 | ⟨j, c, h2, h3, h4⟩
        · rcases (hc2 a b).1 (Or.inr h2) with h3 | h3
          · exact Or.inl h3
          · exact Or.inr (Or.inl h3)
        · injection h4 with h4 h5
          subst h4 h5
          obtain ⟨p, x, h6⟩ := hjz a h2
          exact Or.inr (Or.inr ⟨⟨p, x, h6⟩, h3⟩)
    · rintro (h1 | h1 | ⟨⟨p, x, h1⟩, h2⟩)
      · exact ((hc2 a b).2 (Or.inl h1)).imp (fun h => (ee _).2 (Or.inl h)) fun h => (ee _).2 (Or.inl h)
      · exact ((hc2 a b).2 (Or.inr h1)).imp (fun h => (ee _).2 (Or.inl h)) fun h => (ee _).2 (Or.inl h)
      · exact Or.inr ((ee _).2 (Or.inr ⟨a, b, (hzjs _ _ _ h1).1, h2, rfl⟩))
  · intro a b h1
    rcases (ee _).1 h1 with h2 | ⟨j, c, -, -, h4⟩
    · rcases (ed _).1 h2 with h3 | ⟨j, a', x, -, h3⟩
      · exact F.de _ _ h3
      · cases h3
    · cases h4
  · intro a b h1
    rcases (ee _).1 h1 with h2 | ⟨j, c, -, -, h4⟩
    · rcases (ed _).1 h2 with h3 | ⟨j, a', x, -, h3⟩
      · exact F.pl _ _ h3
      · cases h3
    · cases h4
  · intro a b h1 h2
    exact (ee _).2 (Or.inl ((ed _).2 (Or.inl (F.deK a b h1 h2))))
  · intro a b h1 h2
    exact (ee _).2 (Or.inl ((ed _).2 (Or.inl (F.plK a b h1 h2))))
  · intro a b h1
    exact (ee _).2 (Or.inl ((ed _).2 (Or.inl (F.resK a b h1))))
  · intro b hb h1
    exact (ee _).2 (Or.inl ((ed _).2 (Or.inl (F.resI b hb h1))))
  · intro j a x h1 b h2
    exact (ee _).2 (Or.inr ⟨j, b, (hzjs _ _ _ h1).1, h2, rfl⟩)
  · intro j a x h1
    exact (ee _).2 (Or.inl ((ed _).2 (Or.inr ⟨j, a, x, h1, rfl⟩)))
  · rw [linkInstances_phs hl, addInstances_phs ha, F.phs]
  · intro j a a' x x' h1 h2
    have := zip_fn hnd h1 h2
    injection this
  · intro j a x h1
    exact ((hps _ _).1 (hzjs _ _ _ h1).2).2
  · intro k hk x hx
    exact hpz k x ((hps k x).2 ⟨hk, hx⟩)

end Svd
