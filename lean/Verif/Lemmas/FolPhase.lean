import Verif.Lemmas.FolFind
import Verif.Lemmas.ResolveSat
/-
References that can be followed: the placeholders are replaced.
-/
namespace Svd
open Graph Spec

/-- What holds between the nodes of a round. -/
structure Phase (d : SDevice) (g : Graph) (lab : Nat → Pos) : Prop where
  at_ : LabAt d g lab
  listed : Listed g
  res : Res g
  root : Done g 0
  per : (∀ k, Done g k → k = 0) ∨ ∀ k e, g.elem? k = some e → e.level = .peripheral → Done g k
  fol : Fol d g lab (fun _ => False) (Done g)

/-- Nothing is left to do for the placeholder `k`. -/
def Settled (g : Graph) (k : Nat) : Prop := ∀ a, Pl g a k → ¬ Done g a

theorem conn_precedes {d : SDevice} {g : Graph} {lab : Nat → Pos} (h : Lab d g lab) {x j : Nat} (hc : Conn g.edges x j) (hj : IsE g j) :
    (IsE g x → Precedes d (lab x) (lab j)) ∧ (IsP g x → ∀ a, Pl g a x → Precedes d (lab a) (lab j)) := by
  induction hc with
  | edge he =>
    rename_i ed
    rcases edge_view he with h1 | h1 | h1
    · exact ⟨fun _ => .has (h.hasChild h1 id), fun hp => (isE_notP (h.tch _ _ h1).1 hp).elim⟩
    · exact ⟨fun _ => .ref (h.der _ _ h1), fun hp => (isE_notP (h.tde _ _ h1).1 hp).elim⟩
    · refine ⟨fun hx => ?_, fun hp a ha => .has (h.phIn a _ _ hp ha h1)⟩
      rcases h.tpl _ _ h1 with ⟨-, h2⟩ | ⟨h2, -⟩
      · exact (isE_notP hj h2).elim
      · exact (isE_notP hx h2).elim
  | step he _ ih =>
    rename_i ed b _
    obtain ⟨i1, i2⟩ := ih hj
    rcases edge_view he with h1 | h1 | h1
    · exact ⟨fun _ => .trans (.has (h.hasChild h1 id)) (i1 (h.tch _ _ h1).2), fun hp => (isE_notP (h.tch _ _ h1).1 hp).elim⟩
    · exact ⟨fun _ => .trans (.ref (h.der _ _ h1)) (i1 (h.tde _ _ h1).2), fun hp => (isE_notP (h.tde _ _ h1).1 hp).elim⟩
    · rcases h.tpl _ _ h1 with ⟨h2, h3⟩ | ⟨h2, h3⟩
      · exact ⟨fun _ => i2 h3 _ h1, fun hp => (isE_notP h2 hp).elim⟩
      · exact ⟨fun hx => (isE_notP hx h2).elim, fun hp a ha => .trans (.has (h.phIn a _ _ hp ha h1)) (i1 h3)⟩

theorem placeholderParent_unique {g : Graph} {k p : Nat} {ws : List Warn} (h : g.placeholderParent k = .ok p ws) :
    Pl g p k ∧ IsE g p ∧ ∀ a, Pl g a k → IsE g a → a = p := by
  unfold Graph.placeholderParent at h
  split at h
  · rename_i p' hl
    simp only [M.pure_eq_ok] at h
    obtain ⟨rfl, -⟩ := h
    have hm : ∀ a, (Pl g a k ∧ IsE g a) ↔ a ∈ ((g.inEdges k).filter fun e => g.isElem e.src && e.ty == .placeholder).map (·.src) := by
      intro a
      simp only [List.mem_map, List.mem_filter, Graph.inEdges, Bool.and_eq_true, beq_iff_eq]
      constructor
      · rintro ⟨h1, e, h2⟩
        exact ⟨⟨a, k, .placeholder⟩, ⟨⟨h1, rfl⟩, by unfold Graph.isElem; rw [h2]; rfl, rfl⟩, rfl⟩
      · rintro ⟨⟨s, t, ty⟩, ⟨⟨h1, h2⟩, h3, h4⟩, h5⟩
        simp only at h2 h3 h4 h5
        subst h2 h4 h5
        exact ⟨h1, Option.isSome_iff_exists.1 h3⟩
    rw [hl] at hm
    obtain ⟨h1, h2⟩ := (hm p').2 (by simp)
    refine ⟨h1, h2, fun a h3 h4 => ?_⟩
    simpa using (hm a).1 ⟨h3, h4⟩
  · simp at h
  · simp at h

theorem placeholderChild_unique {g : Graph} {k c x : Nat} {ws : List Warn} (h : g.placeholderChild k = .ok c ws) (hx : Pl g k x) (hE : IsE g x) :
    x = c := by
  unfold Graph.placeholderChild at h
  split at h
  · rename_i c' hl
    simp only [M.pure_eq_ok] at h
    obtain ⟨rfl, -⟩ := h
    have hm : x ∈ ((g.outEdges k).filter fun e => g.isElem e.dst && e.ty == .placeholder).map (·.dst) := by
      simp only [List.mem_map, List.mem_filter, Graph.outEdges, Bool.and_eq_true, beq_iff_eq]
      obtain ⟨e, he⟩ := hE
      exact ⟨⟨k, x, .placeholder⟩, ⟨⟨hx, rfl⟩, by unfold Graph.isElem; rw [he]; rfl, rfl⟩, rfl⟩
    rw [hl] at hm
    simpa using hm
  · simp at h
  · simp at h

theorem done_iff {g : Graph} {k : Nat} : g.isProcessed k = true ↔ Done g k := by
  unfold Graph.isProcessed Done
  cases g.elem? k <;> simp

theorem path_no_dot {path : Str} {parts : List Str} {n : Str} (h : splitC '.' path = parts) (hp : parts = [n]) : '.' ∉ path :=
  (splitC_single (h.trans hp)).2

/-- Where the base of a derived element is. -/
theorem base_near {d : SDevice} {g : Graph} {lab : Nat → Pos} (hf : Followable d) (P : Phase d g lab) {c par b : Nat} {e : ElemNode} {p : Parsed}
    {path : Str} {w : List Warn} (he : g.elem? c = some e) (hpar : Ch g par c) (hD : Done g par) (hp : DeclAt d (lab c) p)
    (hd : p.derivedFrom = some path) (hne : e.level ≠ .enumcont) (hr : pathResolving g c e.level path = .ok (some b) w) :
    Near d g lab (Done g) b := by
  have h := P.at_.lab
  have hi := P.at_.inv
  have href := refers_of hi h he hp hd hr
  by_cases hdot : '.' ∈ path
  · right
    refine ⟨?_, hf.simple _ p path hp ?_ hd hdot _ href⟩
    · rcases P.per with h1 | h1
      · have h2 := h1 _ hD
        subst h2
        exfalso
        have h3 := h.hasChild hpar id
        rw [h.root.1] at h3
        have hdev : DeclAt d [] .device := ⟨_, rfl⟩
        have : ∃ q, p = .periph q := by
          cases h3 with
          | own ho =>
            have := ownChild_kind ho hdev hp
            cases p <;> first | exact ⟨_, rfl⟩ | cases this
          | inherited h4 _ => exact (device_none h4).elim
          | nested h4 => exact (not_nested hf.acyclic h4).elim
        obtain ⟨q, rfl⟩ := this
        obtain ⟨_, path', -, h5, h6, -⟩ := refers_peripheral hp href
        have : path' = path := by
          have h7 : q.derivedFrom = some path := hd
          rw [h5] at h7
          injection h7
        subst this
        exact h6 hdot
      · exact h1
    · obtain ⟨q, hq⟩ := h.node _ _ he
      rw [kindOf_level, ← declAt_unique hq.decl hp, ← hq.level]
      exact hne
  · left
    have hsingle : ∃ n, splitC '.' path = [n] := by
      obtain ⟨n, hn⟩ : ∃ n, splitC '.' path = [n] := by
        have : ∀ s : Str, '.' ∉ s → ∃ n, splitC '.' s = [n] := by
          intro s
          induction s with
          | nil => intro _; exact ⟨[], by simp [splitC]⟩
          | cons x xs ih =>
            intro hx
            simp only [List.mem_cons, not_or] at hx
            obtain ⟨n, hn⟩ := ih hx.2
            refine ⟨x :: n, ?_⟩
            simp [splitC, hn, Ne.symm hx.1]
        exact this path hdot
      exact ⟨n, hn⟩
    obtain ⟨n, hn⟩ := hsingle
    obtain ⟨h1, -⟩ := pathResolving_ok hr
    rw [hn] at h1
    have inv : ∀ {ns : List Nat}, NamedPath g c ns [n] b → b ∈ ns := by
      intro ns hns
      cases hns with
      | last h2 _ _ => exact h2
    rcases h1 with h1 | h1
    · have hb := inv h1
      unfold Graph.elementSiblings at hb
      cases hps : g.elementParents c with
      | nil => rw [hps] at hb; cases hb
      | cons p0 ps =>
        rw [hps] at hb
        simp only [List.mem_filter, Bool.and_eq_true] at hb
        obtain ⟨hb1, hb2, -⟩ := hb
        have hp0 : Ch g p0 c := h.chParents.1 (by rw [hps]; exact List.mem_cons_self ..)
        have hD0 : Done g p0 := by
          by_cases hpp : p0 = par
          · rw [hpp]; exact hD
          · exact (P.fol.shared _ _ _ hp0 hpar hpp).1
        obtain ⟨⟨s, t, ty⟩, k1, k2, k3⟩ := mem_successors.1 hb1
        simp only at k2 k3
        subst k2 k3
        rcases edge_view k1 with h2 | h2 | h2
        · exact ⟨s, h2, hD0⟩
        · exfalso
          have h3 := h.der _ _ h2
          have h4 := h.hasChild hp0 id
          exact hf.acyclic _ (.has (.inherited href (.inherited h3 h4)))
        · exfalso
          have hE : IsE g t := Option.isSome_iff_exists.1 hb2
          rcases h.tpl _ _ h2 with ⟨-, h3⟩ | ⟨h3, -⟩
          · exact isE_notP hE h3
          · exact isE_notP (h.tch _ _ hp0).1 h3
    · exact ⟨0, h.chElem.1 (inv h1), P.root⟩

theorem mem_cons_edges' {g : Graph} {a b : Nat} {x y : Nat} :
    (Ch { g with edges := ⟨a, b, .derive⟩ :: g.edges } x y ↔ Ch g x y) ∧
    (De { g with edges := ⟨a, b, .derive⟩ :: g.edges } x y ↔ (x = a ∧ y = b) ∨ De g x y) ∧
    (Pl { g with edges := ⟨a, b, .derive⟩ :: g.edges } x y ↔ Pl g x y) := by
  unfold Ch De Pl
  simp

theorem resolvePlaceholder_ok {g g' : Graph} {k : Nat} {ws : List Warn} (h : resolvePlaceholder g k = .ok g' ws) :
    ∃ path par, g.node? k = some (.ph path) ∧ g.placeholderParent k = .ok par [] ∧ ((g' = g ∧ (¬ Done g par ∨ ∃ c e w, Done g par ∧
      g.placeholderChild k = .ok c [] ∧ g.elem? c = some e ∧ pathResolving g c e.level path = .ok none w)) ∨
      ∃ c e b w, Done g par ∧ g.placeholderChild k = .ok c [] ∧ g.elem? c = some e ∧ pathResolving g c e.level path = .ok (some b) w ∧
        (g.removePlaceholder k).rawAddEdge .cycle b c .derive = .ok g' []) := by
  have nil : ∀ {ws p}, g.placeholderParent k = .ok p ws → ws = [] := by
    intro ws p hp
    unfold Graph.placeholderParent at hp
    split at hp <;> simp at hp
    exact hp.2
  have nil' : ∀ {ws p}, g.placeholderChild k = .ok p ws → ws = [] := by
    intro ws p hp
    unfold Graph.placeholderChild at hp
    split at hp <;> simp at hp
    exact hp.2
  unfold resolvePlaceholder at h
  split at h
  · rename_i path hn
    simp only [M.bind_eq_ok] at h
    obtain ⟨par, w1, w2, h1, h2, -⟩ := h
    have := nil h1; subst this
    refine ⟨path, par, hn, h1, ?_⟩
    split at h2
    · rename_i hp
      simp only [M.pure_eq_ok] at h2
      refine Or.inl ⟨h2.1.symm, Or.inl fun hd => ?_⟩
      rw [done_iff.2 hd] at hp
      cases hp
    · rename_i hp
      have hd : Done g par := done_iff.1 (by simpa using hp)
      simp only [M.bind_eq_ok] at h2
      obtain ⟨c, w3, w4, h3, h4, -⟩ := h2
      have := nil' h3; subst this
      split at h4
      · simp at h4
      · rename_i e he
        simp only [M.bind_eq_ok] at h4
        obtain ⟨o, w5, w6, h5, h6, -⟩ := h4
        cases o with
        | none =>
          simp only [M.pure_eq_ok] at h6
          exact Or.inl ⟨h6.1.symm, Or.inr ⟨c, e, w5, hd, h3, he, h5⟩⟩
        | some b =>
          simp only at h6
          have h7 : w6 = [] := (rawAddEdge_nodes h6).2.1
          subst h7
          exact Or.inr ⟨c, e, b, w5, hd, h3, he, h5, h6⟩
  · simp at h

theorem at_resolvePlaceholder {d : SDevice} {g g' : Graph} {lab : Nat → Pos} (h : LabAt d g lab) {k : Nat} {ws : List Warn}
    (hr : resolvePlaceholder g k = .ok g' ws) : LabAt d g' lab ∧ meas d g' lab = meas d g lab := by
  refine at_resolvePlaceholders (phs := [k]) (ws := ws ++ []) h ?_
  simp only [resolvePlaceholders]
  exact M.bind_eq_ok.2 ⟨g', ws, [], hr, rfl, rfl⟩

set_option maxHeartbeats 1000000 in
theorem phase_step {d : SDevice} {g g' : Graph} {lab : Nat → Pos} (hf : Followable d) (P : Phase d g lab) {k : Nat} {ws : List Warn}
    (hr : resolvePlaceholder g k = .ok g' ws) : Phase d g' lab ∧ (∀ j, g'.elem? j = g.elem? j) ∧ (∀ a b, Pl g' a b → Pl g a b) ∧
      (∀ a b, Ch g' a b ↔ Ch g a b) ∧ Settled g' k := by
  have h := P.at_.lab
  have hi := P.at_.inv
  obtain ⟨path, par, hn, hpar, hcase⟩ := resolvePlaceholder_ok hr
  have hk : IsP g k := ⟨path, hn⟩
  obtain ⟨u1, u2, u3⟩ := placeholderParent_unique hpar
  have hph : ∀ {c p}, g.placeholderChild k = .ok c [] → DeclAt d (lab c) p → p.derivedFrom = some path := by
    intro c p hc hp
    obtain ⟨p', k1, k2⟩ := h.ph k c path hn (placeholderChild_ok hc).1
    rw [declAt_unique hp k1]
    exact k2
  rcases hcase with ⟨rfl, hcase⟩ | ⟨c, e, b, w, hD, h1, h2, h3, h4⟩
  · refine ⟨P, fun _ => rfl, fun _ _ h => h, fun _ _ => Iff.rfl, fun a ha hd => ?_⟩
    have hda : a = par := u3 a ha (by obtain ⟨e, he, -⟩ := hd; exact ⟨e, he⟩)
    subst hda
    rcases hcase with hcase | ⟨c, e, w, -, h1, h2, h3⟩
    · exact hcase hd
    · have hCh : Ch g' a c := P.fol.plCh a k c hk u1 (placeholderChild_ok h1).1
      obtain ⟨q, hq⟩ := h.node c e h2
      have hdf := hph h1 hq.decl
      obtain ⟨_, hb⟩ := path_found hi h hf.acyclic h2 hCh (hf.named _ _ hq.decl (by rw [hdf]; simp)) (fun p hp => hph h1 hp) h3
      cases hb
  · obtain ⟨A1, A2⟩ := at_resolvePlaceholder P.at_ hr
    have hCh0 : Ch g par c := P.fol.plCh par k c hk u1 (placeholderChild_ok h1).1
    have hPlkc : Pl g k c := (placeholderChild_ok h1).1
    obtain ⟨q, hq⟩ := h.node c e h2
    have hdf := hph h1 hq.decl
    have hnear : e.level ≠ .enumcont → Near d g lab (Done g) b := fun hne => base_near hf P h2 hCh0 hD hq.decl hdf hne h3
    obtain ⟨hw, hnode, hedge⟩ := removePlaceholder_wf hi.wf (i := k) (by rw [hn]; rfl)
    have hg := (rawAddEdge_nodes h4).1
    have hpls : (g.removePlaceholder k).placeholders = g.placeholders.filter (· != k) := rfl
    generalize hg1 : g.removePlaceholder k = g1 at *
    have hsub : ∀ ed, ed ∈ g1.edges ↔ ed ∈ g.edges ∧ ed.src ≠ k ∧ ed.dst ≠ k := by
      intro ed
      rw [hedge]
      simp
    have helem1 : ∀ j, g1.elem? j = g.elem? j := by
      intro j
      have := hnode j
      by_cases hj : j = k
      · subst hj
        rw [if_pos rfl] at this
        unfold Graph.elem?
        rw [this, hn]
      · rw [if_neg hj] at this
        unfold Graph.elem?
        rw [this]
    have keepE : ∀ {x y ty}, IsE g x → IsE g y → (⟨x, y, ty⟩ : Edge) ∈ g.edges → (⟨x, y, ty⟩ : Edge) ∈ g1.edges := by
      intro x y ty hx hy hm
      exact (hsub _).2 ⟨hm, fun hh => isE_notP (hh ▸ hx) hk, fun hh => isE_notP (hh ▸ hy) hk⟩
    have hv := fun x y => @mem_cons_edges' g1 b c x y
    have helem : ∀ j, g'.elem? j = g.elem? j := by intro j; rw [hg]; exact helem1 j
    have hCh : ∀ x y, Ch g' x y ↔ Ch g x y := by
      intro x y
      rw [hg, (hv x y).1]
      constructor
      · exact fun h6 => h6.imp (fun h7 => ((hsub _).1 h7).1) fun h7 => ((hsub _).1 h7).1
      · intro h6
        obtain ⟨ha, hb⟩ := h.tch x y h6
        exact h6.imp (keepE ha hb) (keepE ha hb)
    have hPl : ∀ x y, Pl g' x y ↔ Pl g x y ∧ x ≠ k ∧ y ≠ k := by
      intro x y
      rw [hg, (hv x y).2.2]
      exact hsub _
    have hDe : ∀ x y, De g' x y ↔ (x = b ∧ y = c) ∨ De g x y := by
      intro x y
      rw [hg, (hv x y).2.1]
      constructor
      · exact fun h6 => h6.imp id fun h7 => ((hsub _).1 h7).1
      · rintro (h6 | h6)
        · exact Or.inl h6
        · obtain ⟨ha, hb⟩ := h.tde x y h6
          exact Or.inr (keepE ha hb h6)
    have hE : ∀ j, IsE g' j ↔ IsE g j := by intro j; unfold IsE; rw [helem]
    have hDn : ∀ j, Done g' j ↔ Done g j := done_congr helem
    have hIsP : ∀ j, IsP g' j ↔ IsP g j ∧ j ≠ k := by
      intro j
      have : g'.node? j = g1.node? j := by rw [hg]; rfl
      unfold IsP
      rw [this, hnode]
      split
      · rename_i hj; simp [hj]
      · rename_i hj; simp [hj]
    have hDeq : Done g' = Done g := funext fun j => propext (hDn j)
    have near : ∀ {x}, Near d g lab (Done g) x → Near d g' lab (Done g') x := by
      intro x hx
      rw [hDeq]
      rcases hx with ⟨a, k1, k2⟩ | ⟨k1, k2⟩
      · exact Or.inl ⟨a, (hCh _ _).2 k1, k2⟩
      · exact Or.inr ⟨fun j ej hj hl => k1 j ej (by rw [← helem]; exact hj) hl, k2⟩
    refine ⟨⟨A1, ?_, ?_, (hDn 0).2 P.root, ?_, ?_⟩, helem, fun x y hxy => ((hPl x y).1 hxy).1, hCh, ?_⟩
    · have hpl : g'.placeholders = g.placeholders.filter (· != k) := by rw [hg]; exact hpls
      refine ⟨?_, fun j => ?_⟩
      · rw [hpl]
        exact P.listed.1.sublist List.filter_sublist
      · rw [hpl, hIsP, List.mem_filter, P.listed.2]
        simp
    · intro x y h6 h7
      rw [hg]
      rw [hCh] at h6
      rw [hDn] at h7
      obtain ⟨ha, hb⟩ := h.tch x y h6
      exact List.mem_cons_of_mem _ (keepE ha hb (P.res x y h6 h7))
    · rcases P.per with h6 | h6
      · exact Or.inl fun j hj => h6 j ((hDn j).1 hj)
      · exact Or.inr fun j ej hj hl => (hDn j).2 (h6 j ej (by rw [← helem]; exact hj) hl)
    · have F := P.fol
      constructor
      · intro a a' x h6 h7
        rw [hCh] at h6 h7
        rw [hDeq]
        exact F.shared a a' x h6 h7
      · intro x h6
        rw [hE] at h6
        exact (F.up x h6).imp id fun ⟨a, h7⟩ => ⟨a, (hCh _ _).2 h7⟩
      · intro x ex h6 h7 h8
        rw [helem] at h6
        rw [hDn] at h7
        rcases F.pend x ex h6 h7 h8 with ⟨j, h9⟩ | ⟨j, h9⟩
        · by_cases hj : j = k
          · subst hj
            have : x = c := by
              have hx : IsE g x := ⟨ex, h6⟩
              exact placeholderChild_unique h1 h9 hx
            subst this
            exact Or.inr ⟨b, (hDe _ _).2 (Or.inl ⟨rfl, rfl⟩)⟩
          · exact Or.inl ⟨j, (hPl _ _).2 ⟨h9, hj, fun hh => isE_notP ⟨ex, h6⟩ (hh ▸ hk)⟩⟩
        · exact Or.inr ⟨j, (hDe _ _).2 (Or.inr h9)⟩
      · intro a j x h0 h6 h7
        rw [hIsP] at h0
        rw [hPl] at h6 h7
        rw [hCh]
        exact F.plCh a j x h0.1 h6.1 h7.1
      · intro j j' x h0 h6 h7
        rw [hE] at h0
        rw [hPl] at h6 h7
        exact F.uni j j' x h0 h6.1 h7.1
      · intro a j x h6 h7
        rw [hPl] at h6
        rw [hCh] at h7
        have hx := (h.tch _ _ h7).2
        have hxk : x ≠ k := fun hh => isE_notP hx (hh ▸ hk)
        have hak : a ≠ k := fun hh => isE_notP (h.tch _ _ h7).1 (hh ▸ hk)
        have same : ∀ j', Pl g j' x → j' ≠ k := by
          rintro j' h8 rfl
          exact h6.2.1 (F.uni _ _ _ hx h6.1 h8)
        rcases F.chPl a j x h6.1 h7 with ⟨j', h8, h9⟩ | ⟨h8, h9, i, j', k1, k2, k3, k4⟩
        · exact Or.inl ⟨j', (hPl _ _).2 ⟨h8, hak, same _ h9⟩, (hPl _ _).2 ⟨h9, same _ h9, hxk⟩⟩
        · refine Or.inr ⟨h8, (hDn _).2 h9, i, j', (hDn _).2 k1, ?_, (hPl _ _).2 ⟨k3, ?_, same _ k4⟩, (hPl _ _).2 ⟨k4, same _ k4, hxk⟩⟩
          · intro p hp
            rw [hCh] at hp ⊢
            exact k2 p hp
          · rintro rfl
            obtain ⟨ei, hei, -⟩ := k1
            exact isE_notP ⟨ei, hei⟩ hk
      · exact fun _ _ h6 => h6.elim
      · intro x y ey h6 h7 h8
        rw [helem] at h7
        rcases (hDe _ _).1 h6 with ⟨rfl, rfl⟩ | h6
        · rw [h2] at h7
          injection h7 with h7
          subst h7
          exact near (hnear h8)
        · exact near (F.src x y ey h6 h7 h8)
    · intro a ha
      exact absurd rfl ((hPl _ _).1 ha).2.2

theorem phase_run {d : SDevice} {lab : Nat → Pos} (hf : Followable d) {phs : List Nat} : ∀ {g g' : Graph} {ws : List Warn}, Phase d g lab →
    resolvePlaceholders g phs = .ok g' ws → Phase d g' lab ∧ (∀ j, g'.elem? j = g.elem? j) ∧ (∀ a b, Pl g' a b → Pl g a b) ∧
      ∀ k ∈ phs, Settled g' k := by
  induction phs with
  | nil =>
    intro g g' ws P hr
    simp only [resolvePlaceholders, M.pure_eq_ok] at hr
    obtain ⟨rfl, -⟩ := hr
    exact ⟨P, fun _ => rfl, fun _ _ h => h, by simp⟩
  | cons k phs ih =>
    intro g g' ws P hr
    simp only [resolvePlaceholders, M.bind_eq_ok] at hr
    obtain ⟨g1, w1, w2, h1, h2, -⟩ := hr
    obtain ⟨P1, e1, p1, -, s1⟩ := phase_step hf P h1
    obtain ⟨P2, e2, p2, s2⟩ := ih P1 h2
    refine ⟨P2, fun j => (e2 j).trans (e1 j), fun a b h => p1 _ _ (p2 _ _ h), ?_⟩
    intro j hj
    rcases List.mem_cons.1 hj with rfl | hj
    · exact fun a ha hd => s1 a (p2 _ _ ha) ((done_congr e2 a).1 hd)
    · exact s2 j hj

theorem phase_err {d : SDevice} {g : Graph} {lab : Nat → Pos} (hf : Followable d) (P : Phase d g lab) {k : Nat} {e : Exn}
    (hr : resolvePlaceholder g k = .err e) : NErr e := by
  have h := P.at_.lab
  have hi := P.at_.inv
  unfold resolvePlaceholder at hr
  split at hr
  · rename_i path hn
    simp only [M.bind_eq_err] at hr
    rcases hr with hr | ⟨par, w1, h1, hr⟩
    · exact (rsat_placeholderParent _ _).err hr
    split at hr
    · simp at hr
    · simp only [M.bind_eq_err] at hr
      rcases hr with hr | ⟨c, w2, h2, hr⟩
      · exact (rsat_placeholderChild _ _).err hr
      split at hr
      · cases hr; trivial
      · rename_i ec he
        simp only [M.bind_eq_err] at hr
        rcases hr with hr | ⟨o, w3, h3, hr⟩
        · exact (rsat_pathResolving _ _ _ _).err hr
        cases o with
        | none => simp at hr
        | some b =>
          exfalso
          simp only [Graph.rawAddEdge] at hr
          split at hr
          · rename_i hp
            obtain ⟨p, hp1, hp2⟩ := h.ph k c path hn (placeholderChild_ok h2).1
            have href := refers_of hi h he hp1 hp2 h3
            obtain ⟨-, hl⟩ := pathResolving_ok h3
            obtain ⟨eb, heb, -⟩ := hasLevel_elem hl
            have hsub : ∀ ed ∈ (g.removePlaceholder k).edges, ed ∈ g.edges := by
              intro ed hed
              exact (List.mem_filter.1 hed).1
            rcases (hasPath_iff.1 hp).mono hsub with rfl | hc
            · exact hf.acyclic _ (.ref href)
            · exact hf.acyclic _ (.trans (.ref href) ((conn_precedes h hc ⟨eb, heb⟩).1 ⟨ec, he⟩))
          · simp at hr
  · cases hr; trivial

theorem phase_run_err {d : SDevice} {lab : Nat → Pos} (hf : Followable d) {phs : List Nat} : ∀ {g : Graph} {e : Exn}, Phase d g lab →
    resolvePlaceholders g phs = .err e → NErr e := by
  induction phs with
  | nil => intro g e P hr; simp [resolvePlaceholders] at hr
  | cons k phs ih =>
    intro g e P hr
    simp only [resolvePlaceholders, M.bind_eq_err] at hr
    rcases hr with hr | ⟨g1, w1, h1, hr⟩
    · exact phase_err hf P hr
    · exact ih (phase_step hf P h1).1 hr

/-- What holds before the nodes of a round are processed. -/
structure Ready (d : SDevice) (g : Graph) (lab : Nat → Pos) : Prop where
  phase : Phase d g lab
  free : ∀ h c a, Pl g h c → Ch g a c → ¬ Done g a
  fol : Fol d g lab (fun k => (g.node? k).isSome) (Done g)

theorem ready_of {d : SDevice} {g g' : Graph} {lab : Nat → Pos} (hf : Followable d) (P : Phase d g lab) {ws : List Warn}
    (hr : resolvePlaceholders g g.placeholders = .ok g' ws) : Ready d g' lab := by
  obtain ⟨P', he, hpl, hs⟩ := phase_run hf P hr
  have h' := P'.at_.lab
  have settled : ∀ k, IsE g' k ∨ Settled g' k := by
    intro k
    by_cases hk : IsP g k
    · exact Or.inr (hs k ((P.listed.2 k).2 hk))
    · by_cases hE : IsE g' k
      · exact Or.inl hE
      · refine Or.inr fun a ha hd => ?_
        obtain ⟨ea, hea, -⟩ := hd
        rcases P.at_.lab.tpl _ _ (hpl _ _ ha) with ⟨-, h2⟩ | ⟨h2, -⟩
        · exact hk h2
        · exact isE_notP ⟨ea, by rw [← he]; exact hea⟩ h2
  have set' : ∀ a k, Done g' a → ¬ Pl g' a k := by
    intro a k hd hp
    rcases settled k with h1 | h1
    · obtain ⟨ea, hea, -⟩ := hd
      rcases h'.tpl _ _ hp with ⟨-, h2⟩ | ⟨h2, -⟩
      · exact isE_notP h1 h2
      · exact isE_notP ⟨ea, hea⟩ h2
    · exact h1 a hp hd
  have free : ∀ h c a, Pl g' h c → Ch g' a c → ¬ Done g' a := by
    intro h c a h1 h2 hd
    rcases P'.fol.chPl a h c h1 h2 with ⟨j, h3, h4⟩ | ⟨-, -, i, j, h3, -, h4, -⟩
    · exact set' a j hd h3
    · exact set' i j h3 h4
  refine ⟨P', free, ?_⟩
  have F := P'.fol
  exact
    { shared := F.shared, up := F.up, pend := F.pend, plCh := F.plCh, uni := F.uni, src := F.src
      chPl := fun a h c h1 h2 => by
        rcases F.chPl a h c h1 h2 with h3 | ⟨-, h3, -⟩
        · exact Or.inl h3
        · exact (free h c a h1 h2 h3).elim
      srcOld := fun b c _ h1 => IsE.some (h'.tde _ _ h1).1 }

end Svd
