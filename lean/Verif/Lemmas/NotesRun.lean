import Verif.Lemmas.NotesDecl
import Verif.Lemmas.Hush
import Verif.Lemmas.FolInit
/-
The warnings along the rounds of the resolver.
-/
namespace Svd
open Graph Spec

theorem initial_done {d : SDevice} {g : Graph} {ws : List Warn} (hr : initialization d = .ok g ws) {k : Nat} (hk : Done g k) : k = 0 := by
  unfold initialization at hr
  simp only [M.bind_eq_ok] at hr
  obtain ⟨G, w1, w2, h1, h2, -⟩ := hr
  have hG := grown_construct h1
  obtain ⟨k1, k2, k3, k4, k5, k6⟩ := grown_ensure hG (S := fun _ => False) (fun k hk => (hG.listed.2 k).1 hk) (fun _ h => h.elim) rfl rfl
    (fun _ h => h) (fun _ _ => Iff.rfl) hG.noDe (fun a b => by simp) h2
  have hel : ∀ k, g.elem? k = G.elem? k := fun k => by unfold Graph.elem?; rw [node?_congr k1]
  exact hG.done k (by unfold Done at hk ⊢; rw [← hel]; exact hk)

/-- The warnings given when a node is processed. -/
theorem notes_processNode {d : SDevice} {ord : List Nat → List Nat} {g g' : Graph} {lab : Nat → Pos}
    {i : Nat} {ws : List Warn} (hi : Inv d g) (h : Lab d g lab) (hr : processNode ord g i = .ok g' ws) :
    ∃ e, g.elem? i = some e ∧ e.level ≠ .device ∧ ((e.level = .enumcont ∧ ws = []) ∨
      (e.level ≠ .enumcont ∧ ∃ q, Complete d (lab i) q ∧ ∀ w, w ∈ ws ↔ DeclNote q w)) := by
  unfold processNode at hr
  split at hr
  · cases hr
  · rename_i e he
    have hnode := hi.nodes.elem he
    obtain ⟨p, hp⟩ := h.node i e he
    split at hr
    · cases hr
    · rename_i hdev
      have hldev : e.level ≠ .device := by
        rw [hnode.2.1]
        intro h1
        apply hdev
        revert h1
        cases e.parsed <;> intro h1 <;> first | rfl | cases h1
      refine ⟨e, he, hldev, ?_⟩
      rw [M.bind_eq_ok] at hr
      obtain ⟨⟨bn, bp⟩, w1, w2, h1, h2, rfl⟩ := hr
      have hbase : w1 = [] ∧ ((e.parsed.derivedFrom = none ∧ bp = none) ∨
       (∃ path b eb, e.parsed.derivedFrom = some path ∧ g.baseElementNode i = some b ∧ g.elem? b = some eb ∧
          e.level = eb.level ∧ bp = eb.processed ∧ (e.parsed.isEnum = true ∨ eb.processed.isSome))) := by
        split at h1
        · rename_i hdf
          simp only [M.pure_eq_ok, Prod.mk.injEq] at h1
          exact ⟨h1.2, .inl ⟨hdf, h1.1.2.symm⟩⟩
        · rename_i path hdf
          rw [M.bind_eq_ok] at h1
          obtain ⟨⟨b, eb⟩, w3, w4, h3, h4, rfl⟩ := h1
          unfold derivedFromBase at h3
          split at h3
          · cases h3
          · rename_i b' hb
            split at h3
            · cases h3
            · rename_i eb' heb
              split at h3
              · cases h3
              · rename_i hlev
                simp only [M.pure_eq_ok, Prod.mk.injEq] at h3
                obtain ⟨⟨rfl, rfl⟩, rfl⟩ := h3
                simp only at h4
                split at h4
                · cases h4
                · rename_i hc
                  simp only [M.pure_eq_ok, Prod.mk.injEq] at h4
                  obtain ⟨⟨rfl, rfl⟩, rfl⟩ := h4
                  refine ⟨rfl, .inr ⟨path, b', eb', hdf, hb, heb, by simpa using hlev, rfl, ?_⟩⟩
                  cases hh : e.parsed.isEnum with
                  | true => exact .inl rfl
                  | false =>
                    rw [hh] at hc
                    right
                    cases hx : eb'.processed with
                    | none => rw [hx] at hc; simp at hc
                    | some x => rfl
      obtain ⟨rfl, hbase⟩ := hbase
      rw [List.nil_append]
      simp only at h2
      split at h2
      · rename_i hen
        left
        exact ⟨by rw [hnode.2.1]; exact (isEnum_level _).1 hen, (hush_processEnumNode _ _ _ _).nil h2⟩
      · rename_i hen
        have hl : e.level ≠ .enumcont := by
          rw [hnode.2.1]; intro hh; exact hen ((isEnum_level _).2 hh)
        right
        refine ⟨hl, ?_⟩
        have hpp := hp.parsed hl
        have hB : ∃ k, BaseHead d (lab i) k p bp := by
          rcases hbase with ⟨h3, rfl⟩ | ⟨path, b, eb, h3, h4, h5, h6, rfl, h7⟩
          · exact ⟨_, .inl ⟨by rw [← hpp]; exact h3, rfl, rfl⟩⟩
          · have h7 : eb.processed.isSome := h7.resolve_left hen
            obtain ⟨x, hx⟩ := Option.isSome_iff_exists.1 h7
            have hb := hi.nodes.elem h5
            obtain ⟨hname, hbpro, -⟩ := hb.2.2.2.1 x hx
            have hde := baseElementNode_edge h4
            have href := h.der _ _ hde
            obtain ⟨lb, h10, -⟩ := h.cont b eb id h5 (by rw [← h6]; exact hl)
            obtain ⟨s, t, hs, ht, hE⟩ := hi.edges _ hde
            obtain ⟨es, ed, rfl, rfl, -, hlast⟩ := hE
            simp only at hs ht
            rw [elem?_node?.1 h5] at hs
            rw [elem?_node?.1 he] at ht
            simp only [Option.some.injEq, Node.elem.injEq] at hs ht
            subst hs; subst ht
            obtain ⟨path', hp1, hp2⟩ := hlast hl
            rw [h3] at hp1
            simp only [Option.some.injEq] at hp1
            subst hp1
            rw [hname] at hp2
            exact ⟨_, .inr ⟨path, x, lab b, lb, by rw [← hpp, h3], hx, by simpa using hp2, href, h10.done hbpro, h10.made x hx, rfl⟩⟩
        obtain ⟨k, hB⟩ := hB
        rw [hpp] at h2
        unfold processDimable at h2
        simp only [M.bind_eq_ok] at h2
        obtain ⟨⟨isDim, names, ds⟩, w1, w3, h3, ⟨xs, w4, w5, h4, h5, rfl⟩, rfl⟩ := h2
        have h5' : xs ≠ [] ∧ w5 = [] := by
          split at h5
          · cases h5
          · refine ⟨by simp, ?_⟩
            split at h5
            · exact (hush_updateDimNode _ _ _ _ _ _).nil h5
            · exact (hush_updateNode _ _ _ _ _ _).nil h5
        obtain ⟨hx, rfl⟩ := h5'
        rw [List.append_nil]
        exact base_notes hp.decl hB h3 h4 hx

/-- What the warnings given so far are about, and whose warnings have been given. -/
structure Told (d : SDevice) (g : Graph) (lab : Nat → Pos) (ws : List Warn) : Prop where
  sound : ∀ w ∈ ws, ∃ x q, Complete d x q ∧ DeclNote q w
  all : ∀ i e, g.elem? i = some e → e.isProcessed = true → e.level ≠ .device → e.level ≠ .enumcont →
    ∃ q, Complete d (lab i) q ∧ ∀ w, DeclNote q w → w ∈ ws

theorem told_processNode {d : SDevice} {ord : List Nat → List Nat} {g g' : Graph} {lab lab' : Nat → Pos}
    {i : Nat} {ws ws' : List Warn} (hi : Inv d g) (h : Lab d g lab) (hr : processNode ord g i = .ok g' ws)
    (hk : ∀ k, (g.node? k).isSome → lab' k = lab k) (ha : Advance d g lab i g' lab') (T : Told d g lab ws') : Told d g' lab' (ws' ++ ws) := by
  obtain ⟨e, he, hdev, hc⟩ := notes_processNode hi h hr
  have old : ∀ k ek, g.elem? k = some ek → ek.isProcessed = true → ek.level ≠ .device → ek.level ≠ .enumcont →
      ∃ q, Complete d (lab k) q ∧ ∀ w, DeclNote q w → w ∈ ws' ++ ws := by
    intro k ek h1 h2 h3 h4
    obtain ⟨q, h5, h6⟩ := T.all k ek h1 h2 h3 h4
    exact ⟨q, h5, fun w hw => List.mem_append_left _ (h6 w hw)⟩
  constructor
  · intro w hw
    rcases List.mem_append.1 hw with hw | hw
    · exact T.sound w hw
    · rcases hc with ⟨-, rfl⟩ | ⟨-, q, h1, h2⟩
      · cases hw
      · exact ⟨lab i, q, h1, (h2 w).1 hw⟩
  · intro k ek hek h2 h3 h4
    cases ha with
    | @enum e1 e' es he1 hl1 hl' hp' hes =>
      have hil : (g.node? i).isSome := IsE.some ⟨e, he⟩
      have hel : (({ g with edges := es } : Graph).setElem i e').elem? k = if k = i then some e' else ({ g with edges := es } : Graph).elem? k :=
        setElem_elem? (g := { g with edges := es }) hil
      rw [hel] at hek
      by_cases hki : k = i
      · rw [if_pos hki] at hek
        injection hek with hek
        subst hek
        exact absurd hl' h4
      · rw [if_neg hki] at hek
        exact old k ek hek h2 h3 h4
    | @dim g1 lab1 e1 x0 t I _ _ he1 hl1 hp1 hw1 hx1 ha1 F m2 m3 _ _ =>
      rw [he] at he1
      injection he1 with he1
      subst he1
      obtain ⟨-, q, h5, h6⟩ := hc.resolve_left fun hh => hl1 hh.1
      have hiN : (g.node? i).isSome := IsE.some ⟨e, he⟩
      have self : ∃ q, Complete d (lab i) q ∧ ∀ w, DeclNote q w → w ∈ ws' ++ ws :=
        ⟨q, h5, fun w hw => List.mem_append_right _ ((h6 w).2 hw)⟩
      have hi1 : (g1.node? i).isSome ∧ lab1 i = lab i := by
        cases ha1 with
        | none => exact ⟨hiN, rfl⟩
        | some hd hrep l1 l2 _ => exact ⟨Ext.isSome hrep.ext hiN, l1 i hiN⟩
      by_cases hki : k = i
      · subst hki
        rw [hk k hiN]
        exact self
      · by_cases hI : ∃ a x, I k a x
        · obtain ⟨a, x, hI⟩ := hI
          rw [m3 _ _ _ hI, hi1.2]
          exact self
        · have h7 := F.old k hki (fun a x h => hI ⟨a, x, h⟩)
          have hek1 : g1.elem? k = some ek := by
            rw [elem?_node?] at hek ⊢
            rw [← h7]; exact hek
          rw [m2 k (IsE.some ⟨ek, hek1⟩)]
          cases ha1 with
          | none => exact old k ek hek1 h2 h3 h4
          | @some _ _ b φ hd hrep l1 l2 _ =>
            rcases hrep.only k (IsE.some ⟨ek, hek1⟩) with hn | ⟨j, hj, rfl⟩
            · have hn : (g.node? k).isSome := hn
              rw [l1 k hn]
              obtain ⟨n, hn'⟩ := Option.isSome_iff_exists.1 hn
              have := hrep.ext k n hn'
              rw [elem?_node?.1 hek1] at this
              injection this with this
              subst this
              exact old k ek (elem?_node?.2 hn') h2 h3 h4
            · rw [l2 j hj]
              have := (hrep.copy j hj).2
              rw [elem?_node?.1 hek1] at this
              exact old j ek (elem?_node?.2 this.symm) h2 h3 h4

/-- The state of the resolver between two steps, with the warnings so far. -/
structure ToldState (d : SDevice) (g : Graph) (ws : List Warn) : Prop where
  inv : Inv d g
  ac : Acyclic g.edges
  lab : ∃ lab, Lab d g lab ∧ Sur d g lab ∧ Told d g lab ws

theorem told_processNodes {d : SDevice} {ord : List Nat → List Nat} (hord : ∀ l, (ord l).Perm l) {is : List Nat} : ∀ {g g' : Graph} {ws ws' : List Warn},
    ToldState d g ws' → processNodes ord g is = .ok g' ws → ToldState d g' (ws' ++ ws) := by
  induction is with
  | nil =>
    intro g g' ws ws' h hr
    simp only [processNodes, M.pure_eq_ok] at hr
    obtain ⟨rfl, rfl⟩ := hr
    simpa using h
  | cons i is ih =>
    intro g g' ws ws' h hr
    simp only [processNodes, M.bind_eq_ok] at hr
    obtain ⟨g1, w1, w2, h1, h2, rfl⟩ := hr
    obtain ⟨lab, hl, hsu, ht⟩ := h.lab
    obtain ⟨lab', hl', ha, -, hadv⟩ := lab_processNode hord h.inv h.ac hl h1
    rw [← List.append_assoc]
    exact ih ⟨(inv_processNode h.inv h1).1, ac_processNode h.ac h1, lab', hl', hsu.keeps (keeps_processNode h.inv h1) ha,
      told_processNode h.inv hl h1 ha hadv ht⟩ h2

theorem told_resolvePlaceholders {d : SDevice} {phs : List Nat} {ws' : List Warn} : ∀ {g g' : Graph} {ws : List Warn},
    ToldState d g ws' → resolvePlaceholders g phs = .ok g' ws → ToldState d g' ws' := by
  induction phs with
  | nil =>
    intro g g' ws h hr
    simp only [resolvePlaceholders, M.pure_eq_ok] at hr
    obtain ⟨rfl, -⟩ := hr
    exact h
  | cons i is ih =>
    intro g g' ws h hr
    simp only [resolvePlaceholders, M.bind_eq_ok] at hr
    obtain ⟨g1, w1, w2, h1, h2, -⟩ := hr
    obtain ⟨lab, hl, hsu, ht⟩ := h.lab
    have hel := (resolvePlaceholder_elem h.inv h1).2
    exact ih ⟨inv_resolvePlaceholder h.inv h1, ac_resolvePlaceholder h.ac h1, lab, lab_resolvePlaceholder h.inv hl h1,
      hsu.keeps (keeps_resolvePlaceholder h.inv.wf h1) (fun _ _ => rfl), ht.sound, fun k e hk => ht.all k e (by rw [← hel]; exact hk)⟩ h2

theorem told_rounds {d : SDevice} {ord : List Nat → List Nat} (hord : ∀ l, (ord l).Perm l) {fuel : Nat} : ∀ {g g' : Graph} {prev : List Nat} {ws ws' : List Warn},
    ToldState d g ws' → rounds ord fuel g prev = .ok g' ws → ToldState d g' (ws' ++ ws) := by
  induction fuel with
  | zero => intro g g' prev ws ws' h hr; simp [rounds] at hr
  | succ f ih =>
    intro g g' prev ws ws' h hr
    simp only [rounds, M.bind_eq_ok] at hr
    obtain ⟨g1, w1, w2, h1, h2, rfl⟩ := hr
    have s1 := told_resolvePlaceholders h h1
    have := (hush_resolvePlaceholders _ _).nil h1
    subst this
    rw [List.nil_append]
    split at h2
    · simp only [M.pure_eq_ok] at h2
      obtain ⟨rfl, rfl⟩ := h2
      rw [List.append_nil]
      exact s1
    · split at h2
      · simp at h2
      · simp only [M.bind_eq_ok] at h2
        obtain ⟨g2, w3, w4, h3, h4, rfl⟩ := h2
        rw [← List.append_assoc]
        exact ih (told_processNodes hord s1 h3) h4

theorem told_initial {d : SDevice} {g : Graph} {ws : List Warn} (hr : initialization d = .ok g ws) : ToldState d g ws := by
  have := (hush_initialization d).nil hr
  subst this
  obtain ⟨lab, hl, hsu, -⟩ := lab_initialization hr
  refine ⟨inv_initialization hr, ac_initialization hr, lab, hl, hsu, fun w hw => (by cases hw), fun k e hk hp hd => ?_⟩
  have := initial_done hr ⟨e, hk, hp⟩
  subst this
  obtain ⟨-, e0, h0, h1⟩ := hl.root
  rw [hk] at h0
  injection h0 with h0
  subst h0
  exact absurd h1 hd

end Svd
