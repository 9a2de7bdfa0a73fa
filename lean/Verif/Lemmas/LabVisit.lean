import Verif.Lemmas.LabFinal
/-
Each visit of the finalisation, in the labelled graph.
-/
namespace Svd
open Graph Spec

variable {d : SDevice} {S : Pos → Pos → Prop} {g : Graph} {lab : Nat → Pos} {done : List Nat} {s s1 : FinState} {i : Nat}

/-- The invariant is kept if only the visited node changes. -/
theorem FL.next (I : FL d S g lab done s)
    (hf : ∀ j, j ≠ i → s1.g.elem? j = s.g.elem? j ∧ s1.content.lookup j = s.content.lookup j)
    (hn : ∀ e0, g.elem? i = some e0 → ∃ e, s1.g.elem? i = some e ∧ NodeNow e0 e)
    (hb : ∀ e, s1.g.elem? i = some e → ∃ e0, g.elem? i = some e0 ∧ NodeNow e0 e)
    (hg : live g i = true → GoodN d S lab s1 i)
    (hr : ∀ ps, s1.resolved = some ps → DeviceS d S ps) : FL d S g lab (i :: done) s1 := by
  refine ⟨fun j e0 hj => ?_, fun j e hj => ?_, fun j hj => ?_, fun j hj hl => ?_, hr⟩
  · by_cases h : j = i
    · subst h; exact hn e0 hj
    · rw [(hf j h).1]; exact I.node j e0 hj
  · by_cases h : j = i
    · subst h; exact hb e hj
    · rw [(hf j h).1] at hj; exact I.back j e hj
  · have h1 : j ≠ i := fun h => hj (by simp [h])
    obtain ⟨h2, h3⟩ := hf j h1
    rw [h2, h3]
    exact I.fresh j fun h => hj (by simp [h])
  · by_cases h : j = i
    · subst h; exact hg hl
    · have : j ∈ done := by
        rcases List.mem_cons.1 hj with h' | h'
        · exact absurd h' h
        · exact h'
      exact (I.good j this hl).congr (hf j h).1 (hf j h).2

/-- What is needed at the visited node. -/
theorem node_good (F : LF d S g lab) (I : FL d S g lab done s) (V : ∀ c ∈ g.successors i, c ∈ done) {e0 : ElemNode} (he : g.elem? i = some e0)
    (hlv : live g i = true) (hb : ∀ e, s1.g.elem? i = some e → NodeNow e0 e)
    (hf : e0.level = .register → Picked g s (pickField s) i (s1.fields i))
    (hr : e0.level = .peripheral ∨ e0.level = .cluster → Picked g s (pickRC s) i (s1.rcs i))
    (hk : ∀ f, e0.processed = some (.field f) → FieldOf d (lab i) ⟨f, s1.conts i⟩) : GoodN d S lab s1 i := by
  constructor
  · rintro x ⟨e, p, h1, h2, h3⟩
    cases p <;> simp [pickField, M.throw, M.pure] at h3
    subst h3
    obtain ⟨h0, h4, h5⟩ := (hb e h1).back _ h2
    cases h5
    exact hk _ h4
  · rintro x ⟨e, p, h1, h2, h3⟩
    obtain ⟨h0, h4, h5⟩ := (hb e h1).back _ h2
    cases p <;> simp [pickRC, M.throw, M.pure] at h3
    · subst h3
      exact good_clu F I he h4 h5 V hlv (hr (Or.inr (by rw [← F.proc he h4, butSize_level h5]; rfl)))
    · subst h3
      cases h5
      exact good_reg F I he h4 V hlv (hf (by rw [← F.proc he h4]; rfl))
  · rintro x ⟨e, p, h1, h2, h3⟩
    obtain ⟨h0, h4, h5⟩ := (hb e h1).back _ h2
    cases p <;> simp [pickPeripheral, M.throw, M.pure] at h3
    subst h3
    exact good_periph F I he h4 h5 V hlv (hr (Or.inl (by rw [← F.proc he h4, butSize_level h5]; rfl)))

theorem picked_nil {α : Type} {pick : Nat → Processed → M α} (h : g.successors i = []) : Picked g s pick i [] :=
  ⟨by simp, by simp [h]⟩

theorem FL.same (I : FL d S g lab done s) (hd : i ∉ done) (h1 : s1.g.elem? i = s.g.elem? i) :
    (∀ e0, g.elem? i = some e0 → ∃ e, s1.g.elem? i = some e ∧ NodeNow e0 e) ∧
    (∀ e, s1.g.elem? i = some e → ∃ e0, g.elem? i = some e0 ∧ NodeNow e0 e) := by
  rw [h1, (I.fresh i hd).1]
  exact ⟨fun e0 h => ⟨e0, h, .self e0⟩, fun e0 h => ⟨e0, h, .self e0⟩⟩

theorem visit_fl (F : LF d S g lab) (I : FL d S g lab done s) {q : List Nat} (T : Trav g (i :: q) done) {w : List Warn}
    (h : visit g s i = .ok s1 w) : FL d S g lab (i :: done) s1 := by
  have hd : i ∉ done := by
    have := T.nodup
    rw [List.cons_append, List.nodup_cons, List.mem_append] at this
    exact fun hc => this.1 (Or.inr hc)
  have V : ∀ c ∈ g.successors i, c ∈ done := T.qs i (by simp)
  have hne : ∀ c ∈ g.successors i, c ≠ i := fun c hc h => hd (h ▸ V c hc)
  obtain ⟨hfr, hlk⟩ := I.fresh i hd
  unfold visit at h
  cases ho : g.successors i with
  | nil =>
    rw [ho] at h
    simp only [M.pure_eq_ok] at h
    obtain ⟨rfl, -⟩ := h
    obtain ⟨n1, n2⟩ := I.same (s1 := s) hd rfl
    refine I.next (fun _ _ => ⟨rfl, rfl⟩) n1 n2 (fun hl => ?_) I.root
    obtain ⟨e0, he⟩ : ∃ e0, g.elem? i = some e0 := by
      unfold live at hl
      cases hg : g.elem? i with
      | none => rw [hg] at hl; simp at hl
      | some e => exact ⟨e, rfl⟩
    have hb : ∀ e, s.g.elem? i = some e → NodeNow e0 e := by
      intro e h1
      rw [hfr, he] at h1
      cases h1
      exact .self _
    refine node_good F I V he hl hb (fun _ => ?_) (fun _ => ?_) (fun f hf => ?_)
    · rw [fields_eq, hlk]; exact picked_nil ho
    · rw [rcs_eq, hlk]; exact picked_nil ho
    · rw [conts_eq, hlk]
      exact good_field F he hf hl (by simp [contsOf]) (by simp [ho]) (by simp [contsOf]) (by simp [contsOf]) (by simp [contsOf])
  | cons c0 cs0 =>
    rw [ho] at h
    simp only at h
    rw [← ho] at h
    unfold finalizeNode at h
    cases he : g.elem? i with
    | none =>
      rw [hfr, he] at h
      simp [M.throw] at h
    | some e =>
      have hes := hfr.trans he
      rw [hes] at h
      simp only at h
      have hself : ∀ (t : FinState), t.g.elem? i = s.g.elem? i → ∀ e', t.g.elem? i = some e' → NodeNow e e' := by
        intro t ht e' h1
        rw [ht, hes] at h1
        cases h1
        exact .self _
      split at h
      · rename_i ht
        rw [M.pure_eq_ok] at h
        obtain ⟨rfl, -⟩ := h
        obtain ⟨n1, n2⟩ := I.same (s1 := s) hd rfl
        refine I.next (fun _ _ => ⟨rfl, rfl⟩) n1 n2 (fun hl => ?_) I.root
        simp [live, he, ht] at hl
      · have hcont : (e.level = .peripheral ∨ e.level = .cluster) → finalizeContainerNode s i e (g.successors i) = .ok s1 w →
            FL d S g lab (i :: done) s1 := by
          intro hlev h
          unfold finalizeContainerNode at h
          simp only [M.bind_eq_ok, M.pure_eq_ok] at h
          obtain ⟨p, w1, w2, h2, ⟨m, w3, w4, h3, ⟨xs, w5, w6, h4, ⟨rfl, -⟩, -⟩, -⟩, -⟩ := h
          obtain ⟨e', h5, h6, -⟩ := procOf_ok h2
          rw [hes] at h5
          cases h5
          have hel : ∀ j, (s.g.setElem i { e with processed := some (p.withSize m) }).elem? j =
              if j = i then some { e with processed := some (p.withSize m) } else s.g.elem? j :=
            fun j => setElem_elem? (by rw [elem?_node?.1 hes]; rfl)
          have hp : procLevel p = .peripheral ∨ procLevel p = .cluster := by rw [F.proc he h6]; exact hlev
          have hnow : NodeNow e { e with processed := some (p.withSize m) } := by
            refine ⟨rfl, rfl, rfl, fun h hh => ?_, fun h hh => ?_⟩
            · cases hh
              exact ⟨p, h6, butSize_withSize hp m⟩
            · rw [h6] at hh
              cases hh
              exact ⟨_, rfl, butSize_withSize hp m⟩
          have hn1 : ∀ e', (s.g.setElem i { e with processed := some (p.withSize m) }).elem? i = some e' → NodeNow e e' := by
            intro e' h1
            rw [hel, if_pos rfl] at h1
            cases h1
            exact hnow
          refine I.next (fun j hj => ⟨?_, lookup_ne hj⟩) (fun e0 h0 => ?_) (fun e' h1 => ⟨e, he, hn1 e' h1⟩) (fun hl => ?_) I.root
          · show (s.g.setElem i _).elem? j = _
            rw [hel, if_neg hj]
          · rw [he] at h0
            cases h0
            exact ⟨_, by show (s.g.setElem i _).elem? i = _; rw [hel, if_pos rfl], hnow⟩
          · refine node_good F I V he hl hn1 (fun hh => ?_) (fun _ => ?_) (fun f hf => ?_)
            · rw [hh] at hlev; simp at hlev
            · rw [rcs_eq]
              simp only [List.lookup_cons_self, rcsOf]
              have P := picked_collect (fun _ _ _ _ h => pickRC_nw h) h4 (sortBy_perm (le := ircLe) xs)
              have hlv : ∀ c ∈ g.successors i, live (s.g.setElem i { e with processed := some (p.withSize m) }) c = live s.g c := by
                intro c hc
                unfold live
                rw [hel, if_neg (hne c hc)]
              have hpk : ∀ c ∈ g.successors i, ∀ y, PickOf { s with g := s.g.setElem i { e with processed := some (p.withSize m) } }
                  (pickRC { s with g := s.g.setElem i { e with processed := some (p.withSize m) } }) c y → PickOf s (pickRC s) c y := by
                intro c hc y hy
                refine (pick_congr (s := { s with g := s.g.setElem i { e with processed := some (p.withSize m) } }) (s' := s) ?_ rfl).2.1 y hy
                show _ = (s.g.setElem i _).elem? c
                rw [hel, if_neg (hne c hc)]
              refine ⟨fun x hx => ?_, fun c hc hl => ?_⟩
              · obtain ⟨c, h7, h8, h9⟩ := P.sub x hx
                exact ⟨c, h7, by rw [← hlv c h7]; exact h8, hpk c h7 x h9⟩
              · obtain ⟨x, h7, h8⟩ := P.all c hc (by show live (s.g.setElem i _) c = true; rw [hlv c hc]; exact hl)
                exact ⟨x, h7, hpk c hc x h8⟩
            · rw [h6] at hf
              cases hf
              simp [procLevel] at hp
        split at h
        · rename_i hl
          simp only [M.bind_eq_ok, M.pure_eq_ok] at h
          obtain ⟨ps, w1, w2, h1, ⟨rfl, -⟩, -⟩ := h
          obtain ⟨n1, n2⟩ := I.same (s1 := { s with resolved := some (sortBy ipLe ps) }) hd rfl
          refine I.next (fun _ _ => ⟨rfl, rfl⟩) n1 n2 (fun hlv => ?_) (fun ps' hps => ?_)
          · refine node_good F I V he hlv (hself _ rfl) (fun hh => ?_) (fun hh => ?_) (fun f hf => ?_)
            · rw [hl] at hh; cases hh
            · rw [hl] at hh; simp at hh
            · have := F.proc he hf
              rw [hl] at this; cases this
          · cases hps
            exact good_dev F I he hl V (picked_collect (fun _ _ _ _ h => pickPeripheral_nw h) h1 (sortBy_perm ps))
        · rename_i hl
          exact hcont (Or.inl hl) h
        · rename_i hl
          exact hcont (Or.inr hl) h
        · rename_i hl
          simp only [M.bind_eq_ok, M.pure_eq_ok] at h
          obtain ⟨_, _, _, -, ⟨fs, w1, w2, h2, ⟨rfl, -⟩, -⟩, -⟩ := h
          obtain ⟨n1, n2⟩ := I.same (s1 := { s with content := (i, .fields (sortBy ifLe fs)) :: s.content }) hd rfl
          refine I.next (fun j hj => ⟨rfl, lookup_ne hj⟩) n1 n2 (fun hlv => ?_) I.root
          refine node_good F I V he hlv (hself _ rfl) (fun hh => ?_) (fun hh => ?_) (fun f hf => ?_)
          · rw [fields_eq]
            simp only [List.lookup_cons_self, fieldsOf]
            exact picked_collect (fun _ _ _ _ h => pickField_nw h) h2 (sortBy_perm fs)
          · rw [hl] at hh; simp at hh
          · have := F.proc he hf
            rw [hl] at this; cases this
        · rename_i hl
          unfold finalizeFieldNode at h
          simp only [M.bind_eq_ok] at h
          obtain ⟨p, w1, w2, hp, h2, -⟩ := h
          obtain ⟨e', h5, h6, -⟩ := procOf_ok hp
          rw [hes] at h5
          cases h5
          have hlp := F.proc he h6
          rw [hl] at hlp
          cases p <;> simp [procLevel] at hlp
          rename_i f0
          simp only [M.bind_eq_ok] at h2
          obtain ⟨conts, w3, w4, h3, h4, -⟩ := h2
          split at h4
          · simp [M.throw] at h4
          rename_i hc1
          split at h4
          · simp [M.throw] at h4
          rename_i hc2
          split at h4
          · simp [M.throw] at h4
          rename_i hc3
          rw [M.pure_eq_ok] at h4
          obtain ⟨rfl, -⟩ := h4
          obtain ⟨n1, n2⟩ := I.same (s1 := { s with content := (i, .conts conts) :: s.content }) hd rfl
          refine I.next (fun j hj => ⟨rfl, lookup_ne hj⟩) n1 n2 (fun hlv => ?_) I.root
          refine node_good F I V he hlv (hself _ rfl) (fun hh => ?_) (fun hh => ?_) (fun f hf => ?_)
          · rw [hl] at hh; cases hh
          · rw [hl] at hh; simp at hh
          · rw [h6] at hf
            cases hf
            rw [conts_eq]
            simp only [List.lookup_cons_self, contsOf]
            have hE := each_entrywise (M.mapM_eq_ok.1 h3)
            have hstep : ∀ c k w, (match s.g.elem? c with
                | none => M.throw .attributeError
                | some ce => match ce.parsed with
                  | .enum ec => createContainer ec f0.lsb f0.msb
                  | _ => M.throw .attributeError) = .ok k w →
                ∃ ec c' w, g.elem? c = some ec ∧ ec.parsed = .enum c' ∧ createContainer c' f0.lsb f0.msb = .ok k w := by
              intro c k w hw
              cases hc : s.g.elem? c with
              | none => rw [hc] at hw; simp [M.throw] at hw
              | some ce =>
                rw [hc] at hw
                simp only at hw
                obtain ⟨e0, h7, h8⟩ := I.back _ _ hc
                rw [h8.parsed] at hw
                cases hpp : e0.parsed <;> rw [hpp] at hw <;> simp [M.throw] at hw
                exact ⟨e0, _, w, h7, hpp, hw⟩
            refine good_field F he h6 hlv (fun k hk => ?_) (fun c hc => ?_) ?_ (by omega) ?_
            · obtain ⟨c, h7, w, h8⟩ := entrywise_right hE hk
              exact ⟨c, h7, hstep c k w h8⟩
            · obtain ⟨k, h7, w, h8⟩ := entrywise_left' hE hc
              exact ⟨k, h7, hstep c k w h8⟩
            · refine eraseDups_length_nodup _ ?_
              simpa using hc1
            · intro hl k hkm
              simp only [Bool.and_eq_true, decide_eq_true_eq, Bool.not_eq_true', List.all_eq_false, List.mem_map, not_and, not_exists,
                Bool.or_eq_true, beq_iff_eq] at hc3
              refine Classical.byContradiction fun hcc => ?_
              exact hc3 hl k.usage ⟨k, hkm, rfl⟩ hcc
        · simp [M.throw] at h

theorem FL.start : FL d S g lab [] { g := g } :=
  ⟨fun _ e h => ⟨e, h, .self e⟩, fun _ e h => ⟨e, h, .self e⟩, fun _ _ => ⟨rfl, rfl⟩, by simp, by simp⟩

/-- The labelled graph at the end of an accepted run. -/
theorem resolve_lf' {ord : List Nat → List Nat} (hord : ∀ l, (ord l).Perm l) {fuel : Nat} {d : SDevice} {ps : List IPeripheral}
    {ws : List Warn} (h : resolvePeripherals ord fuel d = .ok ps ws) :
    ∃ g0 g s lab w0 w1 w, LF d (Stray d) g lab ∧ Sur d g lab ∧ finalizeProcessing g = .ok s w ∧ s.resolved = some ps ∧
      initialization d = .ok g0 w0 ∧ rounds ord fuel g0 [] = .ok g w1 := by
  obtain ⟨g0, g, s, w1, w2, w3, h1, h2, h3, h4, h5, -⟩ := resolve_graph h
  have L := lab_rounds hord ⟨inv_initialization h1, ac_initialization h1, (lab_initialization h1).imp fun _ h => ⟨h.1, h.2.1⟩⟩ h2
  obtain ⟨lab, hl, hsu⟩ := L.lab
  refine ⟨g0, g, s, lab, w1, w2, w3, ⟨L.inv, fun i c hd => Or.inr (hl.der _ _ hd), hl, fun i e he => ?_, fun x y h => Or.inl h, fun x y => stray_kind⟩, hsu, h4, h5, h1, h2⟩
  cases hp : e.isProcessed with
  | true => rfl
  | false =>
    have : i ∈ g.unprocessed := mem_unprocessed he hp
    rw [h3] at this
    cases this

theorem resolve_lf {ord : List Nat → List Nat} (hord : ∀ l, (ord l).Perm l) {fuel : Nat} {d : SDevice} {ps : List IPeripheral}
    {ws : List Warn} (h : resolvePeripherals ord fuel d = .ok ps ws) :
    ∃ g s lab w, LF d (Stray d) g lab ∧ Sur d g lab ∧ finalizeProcessing g = .ok s w ∧ s.resolved = some ps := by
  obtain ⟨_, g, s, lab, _, _, w, h1, h2, h3, h4, -⟩ := resolve_lf' hord h
  exact ⟨g, s, lab, w, h1, h2, h3, h4⟩

theorem LF.deviceS {d : SDevice} {S : Pos → Pos → Prop} {g : Graph} {lab : Nat → Pos} {s : FinState} {w : List Warn} {ps : List IPeripheral}
    (F : LF d S g lab) (h4 : finalizeProcessing g = .ok s w) (h5 : s.resolved = some ps) : DeviceS d S ps := by
  obtain ⟨done', -, I⟩ := bottomUp_trav (FL d S g lab) (fun i q done s s1 w T I hv => visit_fl F I T hv) _ _ _ _ _ _ (Trav.start g)
    FL.start h4
  exact I.root ps h5

/-- The resolved peripherals are those the declaration describes, whatever is derived from what. -/
theorem resolve_deviceOf {ord : List Nat → List Nat} (hord : ∀ l, (ord l).Perm l) {fuel : Nat} {d : SDevice} {ps : List IPeripheral}
    {ws : List Warn} (h : resolvePeripherals ord fuel d = .ok ps ws) : DeviceOf d ps := by
  obtain ⟨g, s, lab, w, F, -, h4, h5⟩ := resolve_lf hord h
  exact devices_deviceOf (fun _ _ h => h) (F.deviceS h4 h5)

/-- Every declared element (enumeratedValues excepted) has its derivation chain. -/
theorem resolve_chain {ord : List Nat → List Nat} (hord : ∀ l, (ord l).Perm l) {fuel : Nat} {d : SDevice} {ps : List IPeripheral}
    {ws : List Warn} (h : resolvePeripherals ord fuel d = .ok ps ws) {x : Pos} {p : Parsed} (hp : DeclAt d x p) (hl : p.level ≠ .enumcont) :
    ∃ l, Chain d x l := by
  obtain ⟨g, s, lab, w, F, S, -, -⟩ := resolve_lf hord h
  obtain ⟨k, ⟨e, he⟩, rfl⟩ := S x p hp
  obtain ⟨q, hq⟩ := F.lab.node _ _ he
  have hpq := declAt_unique hp hq.decl
  subst hpq
  obtain ⟨l, h1, -, -⟩ := F.chain he (by rw [hq.level]; exact hl)
  exact ⟨l, h1⟩

/-- Every declared `enumeratedValues` takes its values from somewhere. -/
theorem resolve_takes {ord : List Nat → List Nat} (hord : ∀ l, (ord l).Perm l) {fuel : Nat} {d : SDevice} {ps : List IPeripheral}
    {ws : List Warn} (h : resolvePeripherals ord fuel d = .ok ps ws) {x : Pos} {c : SEnumContainer} (hp : DeclAt d x (.enum c)) :
    ∃ c', Takes d x c' := by
  obtain ⟨g, s, lab, w, F, S, -, -⟩ := resolve_lf hord h
  obtain ⟨k, ⟨e, he⟩, rfl⟩ := S x _ hp
  obtain ⟨q, hq⟩ := F.lab.node _ _ he
  have hpq := declAt_unique hp hq.decl
  subst hpq
  obtain ⟨-, c', -, h5, -⟩ := hq.enum c rfl
  exact ⟨c', h5 (F.done _ _ he)⟩

end Svd
