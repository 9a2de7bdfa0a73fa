import Verif.Lemmas.FinGo
/-
The finalisation of a tidy graph, node by node.
-/
namespace Svd
open Graph Spec M

variable {d : SDevice} {g : Graph} {lab : Nat → Pos}

/-! ### the tidy graph -/

theorem Tidy.succ (T : Tidy d g lab) {i c : Nat} : c ∈ g.successors i ↔ Ch g i c := by
  rw [mem_successors]
  constructor
  · rintro ⟨e, he, rfl, rfl⟩
    exact T.edges e he
  · intro h
    obtain ⟨e, he, h1, h2, -⟩ := ch_iff.1 h
    exact ⟨e, he, h1, h2⟩

theorem Tidy.elem (T : Tidy d g lab) {i c : Nat} (h : Ch g i c) : ∃ ei ec, g.elem? i = some ei ∧ g.elem? c = some ec ∧ childKind ei.level ec.level = true := by
  obtain ⟨⟨ei, hi⟩, ec, hc⟩ := T.at_.lab.tch _ _ h
  exact ⟨ei, ec, hi, hc, ch_kind T.at_ hi hc h⟩

/-- An element with children has one that is not a dim template. -/
theorem Tidy.live (hb : ∀ x, ¬ Precedes d x x) (T : Tidy d g lab) {i c : Nat} {e : ElemNode} (he : g.elem? i = some e) (hc : Ch g i c) :
    ∃ l, ChainOf d (lab i) e l ∧ (∀ c, Ch g i c → InChain d l (lab c)) ∧
      (e.level ≠ .field → ∃ j ej, Ch g i j ∧ g.elem? j = some ej ∧ ej.isDimTemplate = false) := by
  have hle : e.level ≠ .enumcont := by
    obtain ⟨ei, ec, h1, h2, h3⟩ := T.elem hc
    rw [he] at h1
    cases h1
    intro h
    rw [h] at h3
    cases ec.level <;> cases h3
  obtain ⟨l, hl, hcon⟩ := T.at_.lab.cont i e (by simp) he hle
  have hin : ∀ c, Ch g i c → InChain d l (lab c) := fun c hc => (hcon.sub c hc).resolve_right (not_nested hb)
  refine ⟨l, hl, hin, fun hnf => ?_⟩
  rcases hcon.all _ (hin c hc) with ⟨z, -, h1, h2⟩ | ⟨c', e', h1, h2, h3, h4⟩
  · exact (not_endless hb h1 (.one h2)).elim
  · rcases h4 with h4 | h4 | ⟨k, hs, h5, h6⟩
    · rw [T.all _ _ h2] at h4; cases h4
    · obtain ⟨ei, ec, h5, h6, h7⟩ := T.elem h1
      rw [he] at h5
      rw [h2] at h6
      cases h5
      cases h6
      rw [h4] at h7
      exfalso
      revert h7 hnf
      cases e.level <;> simp [childKind]
    · obtain ⟨p, b, -, -, isDim, names, ds, w, xs, w', -, -, hne, rfl⟩ := h5
      cases xs with
      | nil => exact absurd rfl hne
      | cons x xs =>
        obtain ⟨j, h7, ej, h8, -, -, h9, -⟩ := h6 _ (by rw [List.map_cons]; exact List.mem_cons_self)
        exact ⟨j, ej, h7, h8, h9⟩

/-! ### the state -/

structure Run (d : SDevice) (g : Graph) (done : List Nat) (s : FinState) : Prop where
  fin : FinInv d (fun _ => True) g s
  edges : s.g.edges = g.edges
  elems : ∀ i e0, g.elem? i = some e0 → ∃ e, s.g.elem? i = some e
  nonneg : ∀ i e x z, s.g.elem? i = some e → e.processed = some x → sizeOfP x = some z → 0 ≤ z
  res : 0 ∈ done → g.successors 0 ≠ [] → s.resolved.isSome

theorem run_start (hn : AllN (NodeOK d) g) (hz : ∀ p, Declared d p → ∀ z, statedSize p = some z → 0 ≤ z) : Run d g [] { g := g } := by
  refine ⟨⟨?_, ?_, ?_⟩, rfl, fun i e h => ⟨e, h⟩, ?_, by simp⟩
  · intro i e he
    exact ⟨e, he, e.processed, rfl, Or.inl rfl⟩
  · intro i c hc
    simp at hc
  · intro ps hps
    simp at hps
  · intro i e x z he hx hs
    obtain ⟨-, -, ch, hm⟩ := (hn.elem he).2.2.2.1 x hx
    obtain ⟨p, h1, h2⟩ := made_size hm z hs
    exact hz p h1 z h2

/-- What a node has become. -/
theorem Run.elem {done : List Nat} {s : FinState} (R : Run d g done s) (T : Tidy d g lab) {i : Nat} {e0 : ElemNode} (h0 : g.elem? i = some e0) :
    ∃ e, s.g.elem? i = some e ∧ NodeRel e0 e ∧ e.level = e0.level ∧ e.isDimTemplate = e0.isDimTemplate ∧ e.parsed = e0.parsed ∧
      (e.level ≠ .device → e.level ≠ .enumcont → ∃ x, e.processed = some x ∧ procLevel x = e.level) := by
  obtain ⟨e, he⟩ := R.elems i e0 h0
  obtain ⟨e1, h1, h2⟩ := R.fin.nodes i e he
  rw [h0] at h1
  cases h1
  refine ⟨e, he, h2, ?_⟩
  obtain ⟨o, rfl, h3⟩ := h2
  refine ⟨rfl, rfl, rfl, fun h4 h5 => ?_⟩
  have hn := T.at_.inv.nodes.elem h0
  obtain ⟨y, hy⟩ := Option.isSome_iff_exists.1 (hn.2.2.2.2 (T.all _ _ h0) h4 h5)
  have key : procLevel y = e0.level := by
    obtain ⟨-, -, ch, hm⟩ := hn.2.2.2.1 y hy
    have := made_kind hm
    rw [hn.2.1]
    cases y <;> exact this.symm
  rcases h3 with h3 | ⟨-, x, z, h6, h7⟩
  · exact ⟨y, by rw [← hy]; exact h3, key⟩
  · rw [hy] at h6
    cases h6
    exact ⟨_, h7, by rw [procLevel_withSize]; exact key⟩

theorem Run.sized {done : List Nat} {s : FinState} (R : Run d g done s) (T : Tidy d g lab) : Sized s.g := by
  have hel : ∀ i e, s.g.elem? i = some e → ∃ e0, g.elem? i = some e0 ∧ NodeRel e0 e := R.fin.nodes
  have par : ∀ i p, p ∈ s.g.elementParents i ↔ Ch g p i := by
    intro i p
    constructor
    · intro h
      obtain ⟨ed, h3, h4, h5, h6, -⟩ := elementParents_edge h
      rw [R.edges] at h3
      exact ch_iff.2 ⟨ed, h3, h4, h5, h6⟩
    · intro h
      obtain ⟨e, h1, rfl, rfl, h2⟩ := ch_iff.1 h
      obtain ⟨⟨ei, hi⟩, -⟩ := T.at_.lab.tch _ _ h
      obtain ⟨e', he'⟩ := R.elems _ _ hi
      unfold Graph.elementParents Graph.inEdges
      simp only [List.mem_map, List.mem_filter, beq_iff_eq, Bool.and_eq_true]
      refine ⟨e, ⟨⟨by rw [R.edges]; exact h1, rfl⟩, isE_iff.2 ⟨e', he'⟩, h2⟩, rfl⟩
  refine ⟨?_, ?_, ?_, ?_, ?_, R.nonneg⟩
  · rw [R.edges]; exact T.at_.ac
  · intro i e he hd
    obtain ⟨e0, h0, o, rfl, -⟩ := hel i e he
    rcases T.up i ⟨e0, h0⟩ with rfl | ⟨a, ha⟩
    · obtain ⟨-, er, hr, hl⟩ := T.at_.lab.root
      rw [h0] at hr
      cases hr
      exact absurd hl hd
    · exact ⟨a, (par _ _).2 ha⟩
  · intro p i ep e hp hep he
    obtain ⟨ep0, h0, o, rfl, -⟩ := hel p ep hep
    obtain ⟨e0, h1, o1, rfl, -⟩ := hel i e he
    have := ch_kind T.at_ h0 h1 ((par _ _).1 hp)
    exact this
  · intro p i hp
    obtain ⟨⟨ei, hi⟩, -⟩ := T.at_.lab.tch _ _ ((par _ _).1 hp)
    exact R.elems _ _ hi
  · intro i e he h1 h2
    obtain ⟨e0, h0, -⟩ := hel i e he
    obtain ⟨e', he', -, -, -, -, h3⟩ := R.elem T h0
    rw [he] at he'
    cases he'
    exact h3 h1 h2

/-! ### containers of enumerated values -/

theorem pairs_ok {cs : List Nat} {u : Nat → SEnumContainer} (hn : cs.Nodup) (h : ∀ a ∈ cs, ∀ b ∈ cs, a ≠ b →
    ((u a).usage = some .read ∧ (u b).usage = some .write) ∨ ((u a).usage = some .write ∧ (u b).usage = some .read)) : UsagesOK (cs.map u) := by
  match cs, hn, h with
  | [], _, _ => exact Or.inl (by simp)
  | [a], _, _ => exact Or.inl (by simp)
  | [a, b], hn, h =>
    refine Or.inr ⟨u a, u b, rfl, h a (by simp) b (by simp) ?_⟩
    rintro rfl
    simp at hn
  | a :: b :: c :: l, hn, h =>
    exfalso
    simp only [List.nodup_cons, List.mem_cons, not_or] at hn
    have h1 := h a (by simp) b (by simp) hn.1.1
    have h2 := h a (by simp) c (by simp) hn.1.2.1
    have h3 := h b (by simp) c (by simp) hn.2.1.1
    rcases h1 with ⟨h1, h1'⟩ | ⟨h1, h1'⟩ <;> rcases h2 with ⟨h2, h2'⟩ | ⟨h2, h2'⟩ <;> rcases h3 with ⟨h3, h3'⟩ | ⟨h3, h3'⟩ <;> simp_all

theorem fieldNode_total {s : FinState} {i : Nat} {cs : List Nat} {e : ElemNode} {f : IFieldHd} {u : Nat → SEnumContainer} (he : s.g.elem? i = some e)
    (hp : e.processed = some (.field f)) (hk : ∀ c ∈ cs, ∃ ce, s.g.elem? c = some ce ∧ ce.parsed = .enum (u c) ∧ EnumFits (u c) (f.msb - f.lsb + 1))
    (hu : UsagesOK (cs.map u)) : ∃ s1 w, finalizeFieldNode s i cs = .ok s1 w ∧ s1.g = s.g ∧ s1.resolved = s.resolved := by
  unfold finalizeFieldNode
  rw [procOf_eq he hp, M.bind_ok_nil]
  simp only
  have hmap : ∃ conts w, M.mapM (fun c => match s.g.elem? c with
      | none => M.throw .attributeError
      | some ce => match ce.parsed with
        | .enum ec => createContainer ec f.lsb f.msb
        | _ => M.throw .attributeError) cs = .ok conts w ∧
      conts.map (·.usage) = (cs.map u).map fun c => c.usage.getD .readWrite := by
    clear hu
    induction cs with
    | nil => exact ⟨[], [], rfl, rfl⟩
    | cons c l ih =>
      obtain ⟨conts, w, h2, h3⟩ := ih fun c hc => hk c (by simp [hc])
      obtain ⟨ce, h6, h7, h8⟩ := hk c (by simp)
      obtain ⟨k, w', hk⟩ := container_accepted (lsb := f.lsb) (msb := f.msb) h8 rfl
      refine ⟨k :: conts, _, M.mapM_eq_ok.2 (.cons (by simp only [h6, h7]; exact hk) (M.mapM_eq_ok.1 h2)), ?_⟩
      simp only [List.map_cons, h3]
      congr 1
      unfold createContainer at hk
      simp only [M.bind_eq_ok, M.pure_eq_ok] at hk
      obtain ⟨vs, _, _, _, ⟨hk, -⟩, -⟩ := hk
      rw [← hk]
  obtain ⟨conts, w, hm, hus⟩ := hmap
  obtain ⟨hu1, hu2, hu3⟩ := usages_accepted hu
  have hlen2 : conts.length = (cs.map u).length := by
    have := congrArg List.length hus
    simpa using this
  have hnod : (conts.map (·.usage)).Nodup := by
    rw [hus]
    exact hu1
  have hc1 : ¬ ((conts.map (·.usage)).length ≠ (conts.map (·.usage)).eraseDups.length) := by
    rw [eraseDups_of_nodup _ hnod]
    simp
  have hc3 : (decide (conts.length = 2) && !((conts.map (·.usage)).all fun u => u == .read || u == .write)) = false := by
    by_cases h2 : conts.length = 2
    · have : ((conts.map (·.usage)).all fun u => u == .read || u == .write) = true := by
        rw [List.all_eq_true]
        intro v hum
        rw [hus] at hum
        obtain ⟨c, hc, rfl⟩ := List.mem_map.1 hum
        rcases hu3 (by omega) c hc with h | h <;> rw [h] <;> rfl
      rw [this]
      simp
    · simp [h2]
  have : M.bind (M.ok conts w) (fun conts =>
      if (conts.map (·.usage)).length ≠ ((conts.map (·.usage)).eraseDups).length then M.throw .enumContainer
      else if conts.length > 2 then M.throw .enumContainer
      else if (decide (conts.length = 2) && !((conts.map (·.usage)).all fun u => u == .read || u == .write)) = true then M.throw .enumContainer
      else M.pure ({ s with content := (i, .conts conts) :: s.content } : FinState)) =
      .ok ({ s with content := (i, .conts conts) :: s.content } : FinState) (w ++ []) := by
    simp only [M.bind]
    rw [if_neg hc1, if_neg (by omega), if_neg (by rw [hc3]; simp)]
    rfl
  exact ⟨_, _, Eq.trans (congrArg (fun m => M.bind m _) hm) this, rfl, rfl⟩

/-! ### registers and clusters -/

theorem containerNode_total {s : FinState} {i : Nat} {cs : List Nat} {e : ElemNode} {x : Processed} (S : Sized s.g) (he : s.g.elem? i = some e)
    (hp : e.processed = some x) (hi : i ∉ cs) (hk : ∀ c ∈ cs, ∃ ce, s.g.elem? c = some ce ∧ (ce.level = .cluster ∨ ce.level = .register))
    (hlive : ∃ c ∈ cs, ∃ ce, s.g.elem? c = some ce ∧ ce.isDimTemplate = false) :
    ∃ s1 w z, finalizeContainerNode s i e cs = .ok s1 w ∧ 0 ≤ z ∧ s1.g = s.g.setElem i { e with processed := some (x.withSize z) } ∧
      s1.resolved = s.resolved := by
  obtain ⟨z, w0, h1, h2⟩ := calculateSize_total S hk hlive
  unfold finalizeContainerNode
  rw [procOf_eq he hp, M.bind_ok_nil, h1]
  simp only
  have hel : ∀ j, (s.g.setElem i { e with processed := some (x.withSize z) }).elem? j =
      if j = i then some { e with processed := some (x.withSize z) } else s.g.elem? j :=
    fun j => setElem_elem? (by rw [elem?_node?.1 he]; rfl)
  generalize hs1 : ({ s with g := s.g.setElem i { e with processed := some (x.withSize z) } } : FinState) = s1
  have hg : s1.g = s.g.setElem i { e with processed := some (x.withSize z) } := by rw [← hs1]
  have hres : s1.resolved = s.resolved := by rw [← hs1]
  obtain ⟨xs, w, hc⟩ := collect_total (s := s1) (pick := pickRC s1) (cs := cs) (by
    intro c hc
    obtain ⟨ce, h3, h4⟩ := hk c hc
    have hel1 : s1.g.elem? c = some ce := by rw [hg, hel, if_neg (by rintro rfl; exact hi hc)]; exact h3
    refine ⟨ce, hel1, fun _ => ?_⟩
    obtain ⟨y, hy, hyl⟩ := S.proc c ce h3 (by rcases h4 with h | h <;> rw [h] <;> decide) (by rcases h4 with h | h <;> rw [h] <;> decide)
    have : ∃ o, pickRC s1 c y = .ok o [] := by
      rcases h4 with h | h <;> rw [h] at hyl <;> cases y <;> first | (cases hyl; done) | exact ⟨_, rfl⟩
    obtain ⟨o, ho⟩ := this
    exact ⟨o, ce, y, hel1, hy, ho⟩)
  refine ⟨{ s1 with content := (i, .rcs (sortBy ircLe xs)) :: s1.content }, w0 ++ (w ++ []), z, ?_, h2, hg, hres⟩
  simp only [M.bind, hs1, hc, M.pure]
  rw [← hs1]

/-! ### a step -/

/-- The change of the graph by a step. -/
def SizeSet (s s1 : FinState) (i : Nat) : Prop :=
  s1.g = s.g ∨ ∃ e x z, s.g.elem? i = some e ∧ e.processed = some x ∧ 0 ≤ z ∧ s1.g = s.g.setElem i { e with processed := some (x.withSize z) }

theorem Run.next {done : List Nat} {s s1 : FinState} {i : Nat} (R : Run d g done s) (hf : FinInv d (fun _ => True) g s1) (he : s1.g.edges = s.g.edges)
    (hc : SizeSet s s1 i) (hr : s.resolved.isSome → s1.resolved.isSome) (h0 : i = 0 → g.successors 0 ≠ [] → s1.resolved.isSome) : Run d g (i :: done) s1 := by
  refine ⟨hf, he.trans R.edges, ?_, ?_, ?_⟩
  · intro j e0 h
    obtain ⟨e, h1⟩ := R.elems j e0 h
    rcases hc with hc | ⟨e', x, z, h2, -, -, hc⟩
    · exact ⟨e, by rw [hc]; exact h1⟩
    · rw [hc, setElem_elem? (by rw [elem?_node?.1 h2]; rfl)]
      split
      · exact ⟨_, rfl⟩
      · exact ⟨e, h1⟩
  · intro j e x z hj hx hs
    rcases hc with hc | ⟨e', x', z', h2, h3, h4, hc⟩
    · exact R.nonneg j e x z (by rw [← hc]; exact hj) hx hs
    · rw [hc, setElem_elem? (by rw [elem?_node?.1 h2]; rfl)] at hj
      split at hj
      · cases hj
        cases hx
        rw [withSize_size _ _ _ hs]
        exact h4
      · exact R.nonneg j e x z hj hx hs
  · intro h1 h2
    rcases List.mem_cons.1 h1 with h1 | h1
    · exact h0 h1.symm h2
    · exact hr (R.res h1 h2)

theorem visit_run (hr : Resolvable d) (T : Tidy d g lab) {i : Nat} {done : List Nat} {s : FinState} (R : Run d g done s) :
    ∃ s1 w, visit g s i = .ok s1 w ∧ Run d g (i :: done) s1 := by
  have hb : ∀ x, ¬ Precedes d x x := hr.follow.acyclic
  have S := R.sized T
  unfold visit
  cases hsuc : g.successors i with
  | nil => exact ⟨s, [], rfl, R.next R.fin rfl (Or.inl rfl) id (by rintro rfl h; exact absurd hsuc h)⟩
  | cons c0 cs0 =>
    simp only
    rw [← hsuc]
    have hch : ∀ c, c ∈ g.successors i ↔ Ch g i c := fun c => T.succ
    have hc0 : Ch g i c0 := (hch c0).1 (by rw [hsuc]; simp)
    obtain ⟨ei0, -, hi0, -⟩ := T.elem hc0
    obtain ⟨e, he, hrel, hlv, htm, hpa, hpr⟩ := R.elem T hi0
    obtain ⟨l, hco, hin, hlive⟩ := T.live hb hi0 hc0
    have hii : i ∉ g.successors i := fun h => by
      obtain ⟨ed, h1, h2, h3⟩ := mem_successors.1 h
      have h4 : Conn g.edges ed.src ed.dst := .edge h1
      rw [h2, h3] at h4
      exact T.at_.ac i h4
    -- the children
    have hkid : ∀ c ∈ g.successors i, ∃ ce0 ce, g.elem? c = some ce0 ∧ s.g.elem? c = some ce ∧ ce.level = ce0.level ∧ ce.parsed = ce0.parsed ∧
        childKind e.level ce.level = true ∧ (ce.level ≠ .device → ce.level ≠ .enumcont → ∃ x, ce.processed = some x ∧ procLevel x = ce.level) := by
      intro c hc
      obtain ⟨ei', ec, h1, h2, h3⟩ := T.elem ((hch c).1 hc)
      rw [hi0] at h1
      cases h1
      obtain ⟨ce, h4, -, h5, -, h6, h7⟩ := R.elem T h2
      exact ⟨ec, ce, h2, h4, h5, h6, by rw [hlv, h5]; exact h3, h7⟩
    have hlive' : e.level ≠ .field → ∃ c ∈ g.successors i, ∃ ce, s.g.elem? c = some ce ∧ ce.isDimTemplate = false := by
      intro h
      obtain ⟨j, ej, h1, h2, h3⟩ := hlive (by rw [← hlv]; exact h)
      obtain ⟨ce, h4, -, -, h5, -⟩ := R.elem T h2
      exact ⟨j, (hch j).2 h1, ce, h4, by rw [h5]; exact h3⟩
    have fin : ∀ s1 w, finalizeNode s i (g.successors i) = .ok s1 w → SizeSet s s1 i → (s.resolved.isSome → s1.resolved.isSome) →
        (i = 0 → s1.resolved.isSome) → ∃ s1 w, finalizeNode s i (g.successors i) = .ok s1 w ∧ Run d g (i :: done) s1 := by
      intro s1 w h1 h2 h3 h4
      exact ⟨s1, w, h1, R.next (finalizeNode_inv R.fin T.at_.inv.nodes h1 fun _ _ => trivial) (finalizeNode_edges h1) h2 h3 fun h _ => h4 h⟩
    have notzero : e.level ≠ .device → ∀ P : Prop, i = 0 → P := by
      rintro h P rfl
      obtain ⟨-, er, hr, hl⟩ := T.at_.lab.root
      rw [hi0] at hr
      cases hr
      exact absurd (hlv.trans hl) h
    have hnode : finalizeNode s i (g.successors i) = (if e.isDimTemplate then M.pure s
      else match e.level with
        | .device => M.bind (collect s (pickPeripheral s) (g.successors i)) fun ps => M.pure { s with resolved := some (sortBy ipLe ps) }
        | .peripheral => finalizeContainerNode s i e (g.successors i)
        | .cluster => finalizeContainerNode s i e (g.successors i)
        | .register =>
          M.bind (procOf s.g i) fun _ =>
          M.bind (collect s (pickField s) (g.successors i)) fun fs =>
          M.pure { s with content := (i, .fields (sortBy ifLe fs)) :: s.content }
        | .field => finalizeFieldNode s i (g.successors i)
        | .enumcont => M.throw (.resolve 345)) := by
      unfold finalizeNode
      rw [he]
      simp only
      split
      · rfl
      · cases e.level <;> rfl
    have cont : e.isDimTemplate = false → e.level = .peripheral ∨ e.level = .cluster →
        ∃ s1 w, finalizeNode s i (g.successors i) = .ok s1 w ∧ Run d g (i :: done) s1 := by
      intro ht hl
      obtain ⟨x, hx, -⟩ := hpr (by rcases hl with h | h <;> rw [h] <;> decide) (by rcases hl with h | h <;> rw [h] <;> decide)
      obtain ⟨s1, w, z, h1, h2, h3, h4⟩ := containerNode_total S he hx hii (fun c hc => by
        obtain ⟨-, ce, -, h2, -, -, h3, -⟩ := hkid c hc
        refine ⟨ce, h2, ?_⟩
        rcases hl with h | h <;> rw [h] at h3 <;> revert h3 <;> cases ce.level <;> simp [childKind]) (hlive' (by rcases hl with h | h <;> rw [h] <;> decide))
      refine fin s1 w ?_ (Or.inr ⟨e, x, z, he, hx, h2, h3⟩) (by rw [h4]; exact id) (notzero (by rcases hl with h | h <;> rw [h] <;> decide) _)
      rw [hnode, ht]
      rcases hl with h | h <;> rw [h] <;> exact h1
    cases ht : e.isDimTemplate with
    | true =>
      refine fin s [] (by rw [hnode, ht]; rfl) (Or.inl rfl) id ?_
      rintro rfl
      obtain ⟨er, h1, h2, -⟩ := T.root
      rw [hi0] at h1
      cases h1
      rw [htm, h2] at ht
      cases ht
    | false =>
      cases hl : e.level with
      | device =>
        obtain ⟨ps, w, hc⟩ := collect_total (s := s) (pick := pickPeripheral s) (cs := g.successors i) (by
          intro c hc
          obtain ⟨-, ce, -, h2, -, -, h3, h4⟩ := hkid c hc
          have hl' : ce.level = .peripheral := by
            rw [hl] at h3
            revert h3
            cases ce.level <;> simp [childKind]
          obtain ⟨x, hx, hxl⟩ := h4 (by rw [hl']; decide) (by rw [hl']; decide)
          rw [hl'] at hxl
          refine ⟨ce, h2, fun _ => ?_⟩
          cases x with
          | periph h => exact ⟨_, ce, _, h2, hx, rfl⟩
          | _ => cases hxl)
        refine fin { s with resolved := some (sortBy ipLe ps) } (w ++ []) (by rw [hnode, ht, hl]; simp only [Bool.false_eq_true, if_false]; rw [hc]; rfl) (Or.inl rfl) (fun _ => rfl) (fun _ => rfl)
      | peripheral => exact cont ht (Or.inl hl)
      | cluster => exact cont ht (Or.inr hl)
      | register =>
        obtain ⟨x, hx, -⟩ := hpr (by rw [hl]; decide) (by rw [hl]; decide)
        obtain ⟨fs, w, hc⟩ := collect_total (s := s) (pick := pickField s) (cs := g.successors i) (by
          intro c hc
          obtain ⟨-, ce, -, h2, -, -, h3, h4⟩ := hkid c hc
          have hl' : ce.level = .field := by
            rw [hl] at h3
            revert h3
            cases ce.level <;> simp [childKind]
          obtain ⟨x, hx, hxl⟩ := h4 (by rw [hl']; decide) (by rw [hl']; decide)
          rw [hl'] at hxl
          refine ⟨ce, h2, fun _ => ?_⟩
          cases x with
          | field h => exact ⟨_, ce, _, h2, hx, rfl⟩
          | _ => cases hxl)
        refine fin { s with content := (i, .fields (sortBy ifLe fs)) :: s.content } (w ++ []) (by rw [hnode, ht, hl]; simp only [Bool.false_eq_true, if_false]; rw [procOf_eq he hx, M.bind_ok_nil, hc]; rfl) (Or.inl rfl) id (notzero (by rw [hl]; decide) _)
      | field =>
        obtain ⟨x, hx, hxl⟩ := hpr (by rw [hl]; decide) (by rw [hl]; decide)
        rw [hl] at hxl
        cases x with
        | field f =>
          have hx0 := hrel.field hx
          obtain ⟨hs, hst, hmem⟩ := hco.inst _ hx0 (by rw [← htm]; exact ht)
          have hinst : Instance d (lab i) l (.field f) := ⟨hs, standsAlong_of hst, hmem⟩
          have hc : ∀ c ∈ g.successors i, ∃ ec, (∃ ce, s.g.elem? c = some ce ∧ ce.parsed = .enum ec) ∧ Takes d (lab c) ec ∧ InChain d l (lab c) ∧
              ∃ p, DeclAt d (lab c) p ∧ p.level = .enumcont := by
            intro c hc
            obtain ⟨ce0, ce, h1, h2, h3, h4, h5, -⟩ := hkid c hc
            have hl' : ce0.level = .enumcont := by
              rw [hl, h3] at h5
              revert h5
              cases ce0.level <;> simp [childKind]
            obtain ⟨p, hp⟩ := T.at_.lab.node c ce0 h1
            have hpl := hp.level
            rw [hl'] at hpl
            have : ∃ k, p = .enum k := by
              cases p <;> simp [Parsed.level] at hpl
              exact ⟨_, rfl⟩
            obtain ⟨k, rfl⟩ := this
            obtain ⟨-, ec, h6, h7, -⟩ := hp.enum k rfl
            exact ⟨ec, ⟨ce, h2, h4.trans h6⟩, h7 (T.all _ _ h1), hin c ((hch c).1 hc), _, hp.decl, rfl⟩
          let u : Nat → SEnumContainer := fun c => if h : c ∈ g.successors i then (hc c h).choose else { values := [] }
          have hu : ∀ c ∈ g.successors i, (∃ ce, s.g.elem? c = some ce ∧ ce.parsed = .enum (u c)) ∧ Takes d (lab c) (u c) ∧ InChain d l (lab c) ∧
              ∃ p, DeclAt d (lab c) p ∧ p.level = .enumcont := by
            intro c h
            have := (hc c h).choose_spec
            show (∃ ce, s.g.elem? c = some ce ∧ ce.parsed = .enum (if h : c ∈ g.successors i then (hc c h).choose else { values := [] })) ∧
              Takes d (lab c) (if h : c ∈ g.successors i then (hc c h).choose else { values := [] }) ∧ _
            rw [dif_pos h]
            exact this
          obtain ⟨s1, w, h1, h2, h3⟩ := fieldNode_total (s := s) (i := i) (cs := g.successors i) (u := u) he hx (fun c h => by
            obtain ⟨⟨ce, h1, h2⟩, h3, h4, -⟩ := hu c h
            exact ⟨ce, h1, h2, hr.values _ _ _ _ _ hinst h4 h3⟩) (pairs_ok (nodup_dedup _) (by
              intro a ha b hb' hab
              obtain ⟨-, h3, h4, p, h5, h6⟩ := hu a ha
              obtain ⟨-, h3', h4', -⟩ := hu b hb'
              refine hr.usages _ _ _ _ _ _ _ hinst h4 h4' (fun hlab => ?_) h3 h3'
              rcases T.kin i i a a b ((hch a).1 ha) ((hch a).1 ha) ((hch a).1 ha) ((hch b).1 hb') hlab with h | ⟨p', h7, h8, -⟩
              · exact hab h
              · rw [declAt_unique h7 h5] at h8
                exact h8 h6))
          refine fin s1 w (by rw [hnode, ht, hl]; exact h1) (Or.inl h2) (by rw [h3]; exact id) (notzero (by rw [hl]; decide) _)
        | _ => cases hxl
      | enumcont =>
        exfalso
        obtain ⟨-, ce, -, -, -, -, h3, -⟩ := hkid c0 ((hch c0).2 hc0)
        rw [hl] at h3
        cases ce.level <;> cases h3

/-! ### all nodes -/

theorem mem_indices_of {i : Nat} {e : ElemNode} (he : g.elem? i = some e) : i ∈ g.indices := by
  have h1 := elem?_node?.1 he
  unfold Graph.indices
  rw [List.mem_filter, rangeFrom_zero, List.mem_range]
  exact ⟨node?_lt h1, by rw [h1]; rfl⟩

theorem Tidy.all_done (T : Tidy d g lab) {done : List Nat} (V : Trav g [] done) : ∀ (n i : Nat), i ∈ g.indices → g.edges.length < n + ancestry g.edges i → i ∈ done := by
  intro n
  induction n with
  | zero =>
    intro i hi h
    exfalso
    have : ancestry g.edges i ≤ g.edges.length := List.countP_le_length
    omega
  | succ n ih =>
    intro i hi h
    have := V.all i hi fun c hc => by
      obtain ⟨ed, h1, h2, h3⟩ := mem_successors.1 hc
      have h4 := ancestry_lt T.at_.ac h1
      rw [h2, h3] at h4
      refine ih c ?_ (by omega)
      obtain ⟨-, ec, hec⟩ := T.at_.lab.tch _ _ (T.succ.1 hc)
      exact mem_indices_of hec
    simpa using this

theorem finalize_total (hr : Resolvable d) (T : Tidy d g lab) : ∃ s w ps, finalizeProcessing g = .ok s w ∧ s.resolved = some ps := by
  have hb : ∀ x, ¬ Precedes d x x := hr.follow.acyclic
  have R0 := run_start (g := g) T.at_.inv.nodes hr.sizes
  obtain ⟨s, w, hs⟩ := bottomUp_total (g := g) (Run d g) (fun i q done s _ R => visit_run hr T R) (g.nodes.length + 1) _ [] _ (Trav.start g) R0 (by simp)
  obtain ⟨done, V, R⟩ := bottomUp_trav (g := g) (Run d g) (fun i q done s s1 w _ R h => by
    obtain ⟨s2, w2, h1, h2⟩ := visit_run hr T (i := i) R
    rw [h] at h1
    cases h1
    exact h2) _ _ _ _ _ _ (Trav.start g) R0 hs
  obtain ⟨er, h0, -⟩ := T.root
  have h0d := T.all_done V (g.edges.length + 1) 0 (mem_indices_of h0) (by omega)
  have hne : g.successors 0 ≠ [] := by
    obtain ⟨hl0, er', h0', hld⟩ := T.at_.lab.root
    obtain ⟨l, hco, hcon⟩ := T.at_.lab.cont 0 er' (by simp) h0' (by rw [hld]; decide)
    have hcl := hco.done (T.all _ _ h0')
    rw [hl0] at hcl
    have hl1 : l = [[]] := by
      cases hcl with
      | root => rfl
      | step h _ => exact (device_none h).elim
    obtain ⟨P, ps, hps⟩ : ∃ P ps, d.peripherals = P :: ps := by
      cases h : d.peripherals with
      | nil => exact absurd h hr.some
      | cons P ps => exact ⟨P, ps, rfl⟩
    have hown : InChain d l [0] := by
      rw [hl1]
      refine ⟨[], by simp, 0, .periph P.hd, rfl, ofRCs P.rcs, ?_⟩
      simp [Spec.declTree, Spec.treeAt, hps, ofPeriph]
    rcases hcon.all _ hown with ⟨z, -, h1, h2⟩ | ⟨c', e', h1, -⟩
    · exact (not_endless hb h1 (.one h2)).elim
    · intro hnil
      have := T.succ.2 h1
      rw [hnil] at this
      cases this
  obtain ⟨ps, hps⟩ := Option.isSome_iff_exists.1 (R.res h0d hne)
  exact ⟨s, w, ps, hs, hps⟩

end Svd
