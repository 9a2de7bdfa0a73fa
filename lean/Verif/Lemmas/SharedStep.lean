import Verif.Lemmas.SharedFin
/-
One step of the finalisation on objects and by value.
-/
namespace Svd
open Graph Spec

/-- One step of the work list on objects. -/
def visitH (g : Graph) (t : HState) (i : Nat) : M HState :=
  match g.successors i with
  | [] => M.pure t
  | c :: cs => finalizeNodeH t i (c :: cs)

theorem bottomUpH_cons (g : Graph) (f i : Nat) (q done : List Nat) (t : HState) :
    bottomUpH g (f + 1) (i :: q) done t = M.bind (visitH g t i) fun s1 => bottomUpH g f (q ++ ready g i done) (i :: done) s1 := rfl

section
variable {g0 : Graph} {obj cls : Nat → Nat} {E : Nat → Int} {hgt : Nat → Nat} {done : List Nat} {s s1 : FinState} {t t1 : HState} {S S1 : Nat → Int}

theorem Coherent.kidOf (C : Coherent g0 obj cls E hgt) {i c : Nat} {e : ElemNode} (he : g0.elem? i = some e) (hc : c ∈ g0.successors i)
    (hl : e.level ≠ .field) : ∃ ec p, g0.elem? c = some ec ∧ ec.processed = some p ∧ childKind e.level (procLevel p) = true := by
  obtain ⟨ei, ec, h1, h2, h3⟩ := C.child i c hc
  rw [he] at h1
  cases h1
  have hn : ec.level ≠ .device ∧ ec.level ≠ .enumcont := by
    cases h5 : e.level <;> rw [h5] at h3 hl <;> cases h6 : ec.level <;> rw [h6] at h3 <;> simp_all [childKind]
  obtain ⟨p, h6⟩ := C.has c ec h2 hn.1 hn.2
  refine ⟨ec, p, h2, h6, ?_⟩
  rw [C.kind c ec p h2 h6]
  exact h3

theorem isRC_of {l : Level} {p : Processed} (hl : l = .peripheral ∨ l = .cluster) (h : childKind l (procLevel p) = true) :
    p.isRC = true ∧ ∀ z, (p.withSize z).isRC = true := by
  rcases hl with rfl | rfl <;> cases p <;> first | exact ⟨rfl, fun _ => rfl⟩ | (simp [procLevel, childKind] at h)

theorem isFieldH_of {p : Processed} (h : childKind .register (procLevel p) = true) :
    p.isFieldH = true ∧ ∀ z, (p.withSize z).isFieldH = true := by
  cases p <;> first | exact ⟨rfl, fun _ => rfl⟩ | (simp [procLevel, childKind] at h)

theorem isPeriph_of {p : Processed} (h : childKind .device (procLevel p) = true) :
    p.isPeriph = true ∧ ∀ z, (p.withSize z).isPeriph = true := by
  cases p <;> first | exact ⟨rfl, fun _ => rfl⟩ | (simp [procLevel, childKind] at h)

/-- What the children are by value. -/
theorem Sim.value (I : Sim g0 obj cls E hgt done s t S) {α : Type} {pick : Nat → Processed → M α} {read : Nat → Option α}
    {key : α → Int × Str} {sv : FinState} {i : Nat} (hsv : ∀ c ∈ g0.successors i, sv.g.elem? c = s.g.elem? c)
    (hex : ∀ c ∈ g0.successors i, ∃ ec p, g0.elem? c = some ec ∧ ec.processed = some p)
    (hk : ∀ c ∈ g0.successors i, live g0 c = true → ∀ e p, s.g.elem? c = some e → e.processed = some p →
      ∃ y, pick c p = .ok y [] ∧ read (obj c) = some y ∧ key y = p.key) :
    ∃ xs, collect sv pick (g0.successors i) = .ok xs [] ∧
      Entrywise (fun c x => read (obj c) = some x ∧ key x = key0 g0 c) ((g0.successors i).filter (live g0)) xs := by
  have hp : ∀ c ∈ g0.successors i, ∃ e p, s.g.elem? c = some e ∧ e.processed = some p ∧ p.key = key0 g0 c := by
    intro c hc
    obtain ⟨ec, p, h1, h2⟩ := hex c hc
    have hk : key0 g0 c = p.key := by unfold key0 head0; rw [h1]; simp [h2]
    rw [I.stage.elem, h1]
    by_cases hb : Boxed g0 c ∧ c ∈ done
    · refine ⟨_, p.withSize (S (obj c)), rfl, ?_, by rw [hk, key_withSize]⟩
      show headIn g0 (· ∈ done) (fun j => S (obj j)) c ec.processed = _
      rw [headIn_some hb.1 hb.2, h2]; rfl
    · refine ⟨_, p, rfl, ?_, hk.symm⟩
      show headIn g0 (· ∈ done) (fun j => S (obj j)) c ec.processed = _
      rw [headIn_none hb, h2]
  have hlive : ∀ c ∈ g0.successors i, live sv.g c = live g0 c := by
    intro c hc
    rw [← I.stage.live c]
    unfold live
    rw [hsv c hc]
  obtain ⟨xs, h1, h2⟩ := collect_eq (s := sv) (pick := pick) (cs := g0.successors i) (by
    intro c hc
    obtain ⟨e, p, h1, h2, -⟩ := hp c hc
    rw [← hsv c hc] at h1
    refine ⟨e, h1, fun ht => ?_⟩
    have hl : live g0 c = true := by
      rw [← hlive c hc]
      unfold live
      rw [h1]
      simp [ht]
    rw [hsv c hc] at h1
    obtain ⟨y, h3, -⟩ := hk c hc hl e p h1 h2
    rw [← hsv c hc] at h1
    exact ⟨y, e, p, h1, h2, h3⟩)
  refine ⟨xs, h1, ?_⟩
  rw [List.filter_congr hlive] at h2
  refine entrywise_imp h2 ?_
  rintro c hc x - ⟨e, p, h3, h4, h5⟩
  obtain ⟨hc1, hc2⟩ := List.mem_filter.1 hc
  rw [hsv c hc1] at h3
  obtain ⟨y, h6, h7, h8⟩ := hk c hc1 hc2 e p h3 h4
  rw [h5] at h6
  cases h6
  obtain ⟨e', p', h9, h10, h11⟩ := hp c hc1
  rw [h3] at h9
  cases h9
  rw [h4] at h10
  cases h10
  exact ⟨h7, by rw [h8, h11]⟩

theorem Trav.notin {q : List Nat} {i : Nat} (T : Trav g0 (i :: q) done) : i ∉ done := by
  have := T.nodup
  rw [List.cons_append, List.nodup_cons, List.mem_append] at this
  exact fun h => this.1 (Or.inr h)

theorem lookup_other {α : Type} {i j : Nat} {x : α} {l : List (Nat × α)} (h : j ≠ i) : List.lookup j ((i, x) :: l) = List.lookup j l := by
  rw [List.lookup_cons, beq_false_of_ne h]

theorem lookup_own {α : Type} {i : Nat} {x : α} {l : List (Nat × α)} : List.lookup i ((i, x) :: l) = some x := by
  rw [List.lookup_cons, beq_self_eq_true]

/-- The device node. -/
theorem Sim.device (C : Coherent g0 obj cls E hgt) (I : Sim g0 obj cls E hgt done s t S) {i : Nat} {q : List Nat} {e : ElemNode}
    (T : Trav g0 (i :: q) done) (he : g0.elem? i = some e) (hlv : e.level = .device) :
    ∃ ps, collect s (pickPeripheral s) (g0.successors i) = .ok ps [] ∧
      t.collect Processed.isPeriph (g0.successors i) = .ok (okids g0 obj i) [] ∧
      Sim g0 obj cls E hgt (i :: done) { s with resolved := some (sortBy ipLe ps) } { t with resolved := some (okids g0 obj i) } S := by
  have hb : ¬ Boxed g0 i := by
    rintro ⟨-, ⟨e', h1, h2⟩, -⟩
    rw [he] at h1
    cases h1
    rw [hlv] at h2
    simp at h2
  have hlf : e.level ≠ .field := by rw [hlv]; simp
  have hi0 := C.root i e he hlv
  have hkd : ∀ c ∈ g0.successors i, c ∈ done := T.qs i (by simp)
  obtain ⟨ps, h1, h2⟩ := I.value (i := i) (pick := pickPeripheral s) (read := readPeripheral t.heap done.length)
    (key := fun p => (p.hd.baseAddress, p.hd.name)) (sv := s) (fun _ _ => rfl)
    (fun c hc => by
      obtain ⟨ec, p, h1, h2, -⟩ := C.kidOf he hc hlf
      exact ⟨ec, p, h1, h2⟩)
    (by
      intro c hc hl e' p h1 h2
      obtain ⟨ec, p0, h3, h4, h5⟩ := C.kidOf he hc hlf
      have h6 := I.reads c (hkd c hc) hl e' p h1 h2
      have h7 : procLevel p = procLevel p0 := by
        rw [I.stage.elem, h3] at h1
        cases h1
        have h2' : headIn g0 (· ∈ done) (fun j => S (obj j)) c ec.processed = some p := h2
        by_cases hb : Boxed g0 c ∧ c ∈ done
        · rw [headIn_some hb.1 hb.2, h4] at h2'
          cases h2'
          exact procLevel_withSize' _ _
        · rw [headIn_none hb, h4] at h2'
          cases h2'; rfl
      rw [hlv, ← h7] at h5
      cases p with
      | periph x => exact ⟨_, rfl, h6, rfl⟩
      | clu x => simp [procLevel, childKind] at h5
      | reg x => simp [procLevel, childKind] at h5
      | field x => simp [procLevel, childKind] at h5)
  refine ⟨ps, h1, ?_, ?_⟩
  · refine heap_collect I.view I.tobj ?_
    intro c hc
    obtain ⟨ec, p, h1, h2, h3⟩ := C.kidOf he hc hlf
    rw [hlv] at h3
    exact ⟨ec, p, h1, h2, (isPeriph_of h3).1, (isPeriph_of h3).2⟩
  · obtain ⟨g1, g2, g3, g4⟩ := I.same C hb
    refine I.push (s1 := { s with resolved := some (sortBy ipLe ps) }) (t1 := { t with resolved := some (okids g0 obj i) }) C T rfl rfl
      (fun _ _ => rfl) g1 g2 g3 g4 (fun _ _ => rfl) (fun _ => I.fresh i T.notin) (fun _ _ => ⟨rfl, rfl, rfl⟩)
      (fun _ _ => ⟨rfl, rfl⟩) ?_ (fun _ _ _ => rfl) ?_ ?_ (Or.inr ⟨_, _, rfl, rfl, ?_, ?_⟩)
    · intro _ e' he' _ h _
      rw [he] at he'
      cases he'
      exact absurd hlv h
    · intro _ e' f he' hf _
      rw [he] at he'
      cases he'
      have := C.kind i e _ he hf
      rw [hlv] at this
      cases this
    · intro _ _ e' p he' hp
      have he'' : s.g.elem? i = some e' := he'
      rw [I.stage.same (fun h => hb h.1), he] at he''
      cases he''
      have := C.kind i e p he hp
      rw [hlv] at this
      cases p <;> cases this
    · exact value_collect (key := fun p : IPeripheral => (p.hd.baseAddress, p.hd.name)) (fun _ _ => rfl) h2
    · intro o ho
      unfold okids at ho
      obtain ⟨c, hc, rfl⟩ := List.mem_map.1 ho
      have hc' := List.mem_filter.1 ((sortBy_perm _).mem_iff.1 hc)
      exact ⟨c, hkd c hc'.1, by rw [← hi0]; exact hc'.1, hc'.2, rfl⟩

/-- A register node. -/
theorem Sim.register (C : Coherent g0 obj cls E hgt) (I : Sim g0 obj cls E hgt done s t S) {i : Nat} {q : List Nat} {e : ElemNode}
    (T : Trav g0 (i :: q) done) (he : g0.elem? i = some e) (hlv : e.level = .register) (hl : live g0 i = true) (hs : g0.successors i ≠ []) :
    ∃ fs, collect s (pickField s) (g0.successors i) = .ok fs [] ∧
      t.collect Processed.isFieldH (g0.successors i) = .ok (okids g0 obj i) [] ∧
      Sim g0 obj cls E hgt (i :: done) { s with content := (i, .fields (sortBy ifLe fs)) :: s.content }
        { t with heap := t.heap.setKids (t.obj i) (okids g0 obj i) } S := by
  have hb : ¬ Boxed g0 i := by
    rintro ⟨-, ⟨e', h1, h2⟩, -⟩
    rw [he] at h1
    cases h1
    rw [hlv] at h2
    simp at h2
  have hlf : e.level ≠ .field := by rw [hlv]; simp
  have hkd : ∀ c ∈ g0.successors i, c ∈ done := T.qs i (by simp)
  have hagree : AgreeOn (fun o => ∃ j ∈ done, obj j = o) t.heap (t.heap.setKids (t.obj i) (okids g0 obj i)) := by
    rintro o ⟨k, hk, rfl⟩
    refine ⟨rfl, ?_, rfl⟩
    show (if obj k = t.obj i then _ else _) = _
    rw [I.tobj]
    split
    · rename_i hki
      rw [I.kids k hk (by rw [C.share_live hki]; exact hl) e (by rw [(C.share k i hki).1, he]) (by rw [hlv]; simp) (by rw [hlv]; simp)]
      exact (C.share_okids hki).symm
    · rfl
  obtain ⟨fs, h1, h2⟩ := I.value (i := i) (pick := pickField s) (read := readField (t.heap.setKids (t.obj i) (okids g0 obj i)))
    (key := fun p => (p.hd.lsb, p.hd.name)) (sv := s) (fun _ _ => rfl)
    (fun c hc => by
      obtain ⟨ec, p, h1, h2, -⟩ := C.kidOf he hc hlf
      exact ⟨ec, p, h1, h2⟩)
    (by
      intro c hc hl e' p h1 h2
      obtain ⟨ec, p0, h3, h4, h5⟩ := C.kidOf he hc hlf
      have h6 := I.reads c (hkd c hc) hl e' p h1 h2
      have h7 : procLevel p = procLevel p0 := by
        rw [I.stage.elem, h3] at h1
        cases h1
        have h2' : headIn g0 (· ∈ done) (fun j => S (obj j)) c ec.processed = some p := h2
        by_cases hb : Boxed g0 c ∧ c ∈ done
        · rw [headIn_some hb.1 hb.2, h4] at h2'
          cases h2'
          exact procLevel_withSize' _ _
        · rw [headIn_none hb, h4] at h2'
          cases h2'; rfl
      rw [hlv, ← h7] at h5
      cases p with
      | field x =>
        refine ⟨_, rfl, ?_, rfl⟩
        rw [readField_agree hagree ⟨c, hkd c hc, rfl⟩]
        exact h6
      | clu x => simp [procLevel, childKind] at h5
      | reg x => simp [procLevel, childKind] at h5
      | periph x => simp [procLevel, childKind] at h5)
  refine ⟨fs, h1, ?_, ?_⟩
  · refine heap_collect I.view I.tobj ?_
    intro c hc
    obtain ⟨ec, p, h1, h2, h3⟩ := C.kidOf he hc hlf
    rw [hlv] at h3
    exact ⟨ec, p, h1, h2, (isFieldH_of h3).1, (isFieldH_of h3).2⟩
  · obtain ⟨g1, g2, g3, g4⟩ := I.same C hb
    have hkids : (t.heap.setKids (t.obj i) (okids g0 obj i)).kids (obj i) = okids g0 obj i := by
      show (if obj i = t.obj i then _ else _) = _
      rw [I.tobj, if_pos rfl]
    refine I.push (s1 := { s with content := (i, .fields (sortBy ifLe fs)) :: s.content })
      (t1 := { t with heap := t.heap.setKids (t.obj i) (okids g0 obj i) }) C T rfl rfl
      (fun _ _ => rfl) g1 g2 g3 g4 ?_ ?_ hagree ?_ ?_ ?_ ?_ ?_ (Or.inl ⟨rfl, rfl⟩)
    · intro j hj
      show List.lookup j (_ :: _) = _
      exact lookup_other hj
    · rintro (h | h)
      · rw [h] at hl; cases hl
      · exact absurd h hs
    · rintro o (h | h | h)
      · refine ⟨?_, rfl⟩
        show (if o = t.obj i then _ else _) = _
        rw [I.tobj, if_neg h]
      · rw [h] at hl; cases hl
      · exact absurd h hs
    · intro _ _ _ _ _ _
      exact hkids
    · intro e' he' h
      rw [he] at he'
      cases he'
      rw [hlv] at h
      simp at h
    · intro _ e' f he' hf _
      rw [he] at he'
      cases he'
      have := C.kind i e _ he hf
      rw [hlv] at this
      cases this
    · intro _ _ e' p he' hp
      have he'' : s.g.elem? i = some e' := he'
      rw [I.stage.same (fun h => hb h.1), he] at he''
      cases he''
      have hlev := C.kind i e p he hp
      rw [hlv] at hlev
      cases p with
      | field x => cases hlev
      | clu x => cases hlev
      | periph x => cases hlev
      | reg r =>
        have hh : (t.heap.setKids (t.obj i) (okids g0 obj i)).head (obj i) = some (.reg r) := by
          show t.heap.head (obj i) = _
          rw [I.head i e he, headIn_none (fun h => hb h.1), hp]
        show readRC _ (done.length + 1) (obj i) = some _
        simp only [readRC]
        rw [hh, hkids]
        have := readAll_some.2 (value_collect (le := ifLe) (key := fun p : IField => (p.hd.lsb, p.hd.name)) (fun _ _ => rfl) h2)
        simp only
        rw [this]
        simp only [Option.map_some, Option.some.injEq, IRC.reg.injEq, true_and]
        show _ = FinState.fields _ i
        unfold FinState.fields
        rw [lookup_own]

/-- A field node. -/
theorem Sim.field (C : Coherent g0 obj cls E hgt) (I : Sim g0 obj cls E hgt done s t S) {i : Nat} {q : List Nat} {e : ElemNode}
    (T : Trav g0 (i :: q) done) (he : g0.elem? i = some e) (hlv : e.level = .field) (hl : live g0 i = true) (hs : g0.successors i ≠ []) :
    MRel (fun s1 t1 => ∃ S1, Sim g0 obj cls E hgt (i :: done) s1 t1 S1) (finalizeFieldNode s i (g0.successors i))
      (finalizeFieldNodeH t i (g0.successors i)) := by
  have nb : ∀ j ej, g0.elem? j = some ej → (ej.level = .field ∨ ej.level = .enumcont) → ¬ Boxed g0 j := by
    rintro j ej h1 h2 ⟨-, ⟨e', h3, h4⟩, -⟩
    rw [h1] at h3
    cases h3
    rcases h2 with h2 | h2 <;> rw [h2] at h4 <;> simp at h4
  have hb := nb i e he (Or.inl hlv)
  have hkid : ∀ c ∈ g0.successors i, ¬ Boxed g0 c := by
    intro c hc
    obtain ⟨ei, ec, h1, h2, h3⟩ := C.child i c hc
    rw [he] at h1
    cases h1
    refine nb c ec h2 (Or.inr ?_)
    rw [hlv] at h3
    cases h : ec.level <;> rw [h] at h3 <;> simp_all [childKind]
  have hp1 : procOf s.g i = procOf t.view i :=
    procOf_congr (by rw [I.stage.same (fun h => hb h.1), I.view.same (fun h => hb h.1)])
  unfold finalizeFieldNode finalizeFieldNodeH
  rw [hp1]
  obtain ⟨p, hp⟩ := C.has i e he (by rw [hlv]; simp) (by rw [hlv]; simp)
  have hlev := C.kind i e p he hp
  rw [hlv] at hlev
  have hproc : procOf t.view i = .ok p [] := by
    rw [procOf_congr (G' := g0) (I.view.same fun h => hb h.1)]
    unfold procOf
    rw [he]
    simp only [hp]
    rfl
  rw [hproc]
  show MRel _ (M.bind (M.pure p) _) (M.bind (M.pure p) _)
  rw [M.pure_bind, M.pure_bind]
  cases p with
  | clu x => cases hlev
  | reg x => cases hlev
  | periph x => cases hlev
  | field f =>
    simp only
    have hm : ∀ (G : Graph), (∀ c ∈ g0.successors i, G.elem? c = g0.elem? c) →
        contsM G f (g0.successors i) = contsM g0 f (g0.successors i) := by
      intro G hG
      unfold contsM
      generalize g0.successors i = cs at hG
      induction cs with
      | nil => rfl
      | cons c cs ih =>
        simp only [M.mapM]
        rw [ih fun x hx => hG x (by simp [hx]), hG c (by simp)]
    have hm1 := hm s.g fun c hc => I.stage.same fun h => hkid c hc h.1
    have hm2 := hm t.view fun c hc => I.view.same fun h => hkid c hc h.1
    refine MRel.bind (R := fun a b => a = b ∧ ∃ w, contsM g0 f (g0.successors i) = .ok a w)
      (MRel.of_eq (hm1.trans hm2.symm) fun a w h => ⟨rfl, w, hm1.symm.trans h⟩) ?_
    rintro conts _ ⟨rfl, w, hc⟩
    split
    · exact rfl
    split
    · exact rfl
    split
    · exact rfl
    · refine ⟨rfl, S, ?_⟩
      obtain ⟨g1, g2, g3, g4⟩ := I.same C hb
      have hconts : (t.heap.setConts (t.obj i) conts).conts (obj i) = conts := by
        show (if obj i = t.obj i then _ else _) = _
        rw [I.tobj, if_pos rfl]
      refine I.push (s1 := { s with content := (i, .conts conts) :: s.content })
        (t1 := { t with heap := t.heap.setConts (t.obj i) conts }) C T rfl rfl
        (fun _ _ => rfl) g1 g2 g3 g4 ?_ ?_ ?_ ?_ ?_ ?_ ?_ ?_ (Or.inl ⟨rfl, rfl⟩)
      · intro j hj
        exact lookup_other hj
      · rintro (h | h)
        · rw [h] at hl; cases hl
        · exact absurd h hs
      · rintro o ⟨k, hk, rfl⟩
        refine ⟨rfl, rfl, ?_⟩
        show (if obj k = t.obj i then _ else _) = _
        rw [I.tobj]
        split
        · rename_i hki
          obtain ⟨w', h1⟩ := I.conts k hk (by rw [C.share_live hki]; exact hl) e f (by rw [(C.share k i hki).1, he]) hp
            (fun h => hs ((C.share_nil hki).1 h))
          rw [C.share_conts hki, hc] at h1
          cases h1
          rfl
        · rfl
      · rintro o (h | h | h)
        · refine ⟨rfl, ?_⟩
          show (if o = t.obj i then _ else _) = _
          rw [I.tobj, if_neg h]
        · rw [h] at hl; cases hl
        · exact absurd h hs
      · intro _ e' he' h _ _
        rw [he] at he'
        cases he'
        exact absurd hlv h
      · intro _ _ _
        rfl
      · intro _ e' f' he' hf' _
        rw [he] at he'
        cases he'
        rw [hp] at hf'
        cases hf'
        exact ⟨w, by rw [hc, hconts]⟩
      · intro _ _ e' p he' hp'
        have he'' : s.g.elem? i = some e' := he'
        rw [I.stage.same (fun h => hb h.1), he] at he''
        cases he''
        rw [hp] at hp'
        cases hp'
        have hh : (t.heap.setConts (t.obj i) conts).head (obj i) = some (.field f) := by
          show t.heap.head (obj i) = _
          rw [I.head i e he, headIn_none (fun h => hb h.1), hp]
        show readField _ (obj i) = some _
        unfold readField
        rw [hh, hconts]
        simp only [Option.some.injEq, IField.mk.injEq, true_and]
        show _ = FinState.conts _ i
        unfold FinState.conts
        rw [lookup_own]

theorem Sim.calc (C : Coherent g0 obj cls E hgt) (I : Sim g0 obj cls E hgt done s t S) {i : Nat} {q : List Nat}
    (T : Trav g0 (i :: q) done) (hD : ∀ j ∈ done, hgt j ≤ hgt i) (hb : Boxed g0 i) :
    calculateSize s.g (g0.successors i) = calculateSize t.view (g0.successors i) ∧
    (∀ z w, calculateSize s.g (g0.successors i) = .ok z w → z = boxSize g0 (fun j => S (obj j)) E i) := by
  have hkd : ∀ c ∈ g0.successors i, c ∈ done := T.qs i (by simp)
  have h1 := C.calc I.stage T.ds I.form I.classy hb hkd hD
  have h2 := C.calc I.view (touched_down C T) (I.formT C T) (I.classyT C) hb (fun c hc => ⟨c, hkd c hc, rfl⟩) (by
    rintro j ⟨k, hk, hkj⟩
    rw [← C.hgtC k j (C.share k j hkj).2.1]
    exact hD k hk)
  refine ⟨by rw [h1, h2], fun z w h => ?_⟩
  rw [h1] at h
  split at h
  · cases h
  · cases h; rfl

theorem boxSize_congr {S S' E : Nat → Int} {i : Nat} (h : ∀ c ∈ g0.successors i, S c = S' c) : boxSize g0 S E i = boxSize g0 S' E i := by
  unfold boxSize
  congr 1
  apply List.map_congr_left
  intro c hc
  unfold valIn fsize
  rw [h c (List.mem_filter.1 hc).1]

/-- A peripheral or cluster. -/
theorem Sim.box (C : Coherent g0 obj cls E hgt) (I : Sim g0 obj cls E hgt done s t S) {i : Nat} {q : List Nat} {e : ElemNode}
    (T : Trav g0 (i :: q) done) (hD : ∀ j ∈ done, hgt j ≤ hgt i) (he : g0.elem? i = some e) (hb : Boxed g0 i) :
    MRel (fun s1 t1 => ∃ S1, Sim g0 obj cls E hgt (i :: done) s1 t1 S1) (finalizeContainerNode s i e (g0.successors i))
      (finalizeContainerNodeH t i (g0.successors i)) := by
  have hkd : ∀ c ∈ g0.successors i, c ∈ done := T.qs i (by simp)
  have hnd := T.notin
  obtain ⟨e', h1, -, hlev⟩ := boxed_level hb
  rw [he] at h1
  cases h1
  have hn : e.level ≠ .device ∧ e.level ≠ .enumcont ∧ e.level ≠ .field := by
    rcases hlev with h | h <;> rw [h] <;> simp
  obtain ⟨p, hp⟩ := C.has i e he hn.1 hn.2.1
  have hes : s.g.elem? i = some e := by rw [I.stage.same (fun h => hnd h.2), he]
  have hps : procOf s.g i = .ok p [] := by
    unfold procOf
    rw [hes]
    simp only [hp]
    rfl
  obtain ⟨p', hpv, hpz⟩ : ∃ p', procOf t.view i = .ok p' [] ∧ ∀ z, p'.withSize z = p.withSize z := by
    have hel : t.view.elem? i = some { e with processed := headIn g0 (Touched obj done) (fun j => S (obj j)) i e.processed } := by
      rw [I.view.elem, he]; rfl
    by_cases hD : Touched obj done i
    · rw [headIn_some hb hD, hp] at hel
      refine ⟨p.withSize (S (obj i)), ?_, fun z => withSize_withSize _ _ _⟩
      unfold procOf
      rw [hel]
      rfl
    · rw [headIn_none (fun h => hD h.2), hp] at hel
      refine ⟨p, ?_, fun z => rfl⟩
      unfold procOf
      rw [hel]
      rfl
  obtain ⟨hc1, hc2⟩ := I.calc C T hD hb
  unfold finalizeContainerNode finalizeContainerNodeH
  rw [hps, hpv]
  show MRel _ (M.bind (M.pure p) _) (M.bind (M.pure p') _)
  rw [M.pure_bind, M.pure_bind]
  refine MRel.bind (R := fun a b => a = b ∧ ∃ w, calculateSize s.g (g0.successors i) = .ok a w) (MRel.of_eq hc1 fun a w h => ⟨rfl, w, h⟩) ?_
  rintro z _ ⟨rfl, w, hz⟩
  rw [hpz z]
  have hzt : z = boxSize g0 (fun j => S (obj j)) E i := hc2 z w hz
  -- the new sizes
  obtain ⟨S1, hS1⟩ : ∃ S1 : Nat → Int, S1 = fun o => if o = obj i then z else S o := ⟨_, rfl⟩
  have hSi : S1 (obj i) = z := by rw [hS1]; simp
  have hS : ∀ j ∈ done, S1 (obj j) = S (obj j) := by
    intro j hj
    rw [hS1]
    simp only
    split
    · rename_i hji
      rw [hzt, hji]
      exact (I.formT C T i ⟨j, hj, hji⟩ hb).symm
    · rfl
  have hSn : ∀ j, obj j ≠ obj i → S1 (obj j) = S (obj j) := by
    intro j hj
    rw [hS1]
    simp [hj]
  have hform0 : ∀ j ∈ i :: done, Boxed g0 j → S1 (obj j) = boxSize g0 (fun j => S (obj j)) E j := by
    intro j hj bj
    rcases List.mem_cons.1 hj with rfl | hj
    · rw [hSi, hzt]
    · rw [hS j hj, I.form j hj bj]
  have hdn : ∀ j ∈ i :: done, ∀ c ∈ g0.successors j, c ∈ done := by
    intro j hj
    rcases List.mem_cons.1 hj with rfl | hj
    · exact hkd
    · exact T.ds j hj
  have hstage : Stage g0 (· ∈ i :: done) (fun j => S1 (obj j)) (s.g.setElem i { e with processed := some (p.withSize z) }) := by
    refine ⟨I.stage.edges, ?_, ?_⟩
    · rw [← I.stage.len]
      unfold Graph.setElem
      simp
    · intro j
      rw [setElem_elem? (by rw [elem?_node?.1 hes]; rfl)]
      by_cases hj : j = i
      · subst hj
        rw [if_pos rfl, he, Option.map_some, headIn_some hb (by simp), hp]
        simp only [Option.map_some, hSi]
      · rw [if_neg hj, I.stage.elem]
        cases g0.elem? j with
        | none => rfl
        | some ej =>
          have : headIn g0 (· ∈ done) (fun j => S (obj j)) j ej.processed = headIn g0 (· ∈ i :: done) (fun j => S1 (obj j)) j ej.processed := by
            by_cases h : Boxed g0 j ∧ j ∈ done
            · rw [headIn_some h.1 h.2, headIn_some h.1 (List.mem_cons_of_mem _ h.2), hS j h.2]
            · rw [headIn_none h, headIn_none]
              rintro ⟨h1, h2⟩
              rcases List.mem_cons.1 h2 with h2 | h2
              · exact hj h2
              · exact h ⟨h1, h2⟩
          rw [Option.map_some, Option.map_some, this]
  obtain ⟨h1, hh1⟩ : ∃ h1, h1 = t.heap.setHead (t.obj i) (p.withSize z) := ⟨_, rfl⟩
  have hhead : ∀ j ej, g0.elem? j = some ej → h1.head (obj j) = headIn g0 (Touched obj (i :: done)) (fun j => S1 (obj j)) j ej.processed := by
    intro j ej hej
    rw [hh1]
    show (if obj j = t.obj i then _ else _) = _
    rw [I.tobj]
    split
    · rename_i hji
      have := (C.share j i hji).1
      rw [hej, he] at this
      cases this
      rw [headIn_some (C.share_boxed hji.symm hb) ⟨i, by simp, hji.symm⟩, hp, hji, hSi]
      rfl
    · rename_i hji
      rw [I.head j ej hej]
      by_cases h : Boxed g0 j ∧ Touched obj done j
      · obtain ⟨k, hk, hkj⟩ := h.2
        rw [headIn_some h.1 h.2, headIn_some h.1 ⟨k, List.mem_cons_of_mem _ hk, hkj⟩, hSn j hji]
      · rw [headIn_none h, headIn_none]
        rintro ⟨h1, k, hk, hkj⟩
        rcases List.mem_cons.1 hk with rfl | hk
        · exact hji hkj.symm
        · exact h ⟨h1, k, hk, hkj⟩
  obtain ⟨h2, hh2⟩ : ∃ h2, h2 = h1.setKids (t.obj i) (okids g0 obj i) := ⟨_, rfl⟩
  have hagree : AgreeOn (fun o => ∃ j ∈ done, obj j = o) t.heap h2 := by
    rintro o ⟨k, hk, rfl⟩
    have hkk : h2.head (obj k) = t.heap.head (obj k) := by
      rw [hh2]
      show h1.head (obj k) = _
      cases hek : g0.elem? k with
      | none =>
        rw [hh1]
        show (if obj k = t.obj i then _ else _) = _
        rw [I.tobj, if_neg]
        intro hki
        rw [(C.share k i hki).1, he] at hek
        cases hek
      | some ek =>
        rw [hhead k ek hek, I.head k ek hek]
        by_cases hbk : Boxed g0 k
        · rw [headIn_some hbk ⟨k, by simp [hk], rfl⟩, headIn_some hbk ⟨k, hk, rfl⟩, hS k hk]
        · rw [headIn_none (fun h => hbk h.1), headIn_none (fun h => hbk h.1)]
    refine ⟨hkk, ?_, by rw [hh2, hh1]; rfl⟩
    rw [hh2, hh1]
    show (if obj k = t.obj i then _ else _) = _
    rw [I.tobj]
    split
    · rename_i hki
      rw [I.kids k hk (by rw [C.share_live hki]; exact hb.1) e (by rw [(C.share k i hki).1, he]) hn.2.2 hn.1]
      exact (C.share_okids hki).symm
    · rfl
  have hrd : ∀ c ∈ g0.successors i, readRC h2 done.length (obj c) = readRC t.heap done.length (obj c) := fun c hc =>
    readRC_agree hagree (I.closed C T) _ _ ⟨c, hkd c hc, rfl⟩
  -- by value
  obtain ⟨xs, hx1, hx2⟩ := I.value (i := i) (pick := pickRC { s with g := s.g.setElem i { e with processed := some (p.withSize z) } })
    (read := readRC h2 done.length)
    (key := fun x => (x.addressOffset, x.name)) (sv := { s with g := s.g.setElem i { e with processed := some (p.withSize z) } })
    (fun c hc => by
      show (s.g.setElem i _).elem? c = _
      rw [setElem_elem? (by rw [elem?_node?.1 hes]; rfl), if_neg (fun h : c = i => hnd (h ▸ hkd c hc))])
    (fun c hc => by
      obtain ⟨ec, p, h1, h2, -⟩ := C.kidOf he hc hn.2.2
      exact ⟨ec, p, h1, h2⟩)
    (by
      intro c hc hl e' p h1 h2
      obtain ⟨ec, p0, h3, h4, h5⟩ := C.kidOf he hc hn.2.2
      have h6 := I.reads c (hkd c hc) hl e' p h1 h2
      have h7 : procLevel p = procLevel p0 := by
        rw [I.stage.elem, h3] at h1
        cases h1
        have h2' : headIn g0 (· ∈ done) (fun j => S (obj j)) c ec.processed = some p := h2
        by_cases hb : Boxed g0 c ∧ c ∈ done
        · rw [headIn_some hb.1 hb.2, h4] at h2'
          cases h2'
          exact procLevel_withSize' _ _
        · rw [headIn_none hb, h4] at h2'
          cases h2'; rfl
      rw [← h7] at h5
      cases p with
      | periph x => rcases hlev with h | h <;> rw [h] at h5 <;> simp [procLevel, childKind] at h5
      | clu x =>
        refine ⟨_, rfl, ?_, rfl⟩
        rw [hrd c hc]
        exact h6
      | reg x =>
        refine ⟨_, rfl, ?_, rfl⟩
        rw [hrd c hc]
        exact h6
      | field x => rcases hlev with h | h <;> rw [h] at h5 <;> simp [procLevel, childKind] at h5)
  have hxs := value_collect (le := ircLe) (key := fun x : IRC => (x.addressOffset, x.name)) (fun _ _ => rfl) hx2
  -- on the heap
  have hview : Stage g0 (Touched obj (i :: done)) (fun j => S1 (obj j)) ({ t with heap := h1 } : HState).view := by
    constructor
    · show t.g.edges = _
      rw [I.tg]
    · show (t.g.nodes.mapIdx _).length = _
      rw [List.length_mapIdx, I.tg]
    · intro j
      rw [view_elem]
      show (t.g.elem? j).map _ = _
      rw [I.tg]
      cases h : g0.elem? j with
      | none => rfl
      | some ej =>
        simp only [Option.map_some]
        rw [I.tobj, hhead j ej h]
  have hcol := heap_collect (ok := Processed.isRC) (i := i) hview (show t.obj = obj from I.tobj) (by
    intro c hc
    obtain ⟨ec, p, h1, h2, h3⟩ := C.kidOf he hc hn.2.2
    exact ⟨ec, p, h1, h2, (isRC_of hlev h3).1, (isRC_of hlev h3).2⟩)
  show MRel _ (M.bind (collect { s with g := s.g.setElem i { e with processed := some (p.withSize z) } } _ _) _)
    (M.bind (({ t with heap := t.heap.setHead (t.obj i) (p.withSize z) } : HState).collect _ _) _)
  rw [← hh1, hx1, hcol]
  show MRel _ (M.bind (M.pure xs) _) (M.bind (M.pure (okids g0 obj i)) _)
  rw [M.pure_bind, M.pure_bind]
  refine ⟨rfl, S1, ?_⟩
  show Sim g0 obj cls E hgt (i :: done)
    { s with g := s.g.setElem i { e with processed := some (p.withSize z) }, content := (i, .rcs (sortBy ircLe xs)) :: s.content }
    { t with heap := h1.setKids (t.obj i) (okids g0 obj i) } S1
  rw [← hh2]
  have hkids : h2.kids (obj i) = okids g0 obj i := by
    rw [hh2]
    show (if obj i = t.obj i then _ else _) = _
    rw [I.tobj, if_pos rfl]
  refine I.push (S1 := S1)
    (s1 := { s with g := s.g.setElem i { e with processed := some (p.withSize z) }, content := (i, .rcs (sortBy ircLe xs)) :: s.content })
    (t1 := { t with heap := h2 }) C T rfl rfl
    hS hstage ?_ ?_ ?_ ?_ ?_ hagree ?_ ?_ ?_ ?_ ?_ (Or.inl ⟨rfl, rfl⟩)
  · intro j ej hej
    rw [← hhead j ej hej, hh2]
    rfl
  · intro j hj bj
    rw [hform0 j hj bj]
    exact boxSize_congr fun c hc => (hS c (hdn j hj c hc)).symm
  · intro a b ha hb' ba bb hc
    show S1 (obj a) = S1 (obj b)
    rw [hform0 a ha ba, hform0 b hb' bb]
    exact C.boxSize_eq I.classy ba bb hc (hdn a ha) (hdn b hb')
  · intro j hj
    exact lookup_other hj
  · rintro (h | h)
    · have := hb.1
      rw [h] at this; cases this
    · exact absurd h hb.2.2
  · rintro o (h | h | h)
    · refine ⟨?_, by rw [hh2, hh1]; rfl⟩
      rw [hh2, hh1]
      show (if o = t.obj i then _ else _) = _
      rw [I.tobj, if_neg h]
      rfl
    · have := hb.1
      rw [h] at this; cases this
    · exact absurd h hb.2.2
  · intro _ _ _ _ _ _
    exact hkids
  · intro e' he' h
    rw [he] at he'
    cases he'
    rcases h with h | h
    · exact absurd h hn.2.2
    · exact absurd h hn.1
  · intro _ e' f he' hf _
    rw [he] at he'
    cases he'
    have := C.kind i e _ he hf
    exact absurd this.symm hn.2.2
  · intro _ _ e' p' he' hp'
    have hr := readAll_some.2 hxs
    have hh : h2.head (obj i) = some (p.withSize z) := by
      rw [hh2]
      show h1.head (obj i) = _
      rw [hhead i e he, headIn_some hb ⟨i, by simp, rfl⟩, hp, hSi]
      rfl
    have hpp : p' = p.withSize z := by
      have he'' : (s.g.setElem i { e with processed := some (p.withSize z) }).elem? i = some e' := he'
      rw [setElem_elem? (by rw [elem?_node?.1 hes]; rfl), if_pos rfl] at he''
      cases he''
      simp only [Option.some.injEq] at hp'
      exact hp'.symm
    have hrcs : FinState.rcs
        { s with g := s.g.setElem i { e with processed := some (p.withSize z) }, content := (i, .rcs (sortBy ircLe xs)) :: s.content } i
        = sortBy ircLe xs := by
      unfold FinState.rcs
      rw [lookup_own]
    rw [hpp, hrcs]
    rcases box_head (C.kind i e p he hp) hlev with ⟨x, rfl⟩ | ⟨x, rfl⟩
    · show readPeripheral h2 (done.length + 1) (obj i) = some _
      refine readPeripheral_mono ?_
      unfold readPeripheral
      rw [hh, hkids]
      show (readAll _ _).map _ = _
      rw [hr]
      rfl
    · show readRC h2 (done.length + 1) (obj i) = some _
      simp only [readRC]
      rw [hh, hkids]
      show (readAll _ _).map _ = _
      rw [hr]
      rfl

/-- One step. -/
theorem Sim.step (C : Coherent g0 obj cls E hgt) (I : Sim g0 obj cls E hgt done s t S) {i : Nat} {q : List Nat} (T : Trav g0 (i :: q) done)
    (hD : ∀ j ∈ done, hgt j ≤ hgt i) :
    MRel (fun s1 t1 => ∃ S1, Sim g0 obj cls E hgt (i :: done) s1 t1 S1) (visit g0 s i) (visitH g0 t i) := by
  by_cases hs : g0.successors i = []
  · unfold visit visitH
    rw [hs]
    exact ⟨rfl, S, I.idle C T (Or.inr hs)⟩
  have hv : visit g0 s i = finalizeNode s i (g0.successors i) := by
    unfold visit
    cases h : g0.successors i with
    | nil => exact absurd h hs
    | cons c cs => rfl
  have hv' : visitH g0 t i = finalizeNodeH t i (g0.successors i) := by
    unfold visitH
    cases h : g0.successors i with
    | nil => exact absurd h hs
    | cons c cs => rfl
  rw [hv, hv']
  have hnd := T.notin
  have hes : s.g.elem? i = g0.elem? i := I.stage.same (fun h => hnd h.2)
  unfold finalizeNode finalizeNodeH
  rw [hes, I.view.elem]
  cases he : g0.elem? i with
  | none => exact rfl
  | some e =>
    simp only [Option.map_some]
    cases ht : e.isDimTemplate with
    | true =>
      simp only [if_true]
      refine ⟨rfl, S, I.idle C T (Or.inl ?_)⟩
      unfold live
      rw [he]
      simp [ht]
    | false =>
      simp only [Bool.false_eq_true, if_false]
      have hl : live g0 i = true := by
        unfold live
        rw [he]
        simp [ht]
      cases hlv : e.level with
      | device =>
        obtain ⟨ps, h1, h2, h3⟩ := I.device C T he hlv
        simp only
        rw [h1, h2]
        exact ⟨rfl, S, h3⟩
      | peripheral => exact I.box C T hD he ⟨hl, ⟨e, he, Or.inl hlv⟩, hs⟩
      | cluster => exact I.box C T hD he ⟨hl, ⟨e, he, Or.inr hlv⟩, hs⟩
      | register =>
        obtain ⟨fs, h1, h2, h3⟩ := I.register C T he hlv hl hs
        have hb : ¬ Boxed g0 i := by
          rintro ⟨-, ⟨e', h1, h2⟩, -⟩
          rw [he] at h1
          cases h1
          rw [hlv] at h2
          simp at h2
        simp only
        rw [procOf_congr (G' := g0) hes, procOf_congr (G' := g0) (I.view.same fun h => hb h.1)]
        obtain ⟨p, hp⟩ := C.has i e he (by rw [hlv]; simp) (by rw [hlv]; simp)
        have hproc : procOf g0 i = .ok p [] := by
          unfold procOf
          rw [he]
          simp only [hp]
          rfl
        rw [hproc]
        show MRel _ (M.bind (M.pure p) _) (M.bind (M.pure p) _)
        rw [M.pure_bind, M.pure_bind, h1, h2]
        exact ⟨rfl, S, h3⟩
      | field => exact I.field C T he hlv hl hs
      | enumcont =>
        exact rfl

/-- The nodes are visited by height. -/
def Lev (hgt : Nat → Nat) (q done : List Nat) : Prop :=
  ∃ (h : Nat) (q1 q2 : List Nat), q = q1 ++ q2 ∧ (∀ x ∈ q1, hgt x = h) ∧ (∀ x ∈ q2, hgt x = h + 1) ∧ ∀ x ∈ done, hgt x ≤ h

theorem Lev.front {i : Nat} {q : List Nat} (L : Lev hgt (i :: q) done) : ∀ j ∈ done, hgt j ≤ hgt i := by
  obtain ⟨h, q1, q2, h1, h2, h3, h4⟩ := L
  intro j hj
  have := h4 j hj
  have hi : i ∈ q1 ++ q2 := by rw [← h1]; simp
  rcases List.mem_append.1 hi with hi | hi
  · rw [h2 i hi]; exact this
  · rw [h3 i hi]; omega

theorem Lev.next (C : Coherent g0 obj cls E hgt) {i : Nat} {q : List Nat} (L : Lev hgt (i :: q) done) :
    Lev hgt (q ++ ready g0 i done) (i :: done) := by
  have key : ∃ (h : Nat) (q1 q2 : List Nat), i :: q = i :: (q1 ++ q2) ∧ hgt i = h ∧ (∀ x ∈ q1, hgt x = h) ∧ (∀ x ∈ q2, hgt x = h + 1) ∧ ∀ x ∈ done, hgt x ≤ h := by
    obtain ⟨h, q1, q2, h1, h2, h3, h4⟩ := L
    cases q1 with
    | nil =>
      cases q2 with
      | nil => cases h1
      | cons x q2 =>
        simp only [List.nil_append, List.cons.injEq] at h1
        obtain ⟨rfl, rfl⟩ := h1
        refine ⟨h + 1, q, [], by simp, h3 i (by simp), fun x hx => h3 x (by simp [hx]), fun x hx => (by cases hx), fun x hx => ?_⟩
        have := h4 x hx
        omega
    | cons x q1 =>
      simp only [List.cons_append, List.cons.injEq] at h1
      obtain ⟨rfl, rfl⟩ := h1
      exact ⟨h, q1, q2, rfl, h2 i (by simp), fun x hx => h2 x (by simp [hx]), h3, h4⟩
  obtain ⟨h, q1, q2, h1, h2, h3, h4, h5⟩ := key
  have hd : ∀ x ∈ i :: done, hgt x ≤ h := by
    intro x hx
    rcases List.mem_cons.1 hx with rfl | hx
    · omega
    · exact h5 x hx
  simp only [List.cons.injEq, true_and] at h1
  refine ⟨h, q1, q2 ++ ready g0 i done, by rw [h1, List.append_assoc], h3, ?_, hd⟩
  intro x hx
  rcases List.mem_append.1 hx with hx | hx
  · exact h4 x hx
  · obtain ⟨-, r2, r3⟩ := mem_ready.1 hx
    have u1 := C.hgtU x i r2
    obtain ⟨c, u2, u3⟩ := C.hgtX x (fun hn => by rw [hn] at r2; cases r2)
    have u4 := hd c (r3 c u2)
    omega

/-- The whole finalisation. -/
theorem Sim.run (C : Coherent g0 obj cls E hgt) : ∀ (f : Nat) (q done : List Nat) (s : FinState) (t : HState) (S : Nat → Int), Trav g0 q done → Lev hgt q done →
    Sim g0 obj cls E hgt done s t S →
    MRel (fun s1 t1 => ∃ done1 S1, Trav g0 [] done1 ∧ Sim g0 obj cls E hgt done1 s1 t1 S1) (bottomUp g0 f q done s) (bottomUpH g0 f q done t) := by
  intro f
  induction f with
  | zero =>
    intro q done s t S T L I
    cases q with
    | nil => exact ⟨rfl, done, S, T, I⟩
    | cons i q => exact rfl
  | succ f ih =>
    intro q done s t S T L I
    cases q with
    | nil => exact ⟨rfl, done, S, T, I⟩
    | cons i q =>
      rw [bottomUp_cons, bottomUpH_cons]
      refine MRel.bind (I.step C T L.front) ?_
      rintro s1 t1 ⟨S1, I1⟩
      exact ih _ _ _ _ S1 T.next (L.next C) I1

/-- The start. -/
theorem Sim.start (C : Coherent g0 obj cls E hgt) :
    Sim g0 obj cls E hgt [] { g := g0 } { g := g0, obj := obj, heap := startHeap g0 } (fun _ => 0) := by
  constructor
  · rfl
  · rfl
  · refine ⟨rfl, rfl, fun i => ?_⟩
    cases h : g0.elem? i with
    | none => rfl
    | some e => rw [Option.map_some, headIn_none (fun h => by simp at h)]
  · intro i e he
    rw [headIn_none (by rintro ⟨-, k, hk, -⟩; cases hk)]
    show (g0.elem? (obj i)).bind _ = _
    rw [(C.share (obj i) i (C.idem i)).1, he]
    rfl
  · intro j hj; cases hj
  · intro a b ha; cases ha
  · intro i _; rfl
  · intro i _; rfl
  · intro o _; exact ⟨rfl, rfl⟩
  · intro i hi; cases hi
  · intro i hi; cases hi
  · intro i hi; cases hi
  · intro i hi; cases hi
  · exact Or.inl ⟨rfl, rfl⟩

/-- The finalisation on objects is the one by value. -/
theorem finalizeProcessing_sim (C : Coherent g0 obj cls E hgt) :
    MRel (fun s t => ∃ done S, Trav g0 [] done ∧ Sim g0 obj cls E hgt done s t S) (finalizeProcessing g0) (finalizeProcessingH g0 obj) :=
  Sim.run C _ _ _ _ _ _ (Trav.start g0)
    ⟨0, _, [], (List.append_nil _).symm, fun x hx => C.hgtZ x (List.isEmpty_iff.1 (List.mem_filter.1 hx).2), fun x hx => (by cases hx), fun x hx => (by cases hx)⟩ (Sim.start C)

end
end Svd
