import Verif.Spec.Log
import Verif.Lemmas.FolRound
import Verif.Lemmas.NotesRun
import Verif.Lemmas.Fuel
import Verif.Lemmas.Tidy
import Verif.Lemmas.Escape
/-
Each element is processed once: what the rounds do to the elements.
-/
namespace Svd

open Graph Spec

theorem labState_initialization {d : SDevice} {g : Graph} {ws : List Warn} (h : initialization d = .ok g ws) : LabState d g := by
  obtain ⟨lab, h1, h2, -⟩ := lab_initialization h
  exact ⟨inv_initialization h, ac_initialization h, lab, h1, h2⟩

theorem elem_resolvePlaceholders {d : SDevice} {phs : List Nat} : ∀ {g g' : Graph} {ws : List Warn},
    Inv d g → resolvePlaceholders g phs = .ok g' ws → ∀ j, g'.elem? j = g.elem? j := by
  induction phs with
  | nil =>
    intro g g' ws h hr
    simp only [resolvePlaceholders, M.pure_eq_ok] at hr
    obtain ⟨rfl, -⟩ := hr
    exact fun _ => rfl
  | cons i is ih =>
    intro g g' ws h hr j
    simp only [resolvePlaceholders, M.bind_eq_ok] at hr
    obtain ⟨g1, w1, w2, h1, h2, -⟩ := hr
    rw [ih (inv_resolvePlaceholder h h1) h2 j, (resolvePlaceholder_elem h h1).2 j]

/-- Processing some elements: they are processed then, processed ones stay processed, and other elements stay what they are. -/
theorem done_processNodes {d : SDevice} {ord : List Nat → List Nat} (hord : ∀ l, (ord l).Perm l) {is : List Nat} : ∀ {g g' : Graph} {ws : List Warn},
    LabState d g → processNodes ord g is = .ok g' ws →
      (∀ k, Done g k → Done g' k) ∧ (∀ k ∈ is, Done g' k) ∧ ∀ k e, k ∉ is → g.elem? k = some e → g'.elem? k = some e := by
  induction is with
  | nil =>
    intro g g' ws h hr
    simp only [processNodes, M.pure_eq_ok] at hr
    obtain ⟨rfl, -⟩ := hr
    exact ⟨fun _ h => h, by simp, fun _ _ _ h => h⟩
  | cons i is ih =>
    intro g g' ws h hr
    simp only [processNodes, M.bind_eq_ok] at hr
    obtain ⟨g1, w1, w2, h1, h2, -⟩ := hr
    obtain ⟨lab, hl, hsu⟩ := h.lab
    obtain ⟨lab', hl', ha, hst, -⟩ := lab_processNode hord h.inv h.ac hl h1
    obtain ⟨i1, i2, i3⟩ := ih ⟨(inv_processNode h.inv h1).1, ac_processNode h.ac h1, lab', hl', hsu.keeps (keeps_processNode h.inv h1) ha⟩ h2
    have hold : ∀ k e, k ≠ i → g.elem? k = some e → g1.elem? k = some e := by
      intro k e hk he
      rw [elem?_node?] at he ⊢
      rw [hst.old k (by rw [he]; rfl) hk, he]
    obtain ⟨e', he', hp'⟩ := hst.self
    have hdi : Done g1 i := ⟨e', he', hp'⟩
    refine ⟨fun k hk => i1 k ?_, fun k hk => ?_, fun k e hk he => ?_⟩
    · by_cases hki : k = i
      · rw [hki]; exact hdi
      · obtain ⟨e, he, hp⟩ := hk
        exact ⟨e, hold k e hki he, hp⟩
    · rcases List.mem_cons.1 hk with rfl | hk
      · exact i1 _ hdi
      · exact i2 k hk
    · simp only [List.mem_cons, not_or] at hk
      exact i3 k e hk.2 (hold k e hk.1 he)

/-- The same elements are never to be processed again. -/
theorem rounds_no_loop {d : SDevice} {ord : List Nat → List Nat} (hord : ∀ l, (ord l).Perm l) {fuel : Nat} : ∀ {g : Graph} {prev : List Nat},
    LabState d g → (∀ k ∈ prev, Done g k) → rounds ord fuel g prev ≠ .err .loop := by
  induction fuel with
  | zero => intro g prev h hp hr; simp [rounds, M.throw] at hr
  | succ f ih =>
    intro g prev h hp hr
    simp only [rounds, M.bind_eq_err] at hr
    rcases hr with hr | ⟨g1, w1, h1, hr⟩
    · exact (((rsat_resolvePlaceholders g g.placeholders).err hr).ne).1 rfl
    · have s1 := lab_resolvePlaceholders h h1
      have he := elem_resolvePlaceholders h.inv h1
      split at hr
      · exact absurd hr (by simp [M.pure])
      · rename_i hne
        split at hr
        · rename_i hpr
          obtain ⟨k, ks, hk⟩ := List.exists_cons_of_ne_nil hne
          have h2 : k ∈ sortedProcessable g1 := by rw [hk]; simp
          exact not_done (sorted_sub.2 k h2) ((done_congr he k).2 (hp k (hpr ▸ h2)))
        · rw [M.bind_eq_err] at hr
          rcases hr with hr | ⟨g2, w2, h2, hr⟩
          · exact (((rsat_processNodes ord g1 _).err hr).ne).1 rfl
          · exact ih (lab_processNodes hord s1 h2) (done_processNodes hord s1 h2).2.1 hr

/-- `LoopException` is never raised. -/
theorem resolve_no_loop {ord : List Nat → List Nat} (hord : ∀ l, (ord l).Perm l) (fuel : Nat) (d : SDevice) :
    resolvePeripherals ord fuel d ≠ .err .loop := by
  intro h
  unfold resolvePeripherals at h
  rw [M.bind_eq_err] at h
  rcases h with h | ⟨g0, w0, h0, h⟩
  · exact (((rsat_initialization d).err h).ne).1 rfl
  rw [M.bind_eq_err] at h
  rcases h with h | ⟨g, w1, h1, h⟩
  · exact rounds_no_loop hord (labState_initialization h0) (by simp) h
  split at h
  · rw [M.bind_eq_err] at h
    rcases h with h | ⟨_, _, _, h⟩
    · exact (((rsat_unresolvedInfo g _).err h).ne).1 rfl
    · simp [M.throw] at h
  · rw [M.bind_eq_err] at h
    rcases h with h | ⟨s, _, _, h⟩
    · exact (((nf_finalizeProcessing (lab_rounds hord (labState_initialization h0) h1).ac).err h).ne).1 rfl
    · split at h
      · simp [M.throw] at h
      · simp [M.pure] at h

theorem device_no_loop {ord : List Nat → List Nat} (hord : ∀ l, (ord l).Perm l) (fuel : Nat) (d : SDevice) :
    processDevice ord fuel d ≠ .err (.process .wrapLoop) :=
  fun h => resolve_no_loop hord fuel d (process_resolve_err.2 h)

/-! ### what the log tells -/

theorem followed_run {g g' : Graph} {phs : List Nat} {paths : List Str} (h : Followed g phs paths g') :
    ∃ w, resolvePlaceholders g phs = .ok g' w := by
  induction h with
  | nil => exact ⟨_, rfl⟩
  | left hr _ ih => obtain ⟨w, ih⟩ := ih; exact ⟨_, M.bind_eq_ok.2 ⟨_, _, _, hr, ih, rfl⟩⟩
  | took hp hr hg _ ih => obtain ⟨w, ih⟩ := ih; exact ⟨_, M.bind_eq_ok.2 ⟨_, _, _, hr, ih, rfl⟩⟩

theorem linesOf_mem {g : Graph} {ks : List Nat} {ls : List Str} (h : LinesOf g ks ls) {k : Nat} (hk : k ∈ ks) {e : ElemNode}
    (he : g.elem? k = some e) : line k e.name e.level ∈ ls := by
  induction h with
  | nil => cases hk
  | cons he' _ ih =>
    rcases List.mem_cons.1 hk with rfl | hk
    · rw [he] at he'; injection he' with he'; subst he'; exact List.mem_cons_self ..
    · exact List.mem_cons_of_mem _ (ih hk)

/-- Every element that is still to be processed will be listed. -/
theorem rounds_listed {d : SDevice} {ord : List Nat → List Nat} (hord : ∀ l, (ord l).Perm l) {n : Nat} {g g' : Graph} {prev : List Nat}
    {es : List Entry} (h : Rounds ord n g prev es g') : LabState d g → g'.unprocessed = [] →
      ∀ k e, g.elem? k = some e → e.isProcessed = false → line k e.name e.level ∈ offered es := by
  induction h with
  | last hf hn =>
    intro S hu k e he hp
    obtain ⟨w, hr⟩ := followed_run hf
    have : k ∈ Graph.unprocessed _ := unprocessed_iff.2 ⟨e, (elem_resolvePlaceholders S.inv hr k).trans he, hp⟩
    rw [hu] at this
    cases this
  | @more n g g1 g2 g' prev paths ls es w hf hne hp hl hr h ih =>
    intro S hu k e he hpr
    obtain ⟨w1, hr1⟩ := followed_run hf
    have he1 := (elem_resolvePlaceholders S.inv hr1 k).trans he
    have S1 := lab_resolvePlaceholders S hr1
    simp only [offered, List.flatMap_append, List.mem_append]
    by_cases hk : k ∈ sortedProcessable g1
    · exact .inl (.inl (.inr (by simpa [toProcess, offer] using linesOf_mem hl hk he1)))
    · exact .inr (ih (lab_processNodes hord S1 hr) hu k e ((done_processNodes hord S1 hr).2.2 k e hk he1) hpr)

theorem line_inj {k k' : Nat} {n n' : Option Str} {l l' : Level} (h : line k n l = line k' n' l') : k = k' := by
  apply natStr_inj
  unfold line at h
  simp only [List.append_assoc] at h
  have key : ∀ (a b x y : Str), (∀ c ∈ a, isDigitC c = true) → (∀ c ∈ b, isDigitC c = true) → a ++ (s%": " ++ x) = b ++ (s%": " ++ y) → a = b := by
    intro a
    induction a with
    | nil =>
      intro b x y ha hb h
      cases b with
      | nil => rfl
      | cons c b =>
        simp only [List.nil_append, List.cons_append] at h
        injection h with h1 h2
        have := hb c (by simp)
        rw [← h1] at this
        cases this
    | cons a as ih =>
      intro b x y ha hb h
      cases b with
      | nil =>
        simp only [List.nil_append, List.cons_append] at h
        injection h with h1 h2
        have := ha a (by simp)
        rw [h1] at this
        cases this
      | cons c b =>
        simp only [List.cons_append] at h
        injection h with h1 h2
        rw [h1, ih b x y (fun c hc => ha c (by simp [hc])) (fun c hc => hb c (by simp [hc])) h2]
  exact key _ _ _ _ (natStr_digits k) (natStr_digits k') h

/-- A list of lines for these elements. -/
inductive Numbered : List Nat → List Str → Prop
  | nil : Numbered [] []
  | cons {k : Nat} {ks : List Nat} {ls : List Str} (n : Option Str) (l : Level) (h : Numbered ks ls) : Numbered (k :: ks) (line k n l :: ls)

theorem Numbered.append {ks ks' : List Nat} {ls ls' : List Str} (h : Numbered ks ls) (h' : Numbered ks' ls') : Numbered (ks ++ ks') (ls ++ ls') := by
  induction h with
  | nil => exact h'
  | cons n l _ ih => exact .cons n l ih

theorem Numbered.of {g : Graph} {ks : List Nat} {ls : List Str} (h : LinesOf g ks ls) : Numbered ks ls := by
  induction h with
  | nil => exact .nil
  | cons _ _ ih => exact .cons _ _ ih

theorem Numbered.mem {ks : List Nat} {ls : List Str} (h : Numbered ks ls) {x : Str} (hx : x ∈ ls) : ∃ k n l, k ∈ ks ∧ x = line k n l := by
  induction h with
  | nil => cases hx
  | cons n l _ ih =>
    rcases List.mem_cons.1 hx with rfl | hx
    · exact ⟨_, n, l, by simp, rfl⟩
    · obtain ⟨k, n, l, hk, h⟩ := ih hx
      exact ⟨k, n, l, by simp [hk], h⟩

theorem Numbered.nodup {ks : List Nat} {ls : List Str} (h : Numbered ks ls) (hn : ks.Nodup) : ls.Nodup := by
  induction h with
  | nil => simp
  | cons n l h ih =>
    rw [List.nodup_cons] at hn ⊢
    refine ⟨fun hx => ?_, ih hn.2⟩
    obtain ⟨k, n', l', hk, he⟩ := h.mem hx
    exact hn.1 (line_inj he ▸ hk)

/-- No element is listed twice. -/
theorem rounds_once {d : SDevice} {ord : List Nat → List Nat} (hord : ∀ l, (ord l).Perm l) {n : Nat} {g g' : Graph} {prev : List Nat}
    {es : List Entry} (h : Rounds ord n g prev es g') : LabState d g →
      ∃ ks, Numbered ks (offered es) ∧ ks.Nodup ∧ ∀ k ∈ ks, ¬ Done g k := by
  have hfe : ∀ (g : Graph) ps, offered (followedEntries g ps) = [] := by
    intro g ps
    cases ps <;> simp [offered, followedEntries, offer]
  induction h with
  | @last n g g1 prev paths hf hn =>
    intro S
    refine ⟨[], ?_, by simp, by simp⟩
    have := hfe g1 paths
    unfold offered at this ⊢
    simp [List.flatMap_append, this, nothingToProcess, roundHead, offer]
    exact .nil
  | @more n g g1 g2 g' prev paths ls es w hf hne hp hl hr h ih =>
    intro S
    obtain ⟨w1, hr1⟩ := followed_run hf
    have he1 := elem_resolvePlaceholders S.inv hr1
    have S1 := lab_resolvePlaceholders S hr1
    obtain ⟨d1, d2, -⟩ := done_processNodes hord S1 hr
    obtain ⟨ks, k1, k2, k3⟩ := ih (lab_processNodes hord S1 hr)
    refine ⟨sortedProcessable g1 ++ ks, ?_, ?_, ?_⟩
    · have h1 : offered (roundHead n :: followedEntries g1 paths ++ toProcess ls ++
          [.para (s%"Graph at end of round:"), .drawing g2] ++ es) = ls ++ offered es := by
        have := hfe g1 paths
        unfold offered at this ⊢
        simp [List.flatMap_append, this, toProcess, roundHead, offer]
      rw [h1]
      exact (Numbered.of hl).append k1
    · rw [List.nodup_append]
      refine ⟨sorted_sub.1, k2, fun a ha b hb hab => k3 b hb (hab ▸ d2 a ha)⟩
    · intro k hk hd
      have hd1 := (done_congr he1 k).2 hd
      rcases List.mem_append.1 hk with hk | hk
      · exact not_done (sorted_sub.2 k hk) hd1
      · exact k3 k hk (d1 k hd1)

/-! ### the last drawing -/

theorem lastDrawing_append (xs ys : List Entry) : lastDrawing (xs ++ ys) = (lastDrawing ys).or (lastDrawing xs) := by
  induction xs with
  | nil => rw [List.nil_append]; cases lastDrawing ys <;> rfl
  | cons x xs ih =>
    cases x with
    | drawing g => simp only [List.cons_append, lastDrawing, ih, Option.or_assoc]
    | _ => exact ih

theorem followed_nil {g g' : Graph} {phs : List Nat} (h : Followed g phs [] g') : g' = g := by
  generalize hp : ([] : List Str) = ps at h
  induction h with
  | nil => rfl
  | left _ _ ih => exact ih hp
  | took => cases hp

/-- The drawing of the graph with which the rounds end. -/
theorem rounds_lastDrawing {ord : List Nat → List Nat} {n : Nat} {g g' : Graph} {prev : List Nat} {es : List Entry} (h : Rounds ord n g prev es g') :
    ∀ pre, lastDrawing pre = some g → lastDrawing (pre ++ es) = some g' := by
  have hfe : ∀ {g g1 : Graph} {phs paths}, Followed g phs paths g1 → ∀ pre, lastDrawing pre = some g → lastDrawing (pre ++ followedEntries g1 paths) = some g1 := by
    intro g g1 phs paths hf pre hp
    cases paths with
    | nil => rw [followed_nil hf, lastDrawing_append, hp]; rfl
    | cons p ps => rw [lastDrawing_append]; rfl
  induction h with
  | @last n g g1 prev paths hf hn =>
    intro pre hp
    rw [← List.append_assoc, lastDrawing_append, show lastDrawing nothingToProcess = none from rfl, Option.none_or]
    have := hfe hf (pre ++ [roundHead n]) (by rw [lastDrawing_append, hp]; rfl)
    rw [List.append_assoc] at this
    exact this
  | @more n g g1 g2 g' prev paths ls es w hf hne hp hl hr h ih =>
    intro pre hpre
    rw [← List.append_assoc]
    exact ih _ (by rw [← List.append_assoc, lastDrawing_append]; rfl)

/-- At the end nothing is derived from anything any more. -/
theorem end_edges {d : SDevice} {ord : List Nat → List Nat} (hord : ∀ l, (ord l).Perm l) (hf : Followable d) (hq : Quiet d) {fuel : Nat}
    {g0 g : Graph} {ws w : List Warn} (h0 : initialization d = .ok g0 w) (hr : rounds ord fuel g0 [] = .ok g ws) : ∀ a b, ¬ De g a b := by
  obtain ⟨lab0, P, N, C⟩ := neat_initial hf.acyclic h0
  obtain ⟨hun, lab, P, N⟩ := neat_rounds hord hf hq P N C (by simp) hr
  intro a b he
  obtain ⟨-, eb, heb⟩ := P.at_.lab.tde a b he
  have hproc : eb.isProcessed = true := by
    cases hp : eb.isProcessed with
    | true => rfl
    | false =>
      have := unprocessed_iff.2 ⟨eb, heb, hp⟩
      rw [hun] at this
      cases this
  have hl : eb.level ≠ .device := by
    intro hl
    have hder := P.at_.lab.der a b he
    obtain ⟨p, hp⟩ := P.at_.lab.node b eb heb
    rw [device_pos hp.decl (by rw [← hp.level]; exact hl)] at hder
    exact device_none hder
  have := (N.few b eb heb hl).2 hproc
  rw [List.eq_nil_iff_forall_not_mem] at this
  exact this _ (mem_waitE.2 ⟨he, rfl, Or.inl rfl⟩)

end Svd
