import Verif.Lemmas.SharedInh
/-
The pipeline on objects is the pipeline by value when the graph at the end of the main loop is coherent.
-/
namespace Svd
open Graph Spec

section
variable {g0 : Graph} {obj cls : Nat → Nat} {E : Nat → Int} {hgt : Nat → Nat} {done : List Nat} {s s1 : FinState} {t t1 : HState} {S S1 : Nat → Int}
  {os : List Nat} {dev : Props}

/-- The nodes behind the objects visited. -/
theorem Sim.visit_node (I : Sim g0 obj cls E hgt done s t S) (T : Trav g0 [] done)
    (hos : ∀ o ∈ os, ∃ c ∈ done, c ∈ g0.successors 0 ∧ live g0 c = true ∧ obj c = o) {o : Nat} {e : Props × Option WriteConstraint}
    (hv : Visit t.heap os dev o e) : ∃ i ∈ done, live g0 i = true ∧ obj i = o := by
  induction hv with
  | root ho =>
    obtain ⟨c, h1, -, h3, h4⟩ := hos _ ho
    exact ⟨c, h1, h3, h4⟩
  | kid _ _ hk ih =>
    obtain ⟨j, hj, hl, rfl⟩ := ih
    obtain ⟨ej, hej⟩ : ∃ ej, g0.elem? j = some ej := by
      unfold live at hl
      split at hl
      · exact ⟨_, by assumption⟩
      · cases hl
    by_cases h : ej.level = .field ∨ ej.level = .device
    · rw [I.kidsF j hj ej hej (h.elim Or.inl fun h => Or.inr (Or.inl h))] at hk
      cases hk
    · simp only [not_or] at h
      rw [I.kids j hj hl ej hej h.1 h.2] at hk
      unfold okids at hk
      obtain ⟨c, hc, hco⟩ := List.mem_map.1 hk
      have hc' := List.mem_filter.1 ((sortBy_perm _).mem_iff.1 hc)
      exact ⟨c, T.ds j hj c hc'.1, hc'.2, hco⟩

/-- The node an object belongs to, below a node of the object it is visited from. -/
theorem Sim.visit_kid (I : Sim g0 obj cls E hgt done s t S) (T : Trav g0 [] done) {j : Nat} (hj : j ∈ done) (hl : live g0 j = true)
    {k : Nat} (hk : k ∈ t.heap.kids (obj j)) :
    ∃ ej c, g0.elem? j = some ej ∧ ej.level ≠ .field ∧ ej.level ≠ .device ∧ c ∈ g0.successors j ∧ c ∈ done ∧ live g0 c = true ∧ obj c = k := by
  obtain ⟨ej, hej⟩ : ∃ ej, g0.elem? j = some ej := by
    unfold live at hl
    split at hl
    · exact ⟨_, by assumption⟩
    · cases hl
  by_cases h : ej.level = .field ∨ ej.level = .device
  · rw [I.kidsF j hj ej hej (h.elim Or.inl fun h => Or.inr (Or.inl h))] at hk
    cases hk
  · simp only [not_or] at h
    rw [I.kids j hj hl ej hej h.1 h.2] at hk
    unfold okids at hk
    obtain ⟨c, hc, hco⟩ := List.mem_map.1 hk
    have hc' := List.mem_filter.1 ((sortBy_perm _).mem_iff.1 hc)
    exact ⟨ej, c, hej, h.1, h.2, hc'.1, T.ds j hj c hc'.1, hc'.2, hco⟩

/-- Objects of the same class hand down the same values. -/
theorem Sim.stat_eq (C : Coherent g0 obj cls E hgt) (I : Sim g0 obj cls E hgt done s t S) {a b : Nat}
    (ha : a ∈ done) (hb : b ∈ done) (la : live g0 a = true) (lb : live g0 b = true) (hc : cls a = cls b) {p q : Processed}
    (hp : t.heap.head (obj a) = some p) (hq : t.heap.head (obj b) = some q) : statOf p = statOf q := by
  have ex : ∀ j, live g0 j = true → ∃ ej, g0.elem? j = some ej := by
    intro j hl
    unfold live at hl
    split at hl
    · exact ⟨_, by assumption⟩
    · cases hl
  obtain ⟨ea, hea⟩ := ex a la
  obtain ⟨eb, heb⟩ := ex b lb
  obtain ⟨d1, d2⟩ := C.data a b ea eb hea heb hc
  rw [I.head a ea hea] at hp
  rw [I.head b eb heb] at hq
  by_cases hba : Boxed g0 a
  · have hbb := (C.boxed_eq la lb hc).1 hba
    rw [headIn_some hba ⟨a, ha, rfl⟩] at hp
    rw [headIn_some hbb ⟨b, hb, rfl⟩] at hq
    obtain ⟨p0, hp0, rfl⟩ := Option.map_eq_some_iff.1 hp
    obtain ⟨q0, hq0, rfl⟩ := Option.map_eq_some_iff.1 hq
    have hS : S (obj a) = S (obj b) := I.classy a b ha hb hba hbb hc
    rw [hp0, hq0] at d2
    simp only [Option.map_some, Option.some.injEq] at d2
    have hkp := C.kind a ea p0 hea hp0
    have hkq := C.kind b eb q0 heb hq0
    rw [← d1, ← hkp] at hkq
    rw [hS]
    cases p0 <;> cases q0 <;> first
      | (cases hkq; done)
      | (simp only [statOf, Processed.withSize, Prod.mk.injEq] at d2 ⊢
         simp only [d2, and_self])
      | rfl
  · have hbb : ¬ Boxed g0 b := fun h => hba ((C.boxed_eq la lb hc).2 h)
    rw [headIn_none (fun h => hba h.1)] at hp
    rw [headIn_none (fun h => hbb h.1)] at hq
    rw [hp, hq] at d2
    simpa using d2

theorem Sim.visit_class (C : Coherent g0 obj cls E hgt) (h0 : ∃ e, g0.elem? 0 = some e ∧ e.level = .device)
    (I : Sim g0 obj cls E hgt done s t S) (T : Trav g0 [] done)
    (hos : ∀ o ∈ os, ∃ c ∈ done, c ∈ g0.successors 0 ∧ live g0 c = true ∧ obj c = o) {o1 o2 : Nat}
    {e1 e2 : Props × Option WriteConstraint} (h1 : Visit t.heap os dev o1 e1) (h2 : Visit t.heap os dev o2 e2)
    {i1 i2 : Nat} (hi1 : obj i1 = o1) (hi2 : obj i2 = o2) (hc : cls i1 = cls i2) : e1 = e2 := by
  obtain ⟨e0, he0, hl0⟩ := h0
  have clash : ∀ {o o' e' p c i}, Visit t.heap os dev o' e' → t.heap.head o' = some p → o ∈ t.heap.kids o' → c ∈ g0.successors 0 →
      obj i = o → cls c = cls i → False := by
    intro o o' e' p c i hv _ hk hc0 hio hci
    obtain ⟨j, hj, hl, rfl⟩ := I.visit_node T hos hv
    obtain ⟨ej, c', hej, -, hnd, hc', -, -, hco⟩ := I.visit_kid T hj hl hk
    have hcc : cls c' = cls c := by rw [(C.share c' i (by rw [hco, hio])).2.1, hci]
    have := C.up j 0 c' c hc' hc0 hcc
    exact hnd (by rw [(C.data j 0 ej e0 hej he0 this).1, hl0])
  induction h1 generalizing o2 e2 i1 i2 with
  | root ho1 =>
    obtain ⟨c1, -, hc1, -, hco1⟩ := hos _ ho1
    have hcl : cls c1 = cls i2 := by rw [(C.share c1 i1 (by rw [hco1, hi1])).2.1, hc]
    cases h2 with
    | root _ => rfl
    | kid hv hp hk => exact (clash hv hp hk hc1 hi2 hcl).elim
  | kid hv1 hp1 hk1 ih =>
    cases h2 with
    | root ho2 =>
      obtain ⟨c2, -, hc2, -, hco2⟩ := hos _ ho2
      have hcl : cls c2 = cls i1 := by rw [(C.share c2 i2 (by rw [hco2, hi2])).2.1, hc]
      exact (clash hv1 hp1 hk1 hc2 hi1 hcl).elim
    | kid hv2 hp2 hk2 =>
      obtain ⟨j1, hj1, hl1, rfl⟩ := I.visit_node T hos hv1
      obtain ⟨j2, hj2, hl2, rfl⟩ := I.visit_node T hos hv2
      obtain ⟨ej1, c1, hej1, -, -, hc1, -, -, hco1⟩ := I.visit_kid T hj1 hl1 hk1
      obtain ⟨ej2, c2, hej2, -, -, hc2, -, -, hco2⟩ := I.visit_kid T hj2 hl2 hk2
      have hcc : cls c1 = cls c2 := by
        rw [(C.share c1 i1 (by rw [hco1, hi1])).2.1, (C.share c2 i2 (by rw [hco2, hi2])).2.1, hc]
      have hjj := C.up j1 j2 c1 c2 hc1 hc2 hcc
      have := ih hv2 rfl rfl hjj
      subst this
      unfold handed
      rw [I.stat_eq C hj1 hj2 hl1 hl2 hjj hp1 hp2]

end

/-! ### the main loop with objects is the main loop -/

theorem updateDimNodeS_rel (ord : List Nat → List Nat) (g : Graph) (obj : Nat → Nat) (i : Nat) (base : Option Nat)
    (xs : List Processed) (template : Processed) :
    MRel (fun g1 s1 => s1.1 = g1) (updateDimNode ord g i base xs template) (updateDimNodeS ord g obj i base xs template) := by
  unfold updateDimNode updateDimNodeS
  refine MRel.bind (R := Eq) (MRel.of_eq rfl fun _ _ _ => rfl) ?_
  rintro g1 _ rfl
  cases g1.elem? i with
  | none => exact rfl
  | some e =>
    refine MRel.bind (R := Eq) (MRel.of_eq rfl fun _ _ _ => rfl) ?_
    rintro ⟨g2, js⟩ _ rfl
    simp only
    cases linkInstances i g2 js with
    | err e => exact rfl
    | ok a w => exact ⟨by simp, rfl⟩

theorem processDimableS_rel (ord : List Nat → List Nat) (g : Graph) (obj : Nat → Nat) (i : Nat) (parsed : Parsed)
    (bn : Option Nat) (bp : Option Processed) :
    MRel (fun g1 s1 => s1.1 = g1) (processDimable ord g i parsed bn bp) (processDimableS ord g obj i parsed bn bp) := by
  unfold processDimable processDimableS
  refine MRel.bind (R := Eq) (MRel.of_eq rfl fun _ _ _ => rfl) ?_
  rintro ⟨isDim, names, displays⟩ _ rfl
  refine MRel.bind (R := Eq) (MRel.of_eq rfl fun _ _ _ => rfl) ?_
  rintro xs _ rfl
  cases xs with
  | nil => exact rfl
  | cons x xs =>
    simp only
    split
    · exact updateDimNodeS_rel ord g obj i bn _ _
    · cases updateNode ord g i bn x false with
      | err e => exact rfl
      | ok a w => exact ⟨by simp, rfl⟩

theorem processNodeS_rel (ord : List Nat → List Nat) (g : Graph) (obj : Nat → Nat) (i : Nat) :
    MRel (fun g1 s1 => s1.1 = g1) (processNode ord g i) (processNodeS ord g obj i) := by
  unfold processNode processNodeS
  cases g.elem? i with
  | none => exact rfl
  | some e =>
    simp only
    split
    · exact rfl
    · refine MRel.bind (R := Eq) (MRel.of_eq rfl fun _ _ _ => rfl) ?_
      rintro ⟨bn, bp⟩ _ rfl
      simp only
      split
      · cases processEnumNode ord g i bn with
        | err e => exact rfl
        | ok a w => exact ⟨by simp, rfl⟩
      · exact processDimableS_rel ord g obj i e.parsed bn bp

theorem processNodesS_rel (ord : List Nat → List Nat) : ∀ (ns : List Nat) (g : Graph) (obj : Nat → Nat),
    MRel (fun g1 s1 => s1.1 = g1) (processNodes ord g ns) (processNodesS ord g obj ns) := by
  intro ns
  induction ns with
  | nil => intro g obj; exact ⟨rfl, rfl⟩
  | cons i ns ih =>
    intro g obj
    simp only [processNodes, processNodesS]
    refine MRel.bind (processNodeS_rel ord g obj i) ?_
    rintro g1 ⟨g2, obj2⟩ h
    simp only at h
    subst h
    exact ih g2 obj2

theorem roundsS_rel (ord : List Nat → List Nat) : ∀ (f : Nat) (g : Graph) (obj : Nat → Nat) (prev : List Nat),
    MRel (fun g1 s1 => s1.1 = g1) (rounds ord f g prev) (roundsS ord f g obj prev) := by
  intro f
  induction f with
  | zero => intro g obj prev; exact rfl
  | succ f ih =>
    intro g obj prev
    simp only [rounds, roundsS]
    refine MRel.bind (R := Eq) (MRel.of_eq rfl fun _ _ _ => rfl) ?_
    rintro g1 _ rfl
    split
    · exact ⟨rfl, rfl⟩
    · split
      · exact rfl
      · refine MRel.bind (processNodesS_rel ord _ g1 obj) ?_
        rintro g2 ⟨g3, obj3⟩ h
        simp only at h
        subst h
        exact ih g3 obj3 _

theorem MRel.imp {α β : Type} {R R' : α → β → Prop} {m : M α} {m' : M β} (h : MRel R m m')
    (hR : ∀ a b w, m = .ok a w → m' = .ok b w → R a b → R' a b) : MRel R' m m' := by
  cases m with
  | err e =>
    cases m' with
    | err e' => exact h
    | ok b w' => exact h.elim
  | ok a w =>
    cases m' with
    | err e' => exact h.elim
    | ok b w' =>
      obtain ⟨rfl, h⟩ := h
      exact ⟨rfl, hR a b w rfl rfl h⟩

theorem MRel.wrap {α β : Type} {R : α → β → Prop} {m : M α} {m' : M β} (h : MRel R m m') : MRel R (wrapResolve m) (wrapResolve m') := by
  cases m with
  | err e =>
    cases m' with
    | err e' =>
      have : e = e' := h
      subst this
      cases e <;> exact rfl
    | ok b w' => exact h.elim
  | ok a w =>
    cases m' with
    | err e' => exact h.elim
    | ok b w' => exact h

/-- The pipeline on objects is the pipeline by value. -/
theorem processDeviceH_eq {ord : List Nat → List Nat} {fuel : Nat} {d : SDevice}
    (hc : ∀ g0 w g obj w', initialization d = .ok g0 w → roundsS ord fuel g0 id [] = .ok (g, obj) w' → g.unprocessed = [] →
      ∃ cls E hgt, Coherent g obj cls E hgt ∧ ∃ e, g.elem? 0 = some e ∧ e.level = .device) :
    processDeviceH ord fuel d = processDevice ord fuel d := by
  have key : MRel (fun ps (x : List Nat × Heap × Nat) =>
        ∃ h1, eachObj (inheritPeripheralH x.2.2 (deviceHead d.hd).props.toProps) x.2.1 x.1 = .ok h1 [] ∧
          readAll (readPeripheral h1 x.2.2) x.1 = some (ps.map (inheritPeripheral (deviceHead d.hd).props.toProps)))
      (wrapResolve (resolvePeripherals ord fuel d)) (wrapResolve (resolvePeripheralsH ord fuel d)) := by
    apply MRel.wrap
    unfold resolvePeripherals resolvePeripheralsH
    refine MRel.bind (R := fun a b => a = b ∧ ∃ w, initialization d = .ok a w) (MRel.of_eq rfl fun a w h => ⟨rfl, w, h⟩) ?_
    rintro g0 _ ⟨rfl, w0, hg0⟩
    refine MRel.bind (MRel.imp (R' := fun a (b : Graph × (Nat → Nat)) => b.1 = a ∧ ∃ w, roundsS ord fuel g0 id [] = .ok b w)
      (roundsS_rel ord fuel g0 id []) fun a b w _ hb h => ⟨h, w, hb⟩) ?_
    rintro _ ⟨g, obj⟩ ⟨rfl, w1, hg⟩
    simp only
    by_cases hu : g.unprocessed = []
    · rw [if_neg (by simp [hu]), if_neg (by simp [hu])]
      obtain ⟨cls, E, hgt, C, h0⟩ := hc g0 w0 g obj w1 hg0 hg hu
      refine MRel.bind (finalizeProcessing_sim C) ?_
      rintro s t ⟨done, S, T, I⟩
      rcases I.res with ⟨h1, h2⟩ | ⟨ps, os, h1, h2, h3, h4⟩
      · rw [h1, h2]; exact rfl
      · rw [h1, h2]
        refine ⟨rfl, ?_⟩
        simp only
        have hlen : done.length ≤ g.nodes.length := by
          have hn := T.nodup
          have hl := T.lt
          simp only [List.nil_append] at hn hl
          exact nodup_bounded hn hl
        have mono : ∀ n o p, readPeripheral t.heap done.length o = some p → readPeripheral t.heap (done.length + n) o = some p := by
          intro n o p hp
          induction n with
          | zero => exact hp
          | succ n ih => exact readPeripheral_mono ih
        have hr : Entrywise (fun o p => readPeripheral t.heap (g.nodes.length + 1) o = some p) os ps := by
          refine entrywise_imp h3 fun o _ p _ hp => ?_
          have := mono (g.nodes.length + 1 - done.length) o p hp
          rwa [show done.length + (g.nodes.length + 1 - done.length) = g.nodes.length + 1 by omega] at this
        refine inherit_heap ?_ (g.nodes.length + 1) hr
        intro o e e' hv hv'
        obtain ⟨i, -, -, hi⟩ := I.visit_node T h4 hv
        exact I.visit_class C h0 T h4 hv hv' hi hi rfl
    · rw [if_pos hu, if_pos hu]
      refine MRel.bind (R := Eq) (MRel.of_eq rfl fun _ _ _ => rfl) ?_
      rintro _ _ rfl
      exact rfl
  unfold processDeviceH processDevice
  cases hA : wrapResolve (resolvePeripherals ord fuel d) with
  | err e =>
    cases hB : wrapResolve (resolvePeripheralsH ord fuel d) with
    | err e' =>
      rw [hA, hB] at key
      have : e = e' := key
      rw [this]
      rfl
    | ok b w => rw [hA, hB] at key; exact key.elim
  | ok ps w =>
    cases hB : wrapResolve (resolvePeripheralsH ord fuel d) with
    | err e' => rw [hA, hB] at key; exact key.elim
    | ok x w' =>
      rw [hA, hB] at key
      obtain ⟨rfl, h1, h2, h3⟩ := key
      obtain ⟨os, h, n⟩ := x
      simp only [M.bind]
      simp only at h2 h3
      rw [h2]
      simp only [h3]
      unfold inheritDevice
      simp only
      cases validateAndFinalize _ <;> simp

end Svd
