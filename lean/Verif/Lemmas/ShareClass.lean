import Verif.Lemmas.ShareCoherent
/-
The nodes at the same place of the description with the same elements around them, their heights and the sizes in force in
them: the conditions under which shared objects make no difference.
-/
namespace Svd
open Graph Spec M

variable {d : SDevice} {g : Graph} {lab : Nat → Pos} {K : Nat → List Pos}

/-! ### the places of the nodes -/

theorem Tidy.longer (T : Tidy d g lab) (hK : ∀ a c, Ch g a c → K c = lab c :: K a) : ∀ (n k : Nat), (K k).length = n → IsE g k → k ≠ 0 →
    (K 0).length < (K k).length := by
  intro n
  induction n using Nat.strongRecOn with
  | _ n ih =>
    intro k hn hk h0
    rcases T.up k hk with h | ⟨a, h⟩
    · exact absurd h h0
    · have h1 := hK a k h
      by_cases ha : a = 0
      · rw [h1, ha]; simp
      · have h2 := congrArg List.length h1
        rw [List.length_cons] at h2
        have := ih (K a).length (by omega) a rfl (T.at_.lab.tch _ _ h).1 ha
        omega

theorem Tidy.labK (T : Tidy d g lab) (hK : ∀ a c, Ch g a c → K c = lab c :: K a) {a b : Nat} (ha : IsE g a) (hb : IsE g b) (h : K a = K b) :
    lab a = lab b := by
  by_cases h0 : a = 0
  · by_cases h1 : b = 0
    · rw [h0, h1]
    · have := T.longer hK _ b rfl hb h1
      rw [← h, h0] at this
      omega
  · by_cases h1 : b = 0
    · have := T.longer hK _ a rfl ha h0
      rw [h, h1] at this
      omega
    · obtain ⟨p, hp⟩ := (T.up a ha).resolve_left h0
      obtain ⟨q, hq⟩ := (T.up b hb).resolve_left h1
      rw [hK _ _ hp, hK _ _ hq] at h
      injection h

/-- Two nodes at the same place. -/
def Alike (g : Graph) (K : Nat → List Pos) (a b : Nat) : Prop := a = b ∨ (IsE g a ∧ IsE g b ∧ K a = K b)

theorem alike_equiv (g : Graph) (K : Nat → List Pos) : Equivalence (Alike g K) := by
  refine ⟨fun _ => Or.inl rfl, ?_, ?_⟩
  · rintro a b (rfl | ⟨h1, h2, h3⟩)
    · exact Or.inl rfl
    · exact Or.inr ⟨h2, h1, h3.symm⟩
  · rintro a b c (rfl | ⟨h1, h2, h3⟩) (rfl | ⟨k1, k2, k3⟩)
    · exact Or.inl rfl
    · exact Or.inr ⟨k1, k2, k3⟩
    · exact Or.inr ⟨h1, h2, h3⟩
    · exact Or.inr ⟨h1, k2, h3.trans k3⟩

theorem class_exists {r : Nat → Nat → Prop} (hr : Equivalence r) : ∃ cls : Nat → Nat, ∀ a b, cls a = cls b ↔ r a b := by
  let s : Setoid Nat := ⟨r, hr⟩
  refine ⟨fun a => Classical.choose (Quotient.exists_rep (Quotient.mk s a)), fun a b => ⟨fun h => ?_, fun h => ?_⟩⟩
  · have h1 := Classical.choose_spec (Quotient.exists_rep (Quotient.mk s a))
    have h2 := Classical.choose_spec (Quotient.exists_rep (Quotient.mk s b))
    simp only at h
    rw [h] at h1
    exact Quotient.exact (h1.symm.trans h2)
  · have : Quotient.mk s a = Quotient.mk s b := Quotient.sound h
    simp only [this]

/-! ### heights -/

def mx (l : List Nat) : Nat := l.foldr max 0

theorem le_mx {l : List Nat} {x : Nat} (h : x ∈ l) : x ≤ mx l := by
  induction l with
  | nil => cases h
  | cons y ys ih =>
    rw [mx, List.foldr_cons]
    rcases List.mem_cons.1 h with rfl | h
    · exact Nat.le_max_left _ _
    · exact Nat.le_trans (ih h) (Nat.le_max_right _ _)

theorem mx_mem {l : List Nat} (h : l ≠ []) : mx l ∈ l := by
  induction l with
  | nil => exact absurd rfl h
  | cons y ys ih =>
    rw [mx, List.foldr_cons]
    by_cases hy : ys = []
    · subst hy
      simp
    · rcases Nat.le_total y (mx ys) with h1 | h1
      · rw [show max y (List.foldr max 0 ys) = mx ys from Nat.max_eq_right h1]
        exact List.mem_cons_of_mem _ (ih hy)
      · rw [show max y (List.foldr max 0 ys) = y from Nat.max_eq_left h1]
        exact List.mem_cons_self

theorem mx_ext {l k : List Nat} (h1 : ∀ x ∈ l, x ∈ k) (h2 : ∀ x ∈ k, x ∈ l) : mx l = mx k := by
  have le : ∀ {l k : List Nat}, (∀ x ∈ l, x ∈ k) → mx l ≤ mx k := by
    intro l k h
    by_cases hl : l = []
    · subst hl; exact Nat.zero_le _
    · exact le_mx (h _ (mx_mem hl))
  exact Nat.le_antisymm (le h1) (le h2)

/-- The height of a node above the leaves, looking at most `n` levels down. -/
def height (g : Graph) : Nat → Nat → Nat
  | 0, _ => 0
  | n + 1, i => if g.successors i = [] then 0 else 1 + mx ((g.successors i).map (height g n))

theorem height_zero {n i : Nat} (h : g.successors i = []) : height g n i = 0 := by
  cases n with
  | zero => rfl
  | succ n => rw [height, if_pos h]

theorem height_stable (T : Tidy d g lab) (hK : ∀ a c, Ch g a c → K c = lab c :: K a) {B : Nat} (hB : ∀ i, IsE g i → (K i).length < B) :
    ∀ n i, B ≤ n + (K i).length → height g (n + 1) i = height g n i := by
  intro n
  induction n with
  | zero =>
    intro i h
    by_cases hs : g.successors i = []
    · rw [height_zero hs, height_zero hs]
    · obtain ⟨c, hc⟩ := List.exists_mem_of_ne_nil _ hs
      have := hB i (T.at_.lab.tch _ _ (T.succ.1 hc)).1
      omega
  | succ n ih =>
    intro i h
    rw [height, height]
    congr 3
    apply List.map_congr_left
    intro c hc
    apply ih
    rw [hK _ _ (T.succ.1 hc), List.length_cons]
    omega

theorem height_alike (hu : ∀ x b b', Refers d x b → Refers d x b' → b = b') (hb : ∀ x, ¬ Precedes d x x) (T : Tidy d g lab)
    (hK : ∀ a c, Ch g a c → K c = lab c :: K a) : ∀ n a b, IsE g a → IsE g b → K a = K b → height g n a = height g n b := by
  have kid : ∀ {a b c}, IsE g a → IsE g b → K a = K b → c ∈ g.successors a → ∃ c' ∈ g.successors b, IsE g c' ∧ IsE g c ∧ K c' = K c := by
    rintro a b c ⟨ea, ha⟩ ⟨eb, hb'⟩ h hc
    obtain ⟨c', h1, h2, -⟩ := T.kids hu hb ha hb' (T.labK hK ⟨_, ha⟩ ⟨_, hb'⟩ h) (T.succ.1 hc)
    refine ⟨c', T.succ.2 h1, (T.at_.lab.tch _ _ h1).2, (T.at_.lab.tch _ _ (T.succ.1 hc)).2, ?_⟩
    rw [hK _ _ h1, hK _ _ (T.succ.1 hc), h2, h]
  intro n
  induction n with
  | zero => intros; rfl
  | succ n ih =>
    intro a b ha hb' h
    have sub : ∀ {a b}, IsE g a → IsE g b → K a = K b → ∀ x ∈ (g.successors a).map (height g n), x ∈ (g.successors b).map (height g n) := by
      intro a b ha hb' h x hx
      obtain ⟨c, hc, rfl⟩ := List.mem_map.1 hx
      obtain ⟨c', h1, h2, h3, h4⟩ := kid ha hb' h hc
      exact List.mem_map.2 ⟨c', h1, ih _ _ h2 h3 h4⟩
    have emp : g.successors a = [] ↔ g.successors b = [] := by
      have : ∀ {a b}, IsE g a → IsE g b → K a = K b → g.successors b = [] → g.successors a = [] := by
        intro a b ha hb' h h0
        by_contra hne
        obtain ⟨c, hc⟩ := List.exists_mem_of_ne_nil _ hne
        obtain ⟨c', h1, -⟩ := kid ha hb' h hc
        rw [h0] at h1
        cases h1
      exact ⟨this hb' ha h.symm, this ha hb' h⟩
    rw [height, height]
    by_cases he : g.successors a = []
    · rw [if_pos he, if_pos (emp.1 he)]
    · rw [if_neg he, if_neg fun hc => he (emp.2 hc), mx_ext (sub ha hb' h) (sub hb' ha h.symm)]

/-! ### sizes -/

theorem Tidy.par (T : Tidy d g lab) {i p : Nat} : p ∈ g.elementParents i ↔ Ch g p i := mem_parents_iff T.at_.lab.tch

theorem parentSize_ok (T : Tidy d g lab) {f : Nat} : ∀ {i : Nat} {e : ElemNode}, g.elem? i = some e →
    (e.level = .peripheral ∨ e.level = .cluster ∨ e.level = .register) →
    (∃ z, parentSize g f i = .ok z []) ∨ parentSize g f i = .err .outOfFuel := by
  induction f with
  | zero => intro i e _ _; exact Or.inr rfl
  | succ f ih =>
    intro i e he hl
    rw [parentSize]
    cases hp : g.elementParents i with
    | nil => exact Or.inl ⟨_, rfl⟩
    | cons p ps =>
      simp only
      have hpm : p ∈ g.elementParents i := by rw [hp]; simp
      obtain ⟨ep, ei, hep, hei, hk⟩ := T.elem (T.par.1 hpm)
      rw [he] at hei
      cases hei
      by_cases hdev : g.hasLevel p .device = true
      · rw [if_pos hdev]
        exact Or.inl ⟨32, rfl⟩
      · rw [if_neg hdev]
        have hnd : ep.level ≠ .device := by
          intro h
          apply hdev
          unfold Graph.hasLevel
          simp [hep, h]
        have hlp : ep.level = .peripheral ∨ ep.level = .cluster := by
          rcases hl with h | h | h <;> rw [h] at hk <;> revert hk hnd <;> cases ep.level <;> simp [childKind]
        obtain ⟨x, hx⟩ := (T.nodeOK hep).2 hnd (by rcases hlp with h | h <;> rw [h] <;> decide)
        have hxl := (T.nodeOK hep).1 x hx
        rw [procOf_eq hep hx, M.bind_ok_nil]
        have hrec := ih hep (by rcases hlp with h | h <;> simp [h])
        rcases hlp with h | h <;> rw [h] at hxl <;> cases x <;> simp only [procLevel, reduceCtorEq] at hxl
        · rename_i y
          simp only
          cases hs : y.props.size with
          | none => exact hrec
          | some z => exact Or.inl ⟨z, rfl⟩
        · rename_i y
          simp only
          cases hs : y.props.size with
          | none => exact hrec
          | some z => exact Or.inl ⟨z, rfl⟩

theorem parentSize_alike (hu : ∀ x b b', Refers d x b → Refers d x b' → b = b') (T : Tidy d g lab)
    (hK : ∀ a c, Ch g a c → K c = lab c :: K a) : ∀ (f a b : Nat), IsE g a → IsE g b → K a = K b → parentSize g f a = parentSize g f b := by
  intro f
  induction f with
  | zero => intros; rfl
  | succ f ih =>
    intro a b ha hb h
    rw [parentSize, parentSize]
    have hz : a = 0 ↔ b = 0 := by
      constructor
      · intro h0
        by_contra h1
        have := T.longer hK _ b rfl hb h1
        rw [← h, h0] at this
        omega
      · intro h1
        by_contra h0
        have := T.longer hK _ a rfl ha h0
        rw [h, h1] at this
        omega
    have hnil : ∀ {a}, g.elementParents a = [] → IsE g a → a = 0 := by
      intro a h1 h2
      rcases T.up a h2 with h3 | ⟨p, h3⟩
      · exact h3
      · have := T.par.2 h3
        rw [h1] at this
        cases this
    have hnil' : g.elementParents 0 = [] := by
      rw [List.eq_nil_iff_forall_not_mem]
      exact fun p hp => T.zero (T.par.1 hp)
    cases hpa : g.elementParents a with
    | nil =>
      have h0 := hnil hpa ha
      rw [hz.1 h0, hnil']
    | cons p ps =>
      cases hpb : g.elementParents b with
      | nil =>
        rw [hz.2 (hnil hpb hb), hnil'] at hpa
        cases hpa
      | cons q qs =>
        simp only
        have h1 : Ch g p a := T.par.1 (by rw [hpa]; simp)
        have h2 : Ch g q b := T.par.1 (by rw [hpb]; simp)
        have h3 : K p = K q := by
          rw [hK _ _ h1, hK _ _ h2] at h
          injection h
        obtain ⟨⟨ep, hep⟩, -⟩ := T.at_.lab.tch _ _ h1
        obtain ⟨⟨eq, heq⟩, -⟩ := T.at_.lab.tch _ _ h2
        have hlab := T.labK hK ⟨_, hep⟩ ⟨_, heq⟩ h3
        obtain ⟨hlev, hst⟩ := T.alike hu hep heq hlab
        have hrec := ih p q ⟨_, hep⟩ ⟨_, heq⟩ h3
        have hh : g.hasLevel p .device = g.hasLevel q .device := by
          unfold Graph.hasLevel
          rw [hep, heq]
          simp only [hlev]
        rw [hh]
        split
        · rfl
        · have hcan : ∀ x y, ep.processed = some x → eq.processed = some y → procLevel x = procLevel y ∧ statOf x = statOf y := by
            intro x y hx hy
            rw [hx, hy] at hst
            exact ⟨by rw [(T.nodeOK hep).1 x hx, (T.nodeOK heq).1 y hy, hlev], Option.some.inj hst⟩
          unfold procOf
          rw [hep, heq]
          simp only
          cases hx : ep.processed with
          | none =>
            cases hy : eq.processed with
            | none => rfl
            | some y => rw [hx, hy] at hst; cases hst
          | some x =>
            cases hy : eq.processed with
            | none => rw [hx, hy] at hst; cases hst
            | some y =>
              obtain ⟨k1, k2⟩ := hcan x y hx hy
              have k3 := sizeOfP_stat x
              rw [k2, ← sizeOfP_stat y] at k3
              cases x <;> cases y <;> simp only [procLevel, reduceCtorEq] at k1
              · simp only [sizeOfP] at k3
                simp only [M.pure_bind, k3, hrec]
              · simp only [sizeOfP] at k3
                simp only [M.pure_bind, k3, hrec]
              · simp only [M.pure_bind]
              · simp only [M.pure_bind]

/-! ### coherence -/

theorem coherent_of (hu : ∀ x b b', Refers d x b → Refers d x b' → b = b') (hb : ∀ x, ¬ Precedes d x x) (T : Tidy d g lab) (Sg : Single g)
    {obj : Nat → Nat} (S : Shares g obj) (hL : ∀ a b, obj a = obj b → lab a = lab b) : ∃ cls E hgt, Coherent g obj cls E hgt := by
  obtain ⟨K, hK⟩ := T.route
  obtain ⟨cls, hcls⟩ := class_exists (alike_equiv g K)
  have hB : ∃ B, ∀ i, IsE g i → (K i).length < B := by
    refine ⟨mx ((rangeFrom 0 g.nodes.length).map fun i => (K i).length) + 1, fun i hi => ?_⟩
    obtain ⟨e, he⟩ := hi
    have := node?_lt (elem?_node?.1 he)
    have := le_mx (List.mem_map.2 ⟨i, by rw [rangeFrom_zero]; exact List.mem_range.2 this, rfl⟩ : (K i).length ∈ (rangeFrom 0 g.nodes.length).map fun i => (K i).length)
    omega
  obtain ⟨B, hB⟩ := hB
  have hst : ∀ i, height g (B + 1) i = height g B i := fun i => height_stable T hK hB B i (by omega)
  have lab_of : ∀ {a b}, IsE g a → IsE g b → cls a = cls b → lab a = lab b := by
    intro a b ha hb' h
    rcases (hcls a b).1 h with rfl | ⟨-, -, h⟩
    · rfl
    · exact T.labK hK ha hb' h
  have K_of : ∀ {a b}, cls a = cls b → K a = K b := by
    intro a b h
    rcases (hcls a b).1 h with rfl | ⟨-, -, h⟩
    · rfl
    · exact h
  have isE_s : ∀ {i c}, c ∈ g.successors i → IsE g i ∧ IsE g c := fun h => T.at_.lab.tch _ _ (T.succ.1 h)
  have box : ∀ {i}, BoxLike g i → IsE g i := fun h => by obtain ⟨⟨e, he, -⟩, -⟩ := h; exact ⟨e, he⟩
  have sz : ∀ {a b}, IsE g a → IsE g b → cls a = cls b → size0 g a = size0 g b := by
    rintro a b ⟨ea, ha⟩ ⟨eb, hb'⟩ h
    have := (T.alike hu ha hb' (lab_of ⟨_, ha⟩ ⟨_, hb'⟩ h)).2
    unfold size0 head0
    rw [ha, hb']
    simp only [Option.bind_some]
    cases h1 : ea.processed <;> cases h2 : eb.processed <;> rw [h1, h2] at this
    · cases this
    · cases this
    · simp only [Option.bind_some]
      rw [sizeOfP_stat, sizeOfP_stat, Option.some.inj this]
  refine ⟨cls, fun i => match size0 g i with
    | some s => s
    | none => match parentSize g g.nodes.length i with | .ok z _ => z | _ => 0, height g B, ?_⟩
  constructor
  · intro i e p h1 h2
    exact (T.nodeOK h1).1 p h2
  · intro i e h1
    exact (T.nodeOK h1).2
  · intro i c h
    exact T.elem (T.succ.1 h)
  · intro i c
    rw [T.succ, T.par]
  · intro i e h1 h2
    exact T.device h1 h2
  · intro a b h
    refine ⟨S.same a b h, ?_, ?_⟩
    · rw [hcls]
      rcases S.kin a b h with rfl | ⟨p, p', c, h1, h2, h3, h4⟩
      · exact Or.inl rfl
      · refine Or.inr ⟨(T.at_.lab.tch _ _ h1).2, (T.at_.lab.tch _ _ h2).2, ?_⟩
        have h5 := hK _ _ h3
        rw [hK _ _ h4] at h5
        injection h5 with h5 h6
        rw [hK _ _ h1, hK _ _ h2, hL a b h, h6]
    · rw [T.successors hb Sg, T.successors hb Sg]
      exact S.kids a b h
  · exact S.idem
  · intro a b ea eb ha hb' h
    exact T.alike hu ha hb' (lab_of ⟨_, ha⟩ ⟨_, hb'⟩ h)
  · intro a b c c' h1 h2 h
    have h3 := K_of h
    rw [hK _ _ (T.succ.1 h1), hK _ _ (T.succ.1 h2)] at h3
    injection h3 with h3 h4
    exact (hcls a b).2 (Or.inr ⟨(isE_s h1).1, (isE_s h2).1, h4⟩)
  · have key : ∀ a b ea eb, g.elem? a = some ea → g.elem? b = some eb → cls a = cls b → g.successors b = [] → g.successors a = [] := by
      intro a b ea eb ha hb' h h0
      by_contra hne
      obtain ⟨c, hc⟩ := List.exists_mem_of_ne_nil _ hne
      obtain ⟨c', h1, -⟩ := T.kids hu hb ha hb' (lab_of ⟨_, ha⟩ ⟨_, hb'⟩ h) (T.succ.1 hc)
      have := T.succ.2 h1
      rw [h0] at this
      cases this
    intro a b ea eb ha hb' h
    exact ⟨key b a eb ea hb' ha h.symm, key a b ea eb ha hb' h⟩
  · intro a b h1 h2 h c hc _
    obtain ⟨⟨ea, ha, hla⟩, -⟩ := h1
    obtain ⟨⟨eb, hb', -⟩, -⟩ := h2
    obtain ⟨c', k1, k2, k3⟩ := T.kids hu hb ha hb' (lab_of ⟨_, ha⟩ ⟨_, hb'⟩ h) (T.succ.1 hc)
    refine ⟨c', T.succ.2 k1, k3 (by rcases hla with h | h <;> rw [h] <;> decide), ?_⟩
    rw [hcls]
    exact Or.inr ⟨(T.at_.lab.tch _ _ k1).2, (isE_s hc).2, by rw [hK _ _ k1, hK _ _ (T.succ.1 hc), k2, K_of h]⟩
  · intro i hi
    refine ⟨fun s hs => by rw [hs], fun hs => ?_⟩
    simp only [hs]
    obtain ⟨⟨e, he, hl⟩, hne⟩ := hi
    obtain ⟨c, hc⟩ := List.exists_mem_of_ne_nil _ hne
    have hconn : Conn g.edges i c := by
      obtain ⟨x, hx, h1, h2⟩ := mem_successors.1 hc
      rw [← h1, ← h2]
      exact .edge hx
    have hns := nf_parentSize T.at_.ac g.nodes.length i [c] (node?_lt (elem?_node?.1 he)) (by simp) (by
      intro x hx
      rw [List.mem_singleton] at hx
      subst hx
      obtain ⟨ec, hec⟩ := (isE_s hc).2
      exact ⟨node?_lt (elem?_node?.1 hec), hconn⟩) (by simp)
    rcases parentSize_ok T (f := g.nodes.length) he (by rcases hl with h | h <;> simp [h]) with ⟨z, hz⟩ | hz
    · rw [hz]
    · rw [hz] at hns
      exact hns.elim
  · intro a b h1 h2 h
    rw [sz (box h1) (box h2) h, parentSize_alike hu T hK g.nodes.length a b (box h1) (box h2) (K_of h)]
  · intro a b h
    rcases (hcls a b).1 h with rfl | ⟨h1, h2, h3⟩
    · rfl
    · exact height_alike hu hb T hK B a b h1 h2 h3
  · intro i c hc
    rw [← hst i, height, if_neg (by intro h; rw [h] at hc; cases hc)]
    have := le_mx (List.mem_map.2 ⟨c, hc, rfl⟩ : height g B c ∈ (g.successors i).map (height g B))
    omega
  · intro i hne
    have hm : mx ((g.successors i).map (height g B)) ∈ (g.successors i).map (height g B) := mx_mem (by simpa using hne)
    obtain ⟨c, hc, h1⟩ := List.mem_map.1 hm
    refine ⟨c, hc, ?_⟩
    rw [← hst i, height, if_neg hne, ← h1]
    omega
  · intro i h
    exact height_zero h

/-- When every `derivedFrom` leads to one declaration, it makes no difference that array elements share objects. -/
theorem shared_eq {ord : List Nat → List Nat} (hord : ∀ l, (ord l).Perm l) (hf : Followable d) (hq : Quiet d)
    (hu : ∀ x b b', Refers d x b → Refers d x b' → b = b') (fuel : Nat) : processDeviceH ord fuel d = processDevice ord fuel d := by
  refine processDeviceH_eq ?_
  intro g0 w g obj w' h0 hr _
  obtain ⟨lab, T, Sg, S, L⟩ := shares_end hord hf hq h0 hr
  obtain ⟨cls, E, hgt, C⟩ := coherent_of hu hf.acyclic T Sg S L
  exact ⟨cls, E, hgt, C, T.at_.lab.root.2⟩

end Svd
