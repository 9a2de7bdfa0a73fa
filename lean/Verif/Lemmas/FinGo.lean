import Verif.Lemmas.Tidy
import Verif.Lemmas.FinTotal
/-
The finalisation of a tidy graph does not fail.
-/
namespace Svd
open Graph Spec M

/-! ### sizes -/

theorem created_size {i : Nat} {n : Str} {disp : Option Str} {p : Parsed} {b : Option Processed} {x : Processed} {w : List Warn}
    (h : createDimable i n disp p b = .ok x w) : ∀ z, sizeOfP x = some z → statedSize p = some z ∨ ∃ y, b = some y ∧ sizeOfP y = some z := by
  intro z hz
  have key : ∀ a c : Option Int, orIfNone a c = some z → a = some z ∨ c = some z := by
    intro a c
    cases a
    · exact Or.inr
    · exact Or.inl
  unfold createDimable at h
  split at h <;> try simp only [M.bind_eq_ok, M.pure_eq_ok] at h
  case h_9 => simp [M.throw] at h
  case h_7 => obtain ⟨a, w1, w2, -, ⟨h, -⟩, -⟩ := h; rw [← h] at hz; cases hz
  case h_8 => obtain ⟨a, w1, w2, -, ⟨h, -⟩, -⟩ := h; rw [← h] at hz; cases hz
  all_goals
    rw [← h.1] at hz
    rcases key _ _ hz with h1 | h1
    · exact Or.inl h1
    · first
      | (cases h1; done)
      | exact Or.inr ⟨_, rfl, h1⟩

theorem yields_size {p : Parsed} {b : Option Processed} {y : Processed} (h : Yields p b y) :
    ∀ z, sizeOfP y = some z → statedSize p = some z ∨ ∃ y, b = some y ∧ sizeOfP y = some z := by
  obtain ⟨isDim, names, ds, w, i, n, disp, x, w', -, -, -, h1, h2⟩ := h
  have : sizeOfP y = sizeOfP x := by
    rcases h2 with ⟨-, -, rfl⟩ | ⟨-, rfl⟩ | ⟨-, -, rfl⟩
    · rfl
    · exact (clearDim_size x).1
    · exact (withName_size x _).1
  rw [this]
  exact created_size h1

/-- Sizes come from declarations. -/
theorem made_size {d : SDevice} {ch : List Parsed} {y : Processed} (h : Made d ch y) : ∀ z, sizeOfP y = some z → ∃ p, Declared d p ∧ statedSize p = some z := by
  induction h with
  | base h1 h2 h3 =>
    intro z hz
    rcases yields_size h3 z hz with h | ⟨y, h, -⟩
    · exact ⟨_, h1, h⟩
    · cases h
  | derive h1 h2 h3 h4 h5 ih =>
    intro z hz
    rcases yields_size h5 z hz with h | ⟨y, h, h'⟩
    · exact ⟨_, h1, h⟩
    · injection h with h
      exact ih z (h ▸ h')

theorem withSize_size (x : Processed) (a z : Int) : sizeOfP (x.withSize a) = some z → z = a := by
  cases x <;> simp [Processed.withSize, sizeOfP] <;> exact fun h => h.symm

/-! ### the size of a container -/

/-- What the computation of sizes needs. -/
structure Sized (g : Graph) : Prop where
  ac : Acyclic g.edges
  par : ∀ i e, g.elem? i = some e → e.level ≠ .device → ∃ p, p ∈ g.elementParents i
  kind : ∀ p i ep e, p ∈ g.elementParents i → g.elem? p = some ep → g.elem? i = some e → childKind ep.level e.level = true
  pelem : ∀ p i, p ∈ g.elementParents i → ∃ ep, g.elem? p = some ep
  proc : ∀ i e, g.elem? i = some e → e.level ≠ .device → e.level ≠ .enumcont → ∃ x, e.processed = some x ∧ procLevel x = e.level
  nonneg : ∀ i e x z, g.elem? i = some e → e.processed = some x → sizeOfP x = some z → 0 ≤ z

theorem procOf_eq {g : Graph} {i : Nat} {e : ElemNode} {x : Processed} (h1 : g.elem? i = some e) (h2 : e.processed = some x) : procOf g i = .ok x [] := by
  unfold procOf
  simp only [h1, h2]
  rfl

theorem templateOf_eq {g : Graph} {i : Nat} {e : ElemNode} (h1 : g.elem? i = some e) : templateOf g i = .ok e.isDimTemplate [] := by
  unfold templateOf
  simp only [h1]
  rfl

theorem parentSize_good {g : Graph} (S : Sized g) {f : Nat} : ∀ {i : Nat} {e : ElemNode}, g.elem? i = some e →
    (e.level = .peripheral ∨ e.level = .cluster ∨ e.level = .register) →
    (∃ z w, parentSize g f i = .ok z w ∧ 0 ≤ z) ∨ parentSize g f i = .err .outOfFuel := by
  induction f with
  | zero => intro i e _ _; exact Or.inr rfl
  | succ f ih =>
    intro i e he hl
    rw [parentSize]
    cases hp : g.elementParents i with
    | nil =>
      obtain ⟨p, h⟩ := S.par i e he (by rcases hl with h | h | h <;> rw [h] <;> decide)
      rw [hp] at h
      cases h
    | cons p ps =>
      simp only
      have hpm : p ∈ g.elementParents i := by rw [hp]; simp
      obtain ⟨ep, hep⟩ := S.pelem p i hpm
      by_cases hdev : g.hasLevel p .device = true
      · rw [if_pos hdev]
        exact Or.inl ⟨32, [], rfl, by decide⟩
      · rw [if_neg hdev]
        have hk := S.kind p i ep e hpm hep he
        have hnd : ep.level ≠ .device := by
          intro h
          apply hdev
          unfold Graph.hasLevel
          simp [hep, h]
        have hlp : ep.level = .peripheral ∨ ep.level = .cluster := by
          rcases hl with h | h | h <;> rw [h] at hk <;> revert hk hnd <;> cases ep.level <;> simp [childKind]
        obtain ⟨x, hx, hxl⟩ := S.proc p ep hep hnd (by rcases hlp with h | h <;> rw [h] <;> decide)
        rw [procOf_eq hep hx, M.bind_ok_nil]
        have hrec := ih hep (by rcases hlp with h | h <;> simp [h])
        have hn := S.nonneg p ep x
        rcases hlp with h | h <;> rw [h] at hxl <;> cases x <;> simp only [procLevel, reduceCtorEq] at hxl
        · rename_i y
          simp only
          cases hs : y.props.size with
          | none => exact hrec
          | some z => exact Or.inl ⟨z, [], rfl, hn z hep hx hs⟩
        · rename_i y
          simp only
          cases hs : y.props.size with
          | none => exact hrec
          | some z => exact Or.inl ⟨z, [], rfl, hn z hep hx hs⟩

theorem parentSize_total {g : Graph} (S : Sized g) {i : Nat} {e : ElemNode} (he : g.elem? i = some e)
    (hl : e.level = .peripheral ∨ e.level = .cluster ∨ e.level = .register) : ∃ z w, parentSize g (g.nodes.length + 1) i = .ok z w ∧ 0 ≤ z := by
  rcases parentSize_good S (f := g.nodes.length + 1) he hl with h | h
  · exact h
  · exfalso
    have := nf_parentSize_top S.ac i
    rw [h] at this
    exact this

theorem childSize_total {g : Graph} (S : Sized g) {i : Nat} {e : ElemNode} (he : g.elem? i = some e) (hl : e.level = .cluster ∨ e.level = .register) :
    ∃ z w, childSize g i = .ok z w ∧ (e.isDimTemplate = false → ∃ v, z = some v ∧ 0 ≤ v) := by
  obtain ⟨x, hx, hxl⟩ := S.proc i e he (by rcases hl with h | h <;> rw [h] <;> decide) (by rcases hl with h | h <;> rw [h] <;> decide)
  unfold childSize
  rw [procOf_eq he hx, M.bind_ok_nil]
  have key : ∀ (size : Option Int) (m : M (Option Int)), size = sizeOfP x → (m = M.bind (templateOf g i) fun t =>
      if t then M.pure none
      else match size with
        | some s => M.pure (some (if s % 8 ≠ 0 then 0 else s))
        | none => M.bind (parentSize g (g.nodes.length + 1) i) fun s => M.pure (some s)) →
      ∃ z w, m = .ok z w ∧ (e.isDimTemplate = false → ∃ v, z = some v ∧ 0 ≤ v) := by
    intro size m hs hm
    rw [templateOf_eq he, M.bind_ok_nil] at hm
    rw [hm]
    clear hm
    cases ht : e.isDimTemplate with
    | true => exact ⟨none, [], rfl, fun h => by cases h⟩
    | false =>
      simp only [Bool.false_eq_true, if_false]
      cases size with
      | none =>
        obtain ⟨z, w, h1, h2⟩ := parentSize_total S he (Or.inr hl)
        simp only
        rw [h1]
        exact ⟨some z, _, rfl, fun _ => ⟨z, rfl, h2⟩⟩
      | some s =>
        have := S.nonneg i e x s he hx hs.symm
        refine ⟨_, _, rfl, fun _ => ⟨_, rfl, ?_⟩⟩
        split <;> omega
  cases x with
  | reg r => exact key r.props.size _ rfl (M.bind_ok_nil (a := r.props.size))
  | clu r => exact key r.props.size _ rfl (M.bind_ok_nil (a := r.props.size))
  | periph r => rcases hl with h | h <;> rw [h] at hxl <;> cases hxl
  | field r => rcases hl with h | h <;> rw [h] at hxl <;> cases hxl

theorem filterMapM_total {α β : Type} {f : α → M (Option β)} {Q : α → Option β → Prop} : ∀ {l : List α}, (∀ a ∈ l, ∃ z w, f a = .ok z w ∧ Q a z) →
    ∃ zs w, M.filterMapM f l = .ok zs w ∧ ∀ a ∈ l, ∃ z, Q a z ∧ ∀ v, z = some v → v ∈ zs
  | [], _ => ⟨[], [], rfl, by simp⟩
  | a :: l, h => by
    obtain ⟨z, w, h1, h2⟩ := h a (by simp)
    obtain ⟨zs, w', h3, h4⟩ := filterMapM_total (l := l) (Q := Q) fun b hb => h b (List.mem_cons_of_mem _ hb)
    cases z with
    | none =>
      refine ⟨zs, _, M.filterMapM_cons_ok.2 ⟨none, w, zs, w', h1, h3, rfl, rfl⟩, ?_⟩
      intro b hb
      rcases List.mem_cons.1 hb with rfl | hb
      · exact ⟨none, h2, by simp⟩
      · exact h4 b hb
    | some v =>
      refine ⟨v :: zs, _, M.filterMapM_cons_ok.2 ⟨some v, w, zs, w', h1, h3, rfl, rfl⟩, ?_⟩
      intro b hb
      rcases List.mem_cons.1 hb with rfl | hb
      · exact ⟨some v, h2, fun u hu => by cases hu; simp⟩
      · obtain ⟨z, h5, h6⟩ := h4 b hb
        exact ⟨z, h5, fun u hu => by simp [h6 u hu]⟩

/-- The size of a container with an element. -/
theorem calculateSize_total {g : Graph} (S : Sized g) {cs : List Nat} (hcs : ∀ c ∈ cs, ∃ e, g.elem? c = some e ∧ (e.level = .cluster ∨ e.level = .register))
    (hlive : ∃ c ∈ cs, ∃ e, g.elem? c = some e ∧ e.isDimTemplate = false) : ∃ z w, calculateSize g cs = .ok z w ∧ 0 ≤ z := by
  obtain ⟨zs, w, h1, h2⟩ := filterMapM_total (f := childSize g) (Q := fun c z => ∀ e, g.elem? c = some e → e.isDimTemplate = false → ∃ v, z = some v ∧ 0 ≤ v) (l := cs) (by
    intro c hc
    obtain ⟨e, he, hl⟩ := hcs c hc
    obtain ⟨z, w, h1, h2⟩ := childSize_total S he hl
    refine ⟨z, w, h1, fun e' he' => ?_⟩
    rw [he] at he'
    cases he'
    exact h2)
  obtain ⟨c, hc, e, he, ht⟩ := hlive
  obtain ⟨z, h3, h4⟩ := h2 c hc
  obtain ⟨v, rfl, hv⟩ := h3 e he ht
  have h5 := (le_maxList (-1) zs).2 v (h4 v rfl)
  unfold calculateSize
  rw [h1]
  refine ⟨maxList (-1) zs, w ++ [], ?_, by omega⟩
  simp only [M.bind]
  rw [if_neg (by omega)]
  rfl

end Svd
