import Verif.Lemmas.Clear
import Verif.Lemmas.Accept
import Verif.Lemmas.Complete
/-
Resolvable descriptions: every step of the resolution succeeds.
-/
namespace Svd
open Graph Spec M

/-- What the steps of the resolution need. -/
structure Feasible (d : SDevice) : Prop where
  dims : ∀ x q, Complete d x q → DimFits q ∧ (Contains listMark (nameOfDecl q) → (dimOf q).dim ≠ none)
  widths : ∀ x f, Complete d x (.field f) → ∃ w, WidthOf f w

theorem create_accepted {p : Parsed} (hp : p ≠ .device) (he : p.isEnum = false) (hf : ∀ f, p = .field f → ∃ w, WidthOf f w) (i : Nat) (n : Str)
    (d : Option Str) : ∃ x w, createDimable i n d p none = .ok x w := by
  cases p with
  | device => exact absurd rfl hp
  | enum c => cases he
  | periph p => exact ⟨_, _, rfl⟩
  | clu p => exact ⟨_, _, rfl⟩
  | reg p => exact ⟨_, _, rfl⟩
  | field f =>
    obtain ⟨w, hw⟩ := hf f rfl
    obtain ⟨m, l, ws, h4, -⟩ := width_accepted hw
    unfold createDimable processField
    exact ⟨_, _, M.bind_eq_ok.2 ⟨_, _, _, M.bind_eq_ok.2 ⟨_, _, _, h4, rfl, rfl⟩, rfl, rfl⟩⟩

theorem processDimable_total {ord : List Nat → List Nat} (hord : ∀ l, (ord l).Perm l) {g : Graph} {i : Nat} {bn : Option Nat} {bp : Option Processed}
    {e : ElemNode} {p q : Parsed} (h : WF g) (hac : Acyclic g.edges) (hi : g.elem? i = some e) (hp : e.processed = none)
    (hb : ∀ b, bn = some b → De g b i) (hq : q ≠ .device) (he : q.isEnum = false) (h1 : extractDimOf p bp = extractDimOf q none)
    (h2 : ∀ ns ds, createAll p bp 0 ns ds = createAll q none 0 ns ds) (h3 : DimFits q) (h4 : Contains listMark (nameOfDecl q) → (dimOf q).dim ≠ none)
    (h5 : ∀ f, q = .field f → ∃ w, WidthOf f w) : ∃ g' ws, processDimable ord g i p bn bp = .ok g' ws := by
  obtain ⟨b, ns, ds, w, k1, k2, k3⟩ := extract_accepted' hq he h4 h3.sound
  obtain ⟨xs, w', k4, k5⟩ := createAll_accepted (create_accepted hq he h5) ns ds 0 k3
  unfold processDimable
  rw [h1, k1]
  suffices hs : ∃ g' ws, (match xs with
      | [] => M.throw (.resolve 504)
      | x :: _ =>
        if b then updateDimNode ord g i bn (xs.map (fun y : Processed => y.clearDim)) (x.withName p.name)
        else updateNode ord g i bn x false) = .ok g' ws by
    obtain ⟨g', ws, hs⟩ := hs
    exact ⟨g', _, M.bind_eq_ok.2 ⟨_, _, _, rfl, M.bind_eq_ok.2 ⟨_, _, _, by rw [h2]; exact k4, hs, rfl⟩, rfl⟩⟩
  cases xs with
  | nil => exact absurd (List.length_eq_zero_iff.1 k5.symm) k2
  | cons x xs =>
    dsimp only
    split
    · obtain ⟨g', hg⟩ := updateDimNode_total hord (xs := (x :: xs).map (fun y : Processed => y.clearDim)) (p := x.withName p.name) h hac hi hp hb
      exact ⟨g', _, hg⟩
    · obtain ⟨g', hg⟩ := updateNode_total hord (p := x) (t := false) h hac hi hp hb
      exact ⟨g', _, hg⟩

theorem processEnumNode_total {ord : List Nat → List Nat} (hord : ∀ l, (ord l).Perm l) {g : Graph} {i : Nat} {bn : Option Nat} {e : ElemNode} (h : WF g)
    (hac : Acyclic g.edges) (he : g.elem? i = some e) (hb : ∀ b, bn = some b → De g b i) : ∃ g', processEnumNode ord g i bn = .ok g' [] := by
  unfold processEnumNode
  rw [he]
  dsimp only
  obtain ⟨hw, hno⟩ := setElem_wf h (i := i) (e := { e with parsed := adoptedParsed g e bn }) (IsE.some ⟨e, he⟩)
  have hi : ((g.setElem i { e with parsed := adoptedParsed g e bn }).node? i).isSome := by
    rw [hno, if_pos rfl]; rfl
  obtain ⟨g1, h1⟩ := adoptBase_total hord (bn := bn) hw (hac : Acyclic (g.setElem i { e with parsed := adoptedParsed g e bn }).edges) hi hb
  have he1 := (adoptBase_wf hw h1 hi).2.elem (elem?_node?.2 ((hno i).trans (if_pos rfl)))
  rw [h1, M.bind_ok_nil, he1]
  exact ⟨_, rfl⟩

theorem fits_of_kind {p : Parsed} {b : Processed} {ps : List Parsed} {d : SDevice} {pb : Parsed} (hm : Made d (pb :: ps) b) (hl : pb.level = p.level)
    (hd : p ≠ .device) (he : p.isEnum = false) : Fits p b := by
  have := made_kind hm
  cases p <;> cases b <;> simp_all [Parsed.level, Parsed.isEnum] <;> constructor

theorem processNode_total {d : SDevice} {ord : List Nat → List Nat} (hord : ∀ l, (ord l).Perm l) (F : Feasible d) {old : Nat → Prop} {g : Graph}
    {lab : Nat → Pos} {i : Nat} {is : List Nat} (G : Going d old g lab (i :: is)) : ∃ g' ws, processNode ord g i = .ok g' ws := by
  have A := G.at_
  obtain ⟨hoi, hui, hpl⟩ := G.todo i (by simp)
  obtain ⟨e, he, hpe⟩ := unprocessed_iff.1 hui
  obtain ⟨n1, n2, n3, n4, n5⟩ := A.inv.nodes.elem he
  obtain ⟨p, hp⟩ := A.lab.node i e he
  have hdl : e.level ≠ .device := fun hl => by
    have := device_zero A.lab G.fol he hl
    subst this
    exact not_done hui G.root
  have hdev : e.parsed ≠ .device := fun h => hdl (by rw [n2, h]; rfl)
  have hnone : e.processed = none := by
    cases hx : e.processed with
    | none => rfl
    | some x =>
      have := (n4 x hx).2.1
      rw [hpe] at this
      cases this
  have hen : e.parsed.isEnum = true ↔ e.level = .enumcont := by rw [n2]; exact isEnum_level _
  unfold processNode
  rw [he]
  dsimp only
  rw [if_neg hdev]
  -- the last part
  have fin : ∀ bn bp, (∀ b, bn = some b → De g b i) → (e.parsed.isEnum = false → ∃ q, Complete d (lab i) q ∧ q ≠ .device ∧ q.isEnum = false ∧
      extractDimOf e.parsed bp = extractDimOf q none ∧ ∀ ns ds, createAll e.parsed bp 0 ns ds = createAll q none 0 ns ds) →
      ∃ g' ws, (if e.parsed.isEnum then processEnumNode ord g i bn else processDimable ord g i e.parsed bn bp) = .ok g' ws := by
    intro bn bp hb hq
    by_cases hE : e.parsed.isEnum = true
    · rw [if_pos hE]
      obtain ⟨g', h⟩ := processEnumNode_total hord A.inv.wf A.ac he hb
      exact ⟨g', _, h⟩
    · rw [if_neg hE]
      obtain ⟨q, q1, q2, q3, q4, q5⟩ := hq (by simpa using hE)
      obtain ⟨q6, q7⟩ := F.dims _ _ q1
      exact processDimable_total hord A.inv.wf A.ac he hnone hb q2 q3 q4 q5 q6 q7 fun f hf => F.widths _ f (hf ▸ q1)
  cases hpath : e.parsed.derivedFrom with
  | none =>
    dsimp only
    rw [M.pure, M.bind_ok_nil]
    refine fin none none (by simp) fun hE => ⟨e.parsed, ?_, hdev, hE, rfl, fun _ _ => rfl⟩
    have hne : e.level ≠ .enumcont := fun h => by rw [hen.2 h] at hE; cases hE
    rw [hp.parsed hne] at hpath ⊢
    exact .own hp.decl hpath
  | some path =>
    dsimp only
    have hex : ∃ b, De g b i := by
      rcases G.fol.pend i e he (not_done hui) (by rw [hpath]; simp) with ⟨j, hj⟩ | hb
      · exact (hpl j hj).elim
      · exact hb
    have hbase : ∃ b, g.baseElementNode i = some b := by
      obtain ⟨b, hb⟩ := hex
      unfold Graph.baseElementNode
      cases hfind : (g.inEdges i).find? fun e => e.ty == .derive with
      | some ed => exact ⟨_, rfl⟩
      | none =>
        have := List.find?_eq_none.1 hfind ⟨b, i, .derive⟩ (by unfold Graph.inEdges; exact List.mem_filter.2 ⟨hb, by simp⟩)
        simp at this
    obtain ⟨b, hb⟩ := hbase
    have hde : De g b i := baseElementNode_edge hb
    obtain ⟨s, t, k1, k2, es, ed, rfl, rfl, k3, k4⟩ := A.inv.edges _ hde
    have hes := elem?_node?.2 k1
    have hed := elem?_node?.2 k2
    rw [he] at hed
    injection hed with hed
    subst hed
    have hdb : derivedFromBase g i e = .ok (b, es) [] := by
      unfold derivedFromBase
      rw [hb]
      simp only [hes, k3, ne_eq, not_true_eq_false, if_false]
      rfl
    obtain ⟨o1, o2, o3, o4, o5⟩ := A.inv.nodes.elem hes
    -- the base of a dimable node is complete
    have hdone : e.level ≠ .enumcont → ∃ x, es.processed = some x := by
      intro hne
      rcases G.base [] i is rfl b e hde he hne with ⟨e', p1, p2⟩ | p1
      · rw [hes] at p1
        injection p1 with p1
        subst p1
        exact Option.isSome_iff_exists.1 (o5 p2 (by rw [k3]; exact hdl) (by rw [k3]; exact hne))
      · cases p1
    rw [hdb, M.bind_ok_nil]
    dsimp only
    rw [if_neg, M.pure, M.bind_ok_nil]
    · refine fin (some b) es.processed (fun b' hb' => by injection hb' with hb'; exact hb' ▸ hde) fun hE => ?_
      have hne : e.level ≠ .enumcont := fun h => by rw [hen.2 h] at hE; cases hE
      obtain ⟨x, hx⟩ := hdone hne
      obtain ⟨nx, xp, ch, hm⟩ := o4 x hx
      have hfit : Fits e.parsed x := fits_of_kind hm (by rw [← o2, k3, n2]) hdev hE
      obtain ⟨path', r1, r2⟩ := k4 hne
      rw [hpath] at r1
      injection r1 with r1
      subst r1
      obtain ⟨l, hl, -⟩ := A.lab.cont b es id hes (by rw [k3]; exact hne)
      have hel := elementOf_made (hl.done xp) (hl.made x hx)
      have hpp := hp.parsed hne
      rw [hx]
      refine ⟨completed e.parsed x, ?_, ?_, ?_, extract_completed hfit, fun ns ds => createAll_completed hfit (made_sorted hm) ns 0 ds⟩
      · rw [hpp] at hpath ⊢
        refine .derived hp.decl hpath (A.lab.der _ _ hde) hel ?_
        rw [nameOf_eq, ← lastPart_eq]
        rw [nx] at r2
        injection r2
      · generalize e.parsed = q at hfit
        cases hfit <;> simp [completed]
      · generalize e.parsed = q at hfit
        cases hfit <;> rfl
    · simp only [Bool.and_eq_true, Bool.not_eq_true', Option.isNone_iff_eq_none, not_and]
      intro hn hE
      obtain ⟨x, hx⟩ := hdone fun h => by rw [hen.2 h] at hE; cases hE
      rw [hn] at hx
      cases hx

theorem processNodes_total {d : SDevice} {ord : List Nat → List Nat} (hord : ∀ l, (ord l).Perm l) (hf : Followable d) (F : Feasible d) {old : Nat → Prop}
    {is : List Nat} : ∀ {g : Graph} {lab : Nat → Pos}, Going d old g lab is → Single g →
      ∃ g' ws, processNodes ord g is = .ok g' ws ∧ Single g' := by
  induction is with
  | nil => intro g lab G S; exact ⟨g, [], rfl, S⟩
  | cons i is ih =>
    intro g lab G S
    obtain ⟨g1, w1, h1⟩ := processNode_total hord F G
    obtain ⟨lab1, G1, -⟩ := going_step hord hf G h1
    obtain ⟨g2, w2, h2, S2⟩ := ih G1 (single_processNode hord hf.acyclic G.at_ (G.todo i (by simp)).2.1 S h1)
    exact ⟨g2, _, M.bind_eq_ok.2 ⟨_, _, _, h1, h2, rfl⟩, S2⟩

/-- The rounds fail only if the fuel runs out. -/
theorem rounds_total {d : SDevice} {ord : List Nat → List Nat} (hord : ∀ l, (ord l).Perm l) (hf : Followable d) (hq : Quiet d) (hc : Clear d) (F : Feasible d)
    {fuel : Nat} : ∀ {g : Graph} {lab : Nat → Pos} {prev : List Nat} {x : Exn}, Phase d g lab → Neat d g lab → Calm g → Single g → (∀ k ∈ prev, Done g k) →
      rounds ord fuel g prev = .err x → x = .outOfFuel := by
  induction fuel with
  | zero => intro g lab prev x _ _ _ _ _ hr; simp only [rounds, M.throw, M.err.injEq] at hr; exact hr.symm
  | succ f ih =>
    intro g lab prev x P N C S hprev hr
    obtain ⟨g1, h1⟩ := resolvePlaceholders_total hf hc P N C S P.listed.1 fun k hk => (P.listed.2 k).1 hk
    have R := ready_of hf P h1
    obtain ⟨N1, C1⟩ := neat_phases hf P N C h1
    have S1 := single_resolvePlaceholders S h1
    simp only [rounds, h1, M.bind_ok_nil] at hr
    by_cases hnil : sortedProcessable g1 = []
    · rw [if_pos hnil] at hr; cases hr
    rw [if_neg hnil] at hr
    have hne : sortedProcessable g1 ≠ prev := by
      intro heq
      obtain ⟨-, he, -⟩ := phase_run hf P h1
      obtain ⟨k, ks, hk⟩ := List.exists_cons_of_ne_nil hnil
      have h2 : k ∈ sortedProcessable g1 := by rw [hk]; simp
      exact not_done (sorted_sub.2 k h2) ((done_congr he k).2 (hprev k (heq ▸ h2)))
    rw [if_neg hne] at hr
    obtain ⟨g2, w2, h2, S2⟩ := processNodes_total hord hf F (going_start hf R) S1
    rw [M.bind_eq_err, h2] at hr
    rcases hr with hr | ⟨g3, w3, h3, hr⟩
    · cases hr
    · injection h3 with h3 _
      subst h3
      obtain ⟨lab2, G2, h4, -, N2⟩ := neat_run hord hf hq (going_start hf R) N1 (calm_start C1) h2
      exact ih (phase_next G2) N2 (Or.inr fun k e he hl => (G2.per k e he hl).resolve_right (by simp)) S2 h4 hr

end Svd
