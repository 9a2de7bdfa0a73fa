import Verif.Lemmas.FolList
import Verif.Lemmas.Heads
import Verif.Lemmas.Search
import Verif.Lemmas.PathText
/-
References that can be followed: the path is found.
-/
namespace Svd
open Graph Spec

theorem extractDim_simple {ty : Level} {name : Str} {pd : SDim} {pdisp : Option Str} {bd : Option IDim} {bdisp : Option Str} {isDim : Bool}
    {ns : List Str} {ds : List (Option Str)} {ws : List Warn} (h : extractDim ty name pd pdisp bd bdisp = .ok (isDim, ns, ds) ws)
    (hm : hasSub lstMark name = false) : isDim = false := by
  unfold extractDim at h
  simp only [hm, Bool.and_false, Bool.false_eq_true, if_false, Bool.not_false, Bool.and_true] at h
  simp only [M.bind_eq_ok] at h
  obtain ⟨dim', w1, w2, h1, h2, -⟩ := h
  have hd : dim' = none := by
    split at h1
    · simp only [M.bind_eq_ok, M.pure_eq_ok] at h1
      obtain ⟨_, _, _, -, ⟨h1, -⟩, -⟩ := h1
      exact h1.symm
    · rename_i hs
      simp only [M.pure_eq_ok] at h1
      rw [← h1.1]
      simpa using hs
  subst hd
  simp only [Option.isNone_none, Bool.true_and, Option.isSome_none] at h2
  generalize (if ty = Level.register then orIfNone pdisp bdisp else none) = disp at h2
  split at h2
  · simp at h2
  · simp only [M.bind_eq_ok, M.pure_eq_ok, Prod.mk.injEq] at h2
    obtain ⟨_, _, _, -, ⟨⟨h2, -⟩, -⟩, -⟩ := h2
    simpa using h2.symm

theorem headsFrom_plain {p : Parsed} {b : Option Processed} {hs : List Processed} (h : HeadsFrom p b hs) (hm : ¬ Contains listMark (nameOfDecl p)) :
    ∃ x ∈ hs, x.name = nameOfDecl p := by
  obtain ⟨isDim, names, ds, w, xs, w', h1, h2, h3, rfl⟩ := h
  have hm' := hasSub_false.2 hm
  have hd : isDim = false := by
    unfold extractDimOf at h1
    cases p <;> simp only [] at h1
    all_goals first | exact extractDim_simple h1 hm' | (simp at h1)
  subst hd
  have hn := extractDimOf_nodim h1
  have hname : p.name = nameOfDecl p := by
    cases p <;> first | rfl | (simp [extractDimOf] at h1)
  obtain ⟨x, xs', rfl⟩ := List.exists_cons_of_ne_nil h3
  obtain ⟨n, disp, w1, k1, k2, k3⟩ := (createAll_ok h2).2 0 x rfl
  refine ⟨x, by simp, ?_⟩
  rw [createDimable_name k3]
  rw [hn] at k1
  simp only [List.getElem?_cons_zero, Option.some.injEq] at k1
  rw [← k1, hname]

theorem present_plain {d : SDevice} {g : Graph} {lab : Nat → Pos} (hi : Inv d g) (h : Lab d g lab) {a : Nat} {y : Pos} {n : Str}
    (hp : PresentIn d g lab a y) (hn : PlainName d y n) : ∃ j, Ch g a j ∧ lab j = y ∧ Named g j n := by
  obtain ⟨c, e, h1, h2, h3, h4⟩ := hp
  obtain ⟨p, h5, h6, h7, h8⟩ := hn
  obtain ⟨q, h9⟩ := h.node c e h2
  have hq : q = p := declAt_unique h9.decl (by rw [h3]; exact h5)
  subst hq
  obtain ⟨k1, k2, k3, k4, k5⟩ := hi.nodes.elem h2
  by_cases hk : e.level = .enumcont
  · have hk' : kindOf q = .enumcont := by rw [kindOf_level, ← h9.level]; exact hk
    cases q with
    | enum ec => exact ⟨c, h1, h3, e, h2, by rw [(h9.enum ec rfl).1]; exact h7 ec rfl⟩
    | _ => cases hk'
  · have hk' : kindOf q ≠ .enumcont := by rw [kindOf_level, ← h9.level]; exact hk
    obtain ⟨h8a, h8b⟩ := h8 hk'
    have hname : q.name = n := by
      rw [← h8a]
      cases q <;> first | rfl | exact absurd rfl h6 | exact absurd rfl hk'
    rcases h4 with h4 | h4 | ⟨l, hs, h4, h10⟩
    · refine ⟨c, h1, h3, e, h2, ?_⟩
      have hnone : e.processed = none := by
        cases hpr : e.processed with
        | none => rfl
        | some x =>
          have := (k4 x hpr).2.1
          rw [h4] at this
          cases this
      rw [k3 hnone hk, h9.parsed hk, hname]
    · exact absurd h4 hk
    · obtain ⟨q', b, m1, -, m3⟩ := h4
      have : q' = q := declAt_unique m1 h5
      subst this
      obtain ⟨x, hx, hxn⟩ := headsFrom_plain m3 (by rw [h8a]; exact h8b)
      obtain ⟨j, m4, ej, m5, m6, -, -, m7⟩ := h10 x hx
      refine ⟨j, m4, m6, ej, m5, ?_⟩
      obtain ⟨-, -, -, k4', -⟩ := hi.nodes.elem m5
      rw [(k4' x m7).1, hxn, h8a]

theorem ownPath_prefix {d : SDevice} {s t : Pos} {parts : List Str} (h : OwnPath d s parts t) : s <+: t := by
  induction h with
  | last _ => exact List.prefix_refl _
  | down _ h2 _ ih =>
    obtain ⟨k, p, rfl, -⟩ := h2
    exact (List.prefix_append _ _).trans ih

theorem present_own {d : SDevice} {g : Graph} {lab : Nat → Pos} (hb : ∀ x, ¬ Precedes d x x) {a : Nat} {l : List Pos} {y : Pos}
    (hc : Cont d g lab a l) (hy : InChain d l y) : PresentIn d g lab a y := by
  rcases hc.all y hy with ⟨z, -, h1, h2⟩ | h1
  · exact (not_endless hb h1 (.one h2)).elim
  · exact h1

theorem chainOf_self {d : SDevice} {x : Pos} {e : ElemNode} {l : List Pos} (h : ChainOf d x e l) : x ∈ l := by
  cases hp : e.isProcessed with
  | false => rw [h.raw hp]; simp
  | true =>
    have := h.done hp
    cases this <;> simp

/-- The walk exists. -/
theorem walk_exists {d : SDevice} {g : Graph} {lab : Nat → Pos} (hi : Inv d g) (h : Lab d g lab) (hb : ∀ x, ¬ Precedes d x x) {c : Nat} {s t : Pos}
    {parts : List Str} (hp : OwnPath d s parts t) (ht : ¬ lab c <+: t) : ∀ {a : Nat} {l : List Pos}, Cont d g lab a l → InChain d l s →
      ∃ n t', Ch g a n ∧ NameWalk g c n parts t' ∧ lab t' = t := by
  induction hp with
  | @last x n hn =>
    intro a l h1 h2
    obtain ⟨j, h3, h4, h5⟩ := present_plain hi h (present_own hb h1 h2) hn
    exact ⟨j, j, h3, .last (by rintro rfl; exact ht (by rw [h4]; exact List.prefix_refl _)) h5, h4⟩
  | @down x y n ns t hn ho hrest ih =>
    intro a l h1 h2
    obtain ⟨j, h3, h4, h5⟩ := present_plain hi h (present_own hb h1 h2) hn
    obtain ⟨ej, hej⟩ := (h.tch _ _ h3).2
    have hne : ej.level ≠ .enumcont := by
      intro hl
      obtain ⟨q, hq⟩ := h.node j ej hej
      obtain ⟨p1, q1, k1, k2⟩ := ownChild_decl ho
      have := ownChild_kind ho k1 k2
      have e1 : q = p1 := declAt_unique hq.decl (by rw [h4]; exact k1)
      rw [← e1, ← hq.level, hl] at this
      cases hq1 : q1.level <;> rw [hq1] at this <;> cases this
    obtain ⟨lj, k1, k2⟩ := h.cont j ej id hej hne
    obtain ⟨m, t', k3, k4, k5⟩ := ih ht k2 ⟨lab j, chainOf_self k1, by rw [h4]; exact ho⟩
    refine ⟨j, t', h3, .down ?_ h5 ?_ k4, k5⟩
    · rintro rfl
      refine ht ?_
      rw [h4]
      obtain ⟨k, p, rfl, -⟩ := ho
      exact (List.prefix_append _ _).trans (ownPath_prefix hrest)
    · exact childOf_iff.1 (h.chElem.2 k3)

theorem search_found {g : Graph} {ex : Nat} {level : Level} {parts : List Str} {nodes fs : List Nat} {ws : List Warn}
    (h : searchNodes g ex level parts nodes = .ok fs ws) {n t : Nat} (hn : n ∈ nodes) (hw : NameWalk g ex n parts t)
    (hl : g.hasLevel t level = true) : ∃ b, fs = [b] := by
  obtain ⟨h1, -, h3⟩ := searchNodes_spec h
  rcases h3 with h3 | ⟨x, h3, -⟩
  · have := h3 n hn t hw hl
    match fs, h1, this with
    | [b], _, _ => exact ⟨b, rfl⟩
  · exact ⟨x, h3⟩

/-- The path at a derived element whose parent is processed is found. -/
theorem path_found {d : SDevice} {g : Graph} {lab : Nat → Pos} (hi : Inv d g) (h : Lab d g lab) (hb : ∀ x, ¬ Precedes d x x)
    {c par : Nat} {e : ElemNode} {path : Str} (he : g.elem? c = some e) (hpar : Ch g par c)
    (hcall : ∃ t, Names d (lab c) t) (hpath : ∀ p, DeclAt d (lab c) p → p.derivedFrom = some path) {o : Option Nat} {w : List Warn}
    (hr : pathResolving g c e.level path = .ok o w) : ∃ b, o = some b := by
  obtain ⟨t, p, path', parts, s, h1, h2, h3, h4, h5, h6, h7⟩ := hcall
  have : path' = path := by
    have := hpath p h1
    rw [h2] at this
    injection this
  subst this
  have hparts := pathNames_split h3
  unfold pathResolving at hr
  rw [hparts] at hr
  simp only [M.bind_eq_ok] at hr
  obtain ⟨m1, w1, w2, hr1, hr2, -⟩ := hr
  have lev : ∀ {t'}, lab t' = t → IsE g t' → g.hasLevel t' e.level = true := by
    rintro t' rfl ⟨et, het⟩
    obtain ⟨q1, hq1⟩ := h.node _ _ he
    obtain ⟨q2, hq2⟩ := h.node _ _ het
    unfold Graph.hasLevel
    rw [het]
    simp only [beq_iff_eq]
    rw [hq1.level, hq2.level]
    exact (sameKind_level h4 hq1.decl hq2.decl).symm
  have isE : ∀ {n t'}, NameWalk g c n parts t' → IsE g t' := by
    intro n t' hw
    clear * - hw
    induction hw with
    | last _ h => obtain ⟨e, he, -⟩ := h; exact ⟨e, he⟩
    | down _ _ _ _ ih => exact ih
  have hfound : (∃ b, m1 = [b]) ∨ ∃ n t', n ∈ g.elementChildren 0 ∧ NameWalk g c n parts t' ∧ g.hasLevel t' e.level = true := by
    rcases h5 with h5 | ⟨q, h5, h5'⟩
    · right
      obtain ⟨r1, er, r2, r3⟩ := h.root
      obtain ⟨l, k1, k2⟩ := h.cont 0 er id r2 (by rw [r3]; decide)
      obtain ⟨n, t', k3, k4, k5⟩ := walk_exists hi h hb h6 h7 k2 ⟨[], by
        have := chainOf_self k1
        rwa [r1] at this, h5⟩
      exact ⟨n, t', h.chElem.2 k3, k4, lev k5 (isE k4)⟩
    · left
      have hin : par ∈ g.elementParents c := h.chParents.2 hpar
      cases hps : g.elementParents c with
      | nil => rw [hps] at hin; cases hin
      | cons p0 ps =>
        have hp0 : Ch g p0 c := h.chParents.1 (by rw [hps]; exact List.mem_cons_self ..)
        obtain ⟨e0, he0⟩ := (h.tch _ _ hp0).1
        have hl0 : e0.level ≠ .enumcont := fun hl => (h.leaf _ _ c he0 hl).1 hp0
        obtain ⟨l, k1, k2⟩ := h.cont p0 e0 id he0 hl0
        have hin2 : InChain d l s := by
          rcases k2.sub c hp0 with ⟨z, hz, ho⟩ | hnest
          · have : z = q := by
              obtain ⟨k, _, e1, -⟩ := ho
              obtain ⟨k', _, e2, -⟩ := h5
              rw [e1] at e2
              exact (List.append_inj_left' e2 rfl)
            exact ⟨z, hz, by rw [this]; exact h5'⟩
          · exact (not_nested hb hnest).elim
        obtain ⟨n, t', k3, k4, k5⟩ := walk_exists hi h hb h6 h7 k2 hin2
        refine search_found hr1 (n := n) ?_ k4 (lev k5 (isE k4))
        unfold Graph.elementSiblings
        rw [hps]
        simp only [List.mem_filter, Bool.and_eq_true, bne_iff_ne, ne_eq]
        refine ⟨mem_successors.2 ?_, ?_, ?_⟩
        · rcases k3 with k3 | k3
          · exact ⟨_, k3, rfl, rfl⟩
          · exact ⟨_, k3, rfl, rfl⟩
        · obtain ⟨en, hen⟩ := (h.tch _ _ k3).2
          unfold Graph.isElem
          rw [hen]
          rfl
        · cases k4 with
          | last h => exact h
          | down h => exact h
  rcases hfound with ⟨b, rfl⟩ | ⟨n, t', k1, k2, k3⟩
  · simp only [M.pure_eq_ok] at hr2
    exact ⟨b, hr2.1.symm⟩
  · split at hr2
    · simp only [M.pure_eq_ok] at hr2
      exact ⟨_, hr2.1.symm⟩
    · simp only [M.bind_eq_ok] at hr2
      obtain ⟨m2, w3, w4, hr3, hr4, -⟩ := hr2
      obtain ⟨b, rfl⟩ := search_found hr3 k1 k2 k3
      simp only [M.pure_eq_ok] at hr4
      exact ⟨b, hr4.1.symm⟩

end Svd
