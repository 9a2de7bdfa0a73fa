import Verif.Lemmas.Heads
import Verif.Lemmas.Traverse
import Verif.Lemmas.Sizes
/-
Facts about the completely processed graph of a device without derivedFrom, and about its finalisation.
-/
namespace Svd
open Graph Spec

def sizeOfP : Processed → Option Int
  | .periph h => h.props.size
  | .clu c => c.props.size
  | .reg r => r.props.size
  | .field _ => none

def declSize : Parsed → Option Int
  | .periph h => h.props.size
  | .clu c => c.props.size
  | .reg r => r.props.size
  | _ => none

def procLevel : Processed → Level
  | .periph _ => .peripheral
  | .clu _ => .cluster
  | .reg _ => .register
  | .field _ => .field

theorem headAt_size {ex : Bool} {p : Parsed} {pl : Place} {h : Processed} (hh : HeadAt ex p pl h) :
    sizeOfP h = declSize p ∧ procLevel h = levelOf p := by
  cases hh <;> exact ⟨rfl, rfl⟩

theorem entrywise_right {α β : Type} {R : α → β → Prop} {xs : List α} {ys : List β} (h : Entrywise R xs ys) {y : β} (hy : y ∈ ys) :
    ∃ x ∈ xs, R x y := by
  induction h with
  | nil => cases hy
  | cons hr _ ih =>
    rcases List.mem_cons.1 hy with rfl | hy
    · exact ⟨_, by simp, hr⟩
    · obtain ⟨x, hx, hr⟩ := ih hy
      exact ⟨x, by simp [hx], hr⟩

theorem heads_size {p : Parsed} {y : Bool × List Processed} {w : List Warn} (h : expandM p = .ok y w) {x : Processed}
    (hx : x ∈ headsOf p) : sizeOfP x = declSize p ∧ procLevel x = levelOf p := by
  obtain ⟨ex, pls, -, he⟩ := headsOf_stands h
  obtain ⟨pl, -, hr⟩ := entrywise_right he hx
  exact headAt_size hr

theorem clearDim_size (x : Processed) : sizeOfP x.clearDim = sizeOfP x ∧ procLevel x.clearDim = procLevel x := by
  cases x <;> exact ⟨rfl, rfl⟩

theorem withName_size (x : Processed) (n : Str) : sizeOfP (x.withName n) = sizeOfP x ∧ procLevel (x.withName n) = procLevel x := by
  cases x <;> exact ⟨rfl, rfl⟩

/-- The graph after all rounds. -/
structure Final (L : List (Nat × Parsed)) (org : Nat → Nat) (g : Graph) : Prop where
  shape : Shape L (L.length - 1) org g
  ok : LOK L
  exp : ∀ (i : Nat) x, 1 ≤ i → L[i]? = some x → x.2.isEnum = false → ∃ y w, expandM x.2 = .ok y w

section
variable {L : List (Nat × Parsed)} {org : Nat → Nat} {g : Graph}

theorem Final.pos (F : Final L org g) : 0 < L.length := (List.getElem?_eq_some_iff.1 F.ok.root).1

/-- What is known about node `i` standing for the element `p`. -/
structure NodeInfo (L : List (Nat × Parsed)) (i : Nat) (p : Parsed) (e : ElemNode) : Prop where
  level : e.level = levelOf p
  parsed : e.parsed = p
  tmpl : e.isDimTemplate = true ↔ i < L.length ∧ isDimB p = true
  head : p.isEnum = false → ∃ h, e.processed = some h ∧ sizeOfP h = declSize p ∧ procLevel h = levelOf p ∧
    (e.isDimTemplate = false → h ∈ headsOf p ∧ (i < L.length → headsOf p = [h]))

theorem heads_single {p : Parsed} {y : Bool × List Processed} {w : List Warn} (h : expandM p = .ok y w) (hd : y.1 = false) :
    ∃ x, y.2 = [x] := by
  unfold expandM at h
  simp only [M.bind_eq_ok] at h
  obtain ⟨a, w1, w2, h1, ⟨xs, w3, w4, h2, h3, -⟩, -⟩ := h
  split at h3
  · simp [M.throw] at h3
  rw [M.pure_eq_ok] at h3
  obtain ⟨rfl, -⟩ := h3
  obtain ⟨d, ns, ds⟩ := a
  obtain ⟨ty, ho⟩ := outcome_none h1
  obtain ⟨h4, h5⟩ := createAll_ok h2
  simp only at ho h4 hd
  rcases ho with ⟨rfl, rfl, rfl, hm, -⟩ | ⟨rfl, -⟩
  · simp only [List.length_singleton, Nat.min_self] at h4
    exact List.length_eq_one_iff.1 h4
  · cases hd

theorem Final.info (F : Final L org g) {i : Nat} (hi : i < g.nodes.length) (h1 : 1 ≤ org i) :
    ∃ q p e, L[org i]? = some (q, p) ∧ g.elem? i = some e ∧ NodeInfo L i p e := by
  have hpos := F.pos
  by_cases hl : i < L.length
  · have hs := F.shape.self i hl
    obtain ⟨⟨q, p⟩, hx⟩ : ∃ x, L[i]? = some x := ⟨_, List.getElem?_eq_getElem hl⟩
    have he := F.shape.node i _ hx
    rw [if_pos (by omega)] at he
    refine ⟨q, p, _, by rw [hs]; exact hx, he, ?_⟩
    simp only
    cases hen : p.isEnum with
    | true =>
      cases p <;> simp [Parsed.isEnum] at hen
      rename_i en
      refine ⟨rfl, rfl, ?_, fun h => by simp [Parsed.isEnum] at h⟩
      simp [doneNode, expandO, expandM, extractDimOf, isDimB, M.bind, M.throw, initNode]
    | false =>
      obtain ⟨y, w, hy⟩ := F.exp i _ (by omega) hx hen
      simp only at hy
      obtain ⟨h2, h3, h4, x, xs, h5, h6⟩ := initNode_done hy
      rw [h6]
      refine ⟨rfl, rfl, ?_, ?_⟩
      · simp only [h2]
        exact ⟨fun h => ⟨hl, h⟩, fun h => h.2⟩
      · intro _
        refine ⟨_, rfl, ?_⟩
        have hxs := heads_size hy (x := if y.1 then x.clearDim else x) (by rw [headsOf_eq hy, h5]; simp)
        cases hd : y.1 with
        | true =>
          rw [hd] at hxs
          simp only [if_true] at hxs ⊢
          rw [(clearDim_size x).1, (clearDim_size x).2] at hxs
          refine ⟨by rw [(withName_size x _).1]; exact hxs.1, by rw [(withName_size x _).2]; exact hxs.2, fun hc => by cases hc⟩
        | false =>
          rw [hd] at hxs
          simp only [Bool.false_eq_true, if_false] at hxs ⊢
          obtain ⟨z, hz⟩ := heads_single hy hd
          have hxz : x = z := by rw [h5] at hz; simpa using (List.cons.inj hz).1
          subst hxz
          have hh := h4 hd
          rw [hz] at hh
          exact ⟨hxs.1, hxs.2, fun _ => ⟨by rw [hh]; simp, fun _ => hh⟩⟩
  · obtain ⟨q, p, x, h2, h3, h4, h5, h6, h7, -⟩ := F.shape.inst i (by omega) hi
    refine ⟨q, p, _, h4, h6, rfl, rfl, ?_, ?_⟩
    · simp [instNode, hl]
    · intro hen
      obtain ⟨y, w, hy⟩ := F.exp _ _ h2 h4 hen
      obtain ⟨h8, h9⟩ := heads_size hy h7
      exact ⟨x, rfl, h8, h9, fun _ => ⟨h7, fun hc => absurd hc hl⟩⟩

theorem Final.org_zero (F : Final L org g) {i : Nat} (hi : i < g.nodes.length) (h0 : org i = 0) : i = 0 := by
  by_cases hl : i < L.length
  · rw [F.shape.self i hl] at h0; exact h0
  · obtain ⟨q, p, x, h2, -⟩ := F.shape.inst i (by omega) hi
    omega

theorem Final.edge (F : Final L org g) {a i : Nat} (hm : (a, i) ∈ ends g) : 1 ≤ org i ∧ ∃ p, L[org i]? = some (org a, p) := by
  have hv := F.shape.plain.lt hm
  by_cases hl : i < L.length
  · obtain ⟨h1, p, h2⟩ := (F.shape.low a i hl hv.1).1 hm
    rw [F.shape.self i hl]
    exact ⟨h1, p, h2⟩
  · obtain ⟨q, p, x, h2, -⟩ := F.shape.inst i (by omega) hv.2
    obtain ⟨p', h3⟩ := F.shape.high a i hm (by omega)
    exact ⟨h2, p', h3⟩

/-- The first parent of a node. -/
theorem Final.parent (F : Final L org g) {i : Nat} (hi : i < g.nodes.length) (h1 : 1 ≤ org i) :
    ∃ a rest p, ins g i = a :: rest ∧ a < g.nodes.length ∧ L[org i]? = some (org a, p) ∧
      (i < L.length → ∃ e, g.elem? a = some e ∧ e.isDimTemplate = false) := by
  have hpos := F.pos
  have key : ∀ a rest, ins g i = a :: rest → a < g.nodes.length ∧ ∃ p, L[org i]? = some (org a, p) := by
    intro a rest h
    have hm : (a, i) ∈ ends g := mem_ins.1 (by rw [h]; simp)
    exact ⟨(F.shape.plain.lt hm).1, (F.edge hm).2⟩
  by_cases hl : i < L.length
  · have hs := F.shape.self i hl
    obtain ⟨⟨q, p⟩, hx⟩ : ∃ x, L[i]? = some x := ⟨_, List.getElem?_eq_getElem hl⟩
    have hq := (F.ok.inner i _ (by omega) hx).2.2
    obtain ⟨a, rest, e, h2, h3, h4⟩ := F.shape.newest i q p (by omega) hx (by simp only at hq; omega)
    obtain ⟨h5, p', h6⟩ := key a rest h2
    exact ⟨a, rest, p', h2, h5, h6, fun _ => ⟨e, h3, h4⟩⟩
  · obtain ⟨q, p, x, -, -, -, -, -, -, a0, h7⟩ := F.shape.inst i (by omega) hi
    cases h : ins g i with
    | nil =>
      have := mem_ins.2 h7
      rw [h] at this
      cases this
    | cons a rest =>
      obtain ⟨h5, p', h6⟩ := key a rest h
      exact ⟨a, rest, p', rfl, h5, h6, fun hc => absurd hc hl⟩

/-! ### the children of a node -/

def dimAt (L : List (Nat × Parsed)) (b : Nat) : Bool :=
  match L[b]? with
  | some x => isDimB x.2
  | none => false

/-- The nodes below `i` that stand for the declared child `b`. -/
def repsAt (L : List (Nat × Parsed)) (org : Nat → Nat) (g : Graph) (i b : Nat) : List Nat :=
  if dimAt L b then (block L org g i b).reverse else [b]

def live (g : Graph) (c : Nat) : Bool :=
  match g.elem? c with
  | some e => !e.isDimTemplate
  | none => false

theorem mem_block {i b j : Nat} : j ∈ block L org g i b ↔ (i, j) ∈ ends g ∧ L.length ≤ j ∧ org j = b := by
  unfold block
  rw [List.mem_filter, mem_outs]
  simp

theorem flatMap_nodup {α β : Type} {l : List α} {f : α → List β} (hl : l.Nodup) (hf : ∀ a ∈ l, (f a).Nodup)
    (hd : ∀ a ∈ l, ∀ b ∈ l, ∀ x, x ∈ f a → x ∈ f b → a = b) : (l.flatMap f).Nodup := by
  induction l with
  | nil => simp
  | cons a l ih =>
    rw [List.nodup_cons] at hl
    rw [List.flatMap_cons, List.nodup_append]
    refine ⟨hf a (by simp), ih hl.2 (fun b hb => hf b (by simp [hb])) fun b hb c hc => hd b (by simp [hb]) c (by simp [hc]), ?_⟩
    intro x hx y hy hxy
    subst hxy
    rw [List.mem_flatMap] at hy
    obtain ⟨b, hb, hy⟩ := hy
    have := hd a (by simp) b (by simp [hb]) x hx hy
    subst this
    exact hl.1 hb

theorem Final.mem_reps (F : Final L org g) {i b c : Nat} (hi : i < g.nodes.length) (h1 : 1 ≤ b) {p : Parsed} (hb : L[b]? = some (org i, p)) :
    c ∈ repsAt L org g i b ↔ (i, c) ∈ ends g ∧ org c = b ∧ live g c = true := by
  have hpos := F.pos
  have hbl := (List.getElem?_eq_some_iff.1 hb).1
  have hlen := F.shape.len
  have hdim : dimAt L b = isDimB p := by unfold dimAt; rw [hb]
  have hlb : live g b = !isDimB p := by
    obtain ⟨q, p', e, h2, h3, h4⟩ := F.info (i := b) (by omega) (by rw [F.shape.self b hbl]; exact h1)
    rw [F.shape.self b hbl, hb] at h2
    cases h2
    unfold live
    rw [h3]
    simp only
    congr 1
    rw [Bool.eq_iff_iff, h4.tmpl]
    exact ⟨fun h => h.2, fun h => ⟨hbl, h⟩⟩
  unfold repsAt
  rw [hdim]
  cases hd : isDimB p with
  | true =>
    simp only [if_true, List.mem_reverse]
    rw [mem_block]
    constructor
    · rintro ⟨h2, h3, h4⟩
      refine ⟨h2, h4, ?_⟩
      obtain ⟨q, p', x, -, -, -, -, h5, -⟩ := F.shape.inst c h3 (F.shape.plain.lt h2).2
      unfold live
      rw [h5]
      rfl
    · rintro ⟨h2, h3, h4⟩
      refine ⟨h2, ?_, h3⟩
      refine Nat.le_of_not_lt fun hc => ?_
      rw [F.shape.self c hc] at h3
      subst h3
      rw [hlb, hd] at h4
      cases h4
  | false =>
    simp only [Bool.false_eq_true, if_false, List.mem_singleton]
    constructor
    · rintro rfl
      refine ⟨(F.shape.low i c hbl hi).2 ⟨h1, p, hb⟩, F.shape.self c hbl, by rw [hlb, hd]; rfl⟩
    · rintro ⟨h2, h3, h4⟩
      by_cases hc : c < L.length
      · rw [F.shape.self c hc] at h3
        exact h3
      · obtain ⟨q, p', x, -, -, h5, h6, -⟩ := F.shape.inst c (by omega) (F.shape.plain.lt h2).2
        rw [h3, hb] at h5
        cases h5
        rw [hd] at h6
        cases h6

theorem Final.kids_perm (F : Final L org g) {i : Nat} (hi : i < g.nodes.length) {ks : List Nat} (hk : Kids L (org i) ks) :
    ((outs g i).filter (live g)).Perm (ks.flatMap (repsAt L org g i)) := by
  have hlen := F.shape.len
  rw [List.perm_ext_iff_of_nodup ((outs_nodup F.shape.nodup i).filter _)]
  · intro c
    rw [List.mem_filter, mem_outs, List.mem_flatMap]
    constructor
    · rintro ⟨h1, h2⟩
      obtain ⟨h3, p, h4⟩ := F.edge h1
      exact ⟨org c, (hk.2 _).2 ⟨h3, p, h4⟩, (F.mem_reps hi h3 h4).2 ⟨h1, rfl, h2⟩⟩
    · rintro ⟨b, h1, h2⟩
      obtain ⟨h3, p, h4⟩ := (hk.2 b).1 h1
      have h5 := (F.mem_reps hi h3 h4).1 h2
      exact ⟨h5.1, h5.2.2⟩
  · refine flatMap_nodup hk.1 ?_ ?_
    · intro b hb
      unfold repsAt
      split
      · refine nodup_rev ?_
        unfold block
        exact (outs_nodup F.shape.nodup i).filter _
      · simp
    · intro a ha b hb x hx hy
      obtain ⟨h3, p, h4⟩ := (hk.2 a).1 ha
      obtain ⟨h5, p', h6⟩ := (hk.2 b).1 hb
      have h7 := (F.mem_reps hi h3 h4).1 hx
      have h8 := (F.mem_reps hi h5 h6).1 hy
      rw [← h7.2.1, h8.2.1]

/-- The heads of the nodes that stand for a declared child. -/
theorem Final.reps_heads (F : Final L org g) {i b : Nat} (hi : i < g.nodes.length) (h1 : 1 ≤ b) {p : Parsed} (hb : L[b]? = some (org i, p))
    (hen : p.isEnum = false) :
    Entrywise (fun h c => ∃ e, g.elem? c = some e ∧ e.isDimTemplate = false ∧ e.processed = some h) (headsOf p) (repsAt L org g i b) := by
  have hpos := F.pos
  have hbl := (List.getElem?_eq_some_iff.1 hb).1
  have hlen := F.shape.len
  have hdim : dimAt L b = isDimB p := by unfold dimAt; rw [hb]
  unfold repsAt
  rw [hdim]
  cases hd : isDimB p with
  | true =>
    simp only [if_true]
    have hbk := F.shape.blocks i b p hi h1 (by omega) hb hd
    have hlen2 := congrArg List.length hbk
    simp only [List.length_map] at hlen2
    refine entrywise_of_getElem hlen2.symm ?_
    intro t h c hh hc
    have h2 := congrArg (fun l => l[t]?) hbk
    simp only [List.getElem?_map, hh, hc, Option.map_some, Option.some.injEq] at h2
    exact ⟨_, h2, rfl, rfl⟩
  | false =>
    simp only [Bool.false_eq_true, if_false]
    obtain ⟨q, p', e, h2, h3, h4⟩ := F.info (i := b) (by omega) (by rw [F.shape.self b hbl]; exact h1)
    rw [F.shape.self b hbl, hb] at h2
    cases h2
    obtain ⟨h, h5, -, -, h6⟩ := h4.head hen
    have ht : e.isDimTemplate = false := by
      rw [Bool.eq_false_iff]
      intro hc
      have := (h4.tmpl.1 hc).2
      rw [hd] at this
      cases this
    rw [(h6 ht).2 hbl]
    exact .cons ⟨e, h3, ht, h5⟩ .nil

end
end Svd
