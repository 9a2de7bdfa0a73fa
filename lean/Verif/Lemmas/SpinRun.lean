import Verif.Lemmas.SpinLink
/-
A run of the resolver's main loop that does not end.
-/
namespace Svd
open Graph Spec

/-! ### the declarations -/

/-- `<cluster derivedFrom="P.M"><name>K</name>…</cluster>` -/
def spK : SCluster := { name := s%"K", addressOffset := 0, derivedFrom := some (s%"P.M") }
/-- `<cluster derivedFrom="K"><name>Z</name>…</cluster>` -/
def spZ : SCluster := { name := s%"Z", addressOffset := 0, derivedFrom := some (s%"K") }
/-- `<cluster><name>M</name>…</cluster>` -/
def spM : SCluster := { name := s%"M", addressOffset := 0 }

def rawK : ElemNode := ⟨some (s%"K"), .cluster, false, .clu spK, none, false⟩
def rawZ : ElemNode := ⟨some (s%"Z"), .cluster, false, .clu spZ, none, false⟩
def prcM : IClusterHd := processCluster 0 (s%"M") spM none
def prcK : IClusterHd := processCluster 0 (s%"K") spK (some prcM)
def prcZ : IClusterHd := processCluster 0 (s%"Z") spZ (some prcK)
def doneM : ElemNode := ⟨some (s%"M"), .cluster, true, .clu spM, some (.clu prcM), false⟩
def doneK : ElemNode := { rawK with isProcessed := true, processed := some (.clu prcK) }
def doneZ : ElemNode := { rawZ with isProcessed := true, processed := some (.clu prcZ) }

theorem base_node {g : Graph} {i b : Nat} (h : ∀ a, De g a i ↔ a = b) : g.baseElementNode i = some b := by
  unfold Graph.baseElementNode
  cases hf : (g.inEdges i).find? fun e => e.ty == .derive with
  | none =>
    rw [List.find?_eq_none] at hf
    have := hf ⟨b, i, .derive⟩ (by unfold Graph.inEdges; rw [List.mem_filter]; exact ⟨(h b).2 rfl, by simp⟩)
    simp at this
  | some e =>
    have h1 := List.find?_some hf
    have h2 := List.mem_of_find?_eq_some hf
    unfold Graph.inEdges at h2
    rw [List.mem_filter] at h2
    obtain ⟨x, y, t⟩ := e
    simp only [beq_iff_eq] at h1 h2
    obtain ⟨h2, rfl⟩ := h2
    subst h1
    simp only [Option.map_some, Option.some.injEq]
    exact (h x).1 h2

theorem process_copy {ord : List Nat → List Nat} {g : Graph} {i b : Nat} {raw done : ElemNode} {path n : Str} {pb p : Processed}
    (he : g.elem? i = some raw) (hd : ∀ a, De g a i ↔ a = b) (hb : g.elem? b = some done)
    (h1 : raw.parsed ≠ .device) (h2 : raw.parsed.derivedFrom = some path) (h3 : raw.level = done.level) (h4 : done.processed = some pb)
    (h5 : raw.parsed.isEnum = false) (h6 : extractDimOf raw.parsed (some pb) = M.pure (false, [n], [none]))
    (h7 : createAll raw.parsed (some pb) 0 [n] [none] = M.pure [p]) :
    processNode ord g i = updateNode ord g i (some b) p false := by
  unfold processNode
  rw [he]
  simp only
  rw [if_neg h1, h2]
  have hdb : derivedFromBase g i raw = M.pure (b, done) := by
    unfold derivedFromBase
    rw [base_node hd]
    simp only
    rw [hb]
    simp only
    rw [if_neg (by simpa using h3)]
  simp only [hdb, M.pure_bind, h4, h5, Option.isNone_some, Bool.false_and, Bool.false_eq_true, if_false]
  unfold processDimable
  simp only [h6, h7, M.pure_bind, Bool.false_eq_true, if_false]

theorem process_K {ord : List Nat → List Nat} {g : Graph} {i b : Nat} (he : g.elem? i = some rawK) (hd : ∀ a, De g a i ↔ a = b)
    (hb : g.elem? b = some doneM) : processNode ord g i = updateNode ord g i (some b) (.clu prcK) false :=
  process_copy (n := s%"K") he hd hb (by decide) rfl rfl rfl rfl (by decide +kernel) rfl

theorem process_Z {ord : List Nat → List Nat} {g : Graph} {i b : Nat} (he : g.elem? i = some rawZ) (hd : ∀ a, De g a i ↔ a = b)
    (hb : g.elem? b = some doneK) : processNode ord g i = updateNode ord g i (some b) (.clu prcZ) false :=
  process_copy (n := s%"Z") he hd hb (by decide) rfl rfl rfl rfl (by decide +kernel) rfl

/-! ### the states -/

/-- The placeholder `p` of `d` within `o` stays: `o` is not processed, or `d` is derived from `K` and `o` has no other
child called `K`. -/
structure Stuck (g : Graph) (p o d : Nat) : Prop where
  op : Pl g o p
  pd : Pl g p d
  od : Ch g o d
  why : g.isProcessed o = false ∨ (g.node? p = some (.ph (s%"K")) ∧ ∀ j, Ch g o j → j ≠ d → g.nameOf j ≠ some (s%"K"))

theorem Stuck.dead {g : Graph} {p o d : Nat} (h : Stuck g p o d) (hn : ∀ j, ¬ De g o j) : Dead g p o d :=
  ⟨h.op, h.pd, h.od, h.why.imp id fun h1 => ⟨h1.1, fun j hj => h1.2 j (hj.resolve_right (hn j))⟩⟩

/-- What stays the same: the peripheral `P` with its cluster `M`. -/
structure Frame (g : Graph) : Prop where
  fit : Fit g
  top : Top g
  e1 : g.isProcessed 1 = true
  e2 : g.elem? 2 = some doneM
  c12 : Ch g 1 2
  m : ∀ j, Ch g 1 j → g.nameOf j = some (s%"M") → j = 2
  tree : Tree g 2 3 4 5 6
  e3 : g.elem? 3 = some rawZ
  n4 : g.node? 4 = some (.ph (s%"K"))
  e5 : g.elem? 5 = some rawK
  n6 : g.node? 6 = some (.ph (s%"P.M"))

/-- The state between rounds: in the processed element `b`, a `K` (`y`, waiting at `x`) and a `Z` (`c`, waiting at `h`) with a
`K` (`k`, waiting at `q`) inside wait to be processed. -/
structure Spin (g : Graph) (prev : List Nat) (b y x c h k q : Nat) : Prop where
  frame : Frame g
  de : ∀ a a', ¬ De g a a'
  eb : g.isProcessed b = true
  ey : g.elem? y = some rawK
  ec : g.elem? c = some rawZ
  ek : g.elem? k = some rawK
  nx : g.node? x = some (.ph (s%"P.M"))
  nh : g.node? h = some (.ph (s%"K"))
  nq : g.node? q = some (.ph (s%"P.M"))
  ly : (⟨b, y, .childR⟩ : Edge) ∈ g.edges
  lc : (⟨b, c, .childR⟩ : Edge) ∈ g.edges
  bx : Pl g b x
  bh : Pl g b h
  xy : ∀ j, Pl g j y ↔ j = x
  hc : ∀ j, Pl g j c ↔ j = h
  ck : ∀ j, Ch g c j ↔ j = k
  cq : ∀ j, Pl g c j ↔ j = q
  qk : ∀ j, Pl g j k ↔ j = q
  y1 : ∀ j, ¬ Ch g y j
  y2 : ∀ j, ¬ Pl g y j
  k1 : ∀ j, ¬ Ch g k j
  k2 : ∀ j, ¬ Pl g k j
  sib : ∀ j, Ch g b j → g.nameOf j ≠ some (s%"P") ∧ (g.nameOf j = some (s%"K") → j = y)
  wait : ∀ j e, g.elem? j = some e → e.isProcessed = false → ∃ p, Pl g p j
  dead : ∀ p, IsP g p → p = x ∨ p = h ∨ p = q ∨ ∃ o d, Stuck g p o d
  order : ∃ L1 L2 L3, g.placeholders = 4 :: (L1 ++ x :: (L2 ++ h :: L3))
  prev : ∀ i ∈ prev, g.isProcessed i = true

/-- The state within a round: `y` and `c` are about to be processed. -/
structure Mid (g : Graph) (prev : List Nat) (b y c k q : Nat) : Prop where
  frame : Frame g
  de : ∀ a a', De g a a' ↔ (a = 2 ∧ a' = y) ∨ (a = y ∧ a' = c)
  eb : g.isProcessed b = true
  ey : g.elem? y = some rawK
  ec : g.elem? c = some rawZ
  ek : g.elem? k = some rawK
  nq : g.node? q = some (.ph (s%"P.M"))
  ly : (⟨b, y, .childR⟩ : Edge) ∈ g.edges
  lc : (⟨b, c, .childR⟩ : Edge) ∈ g.edges
  py : ∀ j, ¬ Pl g j y
  pc : ∀ j, ¬ Pl g j c
  ck : ∀ j, Ch g c j ↔ j = k
  cq : ∀ j, Pl g c j ↔ j = q
  qk : ∀ j, Pl g j k ↔ j = q
  y1 : ∀ j, ¬ Ch g y j
  y2 : ∀ j, ¬ Pl g y j
  k1 : ∀ j, ¬ Ch g k j
  k2 : ∀ j, ¬ Pl g k j
  wait : ∀ j e, g.elem? j = some e → e.isProcessed = false → j = y ∨ j = c ∨ ∃ p, Pl g p j
  dead : ∀ p, IsP g p → p = q ∨ ∃ o d, Stuck g p o d
  first : ∃ L, g.placeholders = 4 :: L
  prev : ∀ i ∈ prev, g.isProcessed i = true

theorem resolvePlaceholders_append {A B : List Nat} : ∀ {g g1 : Graph}, resolvePlaceholders g A = .ok g1 [] →
    resolvePlaceholders g (A ++ B) = resolvePlaceholders g1 B := by
  induction A with
  | nil =>
    intro g g1 h
    simp only [resolvePlaceholders, M.pure_eq_ok] at h
    rw [← h.1]
    rfl
  | cons a A ih =>
    intro g g1 h
    simp only [resolvePlaceholders, M.bind_eq_ok] at h
    obtain ⟨g2, w1, w2, h1, h2, h3⟩ := h
    obtain ⟨rfl, rfl⟩ : w1 = [] ∧ w2 = [] := by simpa using h3.symm
    simp only [List.cons_append, resolvePlaceholders]
    rw [h1]
    show M.bind (M.pure g2) _ = _
    rw [M.pure_bind]
    exact ih h2

theorem resolvePlaceholders_skip {L : List Nat} {g : Graph} (h : ∀ p ∈ L, resolvePlaceholder g p = .ok g []) : resolvePlaceholders g L = .ok g [] := by
  induction L with
  | nil => rfl
  | cons a L ih =>
    simp only [resolvePlaceholders]
    rw [h a (by simp)]
    show M.bind (M.pure g) _ = _
    rw [M.pure_bind]
    exact ih fun p hp => h p (by simp [hp])

theorem resolvePlaceholders_one {g g1 : Graph} {p : Nat} {L : List Nat} (h : resolvePlaceholder g p = .ok g1 []) :
    resolvePlaceholders g (p :: L) = resolvePlaceholders g1 L := by
  simp only [resolvePlaceholders]
  rw [h]
  show M.bind (M.pure g1) _ = _
  rw [M.pure_bind]

/-! ### references -/

theorem Bound.elem {g g' : Graph} {p b d : Nat} (B : Bound g g' p b d) (hp : IsP g p) (j : Nat) : g'.elem? j = g.elem? j := by
  unfold Graph.elem?
  rw [B.node]
  by_cases h : j = p
  · subst h
    obtain ⟨path, hn⟩ := hp
    rw [if_pos rfl, hn]
  · rw [if_neg h]

theorem Bound.name {g g' : Graph} {p b d : Nat} (B : Bound g g' p b d) (hp : IsP g p) (j : Nat) : g'.nameOf j = g.nameOf j := by
  unfold Graph.nameOf; rw [B.elem hp]

theorem Bound.done {g g' : Graph} {p b d : Nat} (B : Bound g g' p b d) (hp : IsP g p) (j : Nat) : g'.isProcessed j = g.isProcessed j := by
  unfold Graph.isProcessed; rw [B.elem hp]

theorem Bound.isP {g g' : Graph} {p b d : Nat} (B : Bound g g' p b d) {j : Nat} : IsP g' j ↔ IsP g j ∧ j ≠ p := by
  unfold IsP
  rw [B.node]
  split
  · rename_i h; simp [h]
  · rename_i h; simp [h]

theorem Bound.stuck {g g' : Graph} {p b d : Nat} (B : Bound g g' p b d) (hp : IsP g p) (F : Fit g) {r o c : Nat} (hr : r ≠ p) (S : Stuck g r o c) :
    Stuck g' r o c := by
  have ho := F.ty.tch _ _ S.od
  refine ⟨(B.pl _ _).2 ⟨S.op, ?_, hr⟩, (B.pl _ _).2 ⟨S.pd, hr, ?_⟩, (B.ch _ _).2 S.od, ?_⟩
  · rintro rfl; exact isE_notP ho.1 hp
  · rintro rfl; exact isE_notP ho.2 hp
  · rcases S.why with h1 | ⟨h1, h2⟩
    · left; rw [B.done hp]; exact h1
    · right
      refine ⟨by rw [B.node, if_neg hr]; exact h1, fun j hj hjc => ?_⟩
      rw [B.name hp]
      exact h2 j ((B.ch _ _).1 hj) hjc

theorem Frame.bound {g g' : Graph} {p b d : Nat} (F : Frame g) (B : Bound g g' p b d) (hp : IsP g p) (h4 : p ≠ 4) (h6 : p ≠ 6) (h3 : d ≠ 3) (h5 : d ≠ 5) :
    Frame g' := by
  have el := B.elem hp
  have T := F.tree
  obtain ⟨t2, t3, t4, t5, t6⟩ := T.kinds F.fit.ty
  have ne : ∀ j, IsE g j → j ≠ p := by rintro j hj rfl; exact isE_notP hj hp
  have pl : ∀ a c, a ≠ p → (∀ x, Pl g a x ↔ x = c) → c ≠ p → ∀ x, Pl g' a x ↔ x = c := by
    intro a c ha hc hcp x
    rw [B.pl, hc]
    constructor
    · exact fun h1 => h1.1
    · rintro rfl; exact ⟨rfl, ha, hcp⟩
  refine ⟨B.fit, ⟨fun j => (B.ch _ _).trans (F.top.top j), by rw [B.name hp]; exact F.top.name⟩, by rw [B.done hp]; exact F.e1, by rw [el]; exact F.e2,
    (B.ch _ _).2 F.c12, ?_, ?_, by rw [el]; exact F.e3, by rw [B.node, if_neg (Ne.symm h4)]; exact F.n4, by rw [el]; exact F.e5,
    by rw [B.node, if_neg (Ne.symm h6)]; exact F.n6⟩
  · intro j hj hm
    rw [B.name hp] at hm
    exact F.m j ((B.ch _ _).1 hj) hm
  · refine ⟨fun x => (B.ch _ _).trans (T.ch x), pl _ _ (ne _ t2) T.pl (Ne.symm h4), fun x => (B.ch _ _).trans (T.zch x), pl _ _ (ne _ t3) T.zpl (Ne.symm h6),
      pl _ _ (Ne.symm h4) T.hpl (ne _ t3), fun x h1 => T.kch x ((B.ch _ _).1 h1), fun x h1 => T.kpl x ((B.pl _ _).1 h1).1,
      pl _ _ (Ne.symm h6) T.qpl (ne _ t5), fun x h1 => ?_, fun x h1 => ?_⟩
    · rcases (B.de _ _).1 h1 with h2 | ⟨-, h2⟩
      · exact T.zde x h2
      · exact h3 h2.symm
    · rcases (B.de _ _).1 h1 with h2 | ⟨-, h2⟩
      · exact T.kde x h2
      · exact h5 h2.symm

theorem done_raw {g : Graph} {i : Nat} {e : ElemNode} (he : g.elem? i = some e) : g.isProcessed i = e.isProcessed := by
  unfold Graph.isProcessed
  rw [he]

theorem path_PM {g : Graph} (F : Frame g) {b y : Nat} (hby : Ch g b y) (hs : ∀ j, Ch g b j → g.nameOf j ≠ some (s%"P")) (hde : ∀ j, ¬ De g b j) (hy1 : y ≠ 1) (hy2 : y ≠ 2) :
    pathResolving g y .cluster (s%"P.M") = M.pure (some 2) := by
  unfold pathResolving
  have h0 : splitC '.' (s%"P.M") = [s%"P", s%"M"] := by decide
  rw [h0]
  have s1 : searchNodes g y .cluster [s%"P", s%"M"] (g.elementSiblings y) = M.pure [] := by
    unfold searchNodes
    refine searchGo_none ?_
    intro n hn
    obtain ⟨h3, h4⟩ := ((siblings_eq F.fit hby).2 n).1 hn
    exact Or.inr (hs n (h3.resolve_right (hde n)))
  have s2 : searchNodes g y .cluster [s%"M"] (g.elementChildren 1) = M.pure [2] := by
    unfold searchNodes
    refine searchGo_single (n0 := 2) (F.fit.single.children 1) ((mem_children F.fit.ty).2 F.c12) (Ne.symm hy2) (by unfold Graph.nameOf; rw [F.e2]; rfl) ?_ ?_
    · simp only [Graph.hasLevel, F.e2]
      rfl
    · intro n hn
      by_cases h1 : g.nameOf n = some (s%"M")
      · exact Or.inl (F.m n ((mem_children F.fit.ty).1 hn) h1)
      · exact Or.inr (Or.inr h1)
  have s3 : searchNodes g y .cluster [s%"P", s%"M"] (g.elementChildren 0) = M.pure [2] := by
    unfold searchNodes
    refine searchGo_single (n0 := 1) (F.fit.single.children 0) ((mem_children F.fit.ty).2 ((F.top.top 1).2 rfl)) (Ne.symm hy1) F.top.name s2 ?_
    intro n hn
    exact Or.inl ((F.top.top n).1 ((mem_children F.fit.ty).1 hn))
  simp only [s1, s3, M.pure_bind]

theorem path_K {g : Graph} (F : Fit g) {b y c : Nat} (hby : Ch g b y) (hbc : Ch g b c) (hs : ∀ j, Ch g b j → g.nameOf j = some (s%"K") → j = y)
    (hde : ∀ j, ¬ De g b j) (hy : g.elem? y = some rawK) (hyc : y ≠ c) : pathResolving g c .cluster (s%"K") = M.pure (some y) := by
  unfold pathResolving
  have h0 : splitC '.' (s%"K") = [s%"K"] := by decide
  rw [h0]
  obtain ⟨h1, h2⟩ := siblings_eq F hbc
  have s1 : searchNodes g c .cluster [s%"K"] (g.elementSiblings c) = M.pure [y] := by
    unfold searchNodes
    refine searchGo_single (n0 := y) h1 ((h2 y).2 ⟨Or.inl hby, hyc⟩) hyc (by unfold Graph.nameOf; rw [hy]; rfl) ?_ ?_
    · simp only [Graph.hasLevel, hy]
      rfl
    · intro n hn
      by_cases h3 : g.nameOf n = some (s%"K")
      · exact Or.inl (hs n (((h2 n).1 hn).1.resolve_right (hde n)) h3)
      · exact Or.inr (Or.inr h3)
  simp only [s1, M.pure_bind]

theorem edge_none {g : Graph} {y : Nat} (h1 : ∀ j, ¬ Ch g y j) (h2 : ∀ j, ¬ De g y j) (h3 : ∀ j, ¬ Pl g y j) {z : Nat} (hz : y ≠ z) : ¬ Reach g.edges y z := by
  rintro (h | h)
  · exact hz h
  · obtain ⟨e, he, rfl⟩ := conn_first h
    rcases edge_view he with h4 | h4 | h4
    · exact h1 _ h4
    · exact h2 _ h4
    · exact h3 _ h4

set_option maxHeartbeats 4000000 in
theorem Spin.resolve {g : Graph} {prev : List Nat} {b y x c h k q : Nat} (S : Spin g prev b y x c h k q) :
    ∃ g2, resolvePlaceholders g g.placeholders = .ok g2 [] ∧ Mid g2 prev b y c k q := by
  have F := S.frame
  have Fi := F.fit
  have T := F.tree
  have hby : Ch g b y := Or.inr S.ly
  have hbc : Ch g b c := Or.inr S.lc
  obtain ⟨t2, t3, t4, t5, t6⟩ := T.kinds Fi.ty
  have uy : g.isProcessed y = false := (done_raw S.ey).trans rfl
  have uc : g.isProcessed c = false := (done_raw S.ec).trans rfl
  have uk : g.isProcessed k = false := (done_raw S.ek).trans rfl
  have u2 : g.isProcessed 2 = true := (done_raw F.e2).trans rfl
  have u3 : g.isProcessed 3 = false := (done_raw F.e3).trans rfl
  have diff : ∀ {i j}, g.isProcessed i = false → g.isProcessed j = true → i ≠ j := by
    rintro i j h1 h2 rfl
    rw [h1] at h2
    cases h2
  have px : IsP g x := ⟨_, S.nx⟩
  have ph : IsP g h := ⟨_, S.nh⟩
  have pq : IsP g q := ⟨_, S.nq⟩
  have ch35 : Ch g 3 5 := (T.zch 5).2 rfl
  have y3 : y ≠ 3 := by rintro rfl; exact S.y1 _ ch35
  have y5 : y ≠ 5 := by rintro rfl; exact diff u3 S.eb (Fi.one _ _ _ ch35 hby)
  have b2 : b ≠ 2 := by rintro rfl; exact y3 ((T.ch y).1 hby)
  have c3 : c ≠ 3 := by rintro rfl; exact b2 (Fi.one _ _ _ hbc ((T.ch 3).2 rfl))
  have c5 : c ≠ 5 := by rintro rfl; exact diff u3 S.eb (Fi.one _ _ _ ch35 hbc)
  have x6 : x ≠ 6 := by rintro rfl; exact diff u3 S.eb (Fi.held.inU _ _ _ px ((T.zpl 6).2 rfl) S.bx)
  have h6 : h ≠ 6 := by rintro rfl; exact diff u3 S.eb (Fi.held.inU _ _ _ ph ((T.zpl 6).2 rfl) S.bh)
  have qx : q ≠ x := by rintro rfl; exact diff uc S.eb (Fi.held.inU _ _ _ pq ((S.cq q).2 rfl) S.bx)
  have qh : q ≠ h := by rintro rfl; exact diff uc S.eb (Fi.held.inU _ _ _ pq ((S.cq q).2 rfl) S.bh)
  have xh : x ≠ h := by
    rintro rfl
    have := S.nx
    rw [S.nh] at this
    injection this with this
    injection this with this
    revert this
    decide
  have yc : y ≠ c := by
    rintro rfl
    have := S.ey
    rw [S.ec] at this
    injection this with this
    revert this
    decide
  have yk : y ≠ k := by rintro rfl; exact diff uc S.eb (Fi.one _ _ _ ((S.ck y).2 rfl) hby)
  obtain ⟨L1, L2, L3, hL⟩ := S.order
  have nd := Fi.listed.1
  rw [hL] at nd
  have lst : ∀ p, p ∈ g.placeholders → IsP g p := fun p hp => (Fi.listed.2 p).1 hp
  obtain ⟨n4, nd⟩ := List.nodup_cons.1 nd
  have x4 : x ≠ 4 := by rintro rfl; exact n4 (by simp)
  have h4 : h ≠ 4 := by rintro rfl; exact n4 (by simp)
  rw [List.nodup_append] at nd
  obtain ⟨-, nd, nd1⟩ := nd
  obtain ⟨nd2, nd⟩ := List.nodup_cons.1 nd
  rw [List.nodup_append] at nd
  obtain ⟨-, nd, nd3⟩ := nd
  obtain ⟨nd4, -⟩ := List.nodup_cons.1 nd
  -- the placeholders other than `x` and `h`
  have stay : ∀ p, IsP g p → p ≠ x → p ≠ h → ∃ o d, Stuck g p o d := by
    intro p hp p1 p2
    rcases S.dead p hp with h1 | h1 | rfl | h1
    · exact absurd h1 p1
    · exact absurd h1 p2
    · exact ⟨c, k, (S.cq p).2 rfl, (S.qk p).2 rfl, (S.ck k).2 rfl, Or.inl uc⟩
    · exact h1
  -- before `x`
  have A1 : resolvePlaceholders g (4 :: L1) = .ok g [] := by
    refine resolvePlaceholders_skip ?_
    intro p hp
    have hpl : IsP g p := lst p (by rw [hL]; rcases List.mem_cons.1 hp with rfl | h1 <;> simp_all)
    obtain ⟨o, d, hs⟩ := stay p hpl (by
      rcases List.mem_cons.1 hp with rfl | h1
      · exact Ne.symm x4
      · exact nd1 p h1 x (by simp)) (by
      rcases List.mem_cons.1 hp with rfl | h1
      · exact Ne.symm h4
      · exact nd1 p h1 h (by simp))
    exact (hs.dead (fun j => S.de o j)).skip Fi F.top hpl
  -- `x`
  obtain ⟨g1, r1, B1⟩ := bound Fi S.nx S.bx ((S.xy x).2 rfl) S.eb S.ey (path_PM F hby (fun j hj => (S.sib j hj).1) (S.de b) (diff uy F.e1) (diff uy u2)) t2
    (edge_none S.y1 (S.de y) S.y2 (diff uy u2)) (S.de 2 y)
  have F1 := F.bound B1 px x4 x6 y3 y5
  have de1 : ∀ a a', De g1 a a' ↔ a = 2 ∧ a' = y := by
    intro a a'
    rw [B1.de]
    exact ⟨fun h1 => h1.resolve_left (S.de a a'), Or.inr⟩
  have px1 := B1.elem px
  have own2 : ∀ p o d, Stuck g p o d → p ≠ 4 → o ≠ 2 := by
    rintro p o d hs p1 rfl
    exact p1 ((T.pl p).1 hs.op)
  have owny : ∀ p o d, Stuck g p o d → o ≠ y := by
    rintro p o d hs rfl
    exact S.y2 _ hs.op
  have A2 : resolvePlaceholders g1 L2 = .ok g1 [] := by
    refine resolvePlaceholders_skip ?_
    intro p hp
    have hpl : IsP g p := lst p (by rw [hL]; simp [hp])
    have hpx : p ≠ x := by rintro rfl; exact nd2 (by simp [hp])
    have hp4 : p ≠ 4 := by rintro rfl; exact n4 (by simp [hp])
    obtain ⟨o, d, hs⟩ := stay p hpl hpx (nd3 p hp h (by simp))
    have hs1 := B1.stuck px Fi hpx hs
    refine (hs1.dead (fun j h1 => ?_)).skip F1.fit F1.top (B1.isP.2 ⟨hpl, hpx⟩)
    exact own2 p o d hs hp4 ((de1 _ _).1 h1).1
  -- `h`
  have nh1 : g1.node? h = some (.ph (s%"K")) := by rw [B1.node, if_neg (Ne.symm xh)]; exact S.nh
  have ey1 : g1.elem? y = some rawK := by rw [px1]; exact S.ey
  have ec1 : g1.elem? c = some rawZ := by rw [px1]; exact S.ec
  have bx : b ≠ x := by rintro rfl; exact isE_notP (Fi.ty.tch _ _ hby).1 px
  have cx : c ≠ x := by rintro rfl; exact isE_notP ⟨_, S.ec⟩ px
  have yx : y ≠ x := by rintro rfl; exact isE_notP ⟨_, S.ey⟩ px
  have kx : k ≠ x := by rintro rfl; exact isE_notP ⟨_, S.ek⟩ px
  have nr : ¬ Reach g1.edges c y := by
    rintro (h1 | h1)
    · exact yc h1.symm
    · have := h1.closed (T := [c, k, q]) (by
        intro e he hs
        have ht : e.src = c ∨ e.src = k ∨ e.src = q := by simpa using hs
        have : e.dst = k ∨ e.dst = q := by
          rcases edge_view he with h2 | h2 | h2
          · rw [B1.ch] at h2
            rcases ht with h3 | h3 | h3 <;> rw [h3] at h2
            · exact Or.inl ((S.ck _).1 h2)
            · exact absurd h2 (S.k1 _)
            · exact absurd pq (isE_notP (Fi.ty.tch _ _ h2).1)
          · have h3 := ((de1 _ _).1 h2).1
            rcases ht with h4 | h4 | h4
            · exact absurd (h4.symm.trans h3) (diff uc u2)
            · exact absurd (h4.symm.trans h3) (diff uk u2)
            · rw [h4] at h3; exact absurd (h3 ▸ pq) (isE_notP t2)
          · have h2 := ((B1.pl _ _).1 h2).1
            rcases ht with h3 | h3 | h3 <;> rw [h3] at h2
            · exact Or.inr ((S.cq _).1 h2)
            · exact absurd h2 (S.k2 _)
            · exact Or.inl (Fi.held.outU _ _ _ pq h2 ((S.qk q).2 rfl))
        rcases this with h2 | h2 <;> simp [h2]) (by simp)
      simp only [List.mem_cons, List.not_mem_nil, or_false] at this
      rcases this with h2 | h2 | h2
      · exact yc h2
      · exact yk h2
      · exact isE_notP ⟨_, S.ey⟩ (h2 ▸ pq)
  obtain ⟨g2, r2, B2⟩ := bound (g := g1) F1.fit nh1 ((B1.pl _ _).2 ⟨S.bh, bx, Ne.symm xh⟩) ((B1.pl _ _).2 ⟨(S.hc h).2 rfl, Ne.symm xh, cx⟩)
    (by rw [B1.done px]; exact S.eb) ec1
    (path_K F1.fit ((B1.ch _ _).2 hby) ((B1.ch _ _).2 hbc) (fun j hj hn => (S.sib j ((B1.ch _ _).1 hj)).2 (by rw [← B1.name px]; exact hn))
      (fun j h1 => b2 ((de1 _ _).1 h1).1) ey1 yc) ⟨_, ey1⟩ nr (fun h1 => diff uy u2 ((de1 _ _).1 h1).1)
  have ph1 : IsP g1 h := ⟨_, nh1⟩
  have F2 := F1.bound B2 ph1 h4 h6 c3 c5
  have de2 : ∀ a a', De g2 a a' ↔ (a = 2 ∧ a' = y) ∨ (a = y ∧ a' = c) := by
    intro a a'
    rw [B2.de, de1]
  have el : ∀ j, g2.elem? j = g.elem? j := fun j => (B2.elem ph1 j).trans (px1 j)
  have dn : ∀ j, g2.isProcessed j = g.isProcessed j := fun j => (B2.done ph1 j).trans (B1.done px j)
  have ch : ∀ a a', Ch g2 a a' ↔ Ch g a a' := fun a a' => (B2.ch a a').trans (B1.ch a a')
  have pl : ∀ a a', Pl g2 a a' ↔ Pl g a a' ∧ (a ≠ x ∧ a' ≠ x) ∧ a ≠ h ∧ a' ≠ h := by
    intro a a'
    rw [B2.pl, B1.pl, and_assoc]
  have stuck2 : ∀ p o d, Stuck g p o d → p ≠ x → p ≠ h → Stuck g2 p o d := by
    intro p o d hs p1 p2
    exact B2.stuck ph1 F1.fit p2 (B1.stuck px Fi p1 hs)
  have A3 : resolvePlaceholders g2 L3 = .ok g2 [] := by
    refine resolvePlaceholders_skip ?_
    intro p hp
    have hpl : IsP g p := lst p (by rw [hL]; simp [hp])
    have hpx : p ≠ x := by rintro rfl; exact nd2 (by simp [hp])
    have hph : p ≠ h := by rintro rfl; exact nd4 hp
    have hp4 : p ≠ 4 := by rintro rfl; exact n4 (by simp [hp])
    obtain ⟨o, d, hs⟩ := stay p hpl hpx hph
    refine ((stuck2 p o d hs hpx hph).dead (fun j h1 => ?_)).skip F2.fit F2.top (B2.isP.2 ⟨B1.isP.2 ⟨hpl, hpx⟩, hph⟩)
    rcases (de2 _ _).1 h1 with h2 | h2
    · exact own2 p o d hs hp4 h2.1
    · exact owny p o d hs h2.1
  have A : resolvePlaceholders g g.placeholders = .ok g2 [] := by
    have h1 : g.placeholders = (4 :: L1) ++ (x :: (L2 ++ h :: L3)) := hL
    rw [h1, resolvePlaceholders_append A1, resolvePlaceholders_one r1, resolvePlaceholders_append A2, resolvePlaceholders_one r2, A3]
  have yh : y ≠ h := by rintro rfl; exact isE_notP ⟨_, S.ey⟩ ph
  have ceh : c ≠ h := by rintro rfl; exact isE_notP ⟨_, S.ec⟩ ph
  have kh : k ≠ h := by rintro rfl; exact isE_notP ⟨_, S.ek⟩ ph
  refine ⟨g2, A, ⟨F2, de2, by rw [dn]; exact S.eb, by rw [el]; exact S.ey, by rw [el]; exact S.ec, by rw [el]; exact S.ek, ?_, B2.keep _ _ (B1.keep _ _ S.ly),
    B2.keep _ _ (B1.keep _ _ S.lc), ?_, ?_, fun j => (ch _ _).trans (S.ck j), ?_, ?_, fun j h1 => S.y1 j ((ch _ _).1 h1),
    fun j h1 => S.y2 j ((pl _ _).1 h1).1, fun j h1 => S.k1 j ((ch _ _).1 h1), fun j h1 => S.k2 j ((pl _ _).1 h1).1, ?_, ?_, ?_, ?_⟩⟩
  · rw [B2.node, if_neg qh, B1.node, if_neg qx]; exact S.nq
  · intro j hj
    obtain ⟨h1, h2, -⟩ := (pl _ _).1 hj
    exact h2.1 ((S.xy j).1 h1)
  · intro j hj
    obtain ⟨h1, -, h2⟩ := (pl _ _).1 hj
    exact h2.1 ((S.hc j).1 h1)
  · intro j
    rw [pl, S.cq]
    constructor
    · exact fun h1 => h1.1
    · rintro rfl; exact ⟨rfl, ⟨cx, qx⟩, ceh, qh⟩
  · intro j
    rw [pl, S.qk]
    constructor
    · exact fun h1 => h1.1
    · rintro rfl; exact ⟨rfl, ⟨qx, kx⟩, qh, kh⟩
  · intro j e hj he
    rw [el] at hj
    obtain ⟨p, hp⟩ := S.wait j e hj he
    by_cases p1 : p = x
    · subst p1; exact Or.inl (Fi.held.outU _ _ _ px hp ((S.xy p).2 rfl))
    · by_cases p2 : p = h
      · subst p2; exact Or.inr (Or.inl (Fi.held.outU _ _ _ ph hp ((S.hc p).2 rfl)))
      · have je : IsE g j := ⟨_, hj⟩
        refine Or.inr (Or.inr ⟨p, (pl _ _).2 ⟨hp, ⟨p1, ?_⟩, p2, ?_⟩⟩)
        · rintro rfl; exact isE_notP je px
        · rintro rfl; exact isE_notP je ph
  · intro p hp
    obtain ⟨hp, hph⟩ := B2.isP.1 hp
    obtain ⟨hp, hpx⟩ := B1.isP.1 hp
    rcases S.dead p hp with h1 | h1 | h1 | ⟨o, d, h1⟩
    · exact absurd h1 hpx
    · exact absurd h1 hph
    · exact Or.inl h1
    · exact Or.inr ⟨o, d, stuck2 p o d h1 hpx hph⟩
  · rw [B2.phs, B1.phs, hL]
    rw [List.filter_cons_of_pos (by simpa using Ne.symm x4), List.filter_cons_of_pos (by simpa using Ne.symm h4)]
    exact ⟨_, rfl⟩
  · intro i hi
    rw [dn]
    exact S.prev i hi

end Svd
