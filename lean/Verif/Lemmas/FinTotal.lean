import Verif.Lemmas.FlatResolve
/-
When resolution of a device without derivedFrom succeeds.
-/
namespace Svd
open Graph Spec M


theorem eraseDups_of_nodup {α : Type} [BEq α] [LawfulBEq α] : ∀ (l : List α), l.Nodup → l.eraseDups = l
  | [], _ => by simp
  | a :: l, h => by
    obtain ⟨h1, h2⟩ := List.nodup_cons.1 h
    rw [List.eraseDups_cons]
    have : l.filter (fun b => !b == a) = l := by
      rw [List.filter_eq_self]
      intro b hb
      have : b ≠ a := fun h => h1 (h ▸ hb)
      simp [this]
    rw [this, eraseDups_of_nodup l h2]

/-- Sufficient conditions for the resolution of a device without derivedFrom. -/
structure Able (d : SDevice) : Prop where
  some : d.peripherals ≠ []
  exp : ∀ p, Declared d p → p ≠ .device → p.isEnum = false → ∃ y w, expandM p = .ok y w
  size : ∀ p, Declared d p → ∀ s, declSize p = .some s → 0 ≤ s
  conts : ∀ f, Declared d (.field f) → ∀ hd, Processed.field hd ∈ headsOf (.field f) → ∀ c ∈ f.containers,
    ∃ k w, createContainer c hd.lsb hd.msb = .ok k w
  usages : ∀ f, Declared d (.field f) → (f.containers.map fun c => c.usage.getD .readWrite).Nodup ∧ f.containers.length ≤ 2 ∧
    (f.containers.length = 2 → ∀ c ∈ f.containers, c.usage.getD .readWrite = .read ∨ c.usage.getD .readWrite = .write)

/-- The subtrees of a device. -/
inductive Part (d : SDevice) : DTree → Prop
  | periph {p} : p ∈ d.peripherals → Part d (ofPeriph p)
  | rc {p x} : p ∈ d.peripherals → SBelow p.rcs x → Part d (ofRC x)
  | field {p r f} : p ∈ d.peripherals → SBelow p.rcs (.reg r) → f ∈ r.fields → Part d (ofField f)
  | enum {p r f c} : p ∈ d.peripherals → SBelow p.rcs (.reg r) → f ∈ r.fields → c ∈ f.containers → Part d (ofEnum c)

def rootOf : DTree → Parsed
  | .node p _ => p

theorem Part.declared {d : SDevice} {t : DTree} (h : Part d t) : Declared d (rootOf t) := by
  cases h with
  | periph h => exact .periph h
  | @rc p x h hb =>
    cases x with
    | reg r => simp only [ofRC, rootOf]; exact .reg h hb
    | clu c ch => simp only [ofRC, rootOf]; exact .clu h hb
  | field h hb hf => exact .field h hb hf
  | enum h hb hf hc => exact .enum h hb hf hc

section
variable {L : List (Nat × Parsed)} {org : Nat → Nat} {g0 : Graph} {done : List Nat} {s : FinState} {d : SDevice}

theorem rep_root {b : Nat} {t : DTree} (h : Rep L b t) : ∃ q, L[b]? = some (q, rootOf t) := by
  cases t; simp only [Rep] at h; exact h.1

/-- Every node stands for a part of the device; the size around it is known. -/
theorem rep_part (hL : LOK L) {ks : List Nat} (hk : Kids L 0 ks) (hr : Reps L ks (d.peripherals.map ofPeriph)) :
    ∀ b, 1 ≤ b → b < L.length → ∃ t, Part d t ∧ Rep L b t ∧ ((∃ x, t = ofRC x) → ∃ E, EffIn L b E) ∧ ((∃ p, t = ofPeriph p) → EffIn L b 32) := by
  intro b
  induction b using Nat.strongRecOn with
  | _ b ih =>
    intro hb hl
    obtain ⟨⟨q, p⟩, hp⟩ : ∃ x, L[b]? = some x := ⟨L[b], List.getElem?_eq_some_iff.2 ⟨hl, rfl⟩⟩
    have hq := (hL.inner b _ hb hp).2.2
    by_cases h0 : q = 0
    · subst h0
      obtain ⟨t, ht, hrep⟩ := (Reps.mem hr).1 b ((hk.2 b).2 ⟨hb, p, hp⟩)
      obtain ⟨P, hP, rfl⟩ := List.mem_map.1 ht
      exact ⟨_, .periph hP, hrep, fun _ => ⟨32, .top hb hp⟩, fun _ => .top hb hp⟩
    · obtain ⟨t, h1, h2, h3, h4⟩ := ih q hq (by omega) (by have : q < b := hq; omega)
      have hne : ∀ t' : DTree, Rep L b t' → (∃ p, t' = ofPeriph p) → ∀ t0, rootOf t' = rootOf t0 → (∀ p, rootOf t0 ≠ .periph p) → False := by
        rintro t' - ⟨p, rfl⟩ t0 h h'
        exact h' p.hd (by rw [← h]; rfl)
      cases h1 with
      | periph hP =>
        simp only [ofPeriph, Rep] at h2
        obtain ⟨⟨q', hq'⟩, ks', hk', hr'⟩ := h2
        obtain ⟨t, ht, hrep⟩ := (Reps.mem hr').1 b ((hk'.2 b).2 ⟨hb, p, hp⟩)
        obtain ⟨x, hx, rfl⟩ := mem_ofRCs.1 ht
        exact ⟨_, .rc hP (.here hx), hrep, fun _ => ⟨_, (h4 ⟨_, rfl⟩).child hb hp hq' rfl⟩, fun h => by
          obtain ⟨p, h⟩ := h; cases x <;> simp [ofRC, ofPeriph] at h⟩
      | @rc P x hP hx =>
        obtain ⟨E, hE⟩ := h3 ⟨x, rfl⟩
        cases x with
        | clu c ch =>
          simp only [ofRC, Rep] at h2
          obtain ⟨⟨q', hq'⟩, ks', hk', hr'⟩ := h2
          obtain ⟨t, ht, hrep⟩ := (Reps.mem hr').1 b ((hk'.2 b).2 ⟨hb, p, hp⟩)
          obtain ⟨y, hy, rfl⟩ := mem_ofRCs.1 ht
          exact ⟨_, .rc hP (sbelow_child hx hy), hrep, fun _ => ⟨_, hE.child hb hp hq' rfl⟩, fun h => by
            obtain ⟨p, h⟩ := h; cases y <;> simp [ofRC, ofPeriph] at h⟩
        | reg r =>
          simp only [ofRC, Rep] at h2
          obtain ⟨⟨q', hq'⟩, ks', hk', hr'⟩ := h2
          obtain ⟨t, ht, hrep⟩ := (Reps.mem hr').1 b ((hk'.2 b).2 ⟨hb, p, hp⟩)
          obtain ⟨f, hf, rfl⟩ := List.mem_map.1 ht
          exact ⟨_, .field hP hx hf, hrep, fun h => by obtain ⟨p, h⟩ := h; cases p <;> simp [ofRC, ofField] at h, fun h => by
            obtain ⟨p, h⟩ := h; simp [ofField, ofPeriph] at h⟩
      | field hP hx hf =>
        simp only [ofField, Rep] at h2
        obtain ⟨⟨q', hq'⟩, ks', hk', hr'⟩ := h2
        obtain ⟨t, ht, hrep⟩ := (Reps.mem hr').1 b ((hk'.2 b).2 ⟨hb, p, hp⟩)
        obtain ⟨c, hc, rfl⟩ := List.mem_map.1 ht
        exact ⟨_, .enum hP hx hf hc, hrep, fun h => by obtain ⟨p, h⟩ := h; cases p <;> simp [ofRC, ofEnum] at h, fun h => by
            obtain ⟨p, h⟩ := h; simp [ofEnum, ofPeriph] at h⟩
      | enum hP hx hf hc =>
        simp only [ofEnum, Rep] at h2
        obtain ⟨⟨q', hq'⟩, ks', hk', hr'⟩ := h2
        have := Reps.nil hr'
        subst this
        have := (hk'.2 b).2 ⟨hb, p, hp⟩
        cases this

/-- The parts of the device that node `b` of the list stands for. -/
def Parts (d : SDevice) (L : List (Nat × Parsed)) : Prop :=
  ∀ b, 1 ≤ b → b < L.length → ∃ t, Part d t ∧ Rep L b t ∧ ((∃ x, t = ofRC x) → ∃ E, EffIn L b E) ∧ ((∃ p, t = ofPeriph p) → EffIn L b 32)

theorem Parts.declared (H : Parts d L) {b q : Nat} {p : Parsed} (hb : 1 ≤ b) (hp : L[b]? = some (q, p)) : Declared d p := by
  obtain ⟨t, h1, h2, -⟩ := H b hb (List.getElem?_eq_some_iff.1 hp).1
  obtain ⟨q', h3⟩ := rep_root h2
  rw [hp] at h3
  cases h3
  exact h1.declared

theorem EffIn.nonneg (A : Able d) (H : Parts d L) {b : Nat} {E : Int} (h : EffIn L b E) : 0 ≤ E := by
  induction h with
  | top => omega
  | own h1 h2 h3 h4 h5 h6 => exact A.size _ (H.declared h3 h4) _ h6
  | up _ _ _ _ _ _ _ ih => exact ih

theorem usable_nonneg {z : Int} (h : 0 ≤ z) : 0 ≤ usable z := by unfold usable; split <;> omega

mutual
theorem countRC_nonneg (A : Able d) {p : SPeriphT} (hp : p ∈ d.peripherals) {E : Int} (hE : 0 ≤ E) : (x : SRC) → SBelow p.rcs x → 0 ≤ countRC E x
  | .reg r, hb => by
    rw [countRC]
    cases hs : r.props.size with
    | none => simpa using hE
    | some z => simpa using usable_nonneg (A.size (.reg r) (.reg hp hb) z hs)
  | .clu c ch, hb => by
    rw [countRC]
    split
    · cases hs : c.props.size with
      | none => simpa using hE
      | some z => simpa using usable_nonneg (A.size (.clu c) (.clu hp hb) z hs)
    · rename_i hc
      refine usable_nonneg (contentSize_nonneg A hp ?_ ch (fun x hx => sbelow_child hb hx) (by simpa using hc))
      cases hs : c.props.size with
      | none => simpa using hE
      | some z => simpa using A.size (.clu c) (.clu hp hb) z hs
theorem contentSize_nonneg (A : Able d) {p : SPeriphT} (hp : p ∈ d.peripherals) {E : Int} (hE : 0 ≤ E) : (xs : List SRC) → (∀ x ∈ xs, SBelow p.rcs x) →
    xs ≠ [] → 0 ≤ contentSize E xs
  | [], _, h => absurd rfl h
  | x :: xs, hb, _ => by
    rw [contentSize]
    have := countRC_nonneg A hp hE x (hb x (by simp))
    omega
end

theorem collect_total {α : Type} {s : FinState} {pick : Nat → Processed → M α} {cs : List Nat}
    (h : ∀ c ∈ cs, ∃ e, s.g.elem? c = some e ∧ (e.isDimTemplate = false → ∃ y, PickOf s pick c y)) : ∃ xs w, collect s pick cs = .ok xs w := by
  obtain ⟨xs, h1, -⟩ := collect_eq h
  exact ⟨xs, [], h1⟩

/-- A child that has been handled. -/
theorem kid_good (F : Final L org g0) (I : FInv L org g0 done s) (V : ∀ c, (i, c) ∈ ends g0 → c ∈ done) {c : Nat} (hc : c ∈ outs g0 i) :
    1 ≤ org c ∧ org c < L.length ∧ ∃ p e, L[org c]? = some (org i, p) ∧ s.g.elem? c = some e ∧
      (p.isEnum = false → e.isDimTemplate = false → ∃ h, Good L org s c h) := by
  have hm := mem_outs.1 hc
  obtain ⟨h1, p, h2⟩ := F.edge hm
  refine ⟨h1, (List.getElem?_eq_some_iff.1 h2).1, p, ?_⟩
  obtain ⟨q, p', e0, h3, h4, h5⟩ := F.info (F.shape.plain.lt hm).2 h1
  rw [h2] at h3
  cases h3
  obtain ⟨e, h6, -, -, h7, -⟩ := I.base.same c e0 h4
  refine ⟨e, h2, h6, ?_⟩
  intro hen ht
  obtain ⟨h, h8, -⟩ := h5.head hen
  exact ⟨h, I.good c (V c hm) e0 h h4 (by rw [← h7]; exact ht) h8 h1⟩

theorem visit_total (A : Able d) (H : Parts d L) {ks : List Nat} (hk0 : Kids L 0 ks) (hr0 : Reps L ks (d.peripherals.map ofPeriph))
    (F : Final L org g0) (I : FInv L org g0 done s) {i : Nat} {q : List Nat} (T : Trav g0 (i :: q) done) :
    ∃ s1 w, visit g0 s i = .ok s1 w ∧ (i = 0 → outs g0 0 ≠ [] → s1.resolved.isSome) ∧ (s.resolved.isSome → s1.resolved.isSome) := by
  have B := I.base
  have hi : i < g0.nodes.length := T.lt i (by simp)
  have hd : i ∉ done := by
    have := T.nodup
    rw [List.cons_append, List.nodup_cons, List.mem_append] at this
    exact fun hc => this.1 (Or.inr hc)
  have V : ∀ c, (i, c) ∈ ends g0 → c ∈ done := by
    intro c hc
    refine T.qs i (by simp) c ?_
    rw [successors_eq F.shape.nodup]
    exact mem_outs.2 hc
  unfold visit
  rw [successors_eq F.shape.nodup]
  cases ho : outs g0 i with
  | nil =>
    refine ⟨s, [], rfl, ?_, id⟩
    rintro rfl h
    exact absurd ho h
  | cons c0 cs0 =>
    simp only
    rw [← ho]
    have hne : outs g0 i ≠ [] := by rw [ho]; simp
    obtain ⟨e, he0⟩ := F.shape.plain.elem i hi
    have he : s.g.elem? i = some e := by rw [(B.fresh i hd).1]; exact he0
    unfold finalizeNode
    rw [he]
    simp only
    by_cases h0 : org i = 0
    · have := F.org_zero hi h0
      subst this
      have h4 := F.shape.node 0 _ F.ok.root
      simp only [Nat.zero_le, if_true] at h4
      rw [he0] at h4
      cases h4
      have ht : (doneNode Parsed.device).isDimTemplate = false := by
        simp [doneNode, expandO, expandM, extractDimOf, M.bind, M.throw, initNode]
      have hl : (doneNode Parsed.device).level = .device := by
        simp [doneNode, expandO, expandM, extractDimOf, M.bind, M.throw, initNode, levelOf]
      rw [if_neg (by rw [ht]; simp), hl]
      simp only
      obtain ⟨ps, w, hc⟩ := collect_total (s := s) (pick := pickPeripheral s) (cs := outs g0 0) (by
        intro c hc
        obtain ⟨h1, h2, p, e, h3, h4, h5⟩ := kid_good F I V hc
        refine ⟨e, h4, fun ht => ?_⟩
        have hkm := (hk0.2 (org c)).2 ⟨h1, p, by rw [h3, h0]⟩
        obtain ⟨t, ht', hrep⟩ := (Reps.mem hr0).1 _ hkm
        obtain ⟨P, hP, rfl⟩ := List.mem_map.1 ht'
        obtain ⟨q', hq'⟩ := rep_root hrep
        rw [h3] at hq'
        cases hq'
        obtain ⟨h, hg⟩ := h5 rfl ht
        obtain ⟨y, hy, -⟩ := hg.periph P hrep (.top h1 (by rw [h3, h0]))
        exact ⟨y, hy⟩)
      rw [hc]
      exact ⟨_, _, rfl, fun _ _ => rfl, fun _ => rfl⟩
    · have h1 : 1 ≤ org i := by omega
      have hnz : i ≠ 0 := by
        rintro rfl
        exact h0 (F.shape.self 0 F.pos)
      obtain ⟨qq, pp, e2, h7, h8, h9⟩ := F.info hi h1
      rw [he0] at h8
      cases h8
      have hlen := (List.getElem?_eq_some_iff.1 h7).1
      by_cases ht : e.isDimTemplate = true
      · rw [if_pos ht]
        exact ⟨s, [], rfl, fun h => absurd h hnz, id⟩
      rw [if_neg ht]
      have ht' : e.isDimTemplate = false := by simpa using ht
      obtain ⟨t, hpart, hrep, hE1, hE2⟩ := H (org i) h1 hlen
      obtain ⟨q2, hq2⟩ := rep_root hrep
      rw [h7] at hq2
      cases hq2
      have hlv := h9.level
      have hproc : (rootOf t).isEnum = false → ∃ h, procOf s.g i = .ok h [] ∧ e.processed = some h ∧ procLevel h = levelOf (rootOf t) ∧ h ∈ headsOf (rootOf t) := by
        intro hen
        obtain ⟨h, h10, h11, h12, h13⟩ := h9.head hen
        refine ⟨h, ?_, h10, h12, (h13 ht').1⟩
        unfold procOf
        rw [he]
        simp only [h10]
        rfl
      -- containers of registers and clusters
      have hbox : ∀ D E ch p, p ∈ d.peripherals → Box L (org i) D E ch → (∀ x ∈ ch, SBelow p.rcs x) → 0 ≤ D.getD E → (rootOf t).isEnum = false →
          ∃ s1 w, finalizeContainerNode s i e (outs g0 i) = .ok s1 w ∧ (s.resolved.isSome → s1.resolved.isSome) := by
        intro D E ch p hpm hb hsb hDE hen
        obtain ⟨h, h10, h10', -⟩ := hproc hen
        obtain ⟨q', p', h16, h17, h18, ks', hk', hr'⟩ := hb.decl
        have hche : ch ≠ [] := by
          rintro rfl
          have := Reps.nil hr'
          exact hne ((F.kids_nil hi hk').2 this)
        have hcs := calculateSize_box F I T hi hd V hb hche
        have hnn := contentSize_nonneg A hpm hDE ch hsb hche
        rw [if_neg (by omega)] at hcs
        unfold finalizeContainerNode
        rw [h10, M.bind_ok_nil, hcs, M.bind_ok_nil]
        simp only
        have hel : ∀ m j, (s.g.setElem i { e with processed := some (h.withSize m) }).elem? j =
            if j = i then some { e with processed := some (h.withSize m) } else s.g.elem? j :=
          fun m j => setElem_elem? (by rw [elem?_node?.1 he]; rfl)
        generalize hs1 : ({ s with g := s.g.setElem i { e with processed := some (h.withSize (contentSize (D.getD E) ch)) } } : FinState) = s1
        have hres : s1.resolved = s.resolved := by rw [← hs1]
        obtain ⟨xs, w, hc⟩ := collect_total (s := s1) (pick := pickRC s1) (cs := outs g0 i) (by
          intro c hc
          obtain ⟨h1, h2, p, e, h3, h4, h5⟩ := kid_good F I V hc
          have hci := F.ne_kid (mem_outs.1 hc)
          have hel1 : s1.g.elem? c = s.g.elem? c := by rw [← hs1]; show (s.g.setElem i _).elem? c = _; rw [hel, if_neg hci]
          have hco1 : s1.content.lookup c = s.content.lookup c := by rw [← hs1]
          refine ⟨e, by rw [hel1]; exact h4, fun ht => ?_⟩
          obtain ⟨t', ht', hrep'⟩ := (Reps.mem hr').1 (org c) ((hk'.2 _).2 ⟨h1, p, h3⟩)
          obtain ⟨x, hx, rfl⟩ := mem_ofRCs.1 ht'
          obtain ⟨q', hq'⟩ := rep_declOf hrep'
          rw [h3] at hq'
          cases hq'
          obtain ⟨h, hg⟩ := h5 (declOf_notEnum x) ht
          obtain ⟨y, hy, -⟩ := hg.rc x _ hrep' (hb.1.child h1 h3 h16 h17)
          exact ⟨y, (pick_congr hel1 hco1).2.1 y hy⟩)
        rw [hc]
        refine ⟨_, _, rfl, ?_⟩
        simp only [hres]
        exact id
      cases hpart with
      | @periph P hP =>
        have hlv' : e.level = .peripheral := hlv
        rw [hlv']
        simp only
        have hE := hE2 ⟨P, rfl⟩
        obtain ⟨s1, w, h2, h3⟩ := hbox P.hd.props.size 32 P.rcs P hP ⟨hE, Or.inr ⟨P, hrep, rfl, rfl, rfl⟩⟩ (fun x hx => .here hx) (by
          cases hs : P.hd.props.size with
          | none => simp
          | some z => simpa using A.size (.periph P.hd) (.periph hP) z hs) rfl
        exact ⟨s1, w, h2, fun h => absurd h hnz, h3⟩
      | @rc P x hP hx =>
        obtain ⟨E, hE⟩ := hE1 ⟨x, rfl⟩
        have hEn := hE.nonneg A H
        cases x with
        | clu c ch =>
          have hlv' : e.level = .cluster := by simpa [ofRC, rootOf, levelOf] using hlv
          rw [hlv']
          simp only
          obtain ⟨s1, w, h2, h3⟩ := hbox c.props.size E ch P hP ⟨hE, Or.inl ⟨c, hrep, rfl⟩⟩ (fun y hy => sbelow_child hx hy) (by
            cases hs : c.props.size with
            | none => simpa using hEn
            | some z => simpa using A.size (.clu c) (.clu hP hx) z hs) (by simp [ofRC, rootOf, Parsed.isEnum])
          exact ⟨s1, w, h2, fun h => absurd h hnz, h3⟩
        | reg r =>
          have hlv' : e.level = .register := by simpa [ofRC, rootOf, levelOf] using hlv
          rw [hlv']
          simp only
          obtain ⟨h, h10, -⟩ := hproc (by simp [ofRC, rootOf, Parsed.isEnum])
          rw [h10, M.bind_ok_nil]
          obtain ⟨xs, w, hc⟩ := collect_total (s := s) (pick := pickField s) (cs := outs g0 i) (by
            intro c hc
            obtain ⟨h1, h2, p, e, h3, h4, h5⟩ := kid_good F I V hc
            refine ⟨e, h4, fun ht => ?_⟩
            simp only [ofRC, Rep] at hrep
            obtain ⟨-, ks', hk', hr'⟩ := hrep
            obtain ⟨t', ht', hrep'⟩ := (Reps.mem hr').1 (org c) ((hk'.2 _).2 ⟨h1, p, h3⟩)
            obtain ⟨f, hf, rfl⟩ := List.mem_map.1 ht'
            obtain ⟨q', hq'⟩ := rep_root hrep'
            rw [h3] at hq'
            cases hq'
            obtain ⟨h, hg⟩ := h5 rfl ht
            obtain ⟨y, hy, -⟩ := hg.field f hrep'
            exact ⟨y, hy⟩)
          rw [hc]
          exact ⟨_, _, rfl, fun h => absurd h hnz, id⟩
      | @field P r f hP hx hf =>
        have hlv' : e.level = .field := by simpa [ofField, rootOf, levelOf] using hlv
        rw [hlv']
        simp only
        have hdec : Declared d (.field f) := .field hP hx hf
        obtain ⟨h, h10, h11, h12, h13⟩ := hproc rfl
        simp only [ofField, rootOf, levelOf] at h12 h13
        cases h <;> simp [procLevel] at h12
        rename_i hd'
        unfold finalizeFieldNode
        rw [h10, M.bind_ok_nil]
        simp only
        have hrep2 := hrep
        simp only [ofField, Rep] at hrep2
        obtain ⟨-, ks', hk', hr'⟩ := hrep2
        obtain ⟨h16, h17⟩ := reps_enums _ _ hr'
        have hperm := F.enum_kids hi hk' h17
        have hkid : ∀ c ∈ outs g0 i, ∃ ec ce, enumAt L c = some ec ∧ ec ∈ f.containers ∧ s.g.elem? c = some ce ∧ ce.parsed = .enum ec := by
          intro c hc
          have hcl : c < L.length := by
            obtain ⟨-, p, h19⟩ := (hk'.2 c).1 (hperm.mem_iff.1 hc)
            exact (List.getElem?_eq_some_iff.1 h19).1
          obtain ⟨ec, hec⟩ := Option.isSome_iff_exists.1 (h17 c (hperm.mem_iff.1 hc))
          obtain ⟨h18, p, h19⟩ := F.edge (mem_outs.1 hc)
          obtain ⟨q3, p2, ce, h20, h21, h22⟩ := F.info (F.shape.plain.lt (mem_outs.1 hc)).2 h18
          obtain ⟨ce', h23, -, h24, -⟩ := B.same c ce h21
          rw [F.shape.self c hcl] at h20
          refine ⟨ec, ce', hec, ?_, h23, ?_⟩
          · rw [← h16, List.mem_filterMap]
            exact ⟨c, hperm.mem_iff.1 hc, hec⟩
          · rw [h24, h22.parsed]
            unfold enumAt at hec
            rw [h20] at hec
            cases p2 <;> simp at hec
            rw [hec]
        have hmap : ∃ conts w, M.mapM (fun c => match s.g.elem? c with
            | none => M.throw .attributeError
            | some ce => match ce.parsed with
              | .enum ec => createContainer ec hd'.lsb hd'.msb
              | _ => M.throw .attributeError) (outs g0 i) = .ok conts w ∧
            conts.map (·.usage) = ((outs g0 i).filterMap (enumAt L)).map fun c => c.usage.getD .readWrite := by
          have : ∀ l : List Nat, (∀ c ∈ l, c ∈ outs g0 i) → ∃ conts w, M.mapM (fun c => match s.g.elem? c with
            | none => M.throw .attributeError
            | some ce => match ce.parsed with
              | .enum ec => createContainer ec hd'.lsb hd'.msb
              | _ => M.throw .attributeError) l = .ok conts w ∧
              conts.map (·.usage) = (l.filterMap (enumAt L)).map fun c => c.usage.getD .readWrite := by
            intro l
            induction l with
            | nil => intro _; exact ⟨[], [], rfl, rfl⟩
            | cons c l ih =>
              intro hl
              obtain ⟨conts, w, h2, h3⟩ := ih fun c hc => hl c (by simp [hc])
              obtain ⟨ec, ce, h4, h5, h6, h7⟩ := hkid c (hl c (by simp))
              obtain ⟨k, w', hk⟩ := A.conts f hdec hd' h13 ec h5
              refine ⟨k :: conts, _, M.mapM_eq_ok.2 (.cons (by simp only [h6, h7]; exact hk) (M.mapM_eq_ok.1 h2)), ?_⟩
              rw [List.filterMap_cons_some h4]
              simp only [List.map_cons, h3]
              congr 1
              unfold createContainer at hk
              simp only [M.bind_eq_ok, M.pure_eq_ok] at hk
              obtain ⟨vs, _, _, _, ⟨hk, -⟩, -⟩ := hk
              rw [← hk]
          exact this _ (fun c hc => hc)
        obtain ⟨conts, w, hm, hus⟩ := hmap
        have hp2 : ((outs g0 i).filterMap (enumAt L)).Perm f.containers := by rw [← h16]; exact hperm.filterMap _
        obtain ⟨hu1, hu2, hu3⟩ := A.usages f hdec
        have hlen2 : conts.length = f.containers.length := by
          have := congrArg List.length hus
          simpa [hp2.length_eq] using this
        have hnod : (conts.map (·.usage)).Nodup := by
          rw [hus]
          exact (hp2.map _).nodup_iff.2 hu1
        have hc1 : ¬ ((conts.map (·.usage)).length ≠ (conts.map (·.usage)).eraseDups.length) := by
          rw [eraseDups_of_nodup _ hnod]
          simp
        have hc3 : (decide (conts.length = 2) && !((conts.map (·.usage)).all fun u => u == .read || u == .write)) = false := by
          by_cases h2 : conts.length = 2
          · have : ((conts.map (·.usage)).all fun u => u == .read || u == .write) = true := by
              rw [List.all_eq_true]
              intro u hum
              rw [hus] at hum
              obtain ⟨c, hc, rfl⟩ := List.mem_map.1 hum
              rcases hu3 (by omega) c (hp2.mem_iff.1 hc) with h | h <;> rw [h] <;> rfl
            rw [this]
            simp
          · simp [h2]
        have : M.bind (M.ok conts w) (fun conts =>
            if (conts.map (·.usage)).length ≠ ((conts.map (·.usage)).eraseDups).length then M.throw .enumContainer
            else if conts.length > 2 then M.throw .enumContainer
            else if (decide (conts.length = 2) && !((conts.map (·.usage)).all fun u => u == .read || u == .write)) = true then M.throw .enumContainer
            else M.pure ({ s with content := (i, .conts conts) :: s.content } : FinState)) =
            .ok ({ s with content := (i, .conts conts) :: s.content } : FinState) (w ++ []) := by
          simp only [M.bind]
          rw [if_neg hc1, if_neg (by omega), if_neg (by rw [hc3]; simp)]
          rfl
        refine ⟨_, _, Eq.trans (congrArg (fun m => M.bind m _) hm) this, fun h => absurd h hnz, id⟩
      | enum hP hx hf hc =>
        exfalso
        simp only [ofEnum, Rep] at hrep
        obtain ⟨-, ks', hk', hr'⟩ := hrep
        have := Reps.nil hr'
        subst this
        exact hne ((F.kids_nil hi hk').2 rfl)


theorem stepsM_total : ∀ (l : List (Nat × Parsed)), (∀ x ∈ l, x.2.isEnum = false → ∃ y w, expandM x.2 = .ok y w) → ∃ w, stepsM l = .ok () w
  | [], _ => ⟨[], rfl⟩
  | x :: l, h => by
    obtain ⟨w, hw⟩ := stepsM_total l fun y hy => h y (by simp [hy])
    obtain ⟨v, hv⟩ : ∃ v, stepM x.2 = .ok () v := by
      unfold stepM
      cases he : x.2.isEnum with
      | true => exact ⟨[], rfl⟩
      | false =>
        obtain ⟨y, v, hy⟩ := h x (by simp) he
        simp only [Bool.false_eq_true, if_false]
        exact ⟨_, M.bind_eq_ok.2 ⟨y, v, [], hy, rfl, rfl⟩⟩
    exact ⟨_, M.bind_eq_ok.2 ⟨(), v, w, hv, hw, rfl⟩⟩

theorem Final.org_lt (F : Final L org g0) {i : Nat} (hi : i < g0.nodes.length) : org i < L.length := by
  by_cases h : i < L.length
  · rw [F.shape.self i h]; exact h
  · obtain ⟨q, p, x, -, -, h1, -⟩ := F.shape.inst i (by omega) hi
    exact (List.getElem?_eq_some_iff.1 h1).1

theorem Final.edge_lt (F : Final L org g0) {i c : Nat} (h : (i, c) ∈ ends g0) : org i < org c := by
  obtain ⟨h18, p, h19⟩ := F.edge h
  exact (F.ok.inner _ _ h18 h19).2.2

theorem Final.all_done (F : Final L org g0) {done : List Nat} (T : Trav g0 [] done) : ∀ i, i < g0.nodes.length → i ∈ done := by
  have : ∀ n i, L.length - org i ≤ n → i < g0.nodes.length → i ∈ done := by
    intro n
    induction n with
    | zero =>
      intro i h1 h2
      have := F.org_lt h2
      omega
    | succ n ih =>
      intro i h1 h2
      have := T.all i (by
        unfold Graph.indices
        rw [List.mem_filter, rangeFrom_zero, List.mem_range]
        obtain ⟨e, he⟩ := F.shape.plain.elem i h2
        exact ⟨h2, by rw [elem?_node?.1 he]; rfl⟩) (by
        intro c hc
        rw [successors_eq F.shape.nodup] at hc
        have hc := mem_outs.1 hc
        have h3 := F.edge_lt hc
        have h4 := F.org_lt h2
        exact ih c (by omega) (F.shape.plain.lt hc).2)
      simpa using this
  exact fun i hi => this _ i (Nat.le_refl _) hi

theorem Final.none_left (F : Final L org g0) : g0.unprocessed = [] := by
  unfold Graph.unprocessed
  rw [List.filter_eq_nil_iff]
  intro i hi
  rw [rangeFrom_zero, List.mem_range] at hi
  obtain ⟨e, he⟩ := F.shape.plain.elem i hi
  have hp : e.isProcessed = true := by
    by_cases h : i < L.length
    · have := F.shape.node i L[i] (List.getElem?_eq_some_iff.2 ⟨h, rfl⟩)
      rw [he, if_pos (by omega)] at this
      cases this
      unfold doneNode
      split <;> rfl
    · obtain ⟨q, p, x, -, -, -, -, h2, -⟩ := F.shape.inst i (by omega) hi
      rw [he] at h2
      cases h2
      rfl
  simp [Graph.isUnprocessed, he, hp]

/-- Resolution of a device without derivedFrom succeeds under `Able`. -/
theorem resolve_total (ord : List Nat → List Nat) (f : Nat) (hu : Underived d) (A : Able d) :
    ∃ ps ws, resolvePeripherals ord (f + 2) d = .ok ps ws := by
  obtain ⟨L, g1, ks, h6, h7, h8, h9⟩ := initial_flat hu
  have H : Parts d L := rep_part h7.ok h8 h9
  obtain ⟨w0, hw0⟩ := stepsM_total (L.drop 1) (by
    intro x hx he
    obtain ⟨i, hi⟩ := List.mem_iff_getElem?.1 hx
    rw [List.getElem?_drop] at hi
    obtain ⟨q, p⟩ := x
    exact A.exp p (H.declared (by omega) hi) (h7.inner _ _ (by omega) hi).1 he)
  rcases flat_rounds ord h7 f with ⟨e, h1, -⟩ | ⟨w, g', org, k, h1, h12, h13, h14⟩
  · rw [hw0] at h1; cases h1
  · have F := final_of_shape h7 h1 h13 h14
    have hT : ∃ s' w', finalizeProcessing g' = .ok s' w' := by
      refine bottomUp_total (fun done s => FInv L org g' done s) ?_ _ _ _ _ (Trav.start g') (FInv.start F) (by simp)
      intro i q done s T I
      obtain ⟨s1, w1, h2, -, -⟩ := visit_total A H h8 h9 F I T
      exact ⟨s1, w1, h2, visit_next F I T h2⟩
    obtain ⟨s', w', hs⟩ := hT
    have hroot : outs g' 0 ≠ [] := by
      cases hps : d.peripherals with
      | nil => exact absurd hps A.some
      | cons p ps =>
        rw [hps, List.map_cons] at h9
        obtain ⟨k, ks', rfl, -, -⟩ := Reps.cons h9
        obtain ⟨h15, p', h16⟩ := (h8.2 k).1 (by simp)
        have hk := (List.getElem?_eq_some_iff.1 h16).1
        have h0 : 0 < g'.nodes.length := by have := F.shape.len; omega
        have := (F.shape.low 0 k hk h0).2 ⟨h15, p', by rw [F.shape.self 0 F.pos]; exact h16⟩
        intro hc
        have h17 := mem_outs.2 this
        rw [hc] at h17
        cases h17
    obtain ⟨done', T', I, hres⟩ := bottomUp_trav (fun done s => FInv L org g' done s ∧ (0 ∈ done → s.resolved.isSome)) (by
      intro i q done s s1 w1 T I hv
      refine ⟨visit_next F I.1 T hv, ?_⟩
      obtain ⟨s2, w2, h2, h3, h4⟩ := visit_total A H h8 h9 F I.1 T
      rw [hv] at h2
      cases h2
      intro hm
      rcases List.mem_cons.1 hm with rfl | hm
      · exact h3 rfl hroot
      · exact h4 (I.2 hm)) _ _ _ _ _ _ (Trav.start g') ⟨FInv.start F, by simp⟩ hs
    have h0 : 0 < g'.nodes.length := by have := F.shape.len; have := F.pos; omega
    obtain ⟨ps, hps⟩ := Option.isSome_iff_exists.1 (hres (F.all_done T' 0 h0))
    refine ⟨ps, [] ++ (w ++ (w' ++ [])), ?_⟩
    unfold resolvePeripherals
    refine M.bind_eq_ok.2 ⟨g1, [], _, h6, M.bind_eq_ok.2 ⟨g', w, _, h12, ?_, rfl⟩, rfl⟩
    rw [if_neg (by simp [F.none_left])]
    refine M.bind_eq_ok.2 ⟨s', w', [], hs, ?_, rfl⟩
    rw [hps]
    rfl

end
end Svd
