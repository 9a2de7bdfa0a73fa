import Verif.Lemmas.ExtendFin
import Verif.Spec.Extend
/-
C62 with derivedFrom, and C65: further peripherals.
-/
namespace Svd
open Spec

section
variable {d d' : SDevice} {ord ord' : List Nat → List Nat} {fuel fuel' : Nat} {dev dev' : Device} {ws ws' : List Warn}

/-- C62, with `derivedFrom`: two descriptions that differ only in the order of declarations give the same device and the same
warnings, if their references can be followed in one way only. -/
theorem C62_derived (hr : Reordered d d') (hf : Followable d) (hq : Quiet d) (D : Definite d) (hord : ∀ l, (ord l).Perm l)
    (hord' : ∀ l, (ord' l).Perm l) (h : processDevice ord fuel d = .ok dev ws) (h' : processDevice ord' fuel' d' = .ok dev' ws') :
    dev = dev' ∧ ∀ w, w ∈ ws ↔ w ∈ ws' := by
  obtain ⟨f, g, E, G, hfg, hgf⟩ := reordered_embeds hr
  have hf' : Followable d' := G.followable E hgf hfg hf
  have hq' : Quiet d' := G.quiet hq
  have D' : Definite d' := G.definite D
  have hh : d.hd = d'.hd := by obtain ⟨ps, rfl, -⟩ := hr; rfl
  have c := C61_definite hord D h
  have c' := C61_definite hord' D' h'
  obtain ⟨ps, w1, w2, a1, a2, rfl⟩ := processDevice_ok.1 h
  obtain ⟨ps', w1', w2', b1, b2, rfl⟩ := processDevice_ok.1 h'
  have F := C53_full_resolved hord hf hq D.refs a1
  have F' := C53_full_resolved hord' hf' hq' D'.refs b1
  obtain ⟨hd, hw⟩ := finish_sim (d := ⟨deviceHead d.hd, ps⟩) (d' := ⟨deviceHead d'.hd, ps'⟩) (by rw [hh]) (E.sim D' F F')
    (fun q hq => by obtain ⟨q', h1, h2⟩ := G.sim D F' F q hq; exact ⟨q', h1, h2.symm⟩) a2 b2
  refine ⟨hd, fun w => ⟨fun hm => ?_, fun hm => ?_⟩⟩
  · rcases List.mem_append.1 hm with h1 | h2
    · exact ((c' w).2 (E.notedIn ((c w).1 ⟨hm, resolve_kind a1 h1⟩))).1
    · exact List.mem_append_right _ ((hw w).1 h2)
  · rcases List.mem_append.1 hm with h1 | h2
    · exact ((c w).2 (G.notedIn ((c' w).1 ⟨hm, resolve_kind b1 h1⟩))).1
    · exact List.mem_append_right _ ((hw w).2 h2)

/-! ### further peripherals -/

theorem Like.trans {p q r : Parsed} (h : Like p q) (k : Like q r) : Like p r := by
  cases h with
  | same => exact k
  | reg => cases k <;> exact .reg
  | field h1 => cases k with
    | same => exact .field h1
    | field h2 => exact .field (h1.trans h2)

theorem Embeds.trans {a b c : SDevice} {f g : Pos → Pos} (E : Embeds a b f) (G : Embeds b c g) : Embeds a c (fun x => g (f x)) where
  inj := fun _ _ e => E.inj _ _ (G.inj _ _ e)
  nil := by simp only [E.nil, G.nil]
  step := fun x k => by
    obtain ⟨j, hj⟩ := E.step x k
    obtain ⟨i, hi⟩ := G.step (f x) j
    exact ⟨i, by simp only [hj, hi]⟩
  decl := fun x p h => by
    obtain ⟨p', h1, h2⟩ := E.decl x p h
    obtain ⟨p'', h3, h4⟩ := G.decl _ _ h1
    exact ⟨p'', h3, h2.trans h4⟩
  back := fun x p y' hx h hy => by
    obtain ⟨p', h1, -⟩ := E.decl x p h
    have hx' : f x ≠ [] := fun e => hx (E.inj _ _ (e.trans E.nil.symm))
    obtain ⟨y, rfl, h2⟩ := G.back (f x) p' y' hx' h1 hy
    obtain ⟨z, rfl, h3⟩ := E.back x p y hx h h2
    exact ⟨z, rfl, h3⟩

/-- C65: a device described with further peripherals contains what it contains without them, unchanged and in the same order, and
nothing that is remarked on without them goes unremarked. -/
theorem C65_kept {more : List SPeriphT} (ha : Adds d more d') (hf : Followable d) (hf' : Followable d') (hq : Quiet d') (D : Definite d')
    (hord : ∀ l, (ord l).Perm l) (hord' : ∀ l, (ord' l).Perm l)
    (h : processDevice ord fuel d = .ok dev ws) (h' : processDevice ord' fuel' d' = .ok dev' ws') :
    dev.peripherals.Sublist dev'.peripherals ∧ ∀ w ∈ ws, w ∈ ws' := by
  obtain ⟨f, g, E0, G, hfg, hgf⟩ := reordered_embeds ha
  have E := (appended_embeds d more).trans E0
  have D0 := E.definite D
  have hh : d.hd = d'.hd := by obtain ⟨ps, rfl, -⟩ := ha; rfl
  have c := C61_definite hord D0 h
  have c' := C61_definite hord' D h'
  obtain ⟨ps, w1, w2, a1, a2, rfl⟩ := processDevice_ok.1 h
  obtain ⟨ps', w1', w2', b1, b2, rfl⟩ := processDevice_ok.1 h'
  have F := C53_full_resolved hord hf (E.quiet hq) D0.refs a1
  have F' := C53_full_resolved hord' hf' hq D.refs b1
  obtain ⟨hd, hw⟩ := finish_added (d := ⟨deviceHead d.hd, ps⟩) (d' := ⟨deviceHead d'.hd, ps'⟩) (by rw [hh]) (E.sim D F F') a2 b2
  refine ⟨hd, fun w hm => ?_⟩
  rcases List.mem_append.1 hm with h1 | h2
  · exact ((c' w).2 (E.notedIn ((c w).1 ⟨hm, resolve_kind a1 h1⟩))).1
  · exact List.mem_append_right _ (hw w h2)

theorem stands_instance {p : Parsed} {hs : List Processed} (h : StandsFor p hs) {a : Processed} (ha : a ∈ hs) :
    InstanceName (nameOfDecl p) (nameOf a) := by
  obtain ⟨ex, pls, h1, h2⟩ := h
  obtain ⟨pl, hp, hh⟩ := entrywise_right h2 ha
  rw [headAt_nameOf hh]
  cases h1 with
  | single _ =>
    cases List.mem_singleton.1 hp
    exact .inl rfl
  | expanded h3 h4 h5 h6 h7 =>
    obtain ⟨i, hi, e⟩ := List.mem_mapIdx.1 hp
    subst e
    cases h5 with
    | array h8 => exact .inr ⟨_, .inr rfl⟩
    | list h8 h9 => exact .inr ⟨_, .inl rfl⟩

theorem along_instance {x : Pos} {l : List Pos} {hs : List Processed} (h : StandsAlong d x l hs) {a : Processed} (ha : a ∈ hs) :
    ∃ p, DeclAt d x p ∧ InstanceName (nameOfDecl p) (nameOf a) := by
  cases h with
  | own h1 h2 h3 => exact ⟨_, h1, stands_instance h3 ha⟩
  | derived h1 h2 h3 h4 h5 h6 =>
    rename_i p _ _ _ b
    have e : nameOfDecl (completed p b) = nameOfDecl p := by cases p <;> cases b <;> rfl
    exact ⟨p, h1, e ▸ stands_instance h6 ha⟩

/-- What stands in the whole for a declaration of the part stands in the part. -/
theorem Embeds.only {f : Pos → Pos} (E : Embeds d d' f) (D : Definite d') {ps : List IPeripheral} (F : DeviceFull d ps) {x : Pos}
    (hx : OwnChild d [] x) {q : IPeripheral} (h : PeriphFull d' (f x) q) : ∃ q' ∈ ps, SimP q' q := by
  obtain ⟨hs, ⟨l, k1⟩, k2⟩ := F.all x hx
  obtain ⟨l', a, s, ⟨hs2, h3, h4⟩, h2, -⟩ := id h
  obtain ⟨-, rfl⟩ := standsAlong_unique D h3 (E.standsAlong k1)
  obtain ⟨q', hq', k3, k4⟩ := k2 _ h4
  refine ⟨q', hq', periphFull_unique D (E.periphFull k4) h k3 ?_ ⟨_, _, h3, h4⟩⟩
  rw [h2]
  exact .periph

/-- C65: whatever else a device described with further peripherals contains is called as these are. -/
theorem C65_new {more : List SPeriphT} (ha : Adds d more d') (hf : Followable d) (hf' : Followable d') (hq : Quiet d') (D : Definite d')
    (hord : ∀ l, (ord l).Perm l) (hord' : ∀ l, (ord' l).Perm l)
    (h : processDevice ord fuel d = .ok dev ws) (h' : processDevice ord' fuel' d' = .ok dev' ws') {p : Peripheral} (hp : p ∈ dev'.peripherals) :
    p ∈ dev.peripherals ∨ ∃ q ∈ more, InstanceName q.hd.name p.name := by
  obtain ⟨f, g, E0, G, hfg, hgf⟩ := reordered_embeds ha
  have E := (appended_embeds d more).trans E0
  have D0 := E.definite D
  have hh : d.hd = d'.hd := by obtain ⟨ps, rfl, -⟩ := ha; rfl
  obtain ⟨ps, w1, w2, a1, a2, rfl⟩ := processDevice_ok.1 h
  obtain ⟨ps', w1', w2', b1, b2, rfl⟩ := processDevice_ok.1 h'
  have F := C53_full_resolved hord hf (E.quiet hq) D0.refs a1
  have F' := C53_full_resolved hord' hf' hq D.refs b1
  obtain ⟨r, hr, v, hv⟩ := dev_periph b2 hp
  simp only [inheritDevice, List.mem_map] at hr
  obtain ⟨q0, hq0, rfl⟩ := hr
  obtain ⟨x', hx', P⟩ := F'.sub q0 hq0
  obtain ⟨j, c, e, hj⟩ := G.top hx'
  obtain ⟨ts, hj⟩ := id hj
  rw [List.nil_append] at e
  rw [e] at hj
  simp only [treeAt, declTree, List.map_append] at hj
  by_cases hlt : j < d.peripherals.length
  · left
    have hx : OwnChild d [] (g x') := by
      rw [List.getElem?_append_left (by simpa using hlt)] at hj
      refine ⟨j, c, by simpa using e, ts, ?_⟩
      rw [e]
      simpa only [treeAt, declTree] using hj
    have P' : PeriphFull d' ((fun x => f (id x)) (g x')) q0 := by simp only [id, hfg]; exact P
    obtain ⟨q, hq, s⟩ := E.only D F hx P'
    obtain ⟨os, w3, w4, raw, c1, rfl, -, -, c4, -, -⟩ := validateAndFinalize_ok a2
    have s' := inheritP_sim (e := (deviceHead d.hd).props.toProps) s
    obtain ⟨o, ho, v', hv', -⟩ := (each_left c1).1 _ (by simp only [inheritDevice, List.mem_map]; exact ⟨q, hq, rfl⟩)
    rw [hh] at s'
    rw [hh] at hv'
    obtain ⟨rfl, -⟩ := periph_sim s' hv' hv
    rw [c4, mem_sortBy, List.mem_filterMap]
    exact ⟨_, ho, rfl⟩
  · right
    rw [List.getElem?_append_right (by simpa using hlt)] at hj
    obtain ⟨t, ht, hj⟩ := Option.bind_eq_some_iff.1 hj
    rw [List.getElem?_map] at ht
    obtain ⟨m, hm, rfl⟩ := Option.map_eq_some_iff.1 ht
    refine ⟨m, List.mem_of_getElem? hm, ?_⟩
    obtain ⟨l, a, s, ⟨hs, h3, h4⟩, h5, -⟩ := P
    obtain ⟨p1, k1, k2⟩ := along_instance h3 h4
    obtain ⟨p2, k3, k4⟩ := G.decl _ _ k1
    rw [e] at k3
    obtain ⟨ts2, k3⟩ := k3
    simp only [treeAt, declTree, List.map_append] at k3
    rw [List.getElem?_append_right (by simpa using hlt), List.getElem?_map, hm] at k3
    simp only [Option.map_some, Option.bind_some, ofPeriph, Option.some.injEq, DTree.node.injEq] at k3
    rw [← k4.name, ← k3.1] at k2
    have hn : p.name = a.name := by
      obtain ⟨_, _, _, _, _, _, -, -, -, rfl⟩ := finalizePeripheral_some hv
      show q0.hd.name = _
      rw [h5]
    rw [hn]
    exact k2

end
namespace Sample

/-- The peripherals of `choiceless`: a derived peripheral … -/
def exQ : SPeriphT := rper (s%"Q") 0x1000 (some (s%"P")) [rreg (s%"Z") 192]

/-- … its base with the given registers in its cluster … -/
def exP (rcs : List SRC) : SPeriphT := rper (s%"P") 0 none [.clu { name := s%"C%s", addressOffset := 0, dim := { dim := some 2, dimIncrement := some 64, dimIndex := some (s%"L,R") } } rcs]

/-- … the cluster and the registers … -/
def exA : SRC := .clu { name := s%"A[%s]", addressOffset := 0, dim := { dim := some 2, dimIncrement := some 16 } } [
  rreg (s%"R") 0, .reg { name := s%"W", addressOffset := 8, props := { size := some 64 } }]

@[inherit_doc exA] def exS : SRC := rreg (s%"S") 48 (some (s%"T"))
@[inherit_doc exA] def exT : SRC := .reg { name := s%"T", addressOffset := 52, props := { size := some 32 } }

/-- … and a peripheral with derived enumerated values. -/
def exE : SPeriphT := rper (s%"E") 0x2000 none [.reg { name := s%"R", addressOffset := 0, fields := [fldc (s%"F2") 4 (evc (s%"E2") (some (s%"E.R.F1.E1")) []), fldc (s%"F1") 0 (evc (s%"E1") none [{ name := s%"X", value := some (s%"1") }])] }]

/-- `choiceless` in another order. -/
def mixedUp : SDevice := rdev [exE, exP [exT, exA, exS], exQ]

/-- A peripheral derived from the derived peripheral. -/
def exN : SPeriphT := rper (s%"N") 0x3000 (some (s%"Q")) [rreg (s%"V") 200 (some (s%"Q.Z"))]

/-- `choiceless` with a further peripheral. -/
def grown : SDevice := rdev [exE, exN, exP [exT, exA, exS], exQ]

end Sample

/-- `choiceless` and `mixedUp` differ in the order only. -/
theorem Sample.mixedUp_reordered : Reordered Sample.choiceless Sample.mixedUp := by
  refine ⟨_, rfl, [Sample.exQ, Sample.exP [Sample.exT, Sample.exA, Sample.exS], Sample.exE], ?_, (List.reverse_perm _).symm⟩
  refine .cons ⟨_, _, rfl, shuffledRCs_refl _, .refl _⟩ (.cons ?_ (.cons ⟨_, _, rfl, shuffledRCs_refl _, .refl _⟩ .nil))
  refine ⟨_, _, rfl, shuffledRCs_iff.2 (.cons ?_ .nil), .refl _⟩
  rw [ShuffledRC]
  exact ⟨[Sample.exA, Sample.exS, Sample.exT], _, rfl, shuffledRCs_refl _, List.perm_append_comm (l₁ := [Sample.exA, Sample.exS]) (l₂ := [Sample.exT])⟩

/-- C62: `choiceless`, which has derived peripherals, registers and enumerated values, in two orders, accepted in both. -/
theorem C62_derived_sample : Reordered Sample.choiceless Sample.mixedUp ∧ Followable Sample.choiceless ∧ Quiet Sample.choiceless ∧
    Definite Sample.choiceless ∧ Sample.okAnd (processDevice id 20 Sample.choiceless) (fun _ _ => true) = true ∧
    Sample.okAnd (processDevice List.reverse 30 Sample.mixedUp) (fun dev _ =>
      Sample.tree dev == s%"CL(A0(RW)A1(RW)ST)CR(A0(RW)A1(RW)ST)CL(A0(RW)A1(RW)ST)CR(A0(RW)A1(RW)ST)ZR") = true :=
  ⟨Sample.mixedUp_reordered, C63_sample.1, C63_sample.2.1, C63_sample.2.2.1, by decide +kernel, by decide +kernel⟩

/-- C65: `choiceless` in another order with a further peripheral, derived from a derived peripheral, with a register that is
derived from a register of that. -/
theorem C65_sample : Adds Sample.choiceless [Sample.exN] Sample.grown ∧ Followable Sample.choiceless ∧ Followable Sample.grown ∧
    Quiet Sample.grown ∧ Definite Sample.grown ∧
    Sample.okAnd (processDevice id 20 Sample.choiceless) (fun dev _ => dev.peripherals.length == 3) = true ∧
    Sample.okAnd (processDevice List.reverse 30 Sample.grown) (fun dev _ => dev.peripherals.length == 4) = true := by
  refine ⟨⟨_, rfl, [Sample.exQ, Sample.exP [Sample.exT, Sample.exA, Sample.exS], Sample.exE, Sample.exN], ?_, ?_⟩, C63_sample.1,
    followable_of_check List.length
      (fun | [1] => 2 | [3] => 1 | [1, 0] => 1 | [2, 0, 2] => 1 | [0, 0, 0, 0] => 1 | _ => 0)
      (fun | [1] => ([3], []) | [3] => ([2], []) | [1, 0] => ([3], [0]) | [2, 0, 2] => ([2, 0, 0], []) | [0, 0, 0, 0] => ([0], [0, 1, 0])
           | _ => ([], [])) (by decide +kernel),
    quiet_of_check (by decide +kernel), definite_of_check (by decide +kernel), by decide +kernel, by decide +kernel⟩
  · refine .cons ⟨_, _, rfl, shuffledRCs_refl _, .refl _⟩ (.cons ?_ (.cons ⟨_, _, rfl, shuffledRCs_refl _, .refl _⟩ (.cons ⟨_, _, rfl, shuffledRCs_refl _, .refl _⟩ .nil)))
    refine ⟨_, _, rfl, shuffledRCs_iff.2 (.cons ?_ .nil), .refl _⟩
    rw [ShuffledRC]
    exact ⟨[Sample.exA, Sample.exS, Sample.exT], _, rfl, shuffledRCs_refl _, List.perm_append_comm (l₁ := [Sample.exA, Sample.exS]) (l₂ := [Sample.exT])⟩
  · exact (List.perm_append_comm (l₁ := [Sample.exQ, Sample.exP [Sample.exT, Sample.exA, Sample.exS]]) (l₂ := [Sample.exE, Sample.exN])).trans
      (List.Perm.append_left [Sample.exE, Sample.exN] (List.Perm.swap _ _ []))

end Svd
