import Verif.Lemmas.InlineTree
/-
C67: `derivedFrom` is an abbreviation: a description in which everything derived is written out is processed to the same device.
-/
namespace Svd
open Spec

variable {d d' : SDevice} {ord ord' : List Nat → List Nat} {fuel fuel' : Nat} {dev dev' : Device} {ws ws' : List Warn}

/-- C67: a description and the one in which every `derivedFrom` is written out are processed to the same device, with the
same warnings (apart from their order and number), if both are accepted. -/
theorem C67_same (hi : Inlined d d') (hf : Followable d) (hq : Quiet d) (D : Definite d) (hord : ∀ l, (ord l).Perm l) (hord' : ∀ l, (ord' l).Perm l)
    (h : processDevice ord fuel d = .ok dev ws) (h' : processDevice ord' fuel' d' = .ok dev' ws') : dev = dev' ∧ ∀ w, w ∈ ws ↔ w ∈ ws' := by
  have U := inlined_unfolds hi
  have D' := inlined_definite hi D
  have hu := inlined_underived hi
  have c := C61_definite hord D h
  have c' := C61_definite hord' D' h'
  obtain ⟨ps, w1, w2, a1, a2, rfl⟩ := processDevice_ok.1 h
  obtain ⟨ps', w1', w2', b1, b2, rfl⟩ := processDevice_ok.1 h'
  have s := resolved_sim D' (U.deviceFull D (C53_full_resolved hord hf hq D.refs a1))
    (C53_full_resolved hord' (underived_followable hu) (underived_quiet hu) D'.refs b1)
  obtain ⟨hd, hw⟩ := finish_sim (d := ⟨deviceHead d.hd, ps⟩) (d' := ⟨deviceHead d'.hd, ps'⟩) (by rw [hi.1]) s.1 s.2 a2 b2
  have r : ∀ {w}, w ∈ w1 → ResolutionWarning w := fun {w} hw => resolve_kind a1 hw
  have r' : ∀ {w}, w ∈ w1' → ResolutionWarning w := fun {w} hw => resolve_kind b1 hw
  refine ⟨hd, fun w => ⟨fun hm => ?_, fun hm => ?_⟩⟩
  · rcases List.mem_append.1 hm with h1 | h2
    · exact ((c' w).2 (U.notedIn D ((c w).1 ⟨hm, r h1⟩))).1
    · exact List.mem_append_right _ ((hw w).1 h2)
  · rcases List.mem_append.1 hm with h1 | h2
    · exact ((c w).2 (U.notedBack D' ((c' w).1 ⟨hm, r' h1⟩))).1
    · exact List.mem_append_right _ ((hw w).2 h2)

/-- C67: nothing is derived in the description that is written out. -/
theorem C67_underived (hi : Inlined d d') : Underived d' := inlined_underived hi

/-! ### it can be written out -/

theorem nodup_same (xs : List Pos) : ∃ ys : List Pos, ys.Nodup ∧ ∀ z, z ∈ ys ↔ z ∈ xs := by
  induction xs with
  | nil => exact ⟨[], List.nodup_nil, fun _ => Iff.rfl⟩
  | cons x xs ih =>
    obtain ⟨ys, h1, h2⟩ := ih
    by_cases hx : x ∈ xs
    · exact ⟨ys, h1, fun z => by rw [h2]; exact ⟨List.mem_cons_of_mem _, fun h => (List.mem_cons.1 h).elim (fun e => e ▸ hx) id⟩⟩
    · exact ⟨x :: ys, List.nodup_cons.2 ⟨fun h => hx ((h2 x).1 h), h1⟩, fun z => by simp only [List.mem_cons, h2]⟩

theorem own_list (d : SDevice) (y : Pos) : ∃ zs : List Pos, ∀ z, z ∈ zs ↔ OwnChild d y z := by
  cases ht : treeAt (declTree d) y with
  | none =>
    refine ⟨[], fun z => ⟨(fun h => by cases h), ?_⟩⟩
    rintro ⟨k, p, rfl, ts, hp⟩
    rw [treeAt_snoc, ht] at hp
    cases hp
  | some t =>
    obtain ⟨p, ts⟩ := t
    refine ⟨(List.range ts.length).map fun k => y ++ [k], fun z => ?_⟩
    rw [ownChild_iff ht]
    simp only [List.mem_map, List.mem_range]
    exact ⟨fun ⟨k, h1, h2⟩ => ⟨k, h1, h2.symm⟩, fun ⟨k, h1, h2⟩ => ⟨k, h1, h2.symm⟩⟩

theorem parts_list (d : SDevice) (l : List Pos) : ∃ zs, PartsList d l zs := by
  obtain ⟨zs, h⟩ : ∃ zs : List Pos, ∀ z, z ∈ zs ↔ InChain d l z := by
    induction l with
    | nil => exact ⟨[], fun z => ⟨(fun h => by cases h), fun ⟨_, h, _⟩ => by cases h⟩⟩
    | cons y l ih =>
      obtain ⟨zs, h1⟩ := ih
      obtain ⟨us, h2⟩ := own_list d y
      refine ⟨us ++ zs, fun z => ?_⟩
      rw [List.mem_append, h1, h2]
      constructor
      · rintro (h | ⟨u, hu, h⟩)
        · exact ⟨y, List.mem_cons_self, h⟩
        · exact ⟨u, List.mem_cons_of_mem _ hu, h⟩
      · rintro ⟨u, hu, h⟩
        rcases List.mem_cons.1 hu with rfl | hu
        · exact .inl h
        · exact .inr ⟨u, hu, h⟩
  obtain ⟨ys, h1, h2⟩ := nodup_same zs
  exact ⟨ys, h1, fun z => (h2 z).trans (h z)⟩

theorem entrywise_choose {α β : Type} {R : α → β → Prop} : ∀ {xs : List α}, (∀ x ∈ xs, ∃ y, R x y) → ∃ ys, Entrywise R xs ys
  | [], _ => ⟨[], .nil⟩
  | x :: xs, h => by
    obtain ⟨y, hy⟩ := h x List.mem_cons_self
    obtain ⟨ys, hys⟩ := entrywise_choose fun x hx => h x (List.mem_cons_of_mem _ hx)
    exact ⟨y :: ys, .cons hy hys⟩

theorem inlinedRCs_choose : ∀ {zs : List Pos}, (∀ z ∈ zs, ∃ s, InlinedRC d z s) → ∃ ss, InlinedRCs d zs ss
  | [], _ => ⟨[], by simp only [InlinedRCs]⟩
  | z :: zs, h => by
    obtain ⟨s, hs⟩ := h z List.mem_cons_self
    obtain ⟨ss, hss⟩ := inlinedRCs_choose fun x hx => h x (List.mem_cons_of_mem _ hx)
    refine ⟨s :: ss, ?_⟩
    simp only [InlinedRCs]
    exact ⟨z, zs, rfl, hs, hss⟩

theorem instance_completes {x : Pos} {l : List Pos} {a : Processed} (h : Instance d x l a) :
    ∃ q ex pl, Completes d x l q ∧ HeadAt ex q pl a := by
  obtain ⟨hs, h1, h2⟩ := h
  obtain ⟨q, h3, ex, pls, h4, h5⟩ := along_completes.1 h1
  obtain ⟨pl, -, h6⟩ := entrywise_right h5 h2
  exact ⟨q, ex, pl, h3, h6⟩

theorem field_inlined {x : Pos} {g : IField} (h : FieldOf d x g) : ∃ f, InlinedField d x f := by
  obtain ⟨l, h1, h2⟩ := h
  obtain ⟨q, ex, pl, h3, h4⟩ := instance_completes h1
  generalize g.hd = gh at h4
  cases h4 with
  | field =>
    obtain ⟨zs, hz⟩ := parts_list d l
    obtain ⟨cs, hc⟩ := entrywise_choose (R := InlinedEnum d) (xs := zs) fun z hm => by
      obtain ⟨k, -, c, w, k2, -⟩ := h2.all z ((hz.2 z).1 hm)
      exact ⟨_, c, k2, rfl⟩
    exact ⟨_, l, _, zs, cs, h3, hz, hc, rfl⟩

theorem stands_some_along {x : Pos} {hs : List Processed} (h : StandsAt d x hs) : ∃ a, a ∈ hs := by
  obtain ⟨l, h⟩ := h
  obtain ⟨q, -, h⟩ := along_completes.1 h
  obtain ⟨-, -, a, ha, -⟩ := stands_some h
  exact ⟨a, ha⟩

mutual
theorem rc_inlined {e : Int} {x : Pos} {y : IRC} (h : RCFull d e x y) : ∃ s, InlinedRC d x s := by
  match h with
  | .reg (l := l) h1 h2 h3 =>
    obtain ⟨q, ex, pl, h5, h4⟩ := instance_completes h1
    cases h4 with
    | @reg r0 =>
      obtain ⟨zs, hz⟩ := parts_list d l
      obtain ⟨fs, hc⟩ := entrywise_choose (R := InlinedField d) (xs := zs) fun z hm => by
        obtain ⟨hs, k1, k2⟩ := h2.all z ((hz.2 z).1 hm)
        obtain ⟨a, ha⟩ := stands_some_along k1
        obtain ⟨g, -, -, k3⟩ := k2 a ha
        exact field_inlined k3
      refine ⟨.reg { r0 with derivedFrom := none, fields := fs }, ?_⟩
      simp only [InlinedRC]
      exact ⟨l, _, zs, fs, h5, hz, hc, rfl⟩
  | .clu (l := l) h1 h2 h3 _ _ =>
    obtain ⟨q, ex, pl, h5, h4⟩ := instance_completes h1
    obtain ⟨zs, hz⟩ := parts_list d l
    obtain ⟨ss, hc⟩ := inlinedRCs_choose (zs := zs) fun z hm => kept_inlined (h3 z ((hz.2 z).1 hm))
    cases h4 with
    | @clu c0 =>
      refine ⟨.clu { c0 with derivedFrom := none } ss, ?_⟩
      simp only [InlinedRC]
      exact ⟨l, _, zs, h5, hz, hc, rfl⟩
theorem kept_inlined {e : Int} {ys : List IRC} {z : Pos} (h : KeptFull d e ys z) : ∃ s, InlinedRC d z s := by
  match h with
  | .intro h1 h2 =>
    obtain ⟨a, ha⟩ := stands_some_along h1
    exact found_inlined (h2 a ha)
theorem found_inlined {e : Int} {ys : List IRC} {z : Pos} {a : Processed} (h : FoundFull d e ys z a) : ∃ s, InlinedRC d z s := by
  match h with
  | .intro h1 h2 h3 => exact rc_inlined h3
end

theorem periph_inlined {x : Pos} {q : IPeripheral} (h : PeriphFull d x q) : ∃ p, InlinedPeriph d x p := by
  obtain ⟨l, a, s, h1, h2, h3, h4, -⟩ := h
  obtain ⟨q, ex, pl, h5, h6⟩ := instance_completes h1
  obtain ⟨zs, hz⟩ := parts_list d l
  obtain ⟨ss, hc⟩ := inlinedRCs_choose (zs := zs) fun z hm => kept_inlined (h4 z ((hz.2 z).1 hm))
  cases h6 with
  | @periph p =>
    exact ⟨⟨{ p with derivedFrom := none }, ss⟩, l, p, zs, h5, hz, hc, rfl⟩

/-- C67: whatever is accepted can be written out without any `derivedFrom`. -/
theorem C67_exists (hf : Followable d) (hq : Quiet d) (hu : Unambiguous d) (hord : ∀ l, (ord l).Perm l)
    (h : processDevice ord fuel d = .ok dev ws) : ∃ d', Inlined d d' := by
  obtain ⟨ps, w1, w2, a1, a2, rfl⟩ := processDevice_ok.1 h
  have F := C53_full_resolved hord hf hq hu a1
  obtain ⟨us, h1⟩ := own_list d []
  obtain ⟨xs, h2, h3⟩ := nodup_same us
  obtain ⟨qs, h4⟩ := entrywise_choose (R := InlinedPeriph d) (xs := xs) fun x hx => by
    obtain ⟨hs, k1, k2⟩ := F.all x ((h1 x).1 ((h3 x).1 hx))
    obtain ⟨a, ha⟩ := stands_some_along k1
    obtain ⟨q, -, -, k3⟩ := k2 a ha
    exact periph_inlined k3
  exact ⟨⟨d.hd, qs⟩, rfl, xs, h2, fun x => (h3 x).trans (h1 x), h4⟩

/-! ### a sample -/

/-- The positions declared directly at `y`. -/
def kidsAt (d : SDevice) (y : Pos) : List Pos :=
  match treeAt (declTree d) y with
  | some (.node _ ts) => (List.range ts.length).map fun k => y ++ [k]
  | none => []

theorem kidsAt_iff {y z : Pos} : z ∈ kidsAt d y ↔ OwnChild d y z := by
  unfold kidsAt
  cases ht : treeAt (declTree d) y with
  | none =>
    refine ⟨(fun h => by cases h), ?_⟩
    rintro ⟨k, p, rfl, ts, hp⟩
    rw [treeAt_snoc, ht] at hp
    cases hp
  | some t =>
    obtain ⟨p, ts⟩ := t
    rw [ownChild_iff ht]
    simp only [List.mem_map, List.mem_range]
    exact ⟨fun ⟨k, h1, h2⟩ => ⟨k, h1, h2.symm⟩, fun ⟨k, h1, h2⟩ => ⟨k, h1, h2.symm⟩⟩

theorem partsList_of {l zs : List Pos} (h : l.flatMap (kidsAt d) = zs) (hn : zs.Nodup) : PartsList d l zs := by
  refine ⟨hn, fun z => ?_⟩
  subst h
  simp only [List.mem_flatMap, kidsAt_iff]
  rfl

theorem notMarked {s : Str} (h : '%' ∉ s) : ¬ Contains listMark s := by
  rintro ⟨a, b, rfl⟩
  exact h (by simp [listMark])

theorem declAt_of {x : Pos} {p : Parsed} {ts : List DTree} (h : treeAt (declTree d) x = some (.node p ts)) : DeclAt d x p := ⟨ts, h⟩

namespace Sample

/-- A peripheral derived from the next one, with a register that has a field with derived enumerated values, and a register
derived from the one before it. -/
def shortForm : SDevice :=
  rdev [{ hd := { name := s%"Q", baseAddress := 0x1000, derivedFrom := some (s%"P") }, rcs := [.reg { name := s%"Z", addressOffset := 8, fields := [fldc (s%"F2") 4 (evc (s%"E2") (some (s%"P.T.F1.E1")) [])] }] },
    rper (s%"P") 0 none [.reg { name := s%"T", addressOffset := 0, description := some (s%"text"), props := { size := some 16 }, fields := [fldc (s%"F1") 0 (evc (s%"E1") none [{ name := s%"X", value := some (s%"1") }])] },
      rreg (s%"S") 4 (some (s%"T"))]]

/-- The registers, written out. -/
def longZ : SRC := .reg { name := s%"Z", addressOffset := 8, fields := [fldc (s%"F2") 4 (evc (s%"E1") none [{ name := s%"X", value := some (s%"1") }])] }
@[inherit_doc longZ] def longT : SRC := .reg { name := s%"T", addressOffset := 0, description := some (s%"text"), props := { size := some 16 }, fields := [fldc (s%"F1") 0 (evc (s%"E1") none [{ name := s%"X", value := some (s%"1") }])] }
@[inherit_doc longZ] def longS : SRC := .reg { name := s%"S", addressOffset := 4, description := some (s%"text"), modifiedWriteValues := some .modify, props := { size := some 16 }, fields := [fldc (s%"F1") 0 (evc (s%"E1") none [{ name := s%"X", value := some (s%"1") }])] }

/-- The same without any `derivedFrom`. -/
def longForm : SDevice :=
  rdev [{ hd := { name := s%"Q", baseAddress := 0x1000, addressBlocks := [{ offset := 0, size := 256, usage := .registers, protection := some .any }] }, rcs := [longZ, longT, longS] },
    rper (s%"P") 0 none [longT, longS]]

end Sample

open Sample in
/-- `longForm` is `shortForm`, written out. -/
theorem Sample.long_inlined : Inlined Sample.shortForm Sample.longForm := by
  have noDot : ∀ {s : Str}, '.' ∉ s → PathNames s [s] := fun {s} h => ⟨by simp, by simpa using h, by simp [dotted]⟩
  have rQ : Refers shortForm [0] [1] :=
    .intro (parts := [s%"P"]) (s := [1]) ⟨_, rfl⟩ rfl ⟨_, _, ⟨_, rfl⟩, ⟨_, rfl⟩, rfl⟩ (.peripheral ⟨1, _, rfl, ⟨_, rfl⟩⟩) (noDot (by decide))
      (.last ⟨_, ⟨_, rfl⟩, .inl rfl⟩)
  have rS : Refers shortForm [1, 1] [1, 0] :=
    .intro (parts := [s%"T"]) (s := [1, 0]) ⟨_, rfl⟩ rfl ⟨_, _, ⟨_, rfl⟩, ⟨_, rfl⟩, rfl⟩
      (.sibling (q := [1]) (.own ⟨1, _, rfl, ⟨_, rfl⟩⟩) (.own ⟨0, _, rfl, ⟨_, rfl⟩⟩)) (noDot (by decide)) (.last ⟨_, ⟨_, rfl⟩, .inl rfl⟩)
  have rE : Refers shortForm [0, 0, 0, 0] [1, 0, 0, 0] :=
    .intro (parts := [s%"P", s%"T", s%"F1", s%"E1"]) (s := [1]) ⟨_, rfl⟩ rfl ⟨_, _, ⟨_, rfl⟩, ⟨_, rfl⟩, rfl⟩
      (.peripheral ⟨1, _, rfl, ⟨_, rfl⟩⟩) ⟨by simp, by decide, by decide⟩
      (.down ⟨_, ⟨_, rfl⟩, .inl rfl⟩ (.own ⟨0, _, rfl, ⟨_, rfl⟩⟩) (.down ⟨_, ⟨_, rfl⟩, .inl rfl⟩ (.own ⟨0, _, rfl, ⟨_, rfl⟩⟩)
        (.down ⟨_, ⟨_, rfl⟩, .inl rfl⟩ (.own ⟨0, _, rfl, ⟨_, rfl⟩⟩) (.last ⟨_, ⟨_, rfl⟩, rfl⟩))))
  have eE : InlinedEnum shortForm [0, 0, 0, 0] (evc (s%"E1") none [{ name := s%"X", value := some (s%"1") }]) :=
    ⟨_, .base rE (.own ⟨_, rfl⟩ rfl), rfl⟩
  have eF : InlinedEnum shortForm [1, 0, 0, 0] (evc (s%"E1") none [{ name := s%"X", value := some (s%"1") }]) := ⟨_, .own ⟨_, rfl⟩ rfl, rfl⟩
  have fF : InlinedField shortForm [1, 0, 0] (fldc (s%"F1") 0 (evc (s%"E1") none [{ name := s%"X", value := some (s%"1") }])) :=
    ⟨_, _, [[1, 0, 0, 0]], _, .own ⟨_, rfl⟩ rfl, partsList_of (by decide) (by decide), .cons eF .nil, rfl⟩
  have fZ : InlinedField shortForm [0, 0, 0] (fldc (s%"F2") 4 (evc (s%"E1") none [{ name := s%"X", value := some (s%"1") }])) :=
    ⟨_, _, [[0, 0, 0, 0]], _, .own ⟨_, rfl⟩ rfl, partsList_of (by decide) (by decide), .cons eE .nil, rfl⟩
  have hT : InlinedRC shortForm [1, 0] longT := by
    simp only [InlinedRC, longT]
    exact ⟨_, _, [[1, 0, 0]], _, .own ⟨_, rfl⟩ rfl, partsList_of (by decide) (by decide), .cons fF .nil, rfl⟩
  have hZ : InlinedRC shortForm [0, 0] longZ := by
    simp only [InlinedRC, longZ]
    exact ⟨_, _, [[0, 0, 0]], _, .own ⟨_, rfl⟩ rfl, partsList_of (by decide) (by decide), .cons fZ .nil, rfl⟩
  have hS : InlinedRC shortForm [1, 1] longS := by
    simp only [InlinedRC, longS]
    exact ⟨_, _, [[1, 0, 0]], _, .derived ⟨_, rfl⟩ rfl rS
      (.own ⟨_, rfl⟩ rfl ⟨false, _, .single (notMarked (by decide)), .cons .reg .nil⟩ (.inl (List.mem_singleton.2 rfl))) rfl,
      partsList_of (by decide) (by decide), .cons fF .nil, rfl⟩
  refine ⟨rfl, [[0], [1]], by decide, fun x => ?_, .cons ?_ (.cons ?_ .nil)⟩
  · rw [← kidsAt_iff]
    exact Iff.rfl
  · refine ⟨_, _, [[0, 0], [1, 0], [1, 1]], .derived ⟨_, rfl⟩ rfl rQ
      (.own ⟨_, rfl⟩ rfl ⟨false, _, .single (notMarked (by decide)), .cons (.periph (sortBy_stable _ _) (sortBy_stable _ _)) .nil⟩
        (.inl (List.mem_singleton.2 rfl))) rfl,
      partsList_of (by decide) (by decide), ?_, by decide⟩
    simp only [InlinedRCs]
    exact ⟨_, _, rfl, hZ, _, _, rfl, hT, _, _, rfl, hS, rfl⟩
  · refine ⟨_, _, [[1, 0], [1, 1]], .own ⟨_, rfl⟩ rfl, partsList_of (by decide) (by decide), ?_, rfl⟩
    simp only [InlinedRCs, rper]
    exact ⟨_, _, rfl, hT, _, _, rfl, hS, rfl⟩

/-- C67: a description with a derived peripheral, a derived register and derived enumerated values, and the same written out;
both are accepted. -/
theorem C67_sample : Inlined Sample.shortForm Sample.longForm ∧ Followable Sample.shortForm ∧ Quiet Sample.shortForm ∧ Definite Sample.shortForm ∧
    Sample.okAnd (processDevice id 20 Sample.shortForm) (fun dev _ => Sample.tree dev == s%"TSTSZ") = true ∧
    Sample.okAnd (processDevice List.reverse 30 Sample.longForm) (fun dev _ => Sample.tree dev == s%"TSTSZ") = true :=
  ⟨Sample.long_inlined, followable_of_check List.length (fun | [0] => 1 | [1, 1] => 1 | [0, 0, 0, 0] => 1 | _ => 0)
    (fun | [0] => ([1], []) | [1, 1] => ([1, 0], []) | [0, 0, 0, 0] => ([1], [0, 0, 0]) | _ => ([], [])) (by decide +kernel),
    quiet_of_check (by decide +kernel), definite_of_check (by decide +kernel), by decide +kernel, by decide +kernel⟩

end Svd
