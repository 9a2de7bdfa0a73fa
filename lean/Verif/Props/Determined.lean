import Verif.Props.ContentFull
import Verif.Props.Reorder
import Verif.Lemmas.FullSame
/-
C63: the result does not depend on the order in which sets and graphs are iterated over.
-/
namespace Svd
open Spec Graph M

section
variable {d : SDevice}

/-- What a declaration of a definite description says, completed, is one thing. -/
theorem complete_unique (D : Definite d) {x : Pos} {q q' : Parsed} (h : Complete d x q) (h' : Complete d x q') : q = q' := by
  cases h with
  | own h1 h2 =>
    cases h' with
    | own k1 k2 => exact declAt_unique h1 k1
    | derived k1 k2 k3 k4 k5 =>
      cases declAt_unique h1 k1
      cases h2.symm.trans k2
  | derived h1 h2 h3 h4 h5 =>
    cases h' with
    | own k1 k2 =>
      cases declAt_unique h1 k1
      cases k2.symm.trans h2
    | derived k1 k2 k3 k4 k5 =>
      cases declAt_unique h1 k1
      have e := h2.symm.trans k2
      injection e with e
      subst e
      cases D.refs _ _ _ h3 k3
      obtain ⟨-, e⟩ := elementOf_unique D h4 k4
      rw [e (h5.trans k5.symm)]

/-- C61 for derived descriptions: if the description is definite, the warnings of the resolution are exactly those that it gives
reason for. -/
theorem C61_definite {ord : List Nat → List Nat} {fuel : Nat} {dev : Device} {ws : List Warn} (hord : ∀ l, (ord l).Perm l)
    (D : Definite d) (h : processDevice ord fuel d = .ok dev ws) (w : Warn) : w ∈ ws ∧ ResolutionWarning w ↔ NotedIn d w :=
  C61_exact hord (fun _ _ _ => complete_unique D) (fun _ _ _ h1 h2 => takes_unique D h1 h2) h w

/-- Two resolved forms of a definite description contain the same. -/
theorem resolved_sim (D : Definite d) {ps ps' : List IPeripheral} (h : DeviceFull d ps) (h' : DeviceFull d ps') :
    (∀ q ∈ ps, ∃ q' ∈ ps', SimP q q') ∧ ∀ q' ∈ ps', ∃ q ∈ ps, SimP q q' := by
  refine ⟨deviceFull_sub D h h', fun q hq => ?_⟩
  obtain ⟨q', hq', e⟩ := deviceFull_sub D h' h q hq
  exact ⟨q', hq', e.symm⟩

/-- C63: whatever the orders of iteration (and however long the processing is allowed to take), a description that can be
followed and leaves no choice is processed to the same device, with the same warnings (apart from their order and number). -/
theorem C63_same_device {ord ord' : List Nat → List Nat} {fuel fuel' : Nat} (hord : ∀ l, (ord l).Perm l) (hord' : ∀ l, (ord' l).Perm l)
    (hf : Followable d) (hq : Quiet d) (D : Definite d) {dev dev' : Device} {ws ws' : List Warn}
    (h : processDevice ord fuel d = .ok dev ws) (h' : processDevice ord' fuel' d = .ok dev' ws') :
    dev = dev' ∧ ∀ w, w ∈ ws ↔ w ∈ ws' := by
  have c := C61_definite hord D h
  have c' := C61_definite hord' D h'
  obtain ⟨ps, w1, w2, a1, a2, rfl⟩ := processDevice_ok.1 h
  obtain ⟨ps', w1', w2', b1, b2, rfl⟩ := processDevice_ok.1 h'
  have s := resolved_sim D (C53_full_resolved hord hf hq D.refs a1) (C53_full_resolved hord' hf hq D.refs b1)
  obtain ⟨hd, hw⟩ := finish_sim (d := ⟨deviceHead d.hd, ps⟩) (d' := ⟨deviceHead d.hd, ps'⟩) rfl s.1 s.2 a2 b2
  have r : ∀ {w}, w ∈ w1 → ResolutionWarning w := fun {w} hw => resolve_kind a1 hw
  have r' : ∀ {w}, w ∈ w1' → ResolutionWarning w := fun {w} hw => resolve_kind b1 hw
  refine ⟨hd, fun w => ⟨fun hm => ?_, fun hm => ?_⟩⟩
  · rcases List.mem_append.1 hm with h1 | h2
    · exact ((c' w).2 ((c w).1 ⟨hm, r h1⟩)).1
    · exact List.mem_append_right _ ((hw w).1 h2)
  · rcases List.mem_append.1 hm with h1 | h2
    · exact ((c w).2 ((c' w).1 ⟨hm, r' h1⟩)).1
    · exact List.mem_append_right _ ((hw w).2 h2)

end

/-! ### a sample -/

/-- `Ind` for one text. -/
def indB : Option Str → Bool
  | none => true
  | some s => (match dimIndexList 0 (some s) with
    | .ok l _ => decide (l.Nodup) && decide (listMark ∉ l)
    | .err _ => true)

/-- A check for `Definite`. -/
def definiteB (d : SDevice) : Bool :=
  unambiguousB d && ((posIn (declTree d)).all fun x => match declOf d x with | some p => indB (dimOf p).dimIndex | none => true) &&
  (posIn (declTree d)).all fun x => (posIn (declTree d)).all fun b => !mayRefer d x b || (match declOf d b with | some (.enum c) => c.derivedFrom.isNone | _ => true)

theorem ind_of_check {o : Option Str} (h : indB o = true) : Ind o := by
  intro n l hl
  cases o with
  | none => exact ind_none n l hl
  | some s =>
    have h0 : DimReads 0 (some s) l := by
      cases hl with
      | numbers h1 h2 h3 h4 => exact .numbers h1 h2 h3 h4
      | letters h1 h2 h3 => exact .letters h1 h2 h3
      | items h1 h2 h3 h4 => exact .items h1 h2 h3 h4
      | single h1 h2 h3 h4 => exact .single h1 h2 h3 h4
    rw [indB, (dimIndexList_reads 0 (some s) l []).2 ⟨h0, rfl⟩] at h
    simpa using h

theorem definite_of_check {d : SDevice} (h : definiteB d = true) : Definite d := by
  have hin : ∀ {x p}, DeclAt d x p → x ∈ posIn (declTree d) := fun ⟨ts, h⟩ => treeAt_posIn _ _ h
  simp only [definiteB, Bool.and_eq_true] at h
  obtain ⟨⟨h1, h2⟩, h3⟩ := h
  refine ⟨unambiguous_of_check h1, fun p hp => ?_, fun x b c hr hb => ?_⟩
  · obtain ⟨x, hx⟩ := declAt_of_declared hp
    have := List.all_eq_true.1 h2 x (hin hx)
    rw [declOf_iff.2 hx] at this
    exact ind_of_check this
  · obtain ⟨p, q, hp, hq, -⟩ := refers_kind hr
    have := List.all_eq_true.1 (List.all_eq_true.1 h3 x (hin hp)) b (hin hq)
    rw [mayRefer_of hr, declOf_iff.2 hb] at this
    simpa using this

namespace Sample

/-- Lists and arrays, with derived peripherals, registers and enumerated values. -/
def choiceless : SDevice :=
  rdev [rper (s%"Q") 0x1000 (some (s%"P")) [rreg (s%"Z") 192],
    rper (s%"P") 0 none [
      .clu { name := s%"C%s", addressOffset := 0, dim := { dim := some 2, dimIncrement := some 64, dimIndex := some (s%"L,R") } } [
        .clu { name := s%"A[%s]", addressOffset := 0, dim := { dim := some 2, dimIncrement := some 16 } } [
          rreg (s%"R") 0, .reg { name := s%"W", addressOffset := 8, props := { size := some 64 } }],
        rreg (s%"S") 48 (some (s%"T")), .reg { name := s%"T", addressOffset := 52, props := { size := some 32 } }]],
    rper (s%"E") 0x2000 none [.reg { name := s%"R", addressOffset := 0, fields := [fldc (s%"F2") 4 (evc (s%"E2") (some (s%"E.R.F1.E1")) []), fldc (s%"F1") 0 (evc (s%"E1") none [{ name := s%"X", value := some (s%"1") }])] }]]

end Sample

/-- C63: the hypotheses are met by a description with lists, arrays and derived peripherals, registers and enumerated values,
which is accepted. -/
theorem C63_sample : Followable Sample.choiceless ∧ Quiet Sample.choiceless ∧ Definite Sample.choiceless ∧
    Sample.okAnd (processDevice id 20 Sample.choiceless) (fun dev ws => ws.isEmpty &&
      Sample.tree dev == s%"CL(A0(RW)A1(RW)ST)CR(A0(RW)A1(RW)ST)CL(A0(RW)A1(RW)ST)CR(A0(RW)A1(RW)ST)ZR") = true ∧
    Sample.okAnd (processDevice List.reverse 30 Sample.choiceless) (fun _ ws => ws.isEmpty) = true :=
  ⟨followable_of_check List.length (fun | [0] => 1 | [1, 0, 1] => 1 | [2, 0, 0, 0] => 1 | _ => 0)
    (fun | [0] => ([1], []) | [1, 0, 1] => ([1, 0, 2], []) | [2, 0, 0, 0] => ([2], [0, 1, 0]) | _ => ([], [])) (by decide +kernel),
    quiet_of_check (by decide +kernel), definite_of_check (by decide +kernel), by decide +kernel, by decide +kernel⟩

end Svd
