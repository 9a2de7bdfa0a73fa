import Verif.Props.Ends
import Verif.Spec.Follow
/-
A check for `Followable`, to show that descriptions meet it.
-/
namespace Svd
open Spec

/-- What is declared at a position. -/
def declOf (d : SDevice) (x : Pos) : Option Parsed :=
  match treeAt (declTree d) x with
  | some (.node p _) => some p
  | none => none

theorem declOf_iff {d : SDevice} {x : Pos} {p : Parsed} : declOf d x = some p ↔ DeclAt d x p := by
  unfold declOf DeclAt
  split
  · rename_i q ts h
    rw [h]
    simp
  · rename_i h
    rw [h]
    simp

/-- Can an element be called `n`? -/
def callable (n : Str) : Parsed → Bool
  | .enum c => c.name == some n
  | .device => true
  | p => decide ('%' ∈ nameOfDecl p) || nameOfDecl p == n

theorem callable_of {p : Parsed} {n : Str} (h : NameFor p n) : callable n p = true := by
  cases p with
  | enum c => simpa [callable, NameFor] using h
  | device => rfl
  | _ =>
    simp only [callable, Bool.or_eq_true, decide_eq_true_eq, beq_iff_eq]
    exact (Classical.em _).imp id fun hm => (instance_plain h hm).symm

/-- Could `x` be derived from `b`, judging by the last name of the path? -/
def mayRefer (d : SDevice) (x b : Pos) : Bool :=
  match declOf d x, declOf d b with
  | some p, some q => (match p.derivedFrom with
    | some path => kindOf p == kindOf q && callable (lastName path) q
    | none => false)
  | _, _ => false

theorem mayRefer_of {d : SDevice} {x b : Pos} (h : Refers d x b) : mayRefer d x b = true := by
  obtain ⟨p, q, h1, h2, h3⟩ := refers_kind h
  obtain ⟨path, h4, q', h5, h6⟩ := refers_called h h1
  rw [declAt_unique h5 h2] at h6
  unfold mayRefer
  rw [declOf_iff.2 h1, declOf_iff.2 h2]
  simp only [h4, Bool.and_eq_true, beq_iff_eq]
  exact ⟨h3, callable_of h6⟩

/-- Is it derived? -/
def isDerived (d : SDevice) (x : Pos) : Bool := ((declOf d x).bind (·.derivedFrom)).isSome

def plainB (d : SDevice) (x : Pos) (n : Str) : Bool :=
  match declOf d x with
  | none | some .device => false
  | some (.enum c) => c.name == some n
  | some p => nameOfDecl p == n && !hasSub listMark n

theorem plain_of {d : SDevice} {x : Pos} {n : Str} (h : plainB d x n = true) : PlainName d x n := by
  unfold plainB at h
  split at h
  · cases h
  · cases h
  · rename_i c hc
    refine ⟨.enum c, declOf_iff.1 hc, by simp, fun c' hc' => ?_, fun hk => absurd rfl hk⟩
    injection hc' with hc'
    subst hc'
    simpa using h
  · rename_i p h1 h2 h3
    simp only [Bool.and_eq_true, beq_iff_eq, Bool.not_eq_true'] at h
    refine ⟨p, declOf_iff.1 h3, ?_, ?_, fun _ => ⟨h.1, hasSub_false.1 h.2⟩⟩
    · rintro rfl
      exact h1 rfl
    · rintro c rfl
      exact (h2 c rfl).elim

def ownPathB (d : SDevice) : Pos → List Str → List Nat → Bool
  | x, [n], [] => plainB d x n
  | x, n :: m :: ns, k :: ks => plainB d x n && (declOf d (x ++ [k])).isSome && ownPathB d (x ++ [k]) (m :: ns) ks
  | _, _, _ => false

theorem ownPath_of {d : SDevice} : ∀ {ks : List Nat} {x : Pos} {ns : List Str}, ownPathB d x ns ks = true → OwnPath d x ns (x ++ ks) := by
  intro ks
  induction ks with
  | nil =>
    intro x ns h
    match ns, h with
    | [n], h =>
      simp only [ownPathB] at h
      rw [List.append_nil]
      exact .last (plain_of h)
  | cons k ks ih =>
    intro x ns h
    match ns, h with
    | n :: m :: ns, h =>
      simp only [ownPathB, Bool.and_eq_true] at h
      obtain ⟨⟨h1, h2⟩, h3⟩ := h
      obtain ⟨p, hp⟩ := Option.isSome_iff_exists.1 h2
      have := ih h3
      rw [List.append_assoc] at this
      exact .down (plain_of h1) ⟨k, p, rfl, declOf_iff.1 hp⟩ this

/-- `s` and `ks`: where the path of `x` starts, and how it goes on. -/
def namesB (d : SDevice) (x s : Pos) (ks : List Nat) : Bool :=
  match declOf d x, declOf d (s ++ ks), declOf d s with
  | some p, some q, some _ => (match p.derivedFrom with
    | some path => kindOf p == kindOf q && (s.length == 1 || (x ≠ [] && s ≠ [] && s.dropLast == x.dropLast)) && ownPathB d s (splitC '.' path) ks &&
        !(x.isPrefixOf (s ++ ks))
    | none => false)
  | _, _, _ => false

theorem names_of {d : SDevice} {x s : Pos} {ks : List Nat} (h : namesB d x s ks = true) : Names d x (s ++ ks) := by
  unfold namesB at h
  split at h
  · rename_i p q q' h1 h2 h3
    split at h
    · rename_i path hpath
      simp only [Bool.and_eq_true, beq_iff_eq, Bool.or_eq_true, Bool.not_eq_true', decide_eq_true_eq] at h
      obtain ⟨⟨⟨h4, h5⟩, h6⟩, h7⟩ := h
      refine ⟨p, path, _, s, declOf_iff.1 h1, hpath, pathNames_exists path, ⟨p, q, declOf_iff.1 h1, declOf_iff.1 h2, h4⟩, ?_, ownPath_of h6, ?_⟩
      · rcases h5 with h5 | ⟨⟨h5, h8⟩, h9⟩
        · obtain ⟨k, rfl⟩ := List.length_eq_one_iff.1 h5
          exact Or.inl ⟨k, q', rfl, declOf_iff.1 h3⟩
        · refine Or.inr ⟨x.dropLast, ⟨x.getLast h5, p, (List.dropLast_concat_getLast h5).symm, declOf_iff.1 h1⟩,
            s.getLast h8, q', ?_, declOf_iff.1 h3⟩
          rw [← h9]
          exact (List.dropLast_concat_getLast h8).symm
      · intro h8
        rw [List.isPrefixOf_iff_prefix.2 h8] at h7
        cases h7
    · cases h
  · cases h

section
variable {d : SDevice} (L s : Pos → Nat) (h1 : ∀ x y, OwnChild d x y → L x < L y) (h2 : ∀ x b, Refers d x b → L b = L x ∧ s b < s x)
include h1 h2

mutual
theorem layer_hasChild {x y : Pos} : HasChild d x y → L x < L y
  | .own h => h1 _ _ h
  | .inherited h3 h4 => by
    have := layer_hasChild h4
    have := (h2 _ _ h3).1
    omega
  | .nested h => layer_nested h
theorem layer_nested {x y : Pos} : Nested d x y → L x < L y
  | .here h3 h4 h5 => by
    have := layer_inside h5
    have := (h2 _ _ h3).1
    omega
  | .inherited h3 h4 => by
    have := layer_nested h4
    have := (h2 _ _ h3).1
    omega
theorem layer_inside {x y : Pos} : Inside d x y → L x < L y
  | .one h => layer_hasChild h
  | .more h3 h4 => by
    have := layer_hasChild h3
    have := layer_inside h4
    omega
end

theorem layer_precedes {x y : Pos} (h : Precedes d x y) : L x < L y ∨ (L x = L y ∧ s x < s y) := by
  induction h with
  | has h => exact Or.inl (layer_hasChild L s h1 h2 h)
  | ref h => exact Or.inr (h2 _ _ h)
  | trans _ _ ih1 ih2 => omega

end

/-- `L`: layers, such that what is declared in an element is in a higher layer and the base of an element is in the same;
`s`: an order of the elements of a layer in which the base comes first; `tgt`: where the path of a derived element leads. -/
def followB (d : SDevice) (L s : Pos → Nat) (tgt : Pos → Pos × List Nat) : Bool :=
  let all := posIn (declTree d)
  all.all fun x =>
    (x == [] || decide (L x.dropLast < L x)) &&
    (!isDerived d x || namesB d x (tgt x).1 (tgt x).2) &&
    all.all fun b => !mayRefer d x b || (L b == L x && decide (s b < s x) &&
      (((declOf d x).bind (·.derivedFrom)).all (fun path => !(path.contains '.')) || (declOf d x).any (fun p => kindOf p == .enumcont) ||
        all.all fun y => !isDerived d y || decide (y.length ≤ 2) || (y ≠ b && decide (L b ≤ L y))))

theorem followable_of_check {d : SDevice} (L s : Pos → Nat) (tgt : Pos → Pos × List Nat) (h : followB d L s tgt = true) : Followable d := by
  have hin : ∀ {x p}, DeclAt d x p → x ∈ posIn (declTree d) := fun ⟨ts, h⟩ => treeAt_posIn _ _ h
  have hx : ∀ {x p}, DeclAt d x p → _ := fun {x p} hp => List.all_eq_true.1 h x (hin hp)
  simp only [Bool.and_eq_true, List.all_eq_true] at hx
  have h1 : ∀ x y, OwnChild d x y → L x < L y := by
    rintro x y ⟨k, p, rfl, hp⟩
    have := (hx hp).1.1
    simpa using this
  have h2 : ∀ x b, Refers d x b → L b = L x ∧ s b < s x := by
    intro x b hr
    obtain ⟨p, q, hp, hq, -⟩ := refers_kind hr
    have := (hx hp).2 b (hin hq)
    rw [mayRefer_of hr] at this
    simp only [Bool.not_true, Bool.false_or, Bool.and_eq_true, beq_iff_eq, decide_eq_true_eq] at this
    exact this.1
  refine ⟨fun x hp => ?_, ?_, ?_⟩
  · rcases layer_precedes L s h1 h2 hp with h3 | h3 <;> omega
  · intro x p hp hd
    have := (hx hp).1.2
    have hdd : isDerived d x = true := by
      unfold isDerived
      rw [declOf_iff.2 hp]
      simpa [Option.isSome_iff_ne_none] using hd
    rw [hdd] at this
    exact ⟨_, names_of (by simpa using this)⟩
  · intro x p path hp hk hpath hdot t hr y q hq hdq hor
    obtain ⟨-, qt, -, hqt, -⟩ := refers_kind hr
    have := (hx hp).2 t (hin hqt)
    rw [mayRefer_of hr] at this
    simp only [Bool.not_true, Bool.false_or, Bool.and_eq_true, Bool.or_eq_true, declOf_iff.2 hp, Option.bind_some, hpath,
      Option.all_some, Option.any_some, beq_iff_eq, List.all_eq_true] at this
    rcases this.2 with (h3 | h3) | h3
    · simp [hdot] at h3
    · exact absurd h3 hk
    · have h4 := h3 y (hin hq)
      have hdd : isDerived d y = true := by
        unfold isDerived
        rw [declOf_iff.2 hq]
        simpa [Option.isSome_iff_ne_none] using hdq
      rw [hdd] at h4
      simp only [Bool.not_true, decide_eq_true_eq] at h4
      rcases h4 with (h4 | h4) | h4
      · cases h4
      · exact h4
      · rcases hor with rfl | hor
        · exact absurd rfl h4.1
        · have := layer_inside L s h1 h2 hor
          have := h4.2
          omega

end Svd
