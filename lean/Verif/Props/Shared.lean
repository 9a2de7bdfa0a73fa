import Verif.Lemmas.ShareClass
import Verif.Lemmas.FolCheck
import Verif.Spec.Unambiguous
import Verif.Props.AcceptDerived
/-
C60: the elements in the result are independent of each other.  In Python elements that are found in several places (those of an
array in an array, for instance) share their (mutable) objects; `processDeviceH` is the program with these objects,
`processDevice` the one in which each place has its own.
-/
namespace Svd
open Graph Spec M

/-! ### underived descriptions -/

theorem Part.child {d : SDevice} {p : Parsed} {ts : List DTree} {u : DTree} (h : Part d (.node p ts)) (hu : u ∈ ts) : Part d u := by
  generalize ht : DTree.node p ts = t at h
  cases h with
  | @periph q hq =>
    rw [ofPeriph, DTree.node.injEq] at ht
    rw [ht.2, mem_ofRCs] at hu
    obtain ⟨x, hx, rfl⟩ := hu
    exact .rc hq (.here hx)
  | @rc q x hq hx =>
    cases x with
    | reg r =>
      rw [ofRC, DTree.node.injEq] at ht
      rw [ht.2, List.mem_map] at hu
      obtain ⟨f, hf, rfl⟩ := hu
      exact .field hq hx hf
    | clu c ch =>
      rw [ofRC, DTree.node.injEq] at ht
      rw [ht.2, mem_ofRCs] at hu
      obtain ⟨x, hx', rfl⟩ := hu
      exact .rc hq (sbelow_child hx hx')
  | @field q r f hq hx hf =>
    rw [ofField, DTree.node.injEq] at ht
    rw [ht.2, List.mem_map] at hu
    obtain ⟨c, hc, rfl⟩ := hu
    exact .enum hq hx hf hc
  | @enum q r f c hq hx hf hc =>
    rw [ofEnum, DTree.node.injEq] at ht
    rw [ht.2] at hu
    cases hu

theorem Part.at {d : SDevice} {u : DTree} : ∀ {x : Pos} {t : DTree}, Part d t → treeAt t x = some u → Part d u := by
  intro x
  induction x with
  | nil => intro t h hx; simp only [treeAt, Option.some.injEq] at hx; exact hx ▸ h
  | cons k ks ih =>
    intro t h hx
    obtain ⟨p, ts⟩ := t
    rw [treeAt] at hx
    cases hk : ts[k]? with
    | none => rw [hk] at hx; cases hx
    | some v =>
      rw [hk, Option.bind_some] at hx
      exact ih (h.child (List.mem_of_getElem? hk)) hx

theorem declared_of_declAt {d : SDevice} {x : Pos} {p : Parsed} (h : DeclAt d x p) : Declared d p := by
  obtain ⟨ts, h⟩ := h
  cases x with
  | nil =>
    simp only [treeAt, declTree, Option.some.injEq, DTree.node.injEq] at h
    rw [← h.1]
    exact .device
  | cons k ks =>
    rw [declTree, treeAt] at h
    cases hk : (d.peripherals.map ofPeriph)[k]? with
    | none => rw [hk] at h; cases h
    | some v =>
      rw [hk, Option.bind_some] at h
      obtain ⟨q, hq, hv⟩ := List.mem_map.1 (List.mem_of_getElem? hk)
      have : Part d v := hv ▸ .periph hq
      exact (this.at h).declared

theorem underived_no_refers {d : SDevice} (hu : Underived d) {x b : Pos} : ¬ Refers d x b := by
  intro h
  obtain ⟨p, path, h1, h2⟩ := refers_derived h
  rw [hu p (declared_of_declAt h1)] at h2
  cases h2

theorem underived_followable {d : SDevice} (hu : Underived d) : Followable d where
  acyclic x h := by
    have := layer_precedes List.length (fun _ => 0) (by rintro x y ⟨k, p, rfl, -⟩; simp) (fun x b h => (underived_no_refers hu h).elim) h
    omega
  named x p h1 h2 := absurd (hu p (declared_of_declAt h1)) h2
  simple x p path _ _ _ _ t h := (underived_no_refers hu h).elim

theorem underived_quiet {d : SDevice} (hu : Underived d) : Quiet d := fun _ _ _ _ _ _ _ h => (underived_no_refers hu h).elim

theorem underived_unambiguous {d : SDevice} (hu : Underived d) : Unambiguous d := fun _ _ _ h => (underived_no_refers hu h).elim

/-! ### the theorems -/

/-- C60, for the descriptions whose references can be followed, are unambiguous, and lead, for other elements than
peripherals, to elements without derived elements in them: that array elements share objects cannot be observed; the same
device, the same warnings, the same error.  (Missing: the other descriptions, for which it is false, `C60_visible`.) -/
theorem C60_unshared_partial {ord : List Nat → List Nat} (hord : ∀ l, (ord l).Perm l) {d : SDevice} (hf : Followable d) (hq : Quiet d)
    (hu : Unambiguous d) (fuel : Nat) : processDeviceH ord fuel d = processDevice ord fuel d :=
  shared_eq hord hf hq hu fuel

/-- C60, for the descriptions without `derivedFrom`. -/
theorem C60_underived_partial {ord : List Nat → List Nat} (hord : ∀ l, (ord l).Perm l) {d : SDevice} (hu : Underived d) (fuel : Nat) :
    processDeviceH ord fuel d = processDevice ord fuel d :=
  C60_unshared_partial hord (underived_followable hu) (underived_quiet hu) (underived_unambiguous hu) fuel

/-! ### samples -/

def unambiguousB (d : SDevice) : Bool :=
  (posIn (declTree d)).all fun x => (posIn (declTree d)).all fun b => (posIn (declTree d)).all fun b' =>
    !mayRefer d x b || !mayRefer d x b' || b == b'

theorem unambiguous_of_check {d : SDevice} (h : unambiguousB d = true) : Unambiguous d := by
  have hin : ∀ {x p}, DeclAt d x p → x ∈ posIn (declTree d) := fun ⟨ts, h⟩ => treeAt_posIn _ _ h
  intro x b b' h1 h2
  obtain ⟨p, q, hp, hq, -⟩ := refers_kind h1
  obtain ⟨p', q', hp', hq', -⟩ := refers_kind h2
  have := List.all_eq_true.1 (List.all_eq_true.1 (List.all_eq_true.1 h x (hin hp)) b (hin hq)) b' (hin hq')
  rw [mayRefer_of h1, mayRefer_of h2] at this
  simpa using this

namespace Sample

/-- Arrays in arrays, in a peripheral from which another one is derived. -/
def nestedArrays : SDevice :=
  rdev [rper (s%"P") 0 none [
      .clu { name := s%"C%s", addressOffset := 0, dim := { dim := some 2, dimIncrement := some 64 } } [
        .clu { name := s%"A[%s]", addressOffset := 0, dim := { dim := some 2, dimIncrement := some 16 } } [
          rreg (s%"R") 0, .reg { name := s%"W", addressOffset := 8, props := { size := some 64 } }],
        rreg (s%"S") 48 (some (s%"T")), rreg (s%"T") 52]],
    rper (s%"Q") 0x1000 (some (s%"P")) []]

/-- Some nodes refer to the same object. -/
def sharing (d : SDevice) : Bool :=
  match initialization d with
  | .ok g _ => (match roundsS id 20 g id [] with
    | .ok (_, obj) _ => (List.range 40).any fun i => obj i != i
    | .err _ => false)
  | .err _ => false

/-- The derived cluster `B` lies in what `V` is derived from. -/
def shareStray : SDevice :=
  rdev [rper (s%"P") 0 none [
    .clu { name := s%"V", addressOffset := 128, derivedFrom := some (s%"M") } [],
    .clu { name := s%"M", addressOffset := 0 } [
      .clu { name := s%"X", addressOffset := 0, props := { access := some .readOnly } } [
        .clu { name := s%"A", addressOffset := 0 } [rreg (s%"R") 0]],
      .clu { name := s%"B", addressOffset := 16, derivedFrom := some (s%"X.A") } []]]]

def acc : RC → List (Str × Access)
  | .reg r => [(r.name, r.props.access)]
  | .clu c _ => [(c.name, c.props.access)]

def rcKids : RC → List RC
  | .reg _ => []
  | .clu _ ch => ch

/-- The names and access of what is in the clusters at the top level. -/
def accesses (dev : Device) : List (Str × Access) := dev.peripherals.flatMap fun p => p.rcs.flatMap fun x => (rcKids x).flatMap acc

end Sample

/-- C60: a description with nested arrays, with objects that are shared, to which the theorem applies. -/
theorem C60_sample : Followable Sample.nestedArrays ∧ Quiet Sample.nestedArrays ∧ Unambiguous Sample.nestedArrays ∧
    Sample.sharing Sample.nestedArrays = true ∧
    Sample.okAnd (processDeviceH id 20 Sample.nestedArrays) (fun dev _ =>
      Sample.tree dev == s%"C0(A0(RW)A1(RW)ST)C1(A0(RW)A1(RW)ST)C0(A0(RW)A1(RW)ST)C1(A0(RW)A1(RW)ST)") = true :=
  ⟨followable_of_check List.length (fun | [1] => 1 | [0, 0, 1] => 1 | _ => 0)
    (fun | [1] => ([0], []) | [0, 0, 1] => ([0, 0, 2], []) | _ => ([], [])) (by decide +kernel),
    quiet_of_check (by decide +kernel), unambiguous_of_check (by decide +kernel), by decide +kernel, by decide +kernel⟩

/-- C60: sharing can be observed.  The copy of `B` that `V` gets is also found in the `A` in `X` of `V` (see `C53_stray`), as the
same object; it takes `readOnly` from `X`, which shows in `V` too.  If every place had its own object, `B` in `V` would be
`readWrite`, as `B` in `M` is. -/
theorem C60_visible :
    Sample.okAnd (processDeviceH id 20 Sample.shareStray) (fun dev _ => Sample.accesses dev ==
      [(s%"X", .readOnly), (s%"B", .readWrite), (s%"X", .readOnly), (s%"B", .readOnly)]) = true ∧
    Sample.okAnd (processDevice id 20 Sample.shareStray) (fun dev _ => Sample.accesses dev ==
      [(s%"X", .readOnly), (s%"B", .readWrite), (s%"X", .readOnly), (s%"B", .readWrite)]) = true := by
  constructor <;> decide +kernel

end Svd
