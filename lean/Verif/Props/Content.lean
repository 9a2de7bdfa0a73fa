import Verif.Lemmas.Exact
import Verif.Lemmas.TrimInv
import Verif.Props.Warnings
import Verif.Props.Resolve
/-
C53: the content of the elements for any use of derivedFrom; C41: every reference leads to an underived element.
`ord` is the order in which Python enumerates a set: any permutation.
-/
namespace Svd
open Spec

section
variable {ord : List Nat → List Nat} {fuel : Nat} {d : SDevice} {dev : Device} {ws : List Warn}

/-- C53: whatever is derived from what, the resolved peripherals and all they contain are those described by `DeviceOf`:
each element is declared somewhere, has the attributes of its declaration completed along its derivation chain, and contains
what is declared in the elements of that chain; nothing declared there is missing.  (Two exceptions for clusters in clusters,
see `Stray` and `KeptIn.lost`.) -/
theorem C53_resolved (hord : ∀ l, (ord l).Perm l) {ps : List IPeripheral} (h : resolvePeripherals ord fuel d = .ok ps ws) : DeviceOf d ps :=
  resolve_deviceOf hord h

/-- C53 for the processed device: up to elements that are ignored with a warning, it consists of these elements. -/
theorem C53_processed (hord : ∀ l, (ord l).Perm l) (h : processDevice ord fuel d = .ok dev ws) :
    ∃ ps raw, DeviceOf d ps ∧ TrimPeripherals ps raw (ws.filter SaysIgnored) ∧ dev.peripherals.Perm raw := by
  obtain ⟨ps, w1, raw, h1, h2, h3⟩ := C26_ignored_are_reported h
  exact ⟨ps, raw, resolve_deviceOf hord h1, h2, h3⟩

/-- C53: if no cluster is derived, there are no exceptions: the content is exactly what is declared in the chain. -/
theorem C53_exact (hord : ∀ l, (ord l).Perm l) (hc : NoDerivedCluster d) (h : processDevice ord fuel d = .ok dev ws) :
    ∃ ps raw, DeviceExact d ps ∧ TrimPeripherals ps raw (ws.filter SaysIgnored) ∧ dev.peripherals.Perm raw := by
  obtain ⟨ps, raw, h1, h2, h3⟩ := C53_processed hord h
  exact ⟨ps, raw, deviceOf_exact hc h1, h2, h3⟩

/-- C41: in an accepted device every declared peripheral, cluster, register and field has a chain of references, read as
paths of names, to an underived element of its kind. -/
theorem C41_every_chain (hord : ∀ l, (ord l).Perm l) (h : processDevice ord fuel d = .ok dev ws) {x : Pos} {p : Parsed}
    (hp : DeclAt d x p) (hk : kindOf p ≠ .enumcont) : ∃ l, Chain d x l := by
  obtain ⟨ps, w1, w2, h1, -, -⟩ := processDevice_ok.1 h
  exact resolve_chain hord h1 hp (by cases p <;> simp [Parsed.level] <;> exact hk rfl)

/-- C41: a derived `enumeratedValues` of an accepted device refers to an existing one. -/
theorem C41_every_enum (hord : ∀ l, (ord l).Perm l) (h : processDevice ord fuel d = .ok dev ws) {x : Pos} {c : SEnumContainer}
    (hp : DeclAt d x (.enum c)) (hc : c.derivedFrom ≠ none) : ∃ b, Refers d x b := by
  obtain ⟨ps, w1, w2, h1, -, -⟩ := processDevice_ok.1 h
  obtain ⟨c', hc'⟩ := resolve_takes hord h1 hp
  cases hc' with
  | own h2 h3 =>
    have := declAt_unique hp h2
    injection this with this
    subst this
    exact absurd h3 hc
  | base h2 _ => exact ⟨_, h2⟩
  | unfinished h2 _ _ => exact ⟨_, h2⟩

/-- C41 for peripherals: in an accepted device every declared peripheral leads through declared peripherals, each called exactly
as the `derivedFrom` of the one before says, to an underived one. -/
theorem C41_peripheral_named (hord : ∀ l, (ord l).Perm l) (h : processDevice ord fuel d = .ok dev ws) {p : SPeripheral}
    (hp : Declared d (.periph p)) : ∃ l, NamedChain d (p :: l) := by
  obtain ⟨k, hk⟩ := declared_pos hp
  obtain ⟨l, hl⟩ := C41_every_chain hord h hk (by simp [kindOf])
  exact chain_named hl hk

/-- C41: a peripheral without such a chain (a dangling or circular reference, a path with a dot) is an error. -/
theorem C41_refused (hord : ∀ l, (ord l).Perm l) {p : SPeripheral} (hp : Declared d (.periph p)) (hn : ∀ l, ¬ NamedChain d (p :: l)) :
    ∃ e, processDevice ord fuel d = .err e := by
  cases h : processDevice ord fuel d with
  | err e => exact ⟨e, rfl⟩
  | ok dev ws =>
    obtain ⟨l, hl⟩ := C41_peripheral_named hord h hp
    exact absurd hl (hn l)

end

/-! ### Examples -/

namespace Sample

/-- References of every kind: a peripheral, a register, a field and enumerated values are derived; `EXTRA` is added. -/
def chains : SDevice :=
  rdev [
    rper (s%"Q") 4096 (some (s%"P")) [rreg (s%"EXTRA") 64],
    rper (s%"P") 0 none [
      .reg { name := s%"CTRL", addressOffset := 0, fields := [
        { name := s%"MODE", lsb := some 0, msb := some 1, containers := [{ name := some (s%"E"), values := [{ name := s%"ON", value := some (s%"1") }] }] }] },
      .reg { name := s%"STAT", addressOffset := 4, derivedFrom := some (s%"CTRL"), fields := [
        { name := s%"COPY", lsb := some 4, msb := some 5, derivedFrom := some (s%"P.CTRL.MODE") },
        { name := s%"OTHER", lsb := some 8, msb := some 9, containers := [{ derivedFrom := some (s%"P.CTRL.MODE.E"), values := [] }] }] },
      .clu { name := s%"CH%s", addressOffset := 16, dim := { dim := some 2, dimIncrement := some 8 } } [rreg (s%"A") 0, rreg (s%"B") 4 (some (s%"A"))]]]

mutual
/-- All declarations of a tree. -/
def declsIn : DTree → List Parsed
  | .node p ts => p :: declsInL ts
def declsInL : List DTree → List Parsed
  | [] => []
  | t :: ts => declsIn t ++ declsInL ts
end

theorem declsInL_mem {t : DTree} : ∀ {ts : List DTree}, t ∈ ts → ∀ {p}, p ∈ declsIn t → p ∈ declsInL ts
  | _ :: _, h, p, hp => by
    simp only [declsInL, List.mem_append]
    rcases List.mem_cons.1 h with rfl | h
    · exact Or.inl hp
    · exact Or.inr (declsInL_mem h hp)

theorem treeAt_decls : ∀ (x : Pos) (t : DTree) {p : Parsed} {ts : List DTree}, treeAt t x = some (.node p ts) → p ∈ declsIn t
  | [], .node q us, p, ts, h => by
    simp only [treeAt, Option.some.injEq, DTree.node.injEq] at h
    rw [← h.1]
    simp [declsIn]
  | k :: x, .node q us, p, ts, h => by
    simp only [treeAt] at h
    cases hk : us[k]? with
    | none => rw [hk] at h; simp at h
    | some t =>
      rw [hk, Option.bind_some] at h
      simp only [declsIn, List.mem_cons]
      exact Or.inr (declsInL_mem (List.mem_of_getElem? hk) (treeAt_decls x t h))

def isDerivedCluster : Parsed → Bool
  | .clu c => c.derivedFrom.isSome
  | _ => false

theorem noDerivedCluster_of {d : SDevice} (h : (declsIn (declTree d)).all (fun p => !isDerivedCluster p) = true) : NoDerivedCluster d := by
  rintro x c ⟨ts, hx⟩
  have := List.all_eq_true.1 h _ (treeAt_decls x _ hx)
  simpa [isDerivedCluster] using this

/-- Names of registers and fields. -/
def contents (dev : Device) : List (Str × List Str) := (registers dev).map fun r => (r.name, r.fields.map (·.name))

end Sample

/-- C53, C41: a device with references of every kind (to elements that follow, through two steps, from a derived peripheral)
meets the hypotheses; both peripherals have all elements, the derived one also its own. -/
theorem C53_sample : NoDerivedCluster Sample.chains ∧ Sample.okAnd (processDevice id 10 Sample.chains) (fun dev _ =>
    dev.peripherals.map (·.name) == [s%"P", s%"Q"] &&
    Sample.contents dev ==
      (let p := [(s%"CTRL", [s%"MODE"]), (s%"STAT", [s%"MODE", s%"COPY", s%"OTHER"]), (s%"A", []), (s%"B", []), (s%"A", []), (s%"B", [])]
       p ++ p ++ [(s%"EXTRA", [])])) = true :=
  ⟨Sample.noDerivedCluster_of (by decide +kernel), by decide +kernel⟩

namespace Sample

/-- V is derived from M, in which B is derived from A; V is declared first (`true`) or last. -/
def strayDev (first : Bool) : SDevice :=
  let v : SRC := .clu { name := s%"V", addressOffset := 128, derivedFrom := some (s%"M") } []
  let m : SRC := .clu { name := s%"M", addressOffset := 0 } [
    .clu { name := s%"A", addressOffset := 0 } [rreg (s%"R") 0],
    .clu { name := s%"B", addressOffset := 16, derivedFrom := some (s%"A") } []]
  rdev [rper (s%"P") 0 none (if first then [v, m] else [m, v])]

mutual
def names : RC → List Str
  | .reg r => [r.name]
  | .clu c ch => c.name :: s%"(" :: (namesL ch ++ [s%")"])
def namesL : List RC → List Str
  | [] => []
  | x :: xs => names x ++ namesL xs
end

def tree (dev : Device) : Str := (dev.peripherals.flatMap fun p => namesL p.rcs).flatten

end Sample

/-- C53: the exceptions occur: if the derived cluster V is declared before its base M, the A in V contains a B that is
declared nowhere in A (`Stray`); if it is declared after it, it does not. -/
theorem C53_stray : Sample.okAnd (processDevice id 20 (Sample.strayDev true)) (fun dev _ => Sample.tree dev == s%"M(A(R)B(R))V(A(RB(R))B(R))") = true ∧
    Sample.okAnd (processDevice id 20 (Sample.strayDev false)) (fun dev _ => Sample.tree dev == s%"M(A(R)B(R))V(A(R)B(R))") = true :=
  ⟨by decide +kernel, by decide +kernel⟩

namespace Sample

/-- J in W is derived from X, which is derived from W: each would contain a J, without end. -/
def endlessDev : SDevice :=
  rdev [rper (s%"P") 0 none [
    .clu { name := s%"W", addressOffset := 0 } [
      .reg { name := s%"R", addressOffset := 0, props := { size := some 32 } },
      .clu { name := s%"J", addressOffset := 16, derivedFrom := some (s%"P.X") } []],
    .clu { name := s%"X", addressOffset := 64, derivedFrom := some (s%"P.W") } []]]

end Sample

/-- C53: `KeptIn.lost` occurs: a cluster that would contain itself is accepted, and cut off at some depth without warning (at
another depth in W than in X, from which it is derived). -/
theorem C53_endless : Sample.okAnd (processDevice id 20 Sample.endlessDev) (fun dev ws =>
    Sample.tree dev == s%"W(RJ(RJ(R)))X(RJ(R))" && ws.isEmpty) = true := by
  decide +kernel

end Svd
