import Verif.Lemmas.Paths
import Verif.Lemmas.LabVisit
/-
Without derived clusters there are no exceptions.
-/
namespace Svd
open Spec

theorem refers_derived {d : SDevice} {x b : Pos} (h : Refers d x b) : ∃ p path, DeclAt d x p ∧ p.derivedFrom = some path := by
  obtain ⟨h1, h2, -⟩ := h
  exact ⟨_, _, h1, h2⟩

theorem nested_refers {d : SDevice} {x y : Pos} : Nested d x y → ∃ b, Refers d y b
  | .here _ h _ => ⟨_, h⟩
  | .inherited _ h => nested_refers h

theorem no_refers {d : SDevice} (hd : NoDerivedCluster d) {x b : Pos} (h : Refers d x b) {c : SCluster} (hc : DeclAt d x (.clu c)) : False := by
  obtain ⟨p, path, h1, h2⟩ := refers_derived h
  rw [declAt_unique h1 hc] at h2
  have h3 := hd x c hc
  simp only [Parsed.derivedFrom] at h2
  rw [h3] at h2
  cases h2

theorem elementOf_head {d : SDevice} {x : Pos} {l : List Pos} {h : Processed} (he : ElementOf d x l h) : ∃ p, DeclAt d x p ∧ Chain d x l := by
  induction he with
  | own h1 h2 => exact ⟨_, h1, .root h1 h2⟩
  | derived h1 _ h3 _ _ _ _ ih =>
    obtain ⟨_, -, h4⟩ := ih
    exact ⟨_, h1, .step h3 h4⟩

theorem no_stray {d : SDevice} (hd : NoDerivedCluster d) {x y : Pos} {c : SCluster} (hc : DeclAt d x (.clu c)) : ¬ Stray d x y := by
  rintro (h | h)
  · obtain ⟨c', hc'⟩ := nested_cluster h
    obtain ⟨b, hb⟩ := nested_refers h
    exact no_refers hd hb hc'
  · have hk := refers_kind h
    obtain ⟨p, q, hp, hq, -⟩ := id hk
    have := sameKind_level hk hp hc
    obtain ⟨c', rfl⟩ : ∃ c', p = .clu c' := by cases p <;> first | exact ⟨_, rfl⟩ | cases this
    exact no_refers hd h hp

theorem headAt_level {ex : Bool} {p : Parsed} {pl : Place} {h : Processed} (hh : HeadAt ex p pl h) : procLevel h = p.level := by
  cases hh <;> rfl

theorem standsFor_level {p : Parsed} {hs : List Processed} (h : StandsFor p hs) {x : Processed} (hx : x ∈ hs) : procLevel x = p.level := by
  obtain ⟨ex, pls, -, he⟩ := h
  obtain ⟨pl, -, hh⟩ := entrywise_right he hx
  exact headAt_level hh

theorem pattern_level {p : Parsed} {h : Processed} (hh : Pattern p h) : procLevel h = p.level := by
  obtain ⟨pl, pls, -, h1⟩ := hh
  exact headAt_level h1

theorem completed_level (p : Parsed) (b : Processed) : (completed p b).level = p.level := by
  cases p <;> cases b <;> rfl

theorem elementOf_level {d : SDevice} {x : Pos} {l : List Pos} {h : Processed} (he : ElementOf d x l h) :
    ∃ p, DeclAt d x p ∧ procLevel h = p.level := by
  cases he with
  | own h1 _ h3 h4 =>
    refine ⟨_, h1, ?_⟩
    rcases h4 with h4 | h4
    · exact standsFor_level h3 h4
    · exact pattern_level h4
  | derived h1 _ _ _ _ h6 h7 =>
    refine ⟨_, h1, ?_⟩
    rw [← completed_level _ (by assumption)]
    rcases h7 with h7 | h7
    · exact standsFor_level h6 h7
    · exact pattern_level h7

theorem elementOf_clu {d : SDevice} {x : Pos} {l : List Pos} {h : Processed} (he : ElementOf d x l h) {c : IClusterHd} (hb : ButSize h (.clu c)) :
    ∃ k, DeclAt d x (.clu k) := by
  obtain ⟨p, h1, h2⟩ := elementOf_level he
  rw [butSize_level hb] at h2
  cases p <;> first | exact ⟨_, h1⟩ | cases h2

/-- A cluster declared in a cluster is not derived from one of the chain. -/
theorem no_lost {d : SDevice} (hd : NoDerivedCluster d) {x z w : Pos} {l : List Pos} (hc : Chain d x l) {k : SCluster} (hk : DeclAt d x (.clu k))
    (hw : w ∈ l) (hr : Refers d z w) : False := by
  have h1 := chain_kind hc w hw
  have h2 := refers_kind hr
  have h3 := sameKind_trans h1 (sameKind_symm h2)
  obtain ⟨p, q, hp, hq, -⟩ := id h3
  have := sameKind_level h3 hk hq
  obtain ⟨c', rfl⟩ : ∃ c', q = .clu c' := by cases q <;> first | exact ⟨_, rfl⟩ | cases this
  exact no_refers hd hr hq

/-- No cluster of a cluster with this chain is endless, if none lies inside itself. -/
theorem no_endless {d : SDevice} (hd : NoClusterInItself d) {x z w : Pos} {l : List Pos} (hc : Chain d x l) {k : SCluster} (hk : DeclAt d x (.clu k))
    (hw : w ∈ l) (hr : Endless d w z) : False := by
  have h1 := chain_kind hc w hw
  have h2 := refers_kind hr.1
  have h3 := sameKind_trans h1 (sameKind_symm h2)
  obtain ⟨p, q, hp, hq, -⟩ := id h3
  have := sameKind_level h3 hk hq
  obtain ⟨c', rfl⟩ : ∃ c', q = .clu c' := by cases q <;> first | exact ⟨_, rfl⟩ | cases this
  exact hd z c' hq (.one (.inherited hr.1 hr.2))

mutual
theorem rcOf_exact {d : SDevice} (hd : NoDerivedCluster d) {x : Pos} {y : IRC} : RCOf d x y → RCExact d x y
  | .reg h1 h2 => .reg h1 h2
  | .clu h1 h2 h3 h4 => by
    obtain ⟨k, hk⟩ := elementOf_clu (instance_element h1) h2
    obtain ⟨_, -, hch⟩ := elementOf_head (instance_element h1)
    exact .clu h1 h2 (fun y hy => partOf_exact hd hk (h3 y hy)) (fun z hz => keptIn_exact hd hch hk (h4 z hz))
theorem partOf_exact {d : SDevice} (hd : NoDerivedCluster d) {x : Pos} {l : List Pos} {y : IRC} {k : SCluster} (hk : DeclAt d x (.clu k)) :
    PartOf d x l y → MemberExact d l y
  | .intro h1 h2 => .intro (h1.resolve_right (no_stray hd hk)) (rcOf_exact hd h2)
theorem keptIn_exact {d : SDevice} (hd : NoDerivedCluster d) {x : Pos} {l : List Pos} {ys : List IRC} {z : Pos} {k : SCluster} (hc : Chain d x l)
    (hk : DeclAt d x (.clu k)) : KeptIn d l ys z → KeptExact d ys z
  | .kept h1 h2 => .intro h1 fun h hh => foundIn_exact hd (h2 h hh)
  | .lost h1 h2 => (no_lost hd hc hk h1 h2.1).elim
theorem foundIn_exact {d : SDevice} (hd : NoDerivedCluster d) {ys : List IRC} {z : Pos} {h : Processed} : FoundIn d ys z h → FoundExact d ys z h
  | .intro h1 h2 h3 => .intro h1 h2 (rcOf_exact hd h3)
end

theorem periphOf_exact {d : SDevice} (hd : NoDerivedCluster d) {x : Pos} {q : IPeripheral} (h : PeriphOf d x q) : PeriphExact d x q := by
  obtain ⟨l, h0, h1, h2, h3, h4⟩ := h.ex
  refine ⟨l, h0, h1, h2, fun y hy => ?_, fun z hz => ?_⟩
  · obtain ⟨z, h5, h6⟩ := h3 y hy
    exact .intro h5 (rcOf_exact hd h6)
  · obtain ⟨hs, h5, h6⟩ := h4 z hz
    exact .intro h5 fun h hh => foundIn_exact hd (h6 h hh)

theorem deviceOf_exact {d : SDevice} (hd : NoDerivedCluster d) {ps : List IPeripheral} (h : DeviceOf d ps) : DeviceExact d ps := by
  refine ⟨fun q hq => ?_, fun x hx => ?_⟩
  · obtain ⟨x, h1, h2⟩ := h.sub q hq
    exact ⟨x, h1, periphOf_exact hd h2⟩
  · obtain ⟨hs, h1, h2⟩ := h.all x hx
    refine ⟨hs, h1, fun h' hh => ?_⟩
    obtain ⟨q, h3, h4, h5⟩ := h2 h' hh
    exact ⟨q, h3, h4, periphOf_exact hd h5⟩

/-! ### peripherals -/

theorem declared_pos {d : SDevice} {p : SPeripheral} (h : Declared d (.periph p)) : ∃ k, DeclAt d [k] (.periph p) := by
  cases h with
  | periph ht =>
    obtain ⟨k, hk, hg⟩ := List.mem_iff_getElem.1 ht
    refine ⟨k, ofRCs (d.peripherals[k]).rcs, ?_⟩
    simp [treeAt, declTree, hk, ofPeriph, hg]

theorem pos_declared {d : SDevice} {x : Pos} {p : SPeripheral} (h : DeclAt d x (.periph p)) : Declared d (.periph p) := by
  have hx : ∃ k, x = [k] := by
    rcases List.eq_nil_or_concat x with rfl | ⟨y, k, rfl⟩
    · have := declAt_unique h (⟨_, rfl⟩ : DeclAt d [] .device)
      cases this
    · rw [List.concat_eq_append] at h ⊢
      have ho : OwnChild d y (y ++ [k]) := ⟨k, _, rfl, h⟩
      obtain ⟨p', q', hp', hq'⟩ := ownChild_decl ho
      have hk := ownChild_kind ho hp' h
      have hl : p'.level = .device := by
        revert hk
        cases p'.level <;> simp [childKind, Parsed.level]
      rw [device_pos hp' hl]
      exact ⟨k, rfl⟩
  obtain ⟨k, rfl⟩ := hx
  obtain ⟨ts, ht⟩ := h
  simp only [treeAt, declTree] at ht
  cases hg : (d.peripherals.map ofPeriph)[k]? with
  | none => rw [hg] at ht; simp at ht
  | some t =>
    rw [hg] at ht
    simp only [Option.bind_some, Option.some.injEq] at ht
    rw [List.getElem?_map] at hg
    cases hp : d.peripherals[k]? with
    | none => rw [hp] at hg; simp at hg
    | some q =>
      rw [hp] at hg
      simp only [Option.map_some, Option.some.injEq] at hg
      subst hg
      simp only [ofPeriph, DTree.node.injEq, Parsed.periph.injEq] at ht
      rw [← ht.1]
      exact .periph (List.mem_of_getElem? hp)

theorem chain_named {d : SDevice} {x : Pos} {l : List Pos} (h : Chain d x l) : ∀ {p}, DeclAt d x (.periph p) → ∃ l, NamedChain d (p :: l) := by
  induction h with
  | root h1 h2 =>
    intro p hp
    rw [declAt_unique h1 hp] at h2
    exact ⟨[], .root (pos_declared hp) h2⟩
  | step h1 _ ih =>
    intro p hp
    obtain ⟨q, path, h3, h4, h5, h6⟩ := refers_peripheral hp h1
    obtain ⟨l, h7⟩ := ih h3
    exact ⟨q :: l, .step (pos_declared hp) h4 h5 h6 h7⟩

end Svd
