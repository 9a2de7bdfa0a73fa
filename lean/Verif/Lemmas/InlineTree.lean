import Verif.Lemmas.Inline
import Verif.Props.DimDevice
/- A description with every reference written out corresponds to the one it is made from. -/
namespace Svd
open Spec

variable {d d' : SDevice}

/-- `t` is what is declared at `x`, written out. -/
inductive WrittenOut (d : SDevice) : Pos → DTree → Prop
  | rc {x s} : InlinedRC d x s → WrittenOut d x (ofRC s)
  | field {x f} : InlinedField d x f → WrittenOut d x (ofField f)
  | enum {x c} : InlinedEnum d x c → WrittenOut d x (ofEnum c)
  | periph {x p} : InlinedPeriph d x p → WrittenOut d x (ofPeriph p)

/-- The tree at `x'` is what is declared at `x`, written out. -/
def WrittenOutAt (d d' : SDevice) (x x' : Pos) : Prop := ∃ t, treeAt (declTree d') x' = some t ∧ WrittenOut d x t

theorem inlinedRCs_entrywise : ∀ {ss : List SRC} {zs : List Pos}, InlinedRCs d zs ss → Entrywise (WrittenOut d) zs (ofRCs ss)
  | [], zs, h => by
    simp only [InlinedRCs] at h
    subst h
    exact .nil
  | s :: ss, zs, h => by
    simp only [InlinedRCs] at h
    obtain ⟨z, zs', rfl, h1, h2⟩ := h
    exact .cons (.rc h1) (inlinedRCs_entrywise h2)

theorem entrywise_mapTo {α β γ : Type} {R : α → β → Prop} {S : α → γ → Prop} {f : β → γ} (hf : ∀ a b, R a b → S a (f b)) {xs : List α} {ys : List β}
    (h : Entrywise R xs ys) : Entrywise S xs (ys.map f) := by
  induction h with
  | nil => exact .nil
  | cons h _ ih => exact .cons (hf _ _ h) ih

/-- What is declared in the tree at `x'` corresponds to the positions `zs`. -/
theorem writtenOut_kids {x' : Pos} {p : Parsed} {ts : List DTree} (ht : treeAt (declTree d') x' = some (.node p ts)) {zs : List Pos}
    (he : Entrywise (WrittenOut d) zs ts) : (∀ z, z ∈ zs → ∃ z', OwnChild d' x' z' ∧ WrittenOutAt d d' z z') ∧
      ∀ z', OwnChild d' x' z' → ∃ z, z ∈ zs ∧ WrittenOutAt d d' z z' := by
  have hat : ∀ k (hk : k < ts.length) (hz : k < zs.length), WrittenOutAt d d' zs[k] (x' ++ [k]) := by
    intro k hk hz
    refine ⟨ts[k], ?_, by
      obtain ⟨x, k1, k2⟩ := entrywise_getElem he (List.getElem?_eq_getElem hk)
      rw [List.getElem?_eq_getElem hz] at k1
      cases k1
      exact k2⟩
    rw [treeAt_snoc, ht]
    simp only [Option.bind_some, treeAt_kid]
    exact List.getElem?_eq_getElem hk
  have hl := entrywise_length he
  constructor
  · intro z hz
    obtain ⟨k, hk, rfl⟩ := List.getElem_of_mem hz
    exact ⟨x' ++ [k], (ownChild_iff ht).2 ⟨k, by omega, rfl⟩, hat k (by omega) hk⟩
  · intro z' hz'
    obtain ⟨k, hk, rfl⟩ := (ownChild_iff ht).1 hz'
    exact ⟨zs[k], List.getElem_mem (by omega), hat k hk (by omega)⟩

theorem writtenOut_case {x x' : Pos} {q q' : Parsed} {l zs : List Pos} {ts : List DTree} (ht : treeAt (declTree d') x' = some (.node q' ts))
    (hn : q'.derivedFrom = none) (hc : Completes d x l q) (hr : Retold q q') (hp : PartsList d l zs) (he : Entrywise (WrittenOut d) zs ts) :
    ∃ l l' q q', Completes d x l q ∧ Completes d' x' l' q' ∧ Retold q q' ∧ (∀ z, InChain d l z → ∃ z', InChain d' l' z' ∧ WrittenOutAt d d' z z') ∧
      ∀ z', InChain d' l' z' → ∃ z, InChain d l z ∧ WrittenOutAt d d' z z' := by
  obtain ⟨h1, h2⟩ := writtenOut_kids ht he
  refine ⟨l, [x'], q, q', hc, .own ⟨ts, ht⟩ hn, hr, fun z hz => ?_, fun z' hz' => ?_⟩
  · obtain ⟨z', k1, k2⟩ := h1 z ((hp.2 z).2 hz)
    exact ⟨z', ⟨x', by simp, k1⟩, k2⟩
  · obtain ⟨y, hy, k1⟩ := hz'
    cases List.mem_singleton.1 hy
    obtain ⟨z, k2, k3⟩ := h2 z' k1
    exact ⟨z, (hp.2 z).1 k2, k3⟩

theorem inlined_unfolds (h : Inlined d d') : Unfolds d d' (WrittenOutAt d d') := by
  obtain ⟨-, xs, -, hxs, he⟩ := h
  have htop : treeAt (declTree d') [] = some (.node .device (d'.peripherals.map ofPeriph)) := rfl
  obtain ⟨h1, h2⟩ := writtenOut_kids htop (entrywise_mapTo (S := WrittenOut d) (fun _ _ k => .periph k) he)
  refine ⟨?_, fun x hx => h1 x ((hxs x).2 hx), fun x' hx' => ?_⟩
  · rintro x x' ⟨t, ht, hq⟩
    cases hq with
    | rc hs =>
      rename_i s
      left
      cases s with
      | reg r =>
        simp only [InlinedRC] at hs
        obtain ⟨l, g, zs, fs, k1, k2, k3, rfl⟩ := hs
        exact writtenOut_case (q' := .reg { g with derivedFrom := none, fields := fs }) ht rfl k1 .reg k2 (entrywise_mapTo (fun _ _ k => .field k) k3)
      | clu c ch =>
        simp only [InlinedRC] at hs
        obtain ⟨l, g, zs, k1, k2, k3, rfl⟩ := hs
        exact writtenOut_case (q' := .clu { g with derivedFrom := none }) ht rfl k1 .clu k2 (inlinedRCs_entrywise k3)
    | field hf =>
      left
      obtain ⟨l, g, zs, cs, k1, k2, k3, rfl⟩ := hf
      exact writtenOut_case (q' := .field { g with derivedFrom := none, containers := cs }) ht rfl k1 .field k2 (entrywise_mapTo (fun _ _ k => .enum k) k3)
    | enum hc =>
      right
      obtain ⟨c0, k1, rfl⟩ := hc
      exact ⟨c0, { c0 with derivedFrom := none }, k1, .own ⟨_, ht⟩ rfl, rfl, fun _ _ => rfl⟩
    | periph hp =>
      left
      rename_i p
      obtain ⟨l, g, zs, k1, k2, k3, k4⟩ := hp
      refine writtenOut_case (q' := .periph { g with derivedFrom := none }) (ts := ofRCs p.rcs) ?_ rfl k1 .periph k2 (inlinedRCs_entrywise k3)
      rw [ht, ofPeriph, k4]
  · obtain ⟨z, hz, k⟩ := h2 x' hx'
    exact ⟨z, (hxs z).1 hz, k⟩

theorem writtenOut_underived {x : Pos} {t : DTree} {p : Parsed} {ts : List DTree} (h : WrittenOut d x t) (e : t = .node p ts) : p.derivedFrom = none := by
  cases h with
  | rc hs =>
    rename_i s
    cases s with
    | reg r =>
      simp only [InlinedRC] at hs
      obtain ⟨l, g, zs, fs, k1, k2, k3, rfl⟩ := hs
      cases e
      rfl
    | clu c ch =>
      simp only [InlinedRC] at hs
      obtain ⟨l, g, zs, k1, k2, k3, rfl⟩ := hs
      cases e
      rfl
  | field hf =>
    obtain ⟨l, g, zs, cs, k1, k2, k3, rfl⟩ := hf
    cases e
    rfl
  | enum hc =>
    obtain ⟨c0, k1, rfl⟩ := hc
    cases e
    rfl
  | periph hp =>
    obtain ⟨l, g, zs, k1, k2, k3, k4⟩ := hp
    cases e
    show (Parsed.periph _).derivedFrom = none
    rw [k4]
    rfl

/-- Nothing is derived any more. -/
theorem inlined_underived (h : Inlined d d') : Underived d' := by
  intro p hp
  obtain ⟨x', hx'⟩ := declAt_of_declared hp
  by_cases hn : x' = []
  · subst hn
    cases declAt_nil hx'
    rfl
  · obtain ⟨x, t, h1, h2⟩ := (inlined_unfolds h).eachBack _ _ rfl hn ⟨_, hx'⟩
    obtain ⟨ts, h3⟩ := hx'
    rw [h1] at h3
    exact writtenOut_underived h2 (Option.some.inj h3)

theorem completes_index (D : Definite d) {x : Pos} {l : List Pos} {q : Parsed} (h : Completes d x l q) : Ind (dimOf q).dimIndex := by
  cases h with
  | own h1 h2 => exact D.index h1
  | derived h1 h2 h3 h4 h5 => exact completed_index (D.index h1) (elementOf_index D h4)

/-- What is written out leaves no choice either. -/
theorem inlined_definite (h : Inlined d d') (D : Definite d) : Definite d' where
  refs := underived_unambiguous (inlined_underived h)
  indices p hp := by
    obtain ⟨x', hx'⟩ := declAt_of_declared hp
    by_cases hn : x' = []
    · subst hn
      cases declAt_nil hx'
      exact ind_none
    · have U := inlined_unfolds h
      obtain ⟨x, hr⟩ := U.eachBack _ _ rfl hn ⟨_, hx'⟩
      rcases U.decl x x' hr with ⟨l, l', q, q', h1, h2, h3, -⟩ | ⟨c, c', -, h2, -⟩
      · have hq : q' = p := by
          cases h2 with
          | own k1 k2 => exact declAt_unique k1 hx'
          | derived k1 k2 => exact absurd ((inlined_underived h _ (declared_of_declAt k1)).symm.trans k2) (fun h => by cases h)
        subst hq
        show Ind _
        rw [h3.dim]
        exact completes_index D h1
      · obtain ⟨c0, h3⟩ := takes_declared h2
        cases declAt_unique hx' h3
        exact ind_none
  enums x b c hr := (underived_no_refers (inlined_underived h) hr).elim

end Svd
