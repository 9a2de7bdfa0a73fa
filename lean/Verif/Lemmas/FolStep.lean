import Verif.Lemmas.FolAdopt
import Verif.Lemmas.FolFinish
/-
References that can be followed: one node is processed.
-/
namespace Svd
open Graph Spec

theorem de_not {d : SDevice} {g : Graph} {lab : Nat → Pos} (h : Lab d g lab) (hb : ∀ x, ¬ Precedes d x x) {b i : Nat} (hd : De g b i) :
    ¬ Ch g b i ∧ ¬ Pl g b i := by
  refine ⟨fun hc => not_endless hb (h.der _ _ hd) (.one (h.hasChild hc id)), fun hp => ?_⟩
  obtain ⟨h1, h2⟩ := h.tde _ _ hd
  rcases h.tpl _ _ hp with ⟨-, h3⟩ | ⟨h3, -⟩
  · exact isE_notP h2 h3
  · exact isE_notP h1 h3

theorem done_congr {g g' : Graph} (h : ∀ k, g'.elem? k = g.elem? k) (k : Nat) : Done g' k ↔ Done g k := by
  unfold Done; rw [h]

theorem fol_advance {d : SDevice} {g g' : Graph} {lab lab' : Nat → Pos} {old : Nat → Prop} {i : Nat} (hw : WF g) (h : Lab d g lab)
    (h' : Lab d g' lab') (hb : ∀ x, ¬ Precedes d x x) (A : Advance d g lab i g' lab') (hoi : old i)
    (hold : ∀ k, old k → (g.node? k).isSome) (F : Fol d g lab old (Done g)) : Fol d g' lab' old (Done g') := by
  have F1 : Fol d g lab old fun k => Done g k ∨ k = i := F.mono fun k hk => Or.inl hk
  cases A with
  | enum he hl hl' hp hes =>
    rcases hes with rfl | ⟨b, hd, rfl⟩
    · exact fol_enum hw he (hl.trans hl'.symm) hp rfl F1
    · obtain ⟨n1, n2⟩ := de_not h hb hd
      have F2 := fol_erase (g' := { g with edges := eraseEdge b i g.edges }) F1 n1 n2 rfl (Or.inr rfl)
      have hw1 : WF { g with edges := eraseEdge b i g.edges } := hw.of_eq rfl rfl fun e he => Or.inl (eraseEdge_sub he)
      exact fol_enum (g := { g with edges := eraseEdge b i g.edges }) hw1 he (hl.trans hl'.symm) hp rfl F2
  | @dim g1 lab1 e x0 t I _ _ he hl hp hw1 hx ha hf lo ln _ _ =>
    cases ha with
    | none => exact fol_finish hw hx h' hb he hf hoi hold F1 lo ln
    | @some _ _ b φ hd hr l1 l2 hbase =>
      obtain ⟨n1, n2⟩ := de_not h hb hd
      have F2 := fol_erase (g' := { g with edges := eraseEdge b i g.edges }) F1 n1 n2 rfl (Or.inr rfl)
      have hw0 : WF { g with edges := eraseEdge b i g.edges } := hw.of_eq rfl rfl fun e he => Or.inl (eraseEdge_sub he)
      obtain ⟨hEb, hEi⟩ := h.tde _ _ hd
      have F3 := fol_replicate (g := { g with edges := eraseEdge b i g.edges }) hw0 (lab_erase h hd) hb hr hEb hEi (h.der _ _ hd)
        (F.srcOld _ _ hoi hd) hold F2 l1 l2
      have he1 : g1.elem? i = .some e := by
        obtain ⟨k, hk⟩ := hEi
        have := hr.ext.elem (i := i) (e := e) he
        exact this
      refine fol_finish hw1 hx h' hb he1 hf hoi (fun k hk => ?_) F3 lo ln
      obtain ⟨n, hn⟩ := Option.isSome_iff_exists.1 (hold k hk)
      rw [hr.ext k n hn]
      rfl

end Svd
