import Verif.Lemmas.Acyclic
import Verif.Lemmas.MadeInv
/- What the look-up of a derivedFrom path finds. -/
namespace Svd
open Spec Graph

/-- A processed register without alternate group. -/
def RegNoGroup (g : Graph) (x : Nat) : Prop :=
  ∃ e r, g.elem? x = some e ∧ e.processed = some (.reg r) ∧ r.alternateGroup = none

theorem filterAlternates_mem {g : Graph} {l fs : List Nat} {ws : List Warn} (h : filterAlternates g l = .ok fs ws) :
    ∀ x ∈ fs, x ∈ l ∧ RegNoGroup g x := by
  induction l generalizing fs ws with
  | nil =>
    simp only [filterAlternates, M.pure_eq_ok] at h
    obtain ⟨rfl, -⟩ := h
    simp
  | cons i is ih =>
    unfold filterAlternates at h
    split at h
    · simp at h
    · rename_i p hp
      simp only [M.bind_eq_ok, M.pure_eq_ok] at h
      obtain ⟨rest, w1, w2, h1, ⟨h2, -⟩, -⟩ := h
      have h3 := ih h1
      intro x hx
      rw [← h2] at hx
      cases p with
      | reg r =>
        simp only at hx
        split at hx
        · rename_i hg
          rcases List.mem_cons.1 hx with rfl | hx
          · refine ⟨by simp, ?_⟩
            cases he : g.elem? x with
            | none => rw [he] at hp; cases hp
            | some e =>
              rw [he] at hp
              exact ⟨e, r, he, hp, by simpa using hg⟩
          · exact ⟨by simp [(h3 x hx).1], (h3 x hx).2⟩
        · exact ⟨by simp [(h3 x hx).1], (h3 x hx).2⟩
      | periph _ => exact ⟨by simp [(h3 x hx).1], (h3 x hx).2⟩
      | clu _ => exact ⟨by simp [(h3 x hx).1], (h3 x hx).2⟩
      | field _ => exact ⟨by simp [(h3 x hx).1], (h3 x hx).2⟩

/-- `t` is found below (or at) a node of the list that is called `part`. -/
def Hit (g : Graph) (ex : Nat) (part : Str) (sub : Nat → M (List Nat)) (nodes : List Nat) (t : Nat) : Prop :=
  ∃ n ∈ nodes, n ≠ ex ∧ g.nameOf n = some part ∧ ∃ cs w, sub n = .ok cs w ∧ t ∈ cs

theorem searchGo_spec {g : Graph} {ex : Nat} {part : Str} {sub : Nat → M (List Nat)} {ms nodes fs : List Nat}
    {ws : List Warn} (h : searchGo g ex part sub ms nodes = .ok fs ws) (hm : ms.length ≤ 1) :
    fs.length ≤ 1 ∧ (∀ t ∈ fs, t ∈ ms ∨ Hit g ex part sub nodes t) ∧
    (((∀ t ∈ ms, t ∈ fs) ∧ ∀ n ∈ nodes, n ≠ ex → g.nameOf n = some part →
        ∃ cs w, sub n = .ok cs w ∧ ∀ t ∈ cs, t ∈ fs) ∨
      ∃ x, fs = [x] ∧ RegNoGroup g x) := by
  induction nodes generalizing ms ws with
  | nil =>
    simp only [searchGo, M.pure_eq_ok] at h
    obtain ⟨rfl, -⟩ := h
    exact ⟨hm, fun t ht => Or.inl ht, Or.inl ⟨fun _ h => h, by simp⟩⟩
  | cons n ns ih =>
    have lift : ∀ {t}, Hit g ex part sub ns t → Hit g ex part sub (n :: ns) t := by
      rintro t ⟨m, h1, h2⟩; exact ⟨m, by simp [h1], h2⟩
    unfold searchGo at h
    split at h
    · rename_i hex
      obtain ⟨h1, h2, h3⟩ := ih h hm
      refine ⟨h1, fun t ht => (h2 t ht).imp id lift, h3.imp (fun h4 => ⟨h4.1, ?_⟩) id⟩
      intro m hmm hne hp
      rcases List.mem_cons.1 hmm with rfl | hmm
      · exact absurd hex hne
      · exact h4.2 m hmm hne hp
    · rename_i hex
      split at h
      · rename_i hname
        obtain ⟨h1, h2, h3⟩ := ih h hm
        refine ⟨h1, fun t ht => (h2 t ht).imp id lift, h3.imp (fun h4 => ⟨h4.1, ?_⟩) id⟩
        intro m hmm hne hp
        rcases List.mem_cons.1 hmm with rfl | hmm
        · exact absurd hp hname
        · exact h4.2 m hmm hne hp
      · rename_i hname
        have hname : g.nameOf n = some part := Decidable.not_not.1 hname
        simp only [M.bind_eq_ok] at h
        obtain ⟨cs, w1, w2, hs, h, -⟩ := h
        split at h
        · simp only [M.bind_eq_ok] at h
          obtain ⟨fs', w3, w4, hf, h, -⟩ := h
          split at h
          · rename_i hlen
            simp only [M.pure_eq_ok] at h
            obtain ⟨rfl, -⟩ := h
            have hmem := filterAlternates_mem hf
            refine ⟨by omega, ?_, Or.inr ?_⟩
            · intro t ht
              rcases List.mem_append.1 (hmem t ht).1 with h1 | h1
              · exact Or.inl h1
              · exact Or.inr ⟨n, by simp, hex, hname, cs, w1, hs, h1⟩
            · obtain ⟨x, hx⟩ := List.length_eq_one_iff.1 hlen
              exact ⟨x, hx, (hmem x (by simp [hx])).2⟩
          · simp at h
        · rename_i hlen
          obtain ⟨h1, h2, h3⟩ := ih h (by omega)
          refine ⟨h1, ?_, h3.imp (fun h4 => ⟨fun t ht => h4.1 t (by simp [ht]), ?_⟩) id⟩
          · intro t ht
            rcases h2 t ht with h4 | h4
            · rcases List.mem_append.1 h4 with h5 | h5
              · exact Or.inl h5
              · exact Or.inr ⟨n, by simp, hex, hname, cs, w1, hs, h5⟩
            · exact Or.inr (lift h4)
          · intro m hmm hne hp
            rcases List.mem_cons.1 hmm with rfl | hmm
            · exact ⟨cs, w1, hs, fun t ht => h4.1 t (by simp [ht])⟩
            · exact h4.2 m hmm hne hp

theorem named_iff {g : Graph} {i : Nat} {n : Str} : g.nameOf i = some n ↔ Named g i n := by
  unfold nameOf Named
  cases g.elem? i with
  | none => simp
  | some e => simp

theorem childOf_iff {g : Graph} {p c : Nat} : c ∈ g.elementChildren p ↔ ChildOf g p c := by
  unfold elementChildren outEdges ChildOf isChildEdge isElem
  simp only [List.mem_map, List.mem_filter, Bool.and_eq_true, Bool.or_eq_true, beq_iff_eq, Option.isSome_iff_exists]
  constructor
  · rintro ⟨e, ⟨⟨h1, h2⟩, h3, h4⟩, rfl⟩
    exact ⟨e, h1, h2, rfl, h4, h3⟩
  · rintro ⟨e, h1, h2, rfl, h4, h3⟩
    exact ⟨e, ⟨⟨h1, h2⟩, h3, h4⟩, rfl⟩

theorem searchNodes_spec {g : Graph} {ex : Nat} {level : Level} {parts : List Str} {nodes fs : List Nat} {ws : List Warn}
    (h : searchNodes g ex level parts nodes = .ok fs ws) :
    fs.length ≤ 1 ∧ (∀ t ∈ fs, ∃ n ∈ nodes, NameWalk g ex n parts t ∧ g.hasLevel t level = true) ∧
    ((∀ n ∈ nodes, ∀ t, NameWalk g ex n parts t → g.hasLevel t level = true → t ∈ fs) ∨
      ∃ x, fs = [x] ∧ RegNoGroup g x) := by
  induction parts generalizing nodes fs ws with
  | nil =>
    simp only [searchNodes, M.pure_eq_ok] at h
    obtain ⟨rfl, -⟩ := h
    refine ⟨by simp, by simp, Or.inl ?_⟩
    intro n _ t hw
    cases hw
  | cons part parts ih =>
    unfold searchNodes at h
    obtain ⟨h1, h2, h3⟩ := searchGo_spec h (by simp)
    refine ⟨h1, ?_, ?_⟩
    · intro t ht
      rcases h2 t ht with h4 | ⟨n, hn, hne, hname, cs, w, hs, htc⟩
      · cases h4
      · refine ⟨n, hn, ?_⟩
        cases parts with
        | nil =>
          simp only [M.pure_eq_ok] at hs
          obtain ⟨hs, -⟩ := hs
          split at hs
          · rename_i hl
            subst hs
            rw [List.mem_singleton] at htc
            subst htc
            exact ⟨.last hne (named_iff.1 hname), hl⟩
          · subst hs; cases htc
        | cons q qs =>
          obtain ⟨-, h5, -⟩ := ih hs
          obtain ⟨c, hc, hw, hl⟩ := h5 t htc
          exact ⟨.down hne (named_iff.1 hname) (childOf_iff.1 hc) hw, hl⟩
    · rcases h3 with ⟨-, h3⟩ | h3
      · by_cases hreg : ∃ x, fs = [x] ∧ RegNoGroup g x
        · exact Or.inr hreg
        · left
          intro n hn t hw hl
          cases hw with
          | last hne hname =>
            obtain ⟨cs, w, hs, hsub⟩ := h3 n hn hne (named_iff.2 hname)
            simp only [M.pure_eq_ok, hl, if_true] at hs
            exact hsub n (by rw [← hs.1]; simp)
          | @down _ _ c ns _ hne hname hc hw =>
            obtain ⟨cs, w, hs, hsub⟩ := h3 n hn hne (named_iff.2 hname)
            cases parts with
            | nil => cases hw
            | cons q qs =>
              obtain ⟨h4, -, h6⟩ := ih hs
              rcases h6 with h6 | ⟨x, rfl, hx⟩
              · exact hsub t (h6 c (childOf_iff.2 hc) t hw hl)
              · exfalso
                apply hreg
                have hxm := hsub x (by simp)
                refine ⟨x, ?_, hx⟩
                match fs, h1, hxm with
                | [y], _, hxm => rw [List.mem_singleton] at hxm; rw [hxm]
                | _ :: _ :: _, h1, _ => simp at h1
      · exact Or.inr h3

theorem made_kind {d : SDevice} {ch : List Parsed} {p : Parsed} {x : Processed} (h : Made d (p :: ch) x) :
    match x with
    | .periph _ => p.level = .peripheral
    | .clu _ => p.level = .cluster
    | .reg _ => p.level = .register
    | .field _ => p.level = .field := by
  cases x with
  | reg r =>
    obtain ⟨l, h1, -⟩ := made_reg h r rfl
    cases l with
    | nil => cases h1
    | cons a l => injection h1 with h1 _; subst h1; rfl
  | clu r =>
    obtain ⟨l, h1, -⟩ := made_clu h r rfl
    cases l with
    | nil => cases h1
    | cons a l => injection h1 with h1 _; subst h1; rfl
  | periph r =>
    obtain ⟨l, h1, -⟩ := made_periph h r rfl
    cases l with
    | nil => cases h1
    | cons a l => injection h1 with h1 _; subst h1; rfl
  | field r =>
    obtain ⟨l, h1, -⟩ := made_field h r rfl
    cases l with
    | nil => cases h1
    | cons a l => injection h1 with h1 _; subst h1; rfl

theorem regNoGroup_level {d : SDevice} {g : Graph} (hi : Inv d g) {x : Nat} (h : RegNoGroup g x) :
    g.hasLevel x .register = true := by
  obtain ⟨e, r, he, hp, -⟩ := h
  have hn := hi.nodes.elem he
  obtain ⟨-, -, ch, hm⟩ := hn.2.2.2.1 _ hp
  have := made_kind hm
  simp only at this
  simp [hasLevel, he, hn.2.1, this]

end Svd
