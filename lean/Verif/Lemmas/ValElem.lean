import Verif.Lemmas.ValRC
/-
Exact warnings and exceptions of the validation of registers and clusters: single elements.
-/
namespace Svd
open M Spec

theorem regPropValidator_full {p : Props} (h : FullProps p) : ∃ q, regPropValidator p = .ok q [] := by
  obtain ⟨h1, h2, h3, h4, h5⟩ := h
  obtain ⟨s, h1⟩ := Option.isSome_iff_exists.1 h1
  obtain ⟨a, h2⟩ := Option.isSome_iff_exists.1 h2
  obtain ⟨pr, h3⟩ := Option.isSome_iff_exists.1 h3
  obtain ⟨v, h4⟩ := Option.isSome_iff_exists.1 h4
  obtain ⟨m, h5⟩ := Option.isSome_iff_exists.1 h5
  unfold regPropValidator
  rw [h1, h2, h3, h4, h5]
  exact ⟨_, rfl⟩

theorem wholeBytes_iff {p : Props} {s : Int} (h : p.size = some s) : WholeBytes p ↔ s % 8 = 0 := by
  unfold WholeBytes
  rw [h]
  exact ⟨fun ⟨t, h1, h2⟩ => by cases h1; exact h2, fun h1 => ⟨s, rfl, h1⟩⟩

theorem misaligned_iff {p : Props} {s off : Int} (h : p.size = some s) : Misaligned p off ↔ off % min (s / 8) 4 ≠ 0 := by
  unfold Misaligned
  rw [h]
  exact ⟨fun ⟨t, h1, h2⟩ => by cases h1; exact h2, fun h1 => ⟨s, rfl, h1⟩⟩

theorem kept_reg {e : Props} {r : IRegisterHd} {fs : List IField} :
    Kept e (.reg r fs) ↔ WholeBytes (over r.props e) ∧ ¬ Reserved r.name :=
  ⟨fun h => by cases h with | reg h1 h2 => exact ⟨h1, h2⟩, fun h => .reg h.1 h.2⟩

theorem kept_clu {e : Props} {c : IClusterHd} {ch : List IRC} :
    Kept e (.clu c ch) ↔ WholeBytes (over c.props e) ∧ ∃ x ∈ ch, Kept (over c.props e) x :=
  ⟨fun h => by cases h with | clu h1 h2 h3 => exact ⟨h1, _, h2, h3⟩, fun ⟨h1, _, h2, h3⟩ => .clu h1 h2 h3⟩

theorem mem_if_singleton {α : Type} {P : Prop} [Decidable P] {a u : α} : u ∈ (if P then [a] else []) ↔ u = a ∧ P := by
  by_cases h : P <;> simp [h]

theorem elementOK_reg {e : Props} (he : FullProps e) (r : IRegisterHd) (fs : List IField) : ElementOK e (.reg r fs) := by
  intro b
  have hfull : FullProps (over r.props e) := by rw [← over_eq]; exact inheritProps_full he
  obtain ⟨s, hs⟩ := Option.isSome_iff_exists.1 hfull.1
  have hwb := wholeBytes_iff hs
  have hmis := misaligned_iff (off := r.addressOffset) hs
  obtain ⟨q, hq⟩ := regPropValidator_full hfull
  have hacc : ∀ f ∈ fs.map (inheritField (over r.props e).access r.writeConstraint), f.hd.access.isSome := by
    intro f hf
    obtain ⟨f0, -, rfl⟩ := List.mem_map.1 hf
    exact orIfNone_some_eq hfull.2.1
  rw [inheritRC, finalizeRC]
  dsimp only
  rw [over_eq, hs, checkSizeAlign_eq]
  have tw : ∀ u, TreeWarning e (.reg r fs) u ↔ ElementWarning e (.reg r fs) u := by
    intro u
    exact or_iff_left (by rintro ⟨c, ch, h, -⟩; cases h)
  have td : ∀ ex, TreeDefect e (.reg r fs) ex ↔ ElementDefect e (.reg r fs) ex := by
    intro u
    exact or_iff_left (by rintro ⟨c, ch, h, -⟩; cases h)
  by_cases h8 : s % 8 ≠ 0
  · rw [if_pos h8]
    have hnk : ¬ Kept e (.reg r fs) := by rw [kept_reg, hwb]; exact fun h => h8 h.1
    refine ⟨?_, fun h => by cases h⟩
    intro o w h
    cases h
    refine ⟨by simp [hnk], ?_, ?_⟩
    · intro u _
      rw [tw]
      constructor
      · intro hu
        exact Or.inl ⟨by simpa [ircName] using hu, by rw [show ircProps (.reg r fs) = r.props from rfl, hwb]; exact h8⟩
      · rintro (⟨hu, -⟩ | ⟨-, h1, -⟩ | ⟨c, ch, h1, -⟩ | ⟨r', fs', h1, -, h2, -⟩ | ⟨r', fs', t, h1, h2, -⟩)
        · rw [hu]; simp [ircName]
        · exact absurd (hwb.1 h1) h8
        · cases h1
        · cases h1; exact absurd (hwb.1 h2) h8
        · exact absurd h2 hnk
    · intro ex
      rw [td]
      rintro (⟨-, t, h1, h2, -⟩ | ⟨r', fs', -, h1, -⟩)
      · rw [show ircProps (.reg r fs) = r.props from rfl, hs] at h1
        cases h1
        exact h8 h2
      · exact hnk h1
  · rw [if_neg h8]
    have h8' : s % 8 = 0 := by omega
    by_cases hsup : Supported s
    · rw [if_pos hsup]
      -- the register itself
      have ws_other : ∀ u, u ∈ (if r.addressOffset % min (s / 8) 4 ≠ 0 then [Warn.regClusterUnaligned r.name] else []) ↔
          (u = .regClusterUnaligned r.name ∧ WholeBytes (over r.props e) ∧ Misaligned (over r.props e) r.addressOffset) := by
        intro u
        rw [mem_if_singleton, hmis, hwb]
        exact ⟨fun h => ⟨h.1, h8', h.2⟩, fun h => ⟨h.1, h.2.2⟩⟩
      have nodefect : ¬ ∃ t, (over (ircProps (.reg r fs)) e).size = some t ∧ t % 8 = 0 ∧ ¬ Supported t := by
        rintro ⟨t, h1, -, h2⟩
        rw [show ircProps (.reg r fs) = r.props from rfl, hs] at h1
        cases h1
        exact h2 hsup
      constructor
      · intro o w h
        obtain ⟨o', w1, w2, h1, h2, rfl⟩ := M.bind_eq_ok.1 h
        cases h1
        dsimp only at h2
        rcases finalizeRegister_ok h2 with ⟨hn, rfl, rfl⟩ | ⟨hn, halt, gs, p, hf, -, rfl⟩
        · have hres : Reserved r.name := reserved_iff.2 hn
          have hnk : ¬ Kept e (.reg r fs) := by rw [kept_reg]; exact fun h => h.2 hres
          refine ⟨by simp [hnk], ?_, ?_⟩
          · intro u _
            rw [tw, List.mem_append, ws_other]
            constructor
            · rintro (h | h)
              · exact Or.inr (Or.inl h)
              · exact Or.inr (Or.inr (Or.inr (Or.inl ⟨r, fs, rfl, by simpa using h, hwb.2 h8', hres⟩)))
            · rintro (⟨-, h1⟩ | h1 | ⟨c, ch, h1, -⟩ | ⟨r', fs', h1, h2, -⟩ | ⟨r', fs', t, -, h2, -⟩)
              · exact absurd (hwb.2 h8') h1
              · exact Or.inl h1
              · cases h1
              · exact Or.inr (by simp [h2])
              · exact absurd h2 hnk
          · intro ex
            rw [td]
            rintro (⟨-, h⟩ | ⟨r', fs', -, h1, -⟩)
            · exact nodefect h
            · exact hnk h1
        · have hk : Kept e (.reg r fs) := kept_reg.2 ⟨hwb.2 h8', not_reserved.2 hn⟩
          obtain ⟨h3, h4⟩ := finalizeFields_exact hf
          refine ⟨by simp [hk], ?_, ?_⟩
          · intro u _
            rw [tw, List.mem_append, ws_other, h3, fieldWarning_inherit]
            constructor
            · rintro (h | h)
              · exact Or.inr (Or.inl h)
              · exact Or.inr (Or.inr (Or.inr (Or.inr ⟨r, fs, s, rfl, hk, hs, h⟩)))
            · rintro (⟨-, h1⟩ | h1 | ⟨c, ch, h1, -⟩ | ⟨r', fs', h1, -, -, h2⟩ | ⟨r', fs', t, h1, -, h2, h3⟩)
              · exact absurd (hwb.2 h8') h1
              · exact Or.inl h1
              · cases h1
              · cases h1; exact absurd h2 (not_reserved.2 hn)
              · cases h1
                rw [hs] at h2
                cases h2
                exact Or.inr h3
          · intro ex
            rw [td]
            rintro (⟨-, h⟩ | ⟨r', fs', h1, -, ⟨-, h2⟩ | h2⟩)
            · exact nodefect h
            · cases h1; exact halt h2
            · cases h1
              exact h4 ex ((fieldDefect_inherit _ _ _ _).2 h2)
      · intro ex h
        rw [td]
        rcases M.bind_eq_err.1 h with h | ⟨o', w1, h1, h2⟩
        · cases h
        · cases h1
          dsimp only at h2
          unfold finalizeRegister at h2
          split at h2
          · simp only [M.bind_eq_err, M.pure_ne_err, and_false, exists_false, or_false] at h2
            cases h2
          · rename_i hn
            have hk : Kept e (.reg r fs) := kept_reg.2 ⟨hwb.2 h8', not_reserved.2 hn⟩
            split at h2
            · rename_i ha
              cases h2
              exact Or.inr ⟨r, fs, rfl, hk, Or.inl ⟨rfl, by simpa using ha⟩⟩
            · rcases M.bind_eq_err.1 h2 with h2 | ⟨gs, w2, -, h2⟩
              · exact Or.inr ⟨r, fs, rfl, hk, Or.inr ((fieldDefect_inherit _ _ _ _).1 (finalizeFields_err hacc h2))⟩
              · simp only [M.bind_eq_err, M.pure_ne_err, and_false, exists_false, or_false] at h2
                rw [hq] at h2
                cases h2
    · rw [if_neg hsup]
      constructor
      · intro o w h
        cases h
      intro ex h
      cases h
      rw [td]
      exact Or.inl ⟨rfl, s, hs, h8', hsup⟩

theorem elementOK_clu {e : Props} (he : FullProps e) (c : IClusterHd) (ch : List IRC)
    (ih : ∀ x ∈ ch, ElementOK (over c.props e) x) : ElementOK e (.clu c ch) := by
  intro b
  have hfull : FullProps (over c.props e) := by rw [← over_eq]; exact inheritProps_full he
  obtain ⟨s, hs⟩ := Option.isSome_iff_exists.1 hfull.1
  have hwb := wholeBytes_iff hs
  have hmis := misaligned_iff (off := c.addressOffset) hs
  obtain ⟨q, hq⟩ := regPropValidator_full hfull
  rw [inheritRC, finalizeRC]
  dsimp only
  rw [over_eq, hs, checkSizeAlign_eq]
  have tw : ∀ u, TreeWarning e (.clu c ch) u ↔ ElementWarning e (.clu c ch) u ∨
      (WholeBytes (over c.props e) ∧ ∃ x ∈ ch, TreeWarning (over c.props e) x u) := by
    intro u
    refine or_congr Iff.rfl ?_
    constructor
    · rintro ⟨c', ch', h, h1, h2⟩
      cases h
      exact ⟨h1, examined_warning.1 h2⟩
    · rintro ⟨h1, h2⟩
      exact ⟨c, ch, rfl, h1, examined_warning.2 h2⟩
  have td : ∀ ex, TreeDefect e (.clu c ch) ex ↔ ElementDefect e (.clu c ch) ex ∨
      (WholeBytes (over c.props e) ∧ (ScopeDefect (over c.props e) ch ex ∨ ∃ x ∈ ch, TreeDefect (over c.props e) x ex)) := by
    intro ex
    refine or_congr Iff.rfl ?_
    constructor
    · rintro ⟨c', ch', h, h1, h2⟩
      cases h
      exact ⟨h1, examined_defect.1 h2⟩
    · rintro ⟨h1, h2⟩
      exact ⟨c, ch, rfl, h1, examined_defect.2 h2⟩
  by_cases h8 : s % 8 ≠ 0
  · rw [if_pos h8]
    have hnw : ¬ WholeBytes (over c.props e) := by rw [hwb]; exact h8
    have hnk : ¬ Kept e (.clu c ch) := by rw [kept_clu]; exact fun h => hnw h.1
    refine ⟨?_, fun h => by cases h⟩
    intro o w h
    cases h
    refine ⟨by simp [hnk], ?_, ?_⟩
    · intro u _
      rw [tw]
      constructor
      · intro hu
        exact Or.inl (Or.inl ⟨by simpa [ircName] using hu, hnw⟩)
      · rintro ((⟨hu, -⟩ | ⟨-, h1, -⟩ | ⟨c', ch', h1, -, h2, -⟩ | ⟨r', fs', h1, -⟩ | ⟨r', fs', t, h1, -⟩) | ⟨h1, -⟩)
        · rw [hu]; simp [ircName]
        · exact absurd h1 hnw
        · cases h1; exact absurd h2 hnw
        · cases h1
        · cases h1
        · exact absurd h1 hnw
    · intro ex
      rw [td]
      rintro ((⟨-, t, h1, h2, -⟩ | ⟨r', fs', h1, -⟩) | ⟨h1, -⟩)
      · rw [show ircProps (.clu c ch) = c.props from rfl, hs] at h1
        cases h1
        exact h8 h2
      · cases h1
      · exact hnw h1
  · rw [if_neg h8]
    have h8' : s % 8 = 0 := by omega
    have hw8 := hwb.2 h8'
    by_cases hsup : Supported s
    · rw [if_pos hsup]
      have ws_other : ∀ u, u ∈ (if c.addressOffset % min (s / 8) 4 ≠ 0 then [Warn.regClusterUnaligned c.name] else []) ↔
          (u = .regClusterUnaligned c.name ∧ WholeBytes (over c.props e) ∧ Misaligned (over c.props e) c.addressOffset) := by
        intro u
        rw [mem_if_singleton, hmis, hwb]
        exact ⟨fun h => ⟨h.1, h8', h.2⟩, fun h => ⟨h.1, h.2.2⟩⟩
      have nodefect : ¬ ∃ t, (over (ircProps (.clu c ch)) e).size = some t ∧ t % 8 = 0 ∧ ¬ Supported t := by
        rintro ⟨t, h1, -, h2⟩
        rw [show ircProps (.clu c ch) = c.props from rfl, hs] at h1
        cases h1
        exact h2 hsup
      constructor
      · intro o w h
        obtain ⟨o', w1, w2, h1, h2, rfl⟩ := M.bind_eq_ok.1 h
        cases h1
        dsimp only at h2
        obtain ⟨raw, w3, w4, h3, h4, rfl⟩ := M.bind_eq_ok.1 h2
        obtain ⟨ys, w5, w6, h5, h6, rfl⟩ := M.bind_eq_ok.1 h4
        have hsc := finalizeRCs_ok (M.bind_eq_ok.2 ⟨raw, w3, w5, h3, h5, rfl⟩)
        obtain ⟨hk, hwarn, hsd, htd⟩ := scope_exact ih hsc
        have hkc : Kept e (.clu c ch) ↔ ys ≠ [] := by rw [kept_clu, hk]; exact and_iff_right hw8
        have hd : ∀ ex, ¬ TreeDefect e (.clu c ch) ex := by
          intro ex
          rw [td]
          rintro ((⟨-, h⟩ | ⟨r', fs', h1, -⟩) | ⟨-, h1 | ⟨x, hx, h1⟩⟩)
          · exact nodefect h
          · cases h1
          · exact hsd ex h1
          · exact htd x hx ex h1
        cases ys with
        | nil =>
          dsimp only at h6
          simp only [M.bind_eq_ok, M.pure_eq_ok, M.warn_eq_ok] at h6
          obtain ⟨_, w1, w2, rfl, ⟨rfl, rfl⟩, rfl⟩ := h6
          have hnone : ∀ y ∈ ch, ¬ Kept (over c.props e) y := by
            intro y hy hky
            exact absurd rfl (hk.2 ⟨y, hy, hky⟩)
          refine ⟨by simp [hkc], ?_, hd⟩
          intro u hu
          rw [tw]
          have := hwarn u hu
          rw [List.mem_append] at this
          simp only [List.mem_append, ws_other, List.mem_singleton, List.append_nil] at this ⊢
          constructor
          · rintro (h | h | h | h)
            · exact Or.inl (Or.inr (Or.inl h))
            · exact Or.inr ⟨hw8, this.1 (Or.inl h)⟩
            · exact Or.inr ⟨hw8, this.1 (Or.inr h)⟩
            · exact Or.inl (Or.inr (Or.inr (Or.inl ⟨c, ch, rfl, h, hw8, hnone⟩)))
          · rintro ((⟨-, h1⟩ | h1 | ⟨c', ch', h1, h2, -⟩ | ⟨r', fs', h1, -⟩ | ⟨r', fs', t, h1, -⟩) | ⟨-, h1⟩)
            · exact absurd hw8 h1
            · exact Or.inl h1
            · cases h1; exact Or.inr (Or.inr (Or.inr h2))
            · cases h1
            · cases h1
            · exact Or.inr ((this.2 h1).imp id Or.inl)
        | cons y ys =>
          dsimp only at h6
          rw [hq] at h6
          simp only [M.bind_eq_ok, M.pure_eq_ok] at h6
          obtain ⟨_, w1, w2, h7, ⟨rfl, rfl⟩, rfl⟩ := h6
          cases h7
          refine ⟨by simp [hkc], ?_, hd⟩
          intro u hu
          rw [tw]
          have := hwarn u hu
          obtain ⟨x, hx, hkx⟩ := hk.1 (by simp)
          rw [List.mem_append] at this
          simp only [List.mem_append, ws_other, List.append_nil] at this ⊢
          constructor
          · rintro (h | h)
            · exact Or.inl (Or.inr (Or.inl h))
            · exact Or.inr ⟨hw8, this.1 h⟩
          · rintro ((⟨-, h1⟩ | h1 | ⟨c', ch', h1, -, -, h2⟩ | ⟨r', fs', h1, -⟩ | ⟨r', fs', t, h1, -⟩) | ⟨-, h1⟩)
            · exact absurd hw8 h1
            · exact Or.inl h1
            · cases h1; exact absurd hkx (h2 x hx)
            · cases h1
            · cases h1
            · exact Or.inr (this.2 h1)
      · intro ex h
        rw [td]
        rcases M.bind_eq_err.1 h with h | ⟨o', w1, h1, h2⟩
        · cases h
        · cases h1
          dsimp only at h2
          have split : M.bind (finalizeRCsLoop (b + c.addressOffset) [] (inheritRCs (over c.props e) ch)) finishRCs = .err ex ∨
              ∃ ys w, M.bind (finalizeRCsLoop (b + c.addressOffset) [] (inheritRCs (over c.props e) ch)) finishRCs = .ok ys w := by
            cases hm : M.bind (finalizeRCsLoop (b + c.addressOffset) [] (inheritRCs (over c.props e) ch)) finishRCs with
            | ok ys w => exact Or.inr ⟨ys, w, rfl⟩
            | err ex' =>
              rw [← M.bind_assoc, hm] at h2
              cases h2
              exact Or.inl rfl
          rcases split with h3 | ⟨ys, w, h3⟩
          · exact Or.inr ⟨hw8, scope_err ih h3⟩
          · exfalso
            rw [← M.bind_assoc, h3] at h2
            rcases M.bind_eq_err.1 h2 with h2 | ⟨ys', w', h4, h2⟩
            · cases h2
            · cases ys' with
              | nil => simp [M.bind_eq_err] at h2
              | cons y ys' =>
                dsimp only at h2
                rw [hq] at h2
                simp at h2
    · rw [if_neg hsup]
      constructor
      · intro o w h
        cases h
      intro ex h
      cases h
      rw [td]
      exact Or.inl (Or.inl ⟨rfl, s, hs, h8', hsup⟩)

theorem elementOK (x : IRC) : ∀ {e : Props}, FullProps e → ElementOK e x := by
  induction x using IRC.induct with
  | hr r fs => intro e he; exact elementOK_reg he r fs
  | hc c ch ih =>
    intro e he
    exact elementOK_clu he c ch fun x hx => ih x hx (by rw [← over_eq]; exact inheritProps_full he)

end Svd
