import Verif.Spec.Reorder
import Verif.Lemmas.AgainDev
/- Inheritance and validation of resolved elements in another order. -/
namespace Svd
open Spec

/-! ### lists -/

theorem each_perm {α β : Type} {f : α → M β} {xs xs' : List α} (hp : xs.Perm xs') : ∀ {ys : List β} {ws : List Warn},
    M.Each f xs ys ws → ∃ ys' ws', M.Each f xs' ys' ws' ∧ ys.Perm ys' ∧ ws.Perm ws' := by
  induction hp with
  | nil => intro ys ws h; exact ⟨ys, ws, h, .refl _, .refl _⟩
  | cons a _ ih =>
    intro ys ws h
    cases h with
    | cons h1 h2 =>
      obtain ⟨zs, w, h3, h4, h5⟩ := ih h2
      exact ⟨_, _, .cons h1 h3, h4.cons _, h5.append_left _⟩
  | swap a b l =>
    intro ys ws h
    cases h with
    | cons h1 h2 =>
      cases h2 with
      | @cons _ _ w2 _ _ _ h3 h4 =>
        exact ⟨_, _, .cons h3 (.cons h1 h4), List.Perm.swap .., List.perm_append_comm_assoc ..⟩
  | trans _ _ ih1 ih2 =>
    intro ys ws h
    obtain ⟨ys1, w1, h1, h2, h3⟩ := ih1 h
    obtain ⟨ys2, w2, h4, h5, h6⟩ := ih2 h1
    exact ⟨ys2, w2, h4, h2.trans h5, h3.trans h6⟩

theorem each_same {α β : Type} {f : α → M β} {R : α → α → Prop} {xs xs' : List α} (h : Entrywise R xs xs') :
    ∀ {ys : List β} {ws : List Warn}, M.Each f xs ys ws →
      (∀ x ∈ xs, ∀ x' y w, R x x' → f x = .ok y w → ∃ w', f x' = .ok y w' ∧ w.Perm w') → ∃ ws', M.Each f xs' ys ws' ∧ ws.Perm ws' := by
  induction h with
  | nil => intro ys ws h _; cases h; exact ⟨[], .nil, .refl _⟩
  | cons hr _ ih =>
    intro ys ws h hf
    cases h with
    | cons h1 h2 =>
      obtain ⟨w', h3, h4⟩ := ih h2 (fun x hx => hf x (by simp [hx]))
      obtain ⟨w, h5, h6⟩ := hf _ (by simp) _ _ _ hr h1
      exact ⟨_, .cons h5 h3, h6.append h4⟩

/-- A loop over the entries, in another order, gives the same in another order. -/
theorem each_reorder {α β : Type} {f : α → M β} {R : α → α → Prop} {xs xs' : List α} (h : Reorder R xs xs') {ys : List β} {ws : List Warn}
    (he : M.Each f xs ys ws) (hf : ∀ x ∈ xs, ∀ x' y w, R x x' → f x = .ok y w → ∃ w', f x' = .ok y w' ∧ w.Perm w') :
    ∃ ys' ws', M.Each f xs' ys' ws' ∧ ys.Perm ys' ∧ ws.Perm ws' := by
  obtain ⟨zs, h1, h2⟩ := h
  obtain ⟨w1, h3, h4⟩ := each_same h1 he hf
  obtain ⟨ys', w2, h5, h6, h7⟩ := each_perm h2 h3
  exact ⟨ys', w2, h5, h6, h4.trans h7⟩

/-! ### alternates -/

theorem lookup_perm {lk lk' : AltLookup} (hp : lk.Perm lk') (hn : (lk.map (·.1)).Nodup) (x : Str) : lk.lookup x = lk'.lookup x := by
  have hn' : (lk'.map (·.1)).Nodup := (hp.map _).nodup_iff.1 hn
  cases h : lk.lookup x with
  | none =>
    rw [lookup_none] at h
    exact (lookup_none.2 fun hc => h ((hp.map _).mem_iff.2 hc)).symm
  | some o => exact (lookup_of_mem hn' (hp.mem_iff.1 (lookup_mem_alt h))).symm

theorem connected_perm {lk lk' : AltLookup} (hp : lk.Perm lk') {a x : Str} (h : Connected lk a x) : Connected lk' a x := by
  induction h with
  | refl => exact .refl _
  | step _ h2 ih =>
    refine .step ih ?_
    rcases h2 with h2 | h2
    · exact Or.inl (hp.mem_iff.1 h2)
    · exact Or.inr (hp.mem_iff.1 h2)

theorem allowed_perm {lk lk' : AltLookup} (hp : lk.Perm lk') (hn : (lk.map (·.1)).Nodup) {strict : Bool} {o : Option Str} {l : List Str}
    {w : List Warn} (h : allowedAlternates lk strict o = .ok l w) :
    w = [] ∧ ∃ l', allowedAlternates lk' strict o = .ok l' [] ∧ ∀ x, x ∈ l ↔ x ∈ l' := by
  have hn' : (lk'.map (·.1)).Nodup := (hp.map _).nodup_iff.1 hn
  cases o with
  | none =>
    simp only [allowedAlternates, M.pure_eq_ok] at h
    obtain ⟨rfl, rfl⟩ := h
    exact ⟨rfl, [], rfl, fun _ => Iff.rfl⟩
  | some a =>
    rcases allowedAlternates_spec hn strict a with ⟨l1, h1, h2, h3⟩ | ⟨h1, h2, -⟩
    · rw [h1] at h
      injection h with h4 h5
      subst h4 h5
      refine ⟨rfl, ?_⟩
      rcases allowedAlternates_spec hn' strict a with ⟨l2, h6, h7, h8⟩ | ⟨h6, -, z, h7, h8⟩
      · exact ⟨l2, h6, fun x => by rw [h2, h7]; exact ⟨connected_perm hp, connected_perm hp.symm⟩⟩
      · exact absurd ((hp.map _).mem_iff.1 (h3 h6 z ((h2 z).2 (connected_perm hp.symm h7)))) h8
    · rw [h2] at h; cases h

theorem isEmpty_same {l l' : List Str} (h : ∀ x, x ∈ l ↔ x ∈ l') : l.isEmpty = l'.isEmpty := by
  cases l with
  | nil =>
    cases l' with
    | nil => rfl
    | cons a l' => exact absurd ((h a).2 (by simp)) (by simp)
  | cons a l =>
    cases l' with
    | nil => exact absurd ((h a).1 (by simp)) (by simp)
    | cons b l' => rfl

theorem contains_same {l l' : List Str} (h : ∀ x, x ∈ l ↔ x ∈ l') (n : Str) : l.contains n = l'.contains n := by
  rw [Bool.eq_iff_iff]
  simp only [List.contains_iff_mem]
  exact h n

theorem overlapWarns_same {lk lk' : AltLookup} (hp : lk.Perm lk') (hn : (lk.map (·.1)).Nodup) {l l' : List Str} (h : ∀ x, x ∈ l ↔ x ∈ l')
    (r : Bool) (n : Str) (b : Int) : ∀ iv, overlapWarns r lk n b l iv = overlapWarns r lk' n b l' iv
  | [] => rfl
  | (e, m) :: iv => by
    rw [overlapWarns, overlapWarns, overlapWarns_same hp hn h r n b iv, isEmpty_same h, contains_same h, lookup_perm hp hn]

theorem periphWarns_same {lk lk' : AltLookup} (hp : lk.Perm lk') (hn : (lk.map (·.1)).Nodup) {l l' : List Str} (h : ∀ x, x ∈ l ↔ x ∈ l')
    (r : Bool) (n : Str) (b : Int) : ∀ iv, periphOverlapWarns r lk n b l iv = periphOverlapWarns r lk' n b l' iv
  | [] => rfl
  | (e, m) :: iv => by
    rw [periphOverlapWarns, periphOverlapWarns, periphWarns_same hp hn h r n b iv, isEmpty_same h, contains_same h, lookup_perm hp hn]

theorem checkRC_perm {rl rl' cl cl' : AltLookup} (hr : rl.Perm rl') (hrn : (rl.map (·.1)).Nodup) (hc : cl.Perm cl') (hcn : (cl.map (·.1)).Nodup)
    {xs : List RC} : ∀ {iv : List (Int × Str)} {w : List Warn}, checkRCOverlaps rl cl iv xs = .ok () w → checkRCOverlaps rl' cl' iv xs = .ok () w := by
  induction xs with
  | nil => intro iv w h; simpa [checkRCOverlaps] using h
  | cons x xs ih =>
    intro iv w h
    cases x with
    | reg r =>
      rw [checkRCOverlaps] at h ⊢
      split at h
      · rename_i hg
        rw [if_pos hg]
        exact ih h
      · rename_i hg
        rw [if_neg hg]
        obtain ⟨l, w1, w2, h1, h2, rfl⟩ := M.bind_eq_ok.1 h
        obtain ⟨_, w3, w4, h3, h4, rfl⟩ := M.bind_eq_ok.1 h2
        obtain ⟨rfl, l', h5, h6⟩ := allowed_perm hr hrn h1
        injection h3 with _ h3
        refine M.bind_eq_ok.2 ⟨l', [], _, h5, M.bind_eq_ok.2 ⟨(), w3, w4, ?_, ih h4, rfl⟩, rfl⟩
        rw [← overlapWarns_same hr hrn h6, h3]
    | clu c ch =>
      rw [checkRCOverlaps] at h ⊢
      obtain ⟨l, w1, w2, h1, h2, rfl⟩ := M.bind_eq_ok.1 h
      obtain ⟨_, w3, w4, h3, h4, rfl⟩ := M.bind_eq_ok.1 h2
      obtain ⟨rfl, l', h5, h6⟩ := allowed_perm hc hcn h1
      injection h3 with _ h3
      refine M.bind_eq_ok.2 ⟨l', [], _, h5, M.bind_eq_ok.2 ⟨(), w3, w4, ?_, ih h4, rfl⟩, rfl⟩
      rw [← overlapWarns_same hc hcn h6, h3]

theorem checkP_perm {lk lk' : AltLookup} (hr : lk.Perm lk') (hn : (lk.map (·.1)).Nodup)
    {xs : List Peripheral} : ∀ {a b : List (Int × Str)} {w : List Warn}, checkPeriphOverlaps lk a b xs = .ok () w →
      checkPeriphOverlaps lk' a b xs = .ok () w := by
  induction xs with
  | nil => intro a b w h; simpa [checkPeriphOverlaps] using h
  | cons x xs ih =>
    intro a b w h
    rw [checkPeriphOverlaps] at h ⊢
    obtain ⟨l, w1, w2, h1, h2, rfl⟩ := M.bind_eq_ok.1 h
    obtain ⟨_, w3, w4, h3, h4, rfl⟩ := M.bind_eq_ok.1 h2
    obtain ⟨_, w5, w6, h7, h8, rfl⟩ := M.bind_eq_ok.1 h4
    obtain ⟨rfl, l', h5, h6⟩ := allowed_perm hr hn h1
    injection h3 with _ h3
    injection h7 with _ h7
    refine M.bind_eq_ok.2 ⟨l', [], _, h5, M.bind_eq_ok.2 ⟨(), w3, _, ?_, M.bind_eq_ok.2 ⟨(), w5, w6, ?_, ih h8, rfl⟩, rfl⟩, rfl⟩
    · rw [← periphWarns_same hr hn h6, h3]
    · rw [← periphWarns_same hr hn h6, h7]

/-! ### the loops -/

theorem fieldsLoop_of {fs : List IField} {os : List (Option Field)} {ws : List Warn} (h : M.Each finalizeFieldOpt fs os ws) :
    ∀ {seen : List Str}, (∀ g ∈ os.filterMap id, g.name ∉ seen) → ((os.filterMap id).map (·.name)).Nodup →
      finalizeFieldsLoop seen fs = .ok (os.filterMap id) ws := by
  induction h with
  | nil => intros; rfl
  | @cons f o w fs os ws h1 h2 ih =>
    intro seen hs hn
    rw [finalizeFieldsLoop]
    unfold finalizeFieldOpt at h1
    split at h1
    · rename_i hr
      injection h1 with h3 h4
      subst h3 h4
      rw [if_pos hr]
      exact M.bind_eq_ok.2 ⟨(), _, ws, rfl, ih (by simpa using hs) (by simpa using hn), rfl⟩
    · rename_i hr
      rw [if_neg hr]
      simp only [M.bind_eq_ok, M.pure_eq_ok] at h1
      obtain ⟨g, w1, w2, h3, ⟨rfl, rfl⟩, rfl⟩ := h1
      have hgn : g.name = f.hd.name := by
        obtain ⟨a, cs, _, _, rfl, _⟩ := finalizeField_ok h3
        rfl
      simp only [List.filterMap_cons, id, List.map_cons, List.nodup_cons] at hs hn ⊢
      rw [if_neg (by have := hs g (by simp); rw [hgn] at this; simpa using this)]
      have h5 := ih (seen := f.hd.name :: seen) (by
        intro z hz hc
        rcases List.mem_cons.1 hc with hc | hc
        · exact hn.1 (by rw [hgn, ← hc]; exact List.mem_map.2 ⟨z, hz, rfl⟩)
        · exact hs z (by simp [hz]) hc) hn.2
      exact M.bind_eq_ok.2 ⟨g, w1, ws, h3, M.bind_eq_ok.2 ⟨_, ws, [], h5, rfl, by simp⟩, by simp⟩

theorem rcsLoop_of {b : Int} {xs : List IRC} {os : List (Option RC)} {ws : List Warn} (h : M.Each (finalizeRC b) xs os ws) :
    ∀ {seen : List Str}, (∀ g ∈ os.filterMap id, g.qualName ∉ seen) → ((os.filterMap id).map RC.qualName).Nodup →
      finalizeRCsLoop b seen xs = .ok (os.filterMap id) ws := by
  induction h with
  | nil => intros; rw [finalizeRCsLoop]; rfl
  | @cons x o w xs os ws h1 h2 ih =>
    intro seen hs hn
    rw [finalizeRCsLoop]
    refine M.bind_eq_ok.2 ⟨o, w, ws, h1, ?_, rfl⟩
    cases o with
    | none => exact ih (by simpa using hs) (by simpa using hn)
    | some y =>
      simp only [List.filterMap_cons, id, List.map_cons, List.nodup_cons] at hs hn ⊢
      rw [if_neg (by simpa using hs y (by simp))]
      have h5 := ih (seen := y.qualName :: seen) (by
        intro z hz hc
        rcases List.mem_cons.1 hc with hc | hc
        · exact hn.1 (by rw [← hc]; exact List.mem_map.2 ⟨z, hz, rfl⟩)
        · exact hs z (by simp [hz]) hc) hn.2
      exact M.bind_eq_ok.2 ⟨_, ws, [], h5, rfl, by simp⟩

theorem periphsLoop_of {xs : List IPeripheral} {os : List (Option Peripheral)} {ws : List Warn} (h : M.Each finalizePeripheral xs os ws) :
    ∀ {seen : List Str}, (∀ g ∈ os.filterMap id, g.name ∉ seen) → ((os.filterMap id).map (·.name)).Nodup →
      finalizePeripheralsLoop seen xs = .ok (os.filterMap id) ws := by
  induction h with
  | nil => intros; rfl
  | @cons x o w xs os ws h1 h2 ih =>
    intro seen hs hn
    rw [finalizePeripheralsLoop]
    refine M.bind_eq_ok.2 ⟨o, w, ws, h1, ?_, rfl⟩
    cases o with
    | none => exact ih (by simpa using hs) (by simpa using hn)
    | some y =>
      simp only [List.filterMap_cons, id, List.map_cons, List.nodup_cons] at hs hn ⊢
      rw [if_neg (by simpa using hs y (by simp))]
      have h5 := ih (seen := y.name :: seen) (by
        intro z hz hc
        rcases List.mem_cons.1 hc with hc | hc
        · exact hn.1 (by rw [← hc]; exact List.mem_map.2 ⟨z, hz, rfl⟩)
        · exact hs z (by simp [hz]) hc) hn.2
      exact M.bind_eq_ok.2 ⟨_, ws, [], h5, rfl, by simp⟩



/-! ### the same resolved elements in another order -/

/-- The same resolved field, with its containers in another order. -/
def SameIF (f f' : IField) : Prop := f.hd = f'.hd ∧ f.containers.Perm f'.containers ∧ (f.containers.map (·.usage)).Nodup

mutual
/-- The same resolved register or cluster, with its content in another order. -/
def SameI : IRC → IRC → Prop
  | .reg r fs, y => ∃ fs', y = .reg r fs' ∧ Reorder SameIF fs fs' ∧ SortedBy fieldKey fs ∧ SortedBy fieldKey fs'
  | .clu c ch, y => ∃ zs ys, y = .clu c ys ∧ SameIs ch zs ∧ zs.Perm ys
/-- The same resolved registers and clusters one by one. -/
def SameIs : List IRC → List IRC → Prop
  | [], ys => ys = []
  | x :: xs, ys => ∃ z zs, ys = z :: zs ∧ SameI x z ∧ SameIs xs zs
end

/-- The same resolved peripheral, with its content in another order. -/
def SameIP (p p' : IPeripheral) : Prop := p.hd = p'.hd ∧ Reorder SameI p.rcs p'.rcs

theorem sameIs_iff : ∀ {xs ys : List IRC}, SameIs xs ys ↔ Entrywise SameI xs ys
  | [], ys => by
    rw [SameIs]
    exact ⟨fun h => (by subst h; exact .nil), fun h => (by cases h; rfl)⟩
  | x :: xs, ys => by
    rw [SameIs]
    constructor
    · rintro ⟨z, zs, rfl, h1, h2⟩
      exact .cons h1 (sameIs_iff.1 h2)
    · intro h
      cases h with
      | cons h1 h2 => exact ⟨_, _, rfl, h1, sameIs_iff.2 h2⟩

theorem containers_same {cs cs' : List IEnumContainer} (hp : cs.Perm cs') (hu : (cs.map (·.usage)).Nodup) {l m : Int}
    {gs : List EnumContainer} {w : List Warn} (h : finalizeContainers cs l m = .ok gs w) :
    ∃ w', finalizeContainers cs' l m = .ok gs w' ∧ w.Perm w' := by
  unfold finalizeContainers at h ⊢
  simp only [M.bind_eq_ok, M.pure_eq_ok] at h
  obtain ⟨fs, w1, w2, h1, ⟨rfl, rfl⟩, rfl⟩ := h
  have hus : ∀ {xs : List IEnumContainer} {ys : List EnumContainer} {w : List Warn}, M.Each (fun (c : IEnumContainer) =>
      M.bind (finalizeEnumValues c.values l m) fun vs =>
      M.pure ({ name := c.name, headerEnumName := c.headerEnumName, usage := c.usage, values := vs } : EnumContainer)) xs ys w →
      ys.map (·.usage) = xs.map (·.usage) := by
    intro xs ys w h
    induction h with
    | nil => rfl
    | cons h1 _ ih =>
      simp only [M.bind_eq_ok, M.pure_eq_ok] at h1
      obtain ⟨vs, _, _, _, ⟨rfl, rfl⟩, rfl⟩ := h1
      simp [ih]
  have h2 := M.mapM_eq_ok.1 h1
  obtain ⟨fs', w', h3, h4, h5⟩ := each_perm hp h2
  have hn : (fs.map (·.usage)).Nodup := by rw [hus h2]; exact hu
  refine ⟨w', M.bind_eq_ok.2 ⟨fs', w', [], M.mapM_eq_ok.2 h3, ?_, by simp⟩, by simpa using h5⟩
  have : sortBy containerLe fs' = sortBy containerLe fs := by
    refine sorted_unique ((sortBy_perm _).trans (h4.symm.trans (sortBy_perm _).symm)) (sortBy_sorted containerLe_total _)
      (sortBy_sorted containerLe_total _) ?_
    intro a ha b hb hab hba
    have hu : a.usage = b.usage := by
      apply usage_val_inj
      unfold containerLe at hab hba
      by_cases he : a.usage.val = b.usage.val
      · exact he
      · rw [if_neg he] at hab
        rw [if_neg (fun hc => he hc.symm)] at hba
        exact absurd (strLe_antisymm _ _ hab hba) he
    rw [mem_sortBy] at ha hb
    exact inj_of_nodup_map hn (h4.mem_iff.2 ha) (h4.mem_iff.2 hb) hu
  rw [this]
  rfl

theorem fieldOpt_same {f f' : IField} (hs : SameIF f f') {o : Option Field} {w : List Warn} (h : finalizeFieldOpt f = .ok o w) :
    ∃ w', finalizeFieldOpt f' = .ok o w' ∧ w.Perm w' := by
  obtain ⟨h1, h2, h3⟩ := hs
  unfold finalizeFieldOpt at h ⊢
  rw [h1] at h
  split at h
  · rename_i hr
    rw [if_pos hr]
    exact ⟨w, h, .refl _⟩
  · rename_i hr
    rw [if_neg hr]
    simp only [M.bind_eq_ok, M.pure_eq_ok] at h
    obtain ⟨g, w1, w2, h4, ⟨rfl, rfl⟩, rfl⟩ := h
    obtain ⟨cs, a, h5, h6, rfl⟩ := finalizeField_ok h4
    rw [h1] at h5 h6
    obtain ⟨w', h7, h8⟩ := containers_same h2 h3 h5
    refine ⟨w' ++ [], M.bind_eq_ok.2 ⟨fieldOf f a cs, w', [], ?_, rfl, rfl⟩, by simpa using h8⟩
    unfold finalizeField
    refine M.bind_eq_ok.2 ⟨cs, w', [], h7, ?_, by simp⟩
    rw [h6]
    simp only [fieldOf, h1]
    rfl

theorem fieldOpt_key {f : IField} {g : Field} {w : List Warn} (h : finalizeFieldOpt f = .ok (some g) w) : fieldKey f = (g.lsb, g.name) := by
  unfold finalizeFieldOpt at h
  split at h
  · simp at h
  · simp only [M.bind_eq_ok, M.pure_eq_ok] at h
    obtain ⟨g', w1, w2, h3, ⟨h4, rfl⟩, rfl⟩ := h
    obtain ⟨cs, a, _, _, rfl⟩ := finalizeField_ok h3
    injection h4 with h4
    subst h4
    rfl

theorem fields_sorted {fs : List IField} {os : List (Option Field)} {w : List Warn} (he : M.Each finalizeFieldOpt fs os w)
    (h : SortedBy fieldKey fs) : SortedBy (fun g : Field => (g.lsb, g.name)) (os.filterMap id) := by
  refine each_filterMap_pairwise he h ?_
  intro a b hab x y w w' hx hy
  rw [fieldOpt_key hx, fieldOpt_key hy] at hab
  exact hab

theorem fields_same {fs fs' : List IField} (h : Reorder SameIF fs fs') (hs : SortedBy fieldKey fs) (hs' : SortedBy fieldKey fs') {size : Int}
    {gs : List Field} {w : List Warn} (hf : finalizeFields fs size = .ok gs w) : ∃ w', finalizeFields fs' size = .ok gs w' ∧ w.Perm w' := by
  unfold finalizeFields at hf ⊢
  obtain ⟨raw, w1, w2, h1, h2, rfl⟩ := M.bind_eq_ok.1 hf
  obtain ⟨os, h3, rfl, h4, -⟩ := finalizeFieldsLoop_ok h1
  obtain ⟨os', w', h5, h6, h7⟩ := each_reorder h h3 (fun x _ x' y w hx hy => fieldOpt_same hx hy)
  have hp := h6.filterMap id
  have he : os.filterMap id = os'.filterMap id := sort_conv hp (fields_sorted h3 hs) (fields_sorted h5 hs') (by simpa using h4)
  refine ⟨w' ++ w2, M.bind_eq_ok.2 ⟨os'.filterMap id, w', w2, fieldsLoop_of h5 (by simp) ?_, ?_, rfl⟩, h7.append_right _⟩
  · rw [← he]; exact h4
  · rw [← he]; exact h2

theorem sortRC_unique {raw raw' : List RC} (hp : raw.Perm raw') (hn : (raw.map RC.qualName).Nodup) : sortBy rcLe raw = sortBy rcLe raw' := by
  refine sorted_unique ((sortBy_perm _).trans (hp.trans (sortBy_perm _).symm)) (sortBy_sorted rcLe_total _)
      (sortBy_sorted rcLe_total _) ?_
  intro a ha b hb hab hba
  rw [mem_sortBy] at ha hb
  refine inj_of_nodup_map hn ha hb ?_
  unfold rcLe at hab hba
  by_cases h1 : a.baseAddress < b.baseAddress
  · rw [if_neg (show ¬ b.baseAddress < a.baseAddress by omega), if_pos h1] at hba
    cases hba
  · by_cases h2 : b.baseAddress < a.baseAddress
    · rw [if_neg h1, if_pos h2] at hab
      cases hab
    · rw [if_neg h1, if_neg h2] at hab
      rw [if_neg h2, if_neg h1] at hba
      cases hga : a.altGroup with
      | none =>
        cases hgb : b.altGroup with
        | none =>
          rw [hga, hgb] at hab hba
          have hn := strLe_antisymm _ _ hab hba
          cases a <;> cases b <;> simp_all [RC.altGroup, RC.qualName, RC.name]
        | some g =>
          rw [hga, hgb] at hab hba
          simp at hba
      | some g =>
        cases hgb : b.altGroup with
        | none =>
          rw [hga, hgb] at hab hba
          simp at hab
        | some g' =>
          rw [hga, hgb] at hab hba
          simp only at hab hba
          by_cases hg : g = g'
          · rw [if_pos hg] at hab
            rw [if_pos hg.symm] at hba
            have hn := strLe_antisymm _ _ hab hba
            cases a <;> cases b <;> simp_all [RC.altGroup, RC.qualName, RC.name]
          · rw [if_neg hg] at hab
            rw [if_neg (fun h => hg h.symm)] at hba
            exact absurd (strLe_antisymm _ _ hab hba) hg

theorem rcs_same {b : Int} {xs xs' : List IRC} (h : Reorder SameI xs xs')
    (hx : ∀ x ∈ xs, ∀ x' o w, SameI x x' → finalizeRC b x = .ok o w → ∃ w', finalizeRC b x' = .ok o w' ∧ w.Perm w')
    {ys : List RC} {w : List Warn} (hf : finalizeRCs b xs = .ok ys w) : ∃ w', finalizeRCs b xs' = .ok ys w' ∧ w.Perm w' := by
  obtain ⟨os, w1, w2, raw, h1, rfl, h2, rfl, h3, rfl⟩ := (finalizeRCs_ok hf).ex
  obtain ⟨os', w', h5, h6, h7⟩ := each_reorder h h1 hx
  have hp := h6.filterMap id
  have he := sortRC_unique hp h2
  refine ⟨w' ++ w2, M.bind_eq_ok.2 ⟨os'.filterMap id, w', w2, rcsLoop_of h5 (by simp) ((hp.map _).nodup_iff.1 h2), ?_, rfl⟩, h7.append_right _⟩
  unfold finishRCs
  rw [← he]
  refine M.bind_eq_ok.2 ⟨(), w2, [], ?_, rfl, by simp⟩
  exact checkRC_perm (hp.filterMap _) (registerLookup_nodup h2) (hp.filterMap _) (clusterLookup_nodup h2) h3

theorem rc_same (x : IRC) : ∀ {b : Int} {x' : IRC} {o : Option RC} {w : List Warn}, SameI x x' → finalizeRC b x = .ok o w →
    ∃ w', finalizeRC b x' = .ok o w' ∧ w.Perm w' := by
  refine IRC.induct (P := fun x => ∀ {b : Int} {x' : IRC} {o : Option RC} {w : List Warn}, SameI x x' → finalizeRC b x = .ok o w →
    ∃ w', finalizeRC b x' = .ok o w' ∧ w.Perm w') ?_ ?_ x
  · intro r fs b x' o w hs h
    rw [SameI] at hs
    obtain ⟨fs', rfl, h1, h2, h3⟩ := hs
    rw [finalizeRC] at h ⊢
    obtain ⟨s, w1, w2, h4, h5, rfl⟩ := M.bind_eq_ok.1 h
    cases s with
    | none => exact ⟨_, M.bind_eq_ok.2 ⟨none, w1, w2, h4, h5, rfl⟩, .refl _⟩
    | some s =>
      have : ∃ w', finalizeRegister r fs' s (b + r.addressOffset) = .ok o w' ∧ w2.Perm w' := by
        have h6 : finalizeRegister r fs s (b + r.addressOffset) = .ok o w2 := h5
        unfold finalizeRegister at h6 ⊢
        by_cases hr : lower r.name = s%"reserved"
        · rw [if_pos hr] at h6 ⊢
          exact ⟨w2, h6, .refl _⟩
        · rw [if_neg hr] at h6 ⊢
          by_cases ha : (r.alternateRegister.isSome && r.alternateGroup.isSome) = true
          · rw [if_pos ha] at h6
            cases h6
          · rw [if_neg ha] at h6 ⊢
            obtain ⟨gs, w3, w4, h7, h8, rfl⟩ := M.bind_eq_ok.1 h6
            obtain ⟨w', h9, h10⟩ := fields_same h1 h2 h3 h7
            exact ⟨w' ++ w4, M.bind_eq_ok.2 ⟨gs, w', w4, h9, h8, rfl⟩, h10.append_right _⟩
      obtain ⟨w', h6, h7⟩ := this
      exact ⟨w1 ++ w', M.bind_eq_ok.2 ⟨some s, w1, w', h4, h6, rfl⟩, h7.append_left _⟩
  · intro c ch ih b x' o w hs h
    rw [SameI] at hs
    obtain ⟨zs, ys, rfl, h1, h2⟩ := hs
    rw [finalizeRC] at h ⊢
    obtain ⟨s, w1, w2, h4, h5, rfl⟩ := M.bind_eq_ok.1 h
    cases s with
    | none => exact ⟨_, M.bind_eq_ok.2 ⟨none, w1, w2, h4, h5, rfl⟩, .refl _⟩
    | some s =>
      obtain ⟨raw, w3, w4, h6, h7, rfl⟩ := M.bind_eq_ok.1 h5
      obtain ⟨kids, w5, w6, h8, h9, rfl⟩ := M.bind_eq_ok.1 h7
      obtain ⟨w', h10, h11⟩ := rcs_same ⟨zs, sameIs_iff.1 h1, h2⟩ (fun x hx x' o w => ih x hx)
        (show finalizeRCs (b + c.addressOffset) ch = .ok kids (w3 ++ w5) from M.bind_eq_ok.2 ⟨raw, w3, w5, h6, h8, rfl⟩)
      obtain ⟨raw', w3', w5', h12, h13, rfl⟩ := M.bind_eq_ok.1 h10
      refine ⟨w1 ++ (w3' ++ (w5' ++ w6)), M.bind_eq_ok.2 ⟨some s, w1, _, h4, M.bind_eq_ok.2 ⟨raw', w3', _, h12,
        M.bind_eq_ok.2 ⟨kids, w5', w6, h13, h9, rfl⟩, rfl⟩, rfl⟩, ?_⟩
      have := h11.append_right w6
      simp only [List.append_assoc] at this
      exact this.append_left _

theorem periph_same {p p' : IPeripheral} (hs : SameIP p p') {o : Option Peripheral} {w : List Warn} (h : finalizePeripheral p = .ok o w) :
    ∃ w', finalizePeripheral p' = .ok o w' ∧ w.Perm w' := by
  obtain ⟨h1, h2⟩ := hs
  unfold finalizePeripheral at h ⊢
  obtain ⟨ys, w1, w2, h3, h4, rfl⟩ := M.bind_eq_ok.1 h
  obtain ⟨w', h5, h6⟩ := rcs_same h2 (fun x _ x' o w => rc_same x) h3
  rw [h1] at h5 h4
  exact ⟨w' ++ w2, M.bind_eq_ok.2 ⟨ys, w', w2, h5, h4, rfl⟩, h6.append_right _⟩

theorem validate_same {d d' : IDevice} (hh : d.hd = d'.hd) (h : Reorder SameIP d.peripherals d'.peripherals) {dev : Device} {w : List Warn}
    (hf : validateAndFinalize d = .ok dev w) : ∃ w', validateAndFinalize d' = .ok dev w' ∧ w.Perm w' := by
  obtain ⟨os, w1, w2, raw, h1, rfl, h2, h3, h4, h5, rfl⟩ := validateAndFinalize_ok hf
  obtain ⟨os', w', h6, h7, h8⟩ := each_reorder h h1 (fun x _ x' y w hx hy => periph_same hx hy)
  have hp := h7.filterMap id
  have he : sortBy periphLe (os.filterMap id) = sortBy periphLe (os'.filterMap id) := by
    refine sorted_unique ((sortBy_perm _).trans (hp.trans (sortBy_perm _).symm)) (sortBy_sorted periphLe_total _)
      (sortBy_sorted periphLe_total _) ?_
    intro a ha b hb hab hba
    rw [mem_sortBy] at ha hb
    refine inj_of_nodup_map h2 ha hb ?_
    have g1 := intStrLe_spec.1 hab
    have g2 := intStrLe_spec.1 hba
    rcases g1 with g1 | ⟨g1, g3⟩ <;> rcases g2 with g2 | ⟨g2, g4⟩
    · simp only at g1 g2; omega
    · simp only at g1 g2; omega
    · simp only at g1 g2; omega
    · exact strLe_antisymm _ _ ((strLe_iff _ _).2 g3) ((strLe_iff _ _).2 g4)
  refine ⟨w' ++ w2, ?_, h8.append_right _⟩
  unfold validateAndFinalize finalizePeripherals
  refine M.bind_eq_ok.2 ⟨dev.peripherals, w' ++ w2, [], M.bind_eq_ok.2 ⟨os'.filterMap id, w', w2, periphsLoop_of h6 (by simp) ((hp.map _).nodup_iff.1 h2), ?_, rfl⟩, ?_, by simp⟩
  · rw [h4] at h5 ⊢
    rw [← he]
    refine M.bind_eq_ok.2 ⟨(), w2, [], ?_, rfl, by simp⟩
    exact checkP_perm (hp.map _) (by rw [List.map_map]; exact h2) h5
  · rw [← hh, ← h3]; rfl

theorem entrywise_maps {α β γ δ : Type} {R : α → β → Prop} {S : γ → δ → Prop} {f : α → γ} {g : β → δ} {xs : List α} {ys : List β}
    (h : Entrywise R xs ys) (hf : ∀ x ∈ xs, ∀ y, R x y → S (f x) (g y)) : Entrywise S (xs.map f) (ys.map g) := by
  induction h with
  | nil => exact .nil
  | cons h1 _ ih => exact .cons (hf _ (by simp) _ h1) (ih fun x hx => hf x (by simp [hx]))

theorem inheritRC_same (x : IRC) : ∀ {e : Props} {x' : IRC}, SameI x x' → SameI (inheritRC e x) (inheritRC e x') := by
  refine IRC.induct (P := fun x => ∀ {e : Props} {x' : IRC}, SameI x x' → SameI (inheritRC e x) (inheritRC e x')) ?_ ?_ x
  · intro r fs e x' h
    rw [SameI] at h
    obtain ⟨fs', rfl, ⟨zs, h1, h2⟩, h3, h4⟩ := h
    rw [inheritRC, inheritRC, SameI]
    refine ⟨_, rfl, ⟨zs.map (inheritField (inheritProps r.props e).access r.writeConstraint), ?_, h2.map _⟩, ?_, ?_⟩
    · refine entrywise_maps h1 ?_
      rintro x - y ⟨ha, hb, hc⟩
      exact ⟨by simp [inheritField, ha], hb, hc⟩
    · exact List.pairwise_map.2 h3
    · exact List.pairwise_map.2 h4
  · intro c ch ih e x' h
    rw [SameI] at h
    obtain ⟨zs, ys, rfl, h1, h2⟩ := h
    rw [inheritRC, inheritRC, SameI]
    refine ⟨zs.map (inheritRC (inheritProps c.props e)), _, rfl, ?_, ?_⟩
    · rw [inheritRCs_map, sameIs_iff]
      exact entrywise_maps (sameIs_iff.1 h1) fun x hx y hxy => ih x hx hxy
    · rw [inheritRCs_map]; exact h2.map _

theorem inheritP_same {e : Props} {p p' : IPeripheral} (h : SameIP p p') : SameIP (inheritPeripheral e p) (inheritPeripheral e p') := by
  obtain ⟨h1, zs, h2, h3⟩ := h
  refine ⟨by simp [inheritPeripheral, h1], zs.map (inheritRC (inheritProps p.hd.props e)), ?_, ?_⟩
  · simp only [inheritPeripheral, inheritRCs_map]
    exact entrywise_maps h2 fun x _ y hxy => inheritRC_same x hxy
  · simp only [inheritPeripheral, inheritRCs_map, h1]
    exact h3.map _

/-- Inheritance and validation of the same resolved peripherals in another order. -/
theorem finish_same {d d' : IDevice} (hh : d.hd = d'.hd) (h : Reorder SameIP d.peripherals d'.peripherals) {dev : Device} {w : List Warn}
    (hf : validateAndFinalize (inheritDevice d) = .ok dev w) : ∃ w', validateAndFinalize (inheritDevice d') = .ok dev w' ∧ w.Perm w' := by
  obtain ⟨zs, h1, h2⟩ := h
  refine validate_same (by simpa [inheritDevice] using hh) ⟨zs.map (inheritPeripheral d.hd.props.toProps), ?_, ?_⟩ hf
  · exact entrywise_maps h1 fun x _ y hxy => inheritP_same hxy
  · simp only [inheritDevice, hh]
    exact h2.map _

end Svd
