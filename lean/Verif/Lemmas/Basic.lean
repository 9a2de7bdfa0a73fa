import Verif.Model.Types
/- Lemmas about the exception/warning monad and about sorting. -/
namespace Svd
namespace M
variable {α β γ : Type}

@[simp] theorem pure_eq_ok {a b : α} {ws : List Warn} : (M.pure a = M.ok b ws) ↔ (a = b ∧ ws = []) := by
  unfold M.pure
  constructor
  · intro h; cases h; exact ⟨rfl, rfl⟩
  · rintro ⟨rfl, rfl⟩; rfl

@[simp] theorem throw_ne_ok {e : Exn} {b : α} {ws : List Warn} : (M.throw e = M.ok b ws) ↔ False := by
  unfold M.throw; simp

@[simp] theorem pure_ne_err {e : Exn} {b : α} : (M.pure b = M.err e) ↔ False := by
  unfold M.pure; simp

@[simp] theorem throw_eq_err {e e' : Exn} : ((M.throw e : M α) = M.err e') ↔ e = e' := by
  unfold M.throw; simp

@[simp] theorem warn_eq_ok {w : Warn} {u : Unit} {ws : List Warn} : (M.warn w = M.ok u ws) ↔ ws = [w] := by
  unfold M.warn; cases u
  constructor
  · intro h; cases h; rfl
  · rintro rfl; rfl

@[simp] theorem warn_ne_err {w : Warn} {e : Exn} : (M.warn w = M.err e) ↔ False := by
  unfold M.warn; simp

theorem bind_eq_ok {x : M α} {f : α → M β} {b : β} {w : List Warn} :
    M.bind x f = .ok b w ↔ ∃ a w1 w2, x = .ok a w1 ∧ f a = .ok b w2 ∧ w = w1 ++ w2 := by
  constructor
  · intro h
    unfold M.bind at h
    cases x with
    | err e => simp at h
    | ok a w1 =>
      simp only at h
      cases hf : f a with
      | err e => rw [hf] at h; simp at h
      | ok b' w2 =>
        rw [hf] at h
        simp only [M.ok.injEq] at h
        obtain ⟨rfl, rfl⟩ := h
        exact ⟨a, w1, w2, rfl, hf, rfl⟩
  · rintro ⟨a, w1, w2, rfl, hf, rfl⟩
    simp [M.bind, hf]

theorem bind_eq_err {x : M α} {f : α → M β} {e : Exn} :
    M.bind x f = .err e ↔ x = .err e ∨ ∃ a w, x = .ok a w ∧ f a = .err e := by
  unfold M.bind
  cases x with
  | err e' => simp
  | ok a w =>
    cases hf : f a with
    | err e' => simp [hf]
    | ok b w2 => simp [hf]

@[simp] theorem bind_pure {a : α} {f : α → M β} : M.bind (M.pure a) f = f a := by
  show (match f a with | .err e => M.err e | .ok b w' => M.ok b ([] ++ w')) = f a
  cases h : f a <;> simp

@[simp] theorem bind_throw {e : Exn} {f : α → M β} : M.bind (M.throw e) f = M.throw e := rfl

@[simp] theorem bind_ok_nil {a : α} {f : α → M β} : M.bind (M.ok a []) f = f a := by
  show (match f a with | .err e => M.err e | .ok b w' => M.ok b ([] ++ w')) = f a
  cases h : f a <;> simp

theorem warnIf_eq_ok {c : Bool} {w : Warn} {u : Unit} {ws : List Warn} :
    (M.warnIf c w = M.ok u ws) ↔ ws = if c then [w] else [] := by
  unfold M.warnIf; cases u; cases c <;> simp

theorem warnIf_ne_err {c : Bool} {w : Warn} {e : Exn} : (M.warnIf c w = M.err e) ↔ False := by
  unfold M.warnIf; cases c <;> simp

theorem ofOption_eq_ok {o : Option α} {e : Exn} {a : α} {ws : List Warn} :
    (M.ofOption o e = M.ok a ws) ↔ (o = some a ∧ ws = []) := by
  unfold M.ofOption; cases o <;> simp

/-- `x` returns `a` (with some warnings). -/
def rets (x : M α) (a : α) : Prop := ∃ ws, x = .ok a ws

theorem rets_bind {x : M α} {f : α → M β} {b : β} : rets (M.bind x f) b ↔ ∃ a, rets x a ∧ rets (f a) b := by
  constructor
  · rintro ⟨w, h⟩
    obtain ⟨a, w1, w2, h1, h2, -⟩ := bind_eq_ok.1 h
    exact ⟨a, ⟨w1, h1⟩, ⟨w2, h2⟩⟩
  · rintro ⟨a, ⟨w1, h1⟩, ⟨w2, h2⟩⟩
    exact ⟨w1 ++ w2, bind_eq_ok.2 ⟨a, w1, w2, h1, h2, rfl⟩⟩

@[simp] theorem rets_pure {a b : α} : rets (M.pure a) b ↔ a = b := by
  constructor
  · rintro ⟨w, h⟩; exact (pure_eq_ok.1 h).1
  · rintro rfl; exact ⟨[], rfl⟩

/-- Element-wise relation between two lists, with the concatenated warnings. -/
inductive Each (f : α → M β) : List α → List β → List Warn → Prop
  | nil : Each f [] [] []
  | cons {x y w xs ys ws} : f x = .ok y w → Each f xs ys ws → Each f (x :: xs) (y :: ys) (w ++ ws)

theorem mapM_eq_ok {f : α → M β} {xs : List α} {ys : List β} {ws : List Warn} :
    M.mapM f xs = .ok ys ws ↔ Each f xs ys ws := by
  induction xs generalizing ys ws with
  | nil =>
    simp only [M.mapM, pure_eq_ok]
    constructor
    · rintro ⟨rfl, rfl⟩; exact .nil
    · intro h; cases h; exact ⟨rfl, rfl⟩
  | cons x xs ih =>
    simp only [M.mapM, bind_eq_ok, pure_eq_ok]
    constructor
    · rintro ⟨y, w1, w2, hy, ⟨ys', w3, w4, hys, ⟨rfl, rfl⟩, rfl⟩, rfl⟩
      rw [List.append_nil]
      exact .cons hy (ih.1 hys)
    · intro h
      cases h with
      | cons hy h => exact ⟨_, _, _, hy, ⟨_, _, [], ih.2 h, ⟨rfl, rfl⟩, rfl⟩, by simp⟩

theorem Each.length {f : α → M β} {xs : List α} {ys : List β} {ws : List Warn} (h : Each f xs ys ws) :
    ys.length = xs.length := by
  induction h with
  | nil => rfl
  | cons _ _ ih => simp [ih]

theorem Each.mem {f : α → M β} {xs : List α} {ys : List β} {ws : List Warn} (h : Each f xs ys ws) {y : β}
    (hy : y ∈ ys) : ∃ x ∈ xs, ∃ w, f x = .ok y w := by
  induction h with
  | nil => cases hy
  | @cons x y' w xs ys ws hx _ ih =>
    rcases List.mem_cons.1 hy with rfl | hy
    · exact ⟨x, by simp, w, hx⟩
    · obtain ⟨x', h1, h2⟩ := ih hy
      exact ⟨x', by simp [h1], h2⟩

theorem Each.mem' {f : α → M β} {xs : List α} {ys : List β} {ws : List Warn} (h : Each f xs ys ws) {x : α}
    (hx : x ∈ xs) : ∃ y ∈ ys, ∃ w, f x = .ok y w := by
  induction h with
  | nil => cases hx
  | @cons x' y' w xs ys ws h1 _ ih =>
    rcases List.mem_cons.1 hx with rfl | hx
    · exact ⟨y', by simp, w, h1⟩
    · obtain ⟨y, h2, h3⟩ := ih hx
      exact ⟨y, by simp [h2], h3⟩

/-- A result of a run, with its warnings. -/
theorem Each.mem_ws {f : α → M β} {xs : List α} {ys : List β} {ws : List Warn} (h : Each f xs ys ws) {y : β}
    (hy : y ∈ ys) : ∃ x ∈ xs, ∃ w, f x = .ok y w ∧ ∀ u ∈ w, u ∈ ws := by
  induction h with
  | nil => cases hy
  | @cons x y' w xs ys ws hx _ ih =>
    rcases List.mem_cons.1 hy with rfl | hy
    · exact ⟨x, by simp, w, hx, fun u hu => by simp [hu]⟩
    · obtain ⟨x', h1, w', h2, h3⟩ := ih hy
      exact ⟨x', by simp [h1], w', h2, fun u hu => by simp [h3 u hu]⟩

/-- An argument of a run, with its warnings. -/
theorem Each.mem_ws' {f : α → M β} {xs : List α} {ys : List β} {ws : List Warn} (h : Each f xs ys ws) {x : α}
    (hx : x ∈ xs) : ∃ y ∈ ys, ∃ w, f x = .ok y w ∧ ∀ u ∈ w, u ∈ ws := by
  induction h with
  | nil => cases hx
  | @cons x' y' w xs ys ws h1 _ ih =>
    rcases List.mem_cons.1 hx with rfl | hx
    · exact ⟨y', by simp, w, h1, fun u hu => by simp [hu]⟩
    · obtain ⟨y, h2, w', h3, h4⟩ := ih hx
      exact ⟨y, by simp [h2], w', h3, fun u hu => by simp [h4 u hu]⟩

/-- Where a warning of a run comes from. -/
theorem Each.of_ws {f : α → M β} {xs : List α} {ys : List β} {ws : List Warn} (h : Each f xs ys ws) {u : Warn}
    (hu : u ∈ ws) : ∃ x ∈ xs, ∃ y ∈ ys, ∃ w, f x = .ok y w ∧ u ∈ w := by
  induction h with
  | nil => cases hu
  | @cons x' y' w xs ys ws h1 _ ih =>
    rcases List.mem_append.1 hu with hu | hu
    · exact ⟨x', by simp, y', by simp, w, h1, hu⟩
    · obtain ⟨x, h2, y, h3, h4⟩ := ih hu
      exact ⟨x, by simp [h2], y, by simp [h3], h4⟩

/-- Map/projection law: if `f x` always returns something whose projection is `g x`. -/
theorem Each.map_eq {δ : Type} {f : α → M β} {g : α → δ} {p : β → δ} {xs : List α} {ys : List β} {ws : List Warn}
    (h : Each f xs ys ws) (hp : ∀ x y w, x ∈ xs → f x = .ok y w → p y = g x) : ys.map p = xs.map g := by
  induction h with
  | nil => rfl
  | @cons x y w xs ys ws h1 _ ih =>
    simp only [List.map_cons]
    rw [hp x y w (by simp) h1, ih (fun x' y' w' hm => hp x' y' w' (by simp [hm]))]

theorem filterMapM_nil {f : α → M (Option β)} : M.filterMapM f [] = M.pure [] := rfl

/-- Splitting of a `filterMapM` run. -/
theorem filterMapM_cons_ok {f : α → M (Option β)} {x : α} {xs : List α} {ys : List β} {ws : List Warn} :
    M.filterMapM f (x :: xs) = .ok ys ws ↔
      ∃ o w1 zs w2, f x = .ok o w1 ∧ M.filterMapM f xs = .ok zs w2 ∧ ys = o.toList ++ zs ∧ ws = w1 ++ w2 := by
  simp only [M.filterMapM, bind_eq_ok, pure_eq_ok]
  constructor
  · rintro ⟨o, w1, w2, h1, ⟨zs, w3, w4, h2, ⟨rfl, rfl⟩, rfl⟩, rfl⟩
    refine ⟨o, w1, zs, w3, h1, h2, ?_, by simp⟩
    cases o <;> rfl
  · rintro ⟨o, w1, zs, w2, h1, h2, rfl, rfl⟩
    refine ⟨o, w1, w2, h1, ⟨zs, w2, [], h2, ⟨?_, rfl⟩, by simp⟩, rfl⟩
    cases o <;> rfl

theorem foldM_inv {f : β → α → M β} {I : β → Prop} (step : ∀ b a b' w, I b → f b a = .ok b' w → I b') :
    ∀ (xs : List α) (b b' : β) (w : List Warn), I b → M.foldM f b xs = .ok b' w → I b' := by
  intro xs
  induction xs with
  | nil => intro b b' w hb h; simp only [M.foldM, pure_eq_ok] at h; obtain ⟨rfl, rfl⟩ := h; exact hb
  | cons x xs ih =>
    intro b b' w hb h
    simp only [M.foldM, bind_eq_ok] at h
    obtain ⟨b1, w1, w2, h1, h2, -⟩ := h
    exact ih _ _ _ (step _ _ _ _ hb h1) h2

theorem foldM_append {f : β → α → M β} (b : β) (xs ys : List α) :
    M.foldM f b (xs ++ ys) = M.bind (M.foldM f b xs) fun b' => M.foldM f b' ys := by
  induction xs generalizing b with
  | nil => simp [M.foldM]
  | cons x xs ih =>
    simp only [List.cons_append, M.foldM]
    cases hx : f b x with
    | err e => simp [M.bind]
    | ok b1 w1 =>
      simp only [M.bind, ih]
      cases M.foldM f b1 xs with
      | err e => simp
      | ok b2 w2 =>
        simp only
        cases M.foldM f b2 ys <;> simp

end M

/-! ### sorting -/
section Sorting
variable {α : Type _} {le : α → α → Bool}

theorem insertBy_perm (x : α) (l : List α) : (insertBy le x l).Perm (x :: l) := by
  induction l with
  | nil => exact List.Perm.refl _
  | cons y ys ih =>
    unfold insertBy
    split
    · exact List.Perm.refl _
    · exact (List.Perm.cons y ih).trans (List.Perm.swap x y ys)

theorem sortBy_perm (l : List α) : (sortBy le l).Perm l := by
  induction l with
  | nil => exact List.Perm.refl _
  | cons x xs ih => exact (insertBy_perm x _).trans (List.Perm.cons x ih)

@[simp] theorem mem_sortBy {l : List α} {a : α} : a ∈ sortBy le l ↔ a ∈ l := (sortBy_perm l).mem_iff

@[simp] theorem length_sortBy {l : List α} : (sortBy le l).length = l.length := (sortBy_perm l).length_eq

/-- `le` is total and transitive. -/
structure TotalPre (le : α → α → Bool) : Prop where
  total : ∀ a b, le a b = true ∨ le b a = true
  trans : ∀ a b c, le a b = true → le b c = true → le a c = true

theorem insertBy_sorted (h : TotalPre le) (x : α) (l : List α) (hl : l.Pairwise (fun a b => le a b = true)) :
    (insertBy le x l).Pairwise (fun a b => le a b = true) := by
  induction l with
  | nil => simp [insertBy]
  | cons y ys ih =>
    unfold insertBy
    split
    · rename_i hxy
      refine List.Pairwise.cons ?_ hl
      intro z hz
      rcases List.mem_cons.1 hz with rfl | hz
      · exact hxy
      · exact h.trans _ _ _ hxy ((List.pairwise_cons.1 hl).1 z hz)
    · rename_i hxy
      have hyx : le y x = true := (h.total x y).resolve_left hxy
      refine List.Pairwise.cons ?_ (ih (List.pairwise_cons.1 hl).2)
      intro z hz
      rcases List.mem_cons.1 ((insertBy_perm x ys).mem_iff.1 hz) with rfl | hz
      · exact hyx
      · exact (List.pairwise_cons.1 hl).1 z hz

theorem sortBy_sorted (h : TotalPre le) (l : List α) : (sortBy le l).Pairwise (fun a b => le a b = true) := by
  induction l with
  | nil => exact .nil
  | cons x xs ih => exact insertBy_sorted h x _ ih

/-- Sorting an already sorted list changes nothing. -/
theorem sortBy_of_sorted (l : List α) (hl : l.Pairwise (fun a b => le a b = true)) : sortBy le l = l := by
  induction l with
  | nil => rfl
  | cons x xs ih =>
    have hc := List.pairwise_cons.1 hl
    unfold sortBy
    rw [ih hc.2]
    cases xs with
    | nil => rfl
    | cons y ys => simp [insertBy, hc.1 y (by simp)]

theorem sortBy_eq_nil {l : List α} : sortBy le l = [] ↔ l = [] := by
  constructor
  · intro h
    have := length_sortBy (le := le) (l := l)
    rw [h] at this
    exact List.length_eq_zero_iff.1 this.symm
  · rintro rfl; rfl

theorem insertBy_map {β : Type _} {le' : β → β → Bool} (f : α → β) (hf : ∀ a b, le' (f a) (f b) = le a b) (x : α)
    (l : List α) : insertBy le' (f x) (l.map f) = (insertBy le x l).map f := by
  induction l with
  | nil => rfl
  | cons y ys ih =>
    simp only [List.map_cons, insertBy, hf]
    split
    · simp
    · simp [ih]

theorem sortBy_map {β : Type _} {le' : β → β → Bool} (f : α → β) (hf : ∀ a b, le' (f a) (f b) = le a b)
    (l : List α) : sortBy le' (l.map f) = (sortBy le l).map f := by
  induction l with
  | nil => rfl
  | cons x xs ih => simp only [List.map_cons, sortBy, ih, insertBy_map f hf]

theorem totalPre_of_int (f : α → Int) : TotalPre (fun a b => decide (f a ≤ f b)) where
  total a b := by simp only [decide_eq_true_eq]; omega
  trans a b c := by simp only [decide_eq_true_eq]; omega

end Sorting

theorem strLe_total (a b : Str) : strLe a b = true ∨ strLe b a = true := by
  induction a generalizing b with
  | nil => left; rfl
  | cons x xs ih =>
    cases b with
    | nil => right; rfl
    | cons y ys =>
      simp only [strLe]
      by_cases h1 : x.toNat < y.toNat
      · simp [h1]
      · by_cases h2 : y.toNat < x.toNat
        · simp [h2]
        · simp [h1, h2, ih ys]

theorem strLe_trans (a b c : Str) : strLe a b = true → strLe b c = true → strLe a c = true := by
  induction a generalizing b c with
  | nil => intros; rfl
  | cons x xs ih =>
    cases b with
    | nil => intro h; simp [strLe] at h
    | cons y ys =>
      cases c with
      | nil => intro _ h; simp [strLe] at h
      | cons z zs =>
        simp only [strLe]
        intro h1 h2
        split at h1
        · split at h2
          · simp [show x.toNat < z.toNat by omega]
          · split at h2
            · simp at h2
            · simp [show x.toNat < z.toNat by omega]
        · split at h1
          · simp at h1
          · split at h2
            · simp [show x.toNat < z.toNat by omega]
            · split at h2
              · simp at h2
              · simp [show ¬ x.toNat < z.toNat by omega, show ¬ z.toNat < x.toNat by omega, ih _ _ h1 h2]

theorem strLe_antisymm (a b : Str) : strLe a b = true → strLe b a = true → a = b := by
  induction a generalizing b with
  | nil =>
    cases b with
    | nil => intros; rfl
    | cons y ys => intro _ h; simp [strLe] at h
  | cons x xs ih =>
    cases b with
    | nil => intro h; simp [strLe] at h
    | cons y ys =>
      simp only [strLe]
      intro h1 h2
      by_cases hxy : x.toNat < y.toNat
      · simp [hxy, show ¬ y.toNat < x.toNat by omega] at h2
      · by_cases hyx : y.toNat < x.toNat
        · simp [hxy, hyx] at h1
        · simp [hxy, hyx] at h1 h2
          have : x = y := Char.toNat_inj.1 (by omega)
          rw [this, ih _ h1 h2]

theorem strLe_refl (a : Str) : strLe a a = true := (strLe_total a a).elim id id

theorem totalPre_intStr {α : Type _} (f : α → Int × Str) : TotalPre (fun a b => intStrLe (f a) (f b)) where
  total a b := by
    simp only [intStrLe]
    by_cases h1 : (f a).1 < (f b).1
    · simp [h1]
    · by_cases h2 : (f b).1 < (f a).1
      · simp [h2]
      · simpa [h1, h2] using strLe_total _ _
  trans a b c := by
    simp only [intStrLe]
    intro h1 h2
    split at h1
    · split at h2
      · simp [show (f a).1 < (f c).1 by omega]
      · split at h2
        · simp at h2
        · simp [show (f a).1 < (f c).1 by omega]
    · split at h1
      · simp at h1
      · split at h2
        · simp [show (f a).1 < (f c).1 by omega]
        · split at h2
          · simp at h2
          · simp [show ¬ (f a).1 < (f c).1 by omega, show ¬ (f c).1 < (f a).1 by omega, strLe_trans _ _ _ h1 h2]

/-! ### ranges, maxima -/

theorem rangeFrom_eq (s n : Nat) : rangeFrom s n = List.range' s n := by
  induction n generalizing s with
  | zero => rfl
  | succ n ih => simp [rangeFrom, ih, List.range'_succ]

theorem rangeFrom_zero (n : Nat) : rangeFrom 0 n = List.range n := by
  rw [rangeFrom_eq, List.range_eq_range']

theorem le_maxList (m : Int) (l : List Int) : m ≤ maxList m l ∧ ∀ x ∈ l, x ≤ maxList m l := by
  induction l generalizing m with
  | nil => simp [maxList]
  | cons x xs ih =>
    simp only [maxList]
    have h := ih (if m < x then x else m)
    constructor
    · have := h.1; split at this <;> split <;> omega
    · intro y hy
      rcases List.mem_cons.1 hy with rfl | hy
      · have := h.1; split at this <;> split <;> omega
      · exact h.2 y hy

theorem maxList_mem (m : Int) (l : List Int) : maxList m l = m ∨ maxList m l ∈ l := by
  induction l generalizing m with
  | nil => simp [maxList]
  | cons x xs ih =>
    simp only [maxList]
    rcases ih (if m < x then x else m) with h | h
    · rw [h]; split <;> simp
    · simp [h]

end Svd
