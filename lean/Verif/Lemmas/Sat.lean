import Verif.Lemmas.Basic
/-
Which exceptions and which warnings a call can produce.
-/
namespace Svd
namespace M
variable {α β : Type} {E : Exn → Prop} {W : Warn → Prop}

/-- An exception of `x` satisfies `E`; the warnings of a successful `x` satisfy `W`. -/
def Sat (E : Exn → Prop) (W : Warn → Prop) : M α → Prop
  | .ok _ ws => ∀ w ∈ ws, W w
  | .err e => E e

theorem Sat.err {x : M α} (h : Sat E W x) {e : Exn} (he : x = .err e) : E e := by subst he; exact h
theorem Sat.warns {x : M α} (h : Sat E W x) {a : α} {ws : List Warn} (he : x = .ok a ws) : ∀ w ∈ ws, W w := by
  subst he; exact h

theorem sat_pure (a : α) : Sat E W (M.pure a) := fun _ h => by cases h
theorem sat_ok {a : α} {ws : List Warn} (h : ∀ w ∈ ws, W w) : Sat E W (M.ok a ws) := h
theorem sat_throw {e : Exn} (h : E e) : Sat E W (M.throw e : M α) := h
theorem sat_warn {w : Warn} (h : W w) : Sat E W (M.warn w) := fun x hx => by
  rw [List.mem_singleton.1 hx]; exact h
theorem sat_warnIf {c : Bool} {w : Warn} (h : c = true → W w) : Sat E W (M.warnIf c w) := by
  unfold M.warnIf
  split
  · exact sat_warn (h ‹_›)
  · exact sat_pure _

theorem sat_bind' {x : M α} {f : α → M β} (hx : Sat E W x) (hf : ∀ a ws, x = .ok a ws → Sat E W (f a)) :
    Sat E W (M.bind x f) := by
  cases x with
  | err e => exact hx
  | ok a ws =>
    have := hf a ws rfl
    cases hb : M.bind (.ok a ws) f with
    | err e =>
      rcases bind_eq_err.1 hb with h | ⟨a', w, h, h'⟩
      · cases h
      · cases h
        rw [h'] at this; exact this
    | ok b w' =>
      obtain ⟨a', w1, w2, h, h', rfl⟩ := bind_eq_ok.1 hb
      cases h
      rw [h'] at this
      intro w hw
      rcases List.mem_append.1 hw with hw | hw
      · exact hx w hw
      · exact this w hw

theorem sat_bind {x : M α} {f : α → M β} (hx : Sat E W x) (hf : ∀ a, Sat E W (f a)) : Sat E W (M.bind x f) :=
  sat_bind' hx fun a _ _ => hf a

theorem sat_ofOption {o : Option α} {e : Exn} (h : o = none → E e) : Sat E W (M.ofOption o e) := by
  cases o with
  | none => exact h rfl
  | some a => exact sat_pure _

theorem sat_mapM {f : α → M β} {xs : List α} (h : ∀ x ∈ xs, Sat E W (f x)) : Sat E W (M.mapM f xs) := by
  induction xs with
  | nil => exact sat_pure _
  | cons x xs ih =>
    exact sat_bind (h x (by simp)) fun _ => sat_bind (ih fun y hy => h y (by simp [hy])) fun _ => sat_pure _

theorem sat_filterMapM {f : α → M (Option β)} {xs : List α} (h : ∀ x ∈ xs, Sat E W (f x)) :
    Sat E W (M.filterMapM f xs) := by
  induction xs with
  | nil => exact sat_pure _
  | cons x xs ih =>
    exact sat_bind (h x (by simp)) fun _ => sat_bind (ih fun y hy => h y (by simp [hy])) fun _ => sat_pure _

theorem sat_foldM {f : β → α → M β} {xs : List α} {b : β} (h : ∀ b, ∀ x ∈ xs, Sat E W (f b x)) :
    Sat E W (M.foldM f b xs) := by
  induction xs generalizing b with
  | nil => exact sat_pure _
  | cons x xs ih =>
    exact sat_bind (h b x (by simp)) fun _ => ih fun b y hy => h b y (by simp [hy])

theorem Sat.mono {x : M α} {E' : Exn → Prop} {W' : Warn → Prop} (h : Sat E W x) (hE : ∀ e, E e → E' e)
    (hW : ∀ w, W w → W' w) : Sat E' W' x := by
  cases x with
  | err e => exact hE _ h
  | ok a ws => exact fun w hw => hW _ (h w hw)

end M
end Svd
