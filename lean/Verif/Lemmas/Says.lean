import Verif.Spec.Says
import Verif.Lemmas.Literal
import Verif.Lemmas.Text
import Verif.Lemmas.RoundTrip
/-
The parser reads what the document says, and reads every document that says something.
-/
namespace Svd
open Spec

/-- The computation succeeds with `a`, with any warnings. -/
def Gives {α : Type} (m : M α) (a : α) : Prop := ∃ ws, m = .ok a ws

section
variable {α β : Type}

theorem gives_pure {a b : α} : Gives (M.pure a) b ↔ a = b := by
  unfold Gives
  simp only [M.pure_eq_ok]
  constructor
  · rintro ⟨_, h, _⟩; exact h
  · rintro rfl; exact ⟨[], rfl, rfl⟩
theorem gives_bind {m : M α} {f : α → M β} {b : β} : Gives (M.bind m f) b ↔ ∃ a, Gives m a ∧ Gives (f a) b := by
  unfold Gives
  constructor
  · rintro ⟨ws, h⟩
    obtain ⟨a, w1, w2, h1, h2, _⟩ := M.bind_eq_ok.1 h
    exact ⟨a, ⟨w1, h1⟩, w2, h2⟩
  · rintro ⟨a, ⟨w1, h1⟩, w2, h2⟩
    exact ⟨w1 ++ w2, M.bind_eq_ok.2 ⟨a, w1, w2, h1, h2, rfl⟩⟩
theorem gives_bind' {m : M α} {f : α → M β} {b : β} : Gives (m >>= f) b ↔ ∃ a, Gives m a ∧ Gives (f a) b := gives_bind
theorem gives_throw {e : Exn} {a : α} : Gives (M.throw e : M α) a ↔ False := by
  simp [Gives, M.throw]
theorem gives_warn {w : Warn} {u : Unit} : Gives (M.warn w) u ↔ True := by
  simp [Gives, M.warn]
theorem gives_warnIf {b : Bool} {w : Warn} {u : Unit} : Gives (M.warnIf b w) u ↔ True := by
  cases b <;> simp [Gives, M.warnIf, M.warn, M.pure]
theorem gives_ofOption {o : Option α} {e : Exn} {a : α} : Gives (M.ofOption o e) a ↔ o = some a := by
  cases o <;> simp [Gives, M.ofOption, M.pure, M.throw]

theorem gives_mapM {f : α → M β} {R : α → β → Prop} (h : ∀ x y, Gives (f x) y ↔ R x y) (xs : List α) : ∀ ys,
    Gives (M.mapM f xs) ys ↔ Entrywise R xs ys := by
  induction xs with
  | nil =>
    intro ys
    simp only [M.mapM, gives_pure]
    constructor
    · rintro rfl; exact .nil
    · intro h; cases h; rfl
  | cons x xs ih =>
    intro ys
    simp only [M.mapM, gives_bind, gives_pure]
    constructor
    · rintro ⟨y, h1, zs, h2, rfl⟩; exact .cons ((h x y).1 h1) ((ih zs).1 h2)
    · intro h'; cases h' with
      | cons h1 h2 => exact ⟨_, (h _ _).2 h1, _, (ih _).2 h2, rfl⟩
end

/-! ### texts -/

theorem kids_eq (e : XElem) (t : Str) : kids e t = e.findall t := rfl

theorem gives_lastText {t : Str} {b o : Bool} {x : XElem} {r : Option Str} : Gives (lastText t b o x) r ↔
    (x.text = none ∧ o = true ∧ r = none) ∨ ∃ s, x.text = some s ∧ r = some (if b then trim s else s) := by
  unfold lastText
  cases x.text with
  | none => cases o <;> simp [gives_pure, gives_throw, eq_comm]
  | some s => cases b <;> simp [gives_pure, gives_bind, gives_warnIf, trim_eq, eq_comm]

theorem gives_elementText {t : Str} {e : XElem} {b o : Bool} {r : Option Str} : Gives (elementText t e b o) r ↔
    (Text e t none ∧ o = true ∧ r = none) ∨ ∃ s, Text e t (some s) ∧ r = some (if b then trim s else s) := by
  unfold elementText
  have hk := kids_eq e t
  split
  · rename_i h
    rw [h] at hk
    have hno : ∀ s, ¬ Text e t (some s) := by
      intro s hs
      cases hs with
      | last h1 => rw [hk] at h1; simp at h1
    have hyes : Text e t none := .absent hk
    cases o
    · simp [gives_throw, hno]
    · simp [gives_pure, hno, hyes, eq_comm]
  · rename_i x h
    rw [h] at hk
    rw [gives_lastText]
    have h1 : ∀ s, Text e t (some s) ↔ x.text = some s := by
      intro s
      constructor
      · intro hs
        cases hs with
        | @last l y _ h1 h2 h3 =>
          rw [hk] at h1
          cases l with
          | nil => simp at h1; rw [h1]; exact h3
          | cons z l => simp at h1
      · intro hs; exact .last (l := []) hk (by simp) hs
    have h2 : Text e t none ↔ x.text = none := by
      constructor
      · intro hs
        cases hs with
        | absent h => rw [hk] at h; simp at h
        | empty h h' => rw [hk] at h; simp at h; rw [h]; exact h'
      · exact .empty hk
    simp only [h1, h2]
  · rename_i x xs hxs h
    rw [h] at hk
    have hne : xs ≠ [] := fun h' => hxs h'
    have hlast : xs.getLastD x = xs.getLast hne := by
      cases xs with
      | nil => exact absurd rfl hne
      | cons y ys => simp [List.getLastD]
    have hsplit : kids e t = (x :: xs.dropLast) ++ [xs.getLast hne] := by
      rw [hk, List.cons_append, List.dropLast_concat_getLast hne]
    have hnone : ¬ Text e t none := by
      intro hs
      cases hs with
      | absent h => rw [hk] at h; simp at h
      | empty h h' => rw [hk] at h; simp at h; exact hne h.2
    split
    · rename_i hany
      have hno : ∀ s, ¬ Text e t (some s) := by
        intro s hs
        cases hs with
        | @last l y _ h1 h2 h3 =>
          rw [List.any_eq_true] at hany
          obtain ⟨z, hz, hzn⟩ := hany
          rw [← hk, h1] at hz
          rcases List.mem_append.1 hz with hz | hz
          · exact h2 z hz (by simpa using hzn)
          · simp at hz; subst hz; rw [h3] at hzn; simp at hzn
      simp [gives_throw, hno, hnone]
    · rename_i hany
      simp only [Bool.not_eq_true, List.any_eq_false] at hany
      have hall : ∀ z ∈ x :: xs, z.text ≠ none := fun z hz h' => by have := hany z hz; simp [h'] at this
      rw [gives_bind]
      simp only [gives_warn, true_and, exists_const, gives_lastText, hlast]
      have hlt : (xs.getLast hne).text ≠ none := hall _ (List.mem_cons_of_mem _ (List.getLast_mem hne))
      have h1 : ∀ s, Text e t (some s) ↔ (xs.getLast hne).text = some s := by
        intro s
        constructor
        · intro hs
          cases hs with
          | @last l y _ h1 h2 h3 =>
            rw [hsplit] at h1
            have := (List.append_inj' h1 rfl).2
            simp at this
            rw [this]; exact h3
        · intro hs
          refine .last hsplit (fun y hy => hall y ?_) hs
          rcases List.mem_cons.1 hy with rfl | hy
          · simp
          · exact List.mem_cons_of_mem _ (List.dropLast_subset _ hy)
      simp [h1, hnone, hlt]

theorem gives_rawText {t : Str} {e : XElem} {r : Option Str} : Gives (rawText t e) r ↔ Text e t r := by
  unfold rawText
  rw [gives_elementText]
  cases r <;> simp

theorem gives_optText {t : Str} {e : XElem} {r : Option Str} : Gives (optText t e) r ↔ Value Eq e t r := by
  unfold optText
  rw [gives_elementText]
  constructor
  · rintro (⟨h, _, rfl⟩ | ⟨s, h, rfl⟩)
    · exact .absent h
    · exact .given h rfl
  · intro h
    cases h with
    | absent h => exact Or.inl ⟨h, rfl, rfl⟩
    | given h h' => exact Or.inr ⟨_, h, by rw [← h']; rfl⟩

theorem gives_reqText {t : Str} {e : XElem} {r : Str} : Gives (reqText t e) r ↔ Value Eq e t (some r) := by
  unfold reqText
  simp only [gives_bind, gives_ofOption, gives_elementText]
  constructor
  · rintro ⟨o, ⟨_, h, _⟩ | ⟨s, h, rfl⟩, h'⟩
    · simp at h
    · exact .given h (by simpa using h')
  · intro h
    cases h with
    | given h h' => exact ⟨_, Or.inr ⟨_, h, rfl⟩, by rw [← h']; rfl⟩

/-- A value read from a text. -/
theorem value_map {α : Type} {R : Str → α → Prop} {e : XElem} {t : Str} {o : Option α} :
    Value R e t o ↔ ∃ s, Value Eq e t s ∧ ((s = none ∧ o = none) ∨ ∃ x a, s = some x ∧ o = some a ∧ R x a) := by
  constructor
  · intro h
    cases h with
    | absent h => exact ⟨none, .absent h, Or.inl ⟨rfl, rfl⟩⟩
    | given h h' => exact ⟨_, .given h rfl, Or.inr ⟨_, _, rfl, rfl, h'⟩⟩
  · rintro ⟨s, h, ⟨rfl, rfl⟩ | ⟨x, a, rfl, rfl, h'⟩⟩
    · cases h with
      | absent h => exact .absent h
    · cases h with
      | given h h'' => subst h''; exact .given h h'

section
variable {α : Type} {f : Str → M α} {R : Str → α → Prop}

theorem gives_optM (hf : ∀ s a, Gives (f s) a ↔ R s a) {s : Option Str} {o : Option α} :
    Gives (optM f s) o ↔ ((s = none ∧ o = none) ∨ ∃ x a, s = some x ∧ o = some a ∧ R x a) := by
  unfold optM
  cases s with
  | none => simp [gives_pure, eq_comm]
  | some x => simp [gives_bind, gives_pure, hf, eq_comm, and_comm]

theorem gives_optVal (hf : ∀ s a, Gives (f s) a ↔ R s a) {t : Str} {e : XElem} {o : Option α} :
    (∃ s, Value Eq e t s ∧ Gives (optM f s) o) ↔ Value R e t o := by
  rw [value_map]
  simp only [gives_optM hf]

theorem gives_reqVal (hf : ∀ s a, Gives (f s) a ↔ R s a) {t : Str} {e : XElem} {a : α} :
    Gives (M.bind (reqText t e) f) a ↔ Value R e t (some a) := by
  simp only [gives_bind, gives_reqText, hf]
  rw [value_map]
  constructor
  · rintro ⟨s, h, h'⟩; exact ⟨_, h, Or.inr ⟨_, _, rfl, rfl, h'⟩⟩
  · rintro ⟨s, h, ⟨rfl, h'⟩ | ⟨x, b, rfl, h', h''⟩⟩
    · simp at h'
    · cases h'; exact ⟨_, h, h''⟩

theorem gives_optAttr {k : Str} {e : XElem} {r : Option Str} : Gives (optAttr k e) r ↔ AttrValue Eq e k r := by
  unfold optAttr XElem.get
  cases h : List.lookup k e.attrs with
  | none =>
    simp only [gives_pure]
    constructor
    · rintro rfl; exact .absent h
    · intro h'; cases h' with
      | absent _ => rfl
      | given h1 _ => rw [h] at h1; simp at h1
  | some s =>
    simp only [gives_bind, gives_warnIf, true_and, exists_const, gives_pure, ← trim_eq]
    constructor
    · rintro rfl; exact .given h rfl
    · intro h'; cases h' with
      | absent h1 => rw [h] at h1; simp at h1
      | given h1 h2 => rw [h] at h1; cases h1; rw [h2]

theorem gives_optAttrVal (hf : ∀ s a, Gives (f s) a ↔ R s a) {k : Str} {e : XElem} {o : Option α} :
    (∃ s, AttrValue Eq e k s ∧ Gives (optM f s) o) ↔ AttrValue R e k o := by
  simp only [gives_optM hf]
  constructor
  · rintro ⟨s, h, ⟨rfl, rfl⟩ | ⟨x, a, rfl, rfl, h'⟩⟩
    · cases h with
      | absent h => exact .absent h
    · cases h with
      | given h h'' => subst h''; exact .given h h'
  · intro h
    cases h with
    | absent h => exact ⟨none, .absent h, Or.inl ⟨rfl, rfl⟩⟩
    | given h h' => exact ⟨_, .given h rfl, Or.inr ⟨_, _, rfl, rfl, h'⟩⟩

theorem gives_reqAttr {k : Str} {e : XElem} {r : Str} : Gives (reqAttr k e) r ↔ AttrValue Eq e k (some r) := by
  unfold reqAttr
  simp only [gives_bind, gives_ofOption, gives_optAttr]
  simp
end

/-! ### values -/

theorem gives_toInt (s : Str) (i : Int) : Gives (toInt s) i ↔ IntText s i := by
  rw [← toInt_text]
  constructor
  · rintro ⟨ws, h⟩
    rcases toInt_cases s with ⟨j, hj⟩ | hj
    · rw [hj] at h; cases h; exact hj
    · rw [hj] at h; cases h
  · intro h; exact ⟨_, h⟩

theorem gives_toBool (s : Str) (b : Bool) : Gives (toBool s) b ↔ BoolText s b := by
  unfold toBool BoolText
  rw [lowerText_eq]
  have n1 : lower (s%"1") ≠ s%"false" := by decide
  have n2 : lower (s%"1") ≠ s%"true" := by decide
  have n3 : lower (s%"0") ≠ s%"false" := by decide
  have n4 : lower (s%"0") ≠ s%"true" := by decide
  have n5 : s%"0" ≠ s%"1" := by decide
  have n6 : s%"true" ≠ s%"false" := by decide
  by_cases h1 : lower s = s%"true"
  · have h2 : s ≠ s%"0" := fun he => n4 (he ▸ h1)
    have h3 : lower s ≠ s%"false" := h1 ▸ n6
    simp only [h1, if_true, gives_pure]
    simp [h2, n6, eq_comm]
  · by_cases h2 : lower s = s%"false"
    · have h3 : s ≠ s%"1" := fun he => n1 (he ▸ h2)
      simp only [h2, n6.symm, if_true, if_false, gives_pure]
      simp [h3, n6.symm, eq_comm]
    · by_cases h3 : s = s%"1"
      · have h4 : s ≠ s%"0" := fun he => n5 (he.symm.trans h3)
        rw [if_neg h1, if_neg h2, if_pos h3, gives_pure]
        constructor
        · rintro rfl; exact Or.inl ⟨Or.inr h3, rfl⟩
        · rintro (⟨_, rfl⟩ | ⟨h | h, _⟩)
          · rfl
          · exact absurd h h2
          · exact absurd h h4
      · by_cases h4 : s = s%"0"
        · rw [if_neg h1, if_neg h2, if_neg h3, if_pos h4, gives_pure]
          constructor
          · rintro rfl; exact Or.inr ⟨Or.inr h4, rfl⟩
          · rintro (⟨h | h, _⟩ | ⟨_, rfl⟩)
            · exact absurd h h1
            · exact absurd h h3
            · rfl
        · simp [h1, h2, h3, h4, gives_throw]

theorem gives_fromVal {α : Type} {all : List α} {val : α → Str} (h : ∀ a, fromVal all val (val a) = .ok a []) (s : Str) (a : α) :
    Gives (fromVal all val s) a ↔ val a = s := by
  constructor
  · intro h'
    unfold fromVal at h'
    rw [gives_ofOption] at h'
    simpa using List.find?_some h'
  · rintro rfl; exact ⟨_, h a⟩

theorem gives_endian (s : Str) (a : Endian) : Gives (fromVal Endian.all Endian.val s) a ↔ Token endianWords s a := by
  rw [gives_fromVal fun a => (reads_endian a).2]
  cases a <;> simp [Token, endianWords, Endian.val, eq_comm]
theorem gives_protection (s : Str) (a : Protection) : Gives (fromVal Protection.all Protection.val s) a ↔ Token protectionWords s a := by
  rw [gives_fromVal fun a => (reads_protection a).2]
  cases a <;> simp [Token, protectionWords, Protection.val, eq_comm]
theorem gives_sauAccess (s : Str) (a : SauAccess) : Gives (fromVal SauAccess.all SauAccess.val s) a ↔ Token sauWords s a := by
  rw [gives_fromVal fun a => (reads_sauAccess a).2]
  cases a <;> simp [Token, sauWords, SauAccess.val, eq_comm]
theorem gives_enumToken (s : Str) (a : EnumToken) : Gives (fromVal EnumToken.all EnumToken.val s) a ↔ Token blockWords s a := by
  rw [gives_fromVal fun a => (reads_enumToken a).2]
  cases a <;> simp [Token, blockWords, EnumToken.val, eq_comm]
theorem gives_dataType (s : Str) (a : DataType) : Gives (fromVal DataType.all DataType.val s) a ↔ Token typeWords s a := by
  rw [gives_fromVal fun a => (reads_dataType a).2]
  cases a <;> simp [Token, typeWords, DataType.val, eq_comm]
theorem gives_modWrite (s : Str) (a : ModWrite) : Gives (fromVal ModWrite.all ModWrite.val s) a ↔ Token modWriteWords s a := by
  rw [gives_fromVal fun a => (reads_modWrite a).2]
  cases a <;> simp [Token, modWriteWords, ModWrite.val, eq_comm]
theorem gives_readAction (s : Str) (a : ReadAction) : Gives (fromVal ReadAction.all ReadAction.val s) a ↔ Token readActionWords s a := by
  rw [gives_fromVal fun a => (reads_readAction a).2]
  cases a <;> simp [Token, readActionWords, ReadAction.val, eq_comm]
theorem gives_usage (s : Str) (a : Usage) : Gives (fromVal Usage.all Usage.val s) a ↔ Token usageWords s a := by
  rw [gives_fromVal fun a => (reads_usage a).2]
  cases a <;> simp [Token, usageWords, Usage.val, eq_comm]

theorem toUpper_eq (c : Char) : c.toUpper = upperC c := by
  by_cases h : 97 ≤ c.toNat ∧ c.toNat ≤ 122
  · obtain ⟨n, hn⟩ : ∃ n, n = c.toNat := ⟨_, rfl⟩
    have hc : c = Char.ofNat n := by rw [hn, Char.ofNat_toNat]
    have hlt : n < 123 := by omega
    have hge : 97 ≤ n := by omega
    subst hc
    clear hn h
    revert n
    decide
  · rw [upperC, if_neg h]
    unfold Char.toUpper
    rw [dif_neg]
    rintro ⟨h1, h2⟩
    exact h ⟨UInt32.le_iff_toNat_le.1 h1, UInt32.le_iff_toNat_le.1 h2⟩

theorem upper_eq (s : Str) : s.map Char.toUpper = upper s := List.map_congr_left fun c _ => toUpper_eq c

theorem mem_cpuWords (u : Str) (c : CPUName) : (u, c) ∈ cpuWords ↔ c.ident = u ∨ (u = s%"CM0+" ∧ c = .CM0_PLUS) := by
  cases c <;> simp [cpuWords, CPUName.ident, CPUName.val, eq_comm]

theorem cpu_ident_inj {a b : CPUName} (h : a.ident = b.ident) : a = b := by
  have ha : ∀ a : CPUName, a ∈ CPUName.all := fun a => by cases a <;> decide
  have : ∀ a ∈ CPUName.all, ∀ b ∈ CPUName.all, a.ident = b.ident → a = b := by decide
  exact this a (ha a) b (ha b) h

theorem find_cpu {u : Str} {c : CPUName} : CPUName.all.find? (fun a => decide (a.ident = u)) = some c ↔ c.ident = u := by
  constructor
  · intro h; simpa using List.find?_some h
  · intro h
    cases h' : CPUName.all.find? (fun a => decide (a.ident = u)) with
    | none =>
      have := List.find?_eq_none.1 h' c (by cases c <;> decide)
      simp [h] at this
    | some a =>
      have := List.find?_some h'
      rw [cpu_ident_inj ((by simpa using this : a.ident = u).trans h.symm)]

theorem gives_cpuName (s : Str) (c : CPUName) : Gives (CPUName.fromStr s) c ↔ CpuText s c := by
  unfold CPUName.fromStr CpuText
  rw [upper_eq, mem_cpuWords]
  have h0 : ∀ c : CPUName, c.ident ≠ s%"CM0+" := fun c => by cases c <;> decide
  cases h : CPUName.all.find? (fun a => decide (a.ident = upper s)) with
  | some a =>
    have ha := find_cpu.1 h
    have hn : upper s ≠ s%"CM0+" := ha ▸ h0 a
    simp only [gives_pure]
    constructor
    · rintro rfl; exact ⟨Or.inl ha, fun h => absurd h hn⟩
    · rintro ⟨h | h, _⟩
      · exact cpu_ident_inj (ha.trans h.symm)
      · exact absurd h.1 hn
  | none =>
    have hno : ∀ c : CPUName, c.ident ≠ upper s := fun c hc => by rw [find_cpu.2 hc] at h; simp at h
    simp only
    by_cases hs : s = s%"CM0+"
    · subst hs
      simp only [if_true, gives_pure]
      constructor
      · rintro rfl; exact ⟨Or.inr ⟨by decide, rfl⟩, fun _ => trivial⟩
      · rintro ⟨h | h, _⟩
        · exact absurd h (hno _)
        · exact h.2.symm
    · simp only [hs, if_false, gives_throw, false_iff]
      rintro ⟨h | h, h'⟩
      · exact absurd h (hno _)
      · exact absurd (h' h.1) (fun x => x)

theorem mem_accessWords (w : Str) (a : Access) : (w, a) ∈ accessWords ↔
    lower a.val = w ∨ (w = s%"write" ∧ a = .writeOnly) ∨ (w = s%"read" ∧ a = .readOnly) := by
  have e1 : lower Access.readOnly.val = s%"read-only" := by decide
  have e2 : lower Access.writeOnly.val = s%"write-only" := by decide
  have e3 : lower Access.readWrite.val = s%"read-write" := by decide
  have e4 : lower Access.writeOnce.val = s%"writeonce" := by decide
  have e5 : lower Access.readWriteOnce.val = s%"read-writeonce" := by decide
  cases a
  · rw [e1]; simp [accessWords, @eq_comm _ w]
  · rw [e2]; simp [accessWords, @eq_comm _ w]
  · rw [e3]; simp [accessWords, @eq_comm _ w]
  · rw [e4]; simp [accessWords, @eq_comm _ w]
  · rw [e5]; simp [accessWords, @eq_comm _ w]

theorem access_lower_inj {a b : Access} (h : lower a.val = lower b.val) : a = b := by
  have ha : ∀ a : Access, a ∈ Access.all := fun a => by cases a <;> decide
  have : ∀ a ∈ Access.all, ∀ b ∈ Access.all, lower a.val = lower b.val → a = b := by decide
  exact this a (ha a) b (ha b) h

theorem gives_access (s : Str) (o : Option Access) : Gives (Access.fromStr s) o ↔ AccessText s o := by
  unfold Access.fromStr AccessText
  rw [lowerText_eq]
  simp only [mem_accessWords]
  have r0 : ∀ a : Access, lower a.val ≠ s%"read" := fun a => by cases a <;> decide
  have w0 : ∀ a : Access, lower a.val ≠ s%"write" := fun a => by cases a <;> decide
  have rw0 : s%"write" ≠ s%"read" := by decide
  generalize lower s = w
  cases h : Access.all.find? (fun a => decide (lower a.val = w)) with
  | some a =>
    have ha : lower a.val = w := by simpa using List.find?_some h
    simp only [gives_pure]
    constructor
    · rintro rfl; exact Or.inl ⟨a, Or.inl ha, rfl⟩
    · rintro (⟨b, hb | hb | hb, rfl⟩ | ⟨hb, _⟩)
      · rw [access_lower_inj (ha.trans hb.symm)]
      · exact absurd (ha.trans hb.1) (w0 a)
      · exact absurd (ha.trans hb.1) (r0 a)
      · exact absurd (Or.inl ha) (hb a)
  | none =>
    have hno : ∀ a : Access, lower a.val ≠ w := fun a ha => by
      have := List.find?_eq_none.1 h a (by cases a <;> decide)
      simp [ha] at this
    simp only
    by_cases h1 : w = s%"write"
    · rw [if_pos h1, gives_pure]
      constructor
      · rintro rfl; exact Or.inl ⟨_, Or.inr (Or.inl ⟨h1, rfl⟩), rfl⟩
      · rintro (⟨b, hb | hb | hb, rfl⟩ | ⟨hb, _⟩)
        · exact absurd hb (hno b)
        · rw [hb.2]
        · exact absurd (h1.symm.trans hb.1) rw0
        · exact absurd (Or.inr (Or.inl ⟨h1, rfl⟩)) (hb .writeOnly)
    · by_cases h2 : w = s%"read"
      · rw [if_neg h1, if_pos h2, gives_pure]
        constructor
        · rintro rfl; exact Or.inl ⟨_, Or.inr (Or.inr ⟨h2, rfl⟩), rfl⟩
        · rintro (⟨b, hb | hb | hb, rfl⟩ | ⟨hb, _⟩)
          · exact absurd hb (hno b)
          · exact absurd hb.1 h1
          · rw [hb.2]
          · exact absurd (Or.inr (Or.inr ⟨h2, rfl⟩)) (hb .readOnly)
      · rw [if_neg h1, if_neg h2, gives_bind]
        simp only [gives_warn, true_and, exists_const, gives_pure]
        constructor
        · rintro rfl; exact Or.inr ⟨fun a ha => by
            rcases ha with ha | ha | ha
            · exact hno a ha
            · exact h1 ha.1
            · exact h2 ha.1, rfl⟩
        · rintro (⟨b, hb | hb | hb, rfl⟩ | ⟨_, hb⟩)
          · exact absurd hb (hno b)
          · exact absurd hb.1 h1
          · exact absurd hb.1 h2
          · exact hb.symm

theorem gives_accessVal {e : XElem} {o : Option Access} :
    (∃ s, Value Eq e (s%"access") s ∧ Gives (optAccess s) o) ↔ AccessValue e o := by
  unfold optAccess
  constructor
  · rintro ⟨s, h, h'⟩
    cases h with
    | absent h => rw [gives_pure] at h'; subst h'; exact .absent h
    | given h h'' => subst h''; exact .given h ((gives_access _ _).1 h')
  · intro h
    cases h with
    | absent h => exact ⟨none, .absent h, gives_pure.2 rfl⟩
    | given h h' => exact ⟨_, .given h rfl, (gives_access _ _).2 h'⟩

theorem gives_optInt {t : Str} {e : XElem} {o : Option Int} : Gives (optInt t e) o ↔ Value IntText e t o := by
  rw [← gives_optVal gives_toInt]; simp only [optInt, gives_bind, gives_optText]
theorem gives_optBool {t : Str} {e : XElem} {o : Option Bool} : Gives (optBool t e) o ↔ Value BoolText e t o := by
  rw [← gives_optVal gives_toBool]; simp only [optBool, gives_bind, gives_optText]
theorem gives_reqInt {t : Str} {e : XElem} {o : Int} : Gives (reqInt t e) o ↔ Value IntText e t (some o) := by
  rw [← gives_reqVal gives_toInt]; rfl
theorem gives_optAttrBool {t : Str} {e : XElem} {o : Option Bool} : Gives (optAttrBool t e) o ↔ AttrValue BoolText e t o := by
  rw [← gives_optAttrVal gives_toBool]; simp only [optAttrBool, gives_bind, gives_optAttr]

/-- The first child with a tag. -/
theorem gives_first {α : Type} {R : XElem → α → Prop} {e : XElem} {t : Str} {o : Option α}
    {m : M (Option α)} (hn : e.find t = none → (Gives m o ↔ o = none))
    (hs : ∀ x, e.find t = some x → (Gives m o ↔ ∃ a, o = some a ∧ R x a)) : Gives m o ↔ First R e t o := by
  have hk := kids_eq e t
  unfold XElem.find at hn hs
  cases h : e.findall t with
  | nil =>
    rw [h] at hk hn
    rw [hn rfl]
    constructor
    · rintro rfl; exact .absent hk
    · intro h'; cases h' with
      | absent _ => rfl
      | first h1 _ => rw [hk] at h1; simp at h1
  | cons x l =>
    rw [h] at hk hs
    rw [hs x rfl]
    constructor
    · rintro ⟨a, rfl, h1⟩; exact .first hk h1
    · intro h'; cases h' with
      | absent h1 => rw [hk] at h1; simp at h1
      | first h1 h2 => rw [hk] at h1; cases h1; exact ⟨_, rfl, h2⟩

/-! ### elements -/

theorem gives_parseProps (e : XElem) (p : Props) : Gives (parseProps e) p ↔ SaysProps e p := by
  unfold parseProps
  simp only [gives_bind', gives_pure, gives_optInt, gives_optText]
  constructor
  · rintro ⟨_, h1, s, h2, s', h3, _, h4, _, h5, a, h6, b, h7, rfl⟩
    exact ⟨h1, gives_accessVal.1 ⟨_, h2, h6⟩, (gives_optVal gives_protection).1 ⟨_, h3, h7⟩, h4, h5⟩
  · rintro ⟨h1, h2, h3, h4, h5⟩
    obtain ⟨s, h2, h6⟩ := gives_accessVal.2 h2
    obtain ⟨s', h3, h7⟩ := (gives_optVal gives_protection).2 h3
    exact ⟨_, h1, _, h2, _, h3, _, h4, _, h5, _, h6, _, h7, rfl⟩

theorem gives_parseEnumValue (e : XElem) (v : SEnumValue) : Gives (parseEnumValue e) v ↔ SaysEnumValue e v := by
  unfold parseEnumValue
  simp only [gives_bind', gives_pure, gives_optText, gives_reqText, gives_rawText, gives_optBool]
  constructor
  · rintro ⟨_, h1, _, h2, _, h3, _, h4, rfl⟩; exact ⟨h1, h2, h3, h4⟩
  · rintro ⟨h1, h2, h3, h4⟩; exact ⟨_, h1, _, h2, _, h3, _, h4, rfl⟩

theorem gives_parseEnumValues (e : XElem) (vs : List SEnumValue) :
    Gives (parseEnumValues e) vs ↔ Entrywise SaysEnumValue (kids e (s%"enumeratedValue")) vs :=
  gives_mapM gives_parseEnumValue _ vs

theorem gives_parseDimArrayIndex {e : XElem} {o : Option SDimArrayIndex} :
    Gives (parseDimArrayIndex e) o ↔ First SaysDimArray e (s%"dimArrayIndex") o := by
  unfold parseDimArrayIndex
  refine gives_first (fun h => ?_) (fun x h => ?_)
  · rw [h]; simp [gives_pure, eq_comm]
  · rw [h]
    simp only [gives_bind', gives_pure, gives_optText, gives_parseEnumValues]
    constructor
    · rintro ⟨_, h1, _, h2, rfl⟩; exact ⟨_, rfl, h1, h2⟩
    · rintro ⟨_, rfl, h1, h2⟩; exact ⟨_, h1, _, h2, rfl⟩

theorem gives_parseDim (e : XElem) (d : SDim) : Gives (parseDim e) d ↔ SaysDim e d := by
  unfold parseDim
  simp only [gives_bind', gives_pure, gives_optInt, gives_optText, gives_parseDimArrayIndex]
  constructor
  · rintro ⟨_, h1, _, h2, _, h3, _, h4, _, h5, rfl⟩; exact ⟨h1, h2, h3, h4, h5⟩
  · rintro ⟨h1, h2, h3, h4, h5⟩; exact ⟨_, h1, _, h2, _, h3, _, h4, _, h5, rfl⟩

theorem gives_parseWriteConstraint {e : XElem} {o : Option WriteConstraint} :
    Gives (parseWriteConstraint e) o ↔ First SaysConstraint e (s%"writeConstraint") o := by
  unfold parseWriteConstraint
  refine gives_first (fun h => ?_) (fun x h => ?_)
  · rw [h]; simp [gives_pure, eq_comm]
  · rw [h]
    simp only [gives_bind', gives_pure, gives_optBool]
    have hr : ∀ r, Gives (match x.find (s%"range") with
      | none => M.pure none
      | some r => do
        let mn ← reqInt (s%"minimum") r
        let mx ← reqInt (s%"maximum") r
        M.pure (some (mn, mx))) r ↔ First SaysRange x (s%"range") r := by
      intro r
      refine gives_first (fun h => ?_) (fun x h => ?_)
      · rw [h]; simp [gives_pure, eq_comm]
      · rw [h]
        simp only [gives_bind', gives_pure, gives_reqInt]
        constructor
        · rintro ⟨_, h1, _, h2, rfl⟩; exact ⟨_, rfl, h1, h2⟩
        · rintro ⟨_, rfl, h1, h2⟩; exact ⟨_, h1, _, h2, rfl⟩
    constructor
    · rintro ⟨_, h1, _, h2, _, h3, rfl⟩; exact ⟨_, rfl, h1, h2, (hr _).1 h3⟩
    · rintro ⟨_, rfl, h1, h2, h3⟩; exact ⟨_, h1, _, h2, _, (hr _).2 h3, rfl⟩

theorem gives_parseEnumContainer (e : XElem) (c : SEnumContainer) : Gives (parseEnumContainer e) c ↔ SaysContainer e c := by
  unfold parseEnumContainer
  simp only [gives_bind', gives_pure, gives_optText, gives_optAttr, gives_parseEnumValues]
  constructor
  · rintro ⟨_, h1, _, h2, _, h3, _, h4, _, h5, _, h6, rfl⟩
    exact ⟨h1, h2, h3, (gives_optVal gives_usage).1 ⟨_, h4, h6⟩, h5⟩
  · rintro ⟨h1, h2, h3, h4, h5⟩
    obtain ⟨_, h4, h6⟩ := (gives_optVal gives_usage).2 h4
    exact ⟨_, h1, _, h2, _, h3, _, h4, _, h5, _, h6, rfl⟩

theorem gives_parseField (e : XElem) (f : SField) : Gives (parseField e) f ↔ SaysField e f := by
  unfold parseField
  simp only [gives_bind', gives_pure, gives_optText, gives_optAttr, gives_reqText, gives_rawText, gives_optInt,
    gives_parseWriteConstraint, gives_mapM gives_parseEnumContainer, gives_parseDim]
  constructor
  · rintro ⟨_, h1, _, h2, _, h3, _, h4, _, h5, _, h6, _, h7, _, h8, _, h9, _, h10, _, h11, _, h12, _, h13, _, h14, _, h15, _, h16, _, h17, rfl⟩
    exact ⟨h1, h2, h3, h4, h5, h6, h7, h8, gives_accessVal.1 ⟨_, h9, h15⟩, (gives_optVal gives_modWrite).1 ⟨_, h10, h16⟩, h11,
      (gives_optVal gives_readAction).1 ⟨_, h12, h17⟩, h13, h14⟩
  · rintro ⟨h1, h2, h3, h4, h5, h6, h7, h8, h9, h10, h11, h12, h13, h14⟩
    obtain ⟨_, h9, h15⟩ := gives_accessVal.2 h9
    obtain ⟨_, h10, h16⟩ := (gives_optVal gives_modWrite).2 h10
    obtain ⟨_, h12, h17⟩ := (gives_optVal gives_readAction).2 h12
    exact ⟨_, h1, _, h2, _, h3, _, h4, _, h5, _, h6, _, h7, _, h8, _, h9, _, h10, _, h11, _, h12, _, h13, _, h14, _, h15, _, h16, _, h17, rfl⟩

theorem gives_parseFields (e : XElem) (fs : List SField) : Gives (parseFields e) fs ↔
    Entrywise SaysField ((kids e (s%"fields")).flatMap fun x => kids x (s%"field")) fs := gives_mapM gives_parseField _ fs

theorem gives_parseRegister (e : XElem) (r : SRegister) : Gives (parseRegister e) r ↔ SaysRegister e r := by
  unfold parseRegister
  simp only [gives_bind', gives_pure, gives_optText, gives_optAttr, gives_reqText, gives_rawText, gives_reqInt,
    gives_parseWriteConstraint, gives_parseFields, gives_parseDim, gives_parseProps]
  constructor
  · rintro ⟨_, h1, _, h2, _, h3, _, h4, _, h5, _, h6, _, h7, _, h8, _, h9, _, h10, _, h11, _, h12, _, h13, _, h14, _, h15, _, h16, _, h17, rfl⟩
    exact ⟨h1, h2, h3, h4, h5, h6, h7, (gives_optVal gives_dataType).1 ⟨_, h8, h15⟩, (gives_optVal gives_modWrite).1 ⟨_, h9, h16⟩, h10,
      (gives_optVal gives_readAction).1 ⟨_, h11, h17⟩, h12, h13, h14⟩
  · rintro ⟨h1, h2, h3, h4, h5, h6, h7, h8, h9, h10, h11, h12, h13, h14⟩
    obtain ⟨_, h8, h15⟩ := (gives_optVal gives_dataType).2 h8
    obtain ⟨_, h9, h16⟩ := (gives_optVal gives_modWrite).2 h9
    obtain ⟨_, h11, h17⟩ := (gives_optVal gives_readAction).2 h11
    exact ⟨_, h1, _, h2, _, h3, _, h4, _, h5, _, h6, _, h7, _, h8, _, h9, _, h10, _, h11, _, h12, _, h13, _, h14, _, h15, _, h16, _, h17, rfl⟩

mutual
theorem gives_parseRC : ∀ (e : XElem) (o : Option SRC), Gives (parseRC e) o ↔
    (e.tag ≠ s%"register" ∧ e.tag ≠ s%"cluster" ∧ o = none) ∨ ∃ x, o = some x ∧ SaysRC e x
  | .mk tag text attrs children, o => by
    have hne : s%"cluster" ≠ s%"register" := by decide
    unfold parseRC
    by_cases h1 : tag = s%"register"
    · simp only [h1, if_true, gives_bind, gives_pure, gives_parseRegister]
      constructor
      · rintro ⟨r, h, rfl⟩; exact Or.inr ⟨_, rfl, .register rfl h⟩
      · rintro (⟨h, _⟩ | ⟨x, rfl, h⟩)
        · exact absurd rfl h
        · cases h with
          | register _ h => exact ⟨_, h, rfl⟩
          | cluster h _ _ => exact absurd h hne.symm
    · by_cases h2 : tag = s%"cluster"
      · subst h2
        simp only [hne, if_true, if_false, gives_bind', gives_pure, gives_optText, gives_optAttr, gives_reqText, gives_rawText, gives_reqInt,
          gives_parseDim, gives_parseProps, gives_parseRCs children]
        constructor
        · rintro ⟨_, h1, _, h2, _, h3, _, h4, _, h5, _, h6, _, h7, _, h8, _, h9, rfl⟩
          exact Or.inr ⟨_, rfl, .cluster rfl ⟨h1, h2, h3, h4, h5, h6, h8, h9⟩ h7⟩
        · rintro (⟨_, h, _⟩ | ⟨x, rfl, h⟩)
          · exact absurd rfl h
          · cases h with
            | register h _ => exact absurd h hne
            | cluster _ h h7 =>
              obtain ⟨h1, h2, h3, h4, h5, h6, h8, h9⟩ := h
              exact ⟨_, h1, _, h2, _, h3, _, h4, _, h5, _, h6, _, h7, _, h8, _, h9, rfl⟩
      · simp only [h1, h2, if_false, gives_pure]
        constructor
        · rintro rfl; exact Or.inl ⟨h1, h2, rfl⟩
        · rintro (⟨_, _, rfl⟩ | ⟨x, rfl, h⟩)
          · rfl
          · cases h with
            | register h _ => exact absurd h h1
            | cluster h _ _ => exact absurd h h2
theorem gives_parseRCs : ∀ (l : List XElem) (xs : List SRC), Gives (parseRCs l) xs ↔ SaysRCs l xs
  | [], xs => by
    unfold parseRCs
    rw [gives_pure]
    constructor
    · rintro rfl; exact .nil
    · intro h; cases h; rfl
  | e :: l, xs => by
    unfold parseRCs
    simp only [gives_bind, gives_pure, gives_parseRC e, gives_parseRCs l]
    constructor
    · rintro ⟨o, ⟨h1, h2, rfl⟩ | ⟨x, rfl, h1⟩, ys, h3, rfl⟩
      · exact .other h1 h2 h3
      · exact .cons h1 h3
    · intro h
      cases h with
      | cons h1 h2 => exact ⟨_, Or.inr ⟨_, rfl, h1⟩, _, h2, rfl⟩
      | other h1 h2 h3 => exact ⟨none, Or.inl ⟨h1, h2, rfl⟩, _, h3, rfl⟩
end

theorem saysRCs_append {a b : List XElem} : ∀ {xs : List SRC}, SaysRCs (a ++ b) xs ↔ ∃ ys zs, xs = ys ++ zs ∧ SaysRCs a ys ∧ SaysRCs b zs := by
  induction a with
  | nil =>
    intro xs
    constructor
    · intro h; exact ⟨[], xs, rfl, .nil, h⟩
    · rintro ⟨ys, zs, rfl, h, h'⟩; cases h; exact h'
  | cons e a ih =>
    intro xs
    constructor
    · intro h
      cases h with
      | cons h1 h2 =>
        obtain ⟨ys, zs, rfl, h3, h4⟩ := ih.1 h2
        exact ⟨_ :: ys, zs, rfl, .cons h1 h3, h4⟩
      | other h1 h2 h3 =>
        obtain ⟨ys, zs, rfl, h3, h4⟩ := ih.1 h3
        exact ⟨ys, zs, rfl, .other h1 h2 h3, h4⟩
    · rintro ⟨ys, zs, rfl, h, h'⟩
      cases h with
      | cons h1 h2 => exact .cons h1 (ih.2 ⟨_, _, rfl, h2, h'⟩)
      | other h1 h2 h3 => exact .other h1 h2 (ih.2 ⟨_, _, rfl, h3, h'⟩)

theorem entry_flatten {l : List XElem} : ∀ {xs : List SRC}, (∃ xss, Entrywise (fun x => SaysRCs x.children) l xss ∧ xss.flatten = xs) ↔
    SaysRCs (l.flatMap XElem.children) xs := by
  induction l with
  | nil =>
    intro xs
    constructor
    · rintro ⟨xss, h, rfl⟩; cases h; exact .nil
    · intro h; cases h; exact ⟨[], .nil, rfl⟩
  | cons e l ih =>
    intro xs
    rw [List.flatMap_cons, saysRCs_append]
    constructor
    · rintro ⟨xss, h, rfl⟩
      cases h with
      | cons h1 h2 => exact ⟨_, _, rfl, h1, ih.1 ⟨_, h2, rfl⟩⟩
    · rintro ⟨ys, zs, rfl, h1, h2⟩
      obtain ⟨xss, h3, rfl⟩ := ih.2 h2
      exact ⟨_, .cons h1 h3, rfl⟩

theorem gives_parseAddressBlock (e : XElem) (b : SAddressBlock) : Gives (parseAddressBlock e) b ↔ SaysBlock e b := by
  unfold parseAddressBlock
  simp only [gives_bind', gives_pure, gives_optText, gives_optInt, gives_reqInt, gives_reqVal gives_enumToken]
  constructor
  · rintro ⟨o, h1, _, h2, _, h3, _, h4, _, h5, rfl⟩
    refine ⟨?_, h2, h3, (gives_optVal gives_protection).1 ⟨_, h4, h5⟩⟩
    cases o with
    | none => exact Or.inr ⟨h1, rfl⟩
    | some v => exact Or.inl h1
  · rintro ⟨h1, h2, h3, h4⟩
    obtain ⟨_, h4, h5⟩ := (gives_optVal gives_protection).2 h4
    rcases h1 with h1 | ⟨h1, h1'⟩
    · exact ⟨_, h1, _, h2, _, h3, _, h4, _, h5, rfl⟩
    · exact ⟨_, h1, _, h2, _, h3, _, h4, _, h5, by rw [← h1']; rfl⟩

theorem lastText_err {t : Str} {x : XElem} {b o : Bool} {er : Exn} (h : lastText t b o x = .err er) : x.text = none := by
  unfold lastText at h
  cases ht : x.text with
  | none => rfl
  | some s =>
    rw [ht] at h
    cases b <;> simp [M.bind_eq_err, M.warnIf_ne_err, M.pure_ne_err] at h

theorem elementText_missing {t : Str} {e : XElem} {b o : Bool} (h : elementText t e b o = .err .parser) : Text e t none := by
  unfold elementText at h
  have hk := kids_eq e t
  split at h
  · rename_i hx; rw [hx] at hk; exact .absent hk
  · rename_i x hx
    rw [hx] at hk
    exact .empty hk (lastText_err h)
  · rename_i x xs hxs hx
    exfalso
    split at h
    · simp [M.throw] at h
    · rename_i hany
      simp only [Bool.not_eq_true, List.any_eq_false] at hany
      have hne : xs ≠ [] := fun h' => hxs h'
      have hlast : xs.getLastD x = xs.getLast hne := by
        cases xs with
        | nil => exact absurd rfl hne
        | cons y ys => simp [List.getLastD]
      rw [M.bind_eq_err] at h
      rcases h with h | ⟨_, _, _, h⟩
      · simp [M.warn] at h
      · have := lastText_err h
        rw [hlast] at this
        have h' := hany _ (List.mem_cons_of_mem _ (List.getLast_mem hne))
        simp [this] at h'

theorem reqInt_missing {t : Str} {e : XElem} (h : reqInt t e = .err .parser) : Value IntText e t none := by
  unfold reqInt reqText at h
  rw [M.bind_eq_err] at h
  rcases h with h | ⟨a, w, _, h⟩
  · rw [M.bind_eq_err] at h
    rcases h with h | ⟨o, w, h1, h2⟩
    · exact .absent (elementText_missing h)
    · exfalso
      cases o with
      | some s => simp [M.ofOption, M.pure] at h2
      | none =>
        have := gives_elementText.1 ⟨w, h1⟩
        simp at this
  · exfalso
    rcases toInt_cases a with ⟨j, hj⟩ | hj
    · rw [hj] at h; cases h
    · rw [hj] at h; cases h

theorem reqText_absent {t : Str} {e : XElem} (h : Text e t none) : reqText t e = .err .parser := by
  have : elementText t e true false = .err .parser := by
    unfold elementText
    cases h with
    | absent h => rw [kids_eq] at h; rw [h]; rfl
    | empty h h' => rw [kids_eq] at h; rw [h]; simp [lastText, h', M.throw]
  unfold reqText
  rw [this]; rfl

theorem gives_interruptValue {n : Str} {e : XElem} {i : Int} : Gives (interruptValue n e) i ↔
    Value IntText e (s%"value") (some i) ∨ (Value IntText e (s%"value") none ∧ i = 0) := by
  unfold interruptValue
  split
  · rename_i h
    have hn := reqInt_missing h
    have hno : ¬ Value IntText e (s%"value") (some i) := fun h' => by
      obtain ⟨ws, h'⟩ := gives_reqInt.2 h'
      rw [h'] at h; cases h
    simp only [gives_bind, gives_warn, gives_pure, true_and, exists_const, hno, hn, false_or]
    exact eq_comm
  · rename_i h
    rw [gives_reqInt]
    constructor
    · exact Or.inl
    · rintro (h' | ⟨h', _⟩)
      · exact h'
      · exfalso
        cases h' with
        | absent h' => exact h (by unfold reqInt; rw [reqText_absent h']; rfl)

theorem gives_parseInterrupt (e : XElem) (i : Interrupt) : Gives (parseInterrupt e) i ↔ SaysInterrupt e i := by
  unfold parseInterrupt
  simp only [gives_bind', gives_pure, gives_reqText, gives_rawText, gives_interruptValue]
  constructor
  · rintro ⟨_, h1, _, h2, _, h3, rfl⟩; exact ⟨h1, h2, h3⟩
  · rintro ⟨h1, h2, h3⟩; exact ⟨_, h1, _, h2, _, h3, rfl⟩

theorem gives_parsePeripheral (e : XElem) (p : SPeriphT) : Gives (parsePeripheral e) p ↔ SaysPeripheral e p := by
  unfold parsePeripheral
  simp only [gives_bind', gives_pure, gives_optText, gives_optAttr, gives_reqText, gives_rawText, gives_reqInt,
    gives_mapM gives_parseAddressBlock, gives_mapM gives_parseInterrupt, gives_parseDim, gives_parseProps]
  have hr : ∀ l xss, Gives (M.mapM (fun x : XElem => parseRCs x.children) l) xss ↔ Entrywise (fun x => SaysRCs x.children) l xss :=
    fun l xss => gives_mapM (fun x y => gives_parseRCs _ _) l xss
  simp only [hr]
  constructor
  · rintro ⟨_, h1, _, h2, _, h3, _, h4, _, h5, _, h6, _, h7, _, h8, _, h9, _, h10, _, h11, _, h12, _, h13, _, h14, _, h15, _, h16, rfl⟩
    exact ⟨h1, h2, h3, h4, h5, h6, h7, h8, h9, h10, h11, h12, h13, entry_flatten.1 ⟨_, h14, rfl⟩, h15, h16⟩
  · obtain ⟨hd, rcs⟩ := p
    rintro ⟨h1, h2, h3, h4, h5, h6, h7, h8, h9, h10, h11, h12, h13, h14, h15, h16⟩
    obtain ⟨xss, hx, hf⟩ := entry_flatten.2 h14
    simp only at hf
    subst hf
    exact ⟨_, h1, _, h2, _, h3, _, h4, _, h5, _, h6, _, h7, _, h8, _, h9, _, h10, _, h11, _, h12, _, h13, _, hx, _, h15, _, h16, rfl⟩

theorem gives_parsePeripherals {e : XElem} {ps : List SPeriphT} :
    Gives (parsePeripherals e) ps ↔ First SaysPeripherals e (s%"peripherals") (some ps) := by
  have hk := kids_eq e (s%"peripherals")
  unfold parsePeripherals XElem.find
  cases h : e.findall (s%"peripherals") with
  | nil =>
    rw [h] at hk
    simp only [List.head?_nil, gives_throw, false_iff]
    intro h'; cases h' with
    | first h1 _ => rw [hk] at h1; simp at h1
  | cons x l =>
    rw [h] at hk
    simp only [List.head?_cons, gives_mapM gives_parsePeripheral]
    constructor
    · intro h1; exact .first hk h1
    · intro h'; cases h' with
      | first h1 h2 => rw [hk] at h1; cases h1; exact h2

theorem gives_parseSauRegion (e : XElem) (r : SSauRegion) : Gives (parseSauRegion e) r ↔ SaysSauRegion e r := by
  unfold parseSauRegion
  simp only [gives_bind', gives_pure, gives_optAttrBool, gives_optAttr, gives_reqInt, gives_reqVal gives_sauAccess]
  constructor
  · rintro ⟨_, h1, _, h2, _, h3, _, h4, _, h5, rfl⟩; exact ⟨h1, h2, h3, h4, h5⟩
  · rintro ⟨h1, h2, h3, h4, h5⟩; exact ⟨_, h1, _, h2, _, h3, _, h4, _, h5, rfl⟩

theorem gives_parseSauConfig {e : XElem} {o : Option SSauConfig} :
    Gives (parseSauConfig e) o ↔ First SaysSauConfig e (s%"sauRegionsConfig") o := by
  unfold parseSauConfig
  refine gives_first (fun h => ?_) (fun x h => ?_)
  · rw [h]; simp [gives_pure, eq_comm]
  · rw [h]
    simp only [gives_bind', gives_pure, gives_optAttrBool, gives_optAttr, gives_mapM gives_parseSauRegion]
    constructor
    · rintro ⟨_, h1, _, h2, _, h3, _, h4, rfl⟩
      exact ⟨_, rfl, h1, (gives_optAttrVal gives_protection).1 ⟨_, h2, h4⟩, h3⟩
    · rintro ⟨_, rfl, h1, h2, h3⟩
      obtain ⟨_, h2, h4⟩ := (gives_optAttrVal gives_protection).2 h2
      exact ⟨_, h1, _, h2, _, h3, _, h4, rfl⟩

theorem gives_parseCpu {e : XElem} {o : Option SCpu} : Gives (parseCpu e) o ↔ First SaysCpu e (s%"cpu") o := by
  unfold parseCpu
  refine gives_first (fun h => ?_) (fun x h => ?_)
  · rw [h]; simp [gives_pure, eq_comm]
  · rw [h]
    simp only [gives_bind', gives_pure, gives_reqVal gives_cpuName, gives_reqText, gives_reqVal gives_endian, gives_optBool, gives_reqInt,
      gives_reqVal gives_toBool, gives_optInt, gives_parseSauConfig]
    constructor
    · rintro ⟨_, h1, _, h2, _, h3, _, h4, _, h5, _, h6, _, h7, _, h8, _, h9, _, h10, _, h11, _, h12, _, h13, _, h14, _, h15, _, h16, _, h17, rfl⟩
      exact ⟨_, rfl, h1, h2, h3, h4, h5, h6, h7, h8, h9, h10, h11, h12, h13, h14, h15, h16, h17⟩
    · rintro ⟨_, rfl, h1, h2, h3, h4, h5, h6, h7, h8, h9, h10, h11, h12, h13, h14, h15, h16, h17⟩
      exact ⟨_, h1, _, h2, _, h3, _, h4, _, h5, _, h6, _, h7, _, h8, _, h9, _, h10, _, h11, _, h12, _, h13, _, h14, _, h15, _, h16, _, h17, rfl⟩

theorem gives_schemaLocation {d : XDoc} {s : Str} : Gives (parseSchemaLocation d) s ↔ s = schemaLocation d := by
  unfold parseSchemaLocation schemaLocation
  have key : d.nsmap.lookup (if (d.nsmap.lookup (s%"xs")).isSome then s%"xs" else s%"xsi") =
      (d.nsmap.lookup (s%"xs")).or (d.nsmap.lookup (s%"xsi")) := by
    cases h : d.nsmap.lookup (s%"xs") <;> simp [h]
  simp only [key]
  cases (d.nsmap.lookup (s%"xs")).or (d.nsmap.lookup (s%"xsi")) with
  | none => simp [gives_bind, gives_warn, gives_pure, eq_comm]
  | some uri =>
    have ek : (('{' :: uri) ++ ('}' :: s%"noNamespaceSchemaLocation") : Str) = s%"{" ++ uri ++ s%"}noNamespaceSchemaLocation" := by simp
    simp only [ek]
    generalize s%"{" ++ uri ++ s%"}noNamespaceSchemaLocation" = k
    unfold reqAttr optAttr XElem.get
    cases h : d.root.attrs.lookup k with
    | none => simp [M.bind, M.pure, M.ofOption, M.throw, M.warn, Gives, eq_comm]
    | some t =>
      by_cases h' : t = strip t
      · have : decide (t ≠ strip t) = false := by simpa using h'
        simp [this, M.bind, M.warnIf, M.pure, M.ofOption, Gives, trim_eq, eq_comm]
      · have : decide (t ≠ strip t) = true := by simpa using h'
        simp [this, M.bind, M.warnIf, M.warn, M.pure, M.ofOption, Gives, trim_eq, eq_comm]

theorem gives_deviceDescription {e : XElem} {s : Str} : Gives (parseDeviceDescription e) s ↔
    Text e (s%"description") (some s) ∨ (Text e (s%"description") none ∧ s = []) := by
  unfold parseDeviceDescription
  simp only [gives_bind, gives_rawText]
  constructor
  · rintro ⟨o, h1, h2⟩
    cases o with
    | none =>
      simp only [gives_bind, gives_warn, true_and, exists_const, gives_pure] at h2
      exact Or.inr ⟨h1, h2.symm⟩
    | some t => simp only [gives_pure] at h2; exact Or.inl (h2 ▸ h1)
  · rintro (h | ⟨h, rfl⟩)
    · exact ⟨_, h, gives_pure.2 rfl⟩
    · exact ⟨_, h, by simp only [gives_bind, gives_warn, true_and, exists_const, gives_pure]⟩

theorem gives_parseDevice (doc : XDoc) (d : SDevice) : Gives (parseDevice doc) d ↔ SaysDevice doc d := by
  unfold parseDevice
  simp only [gives_bind', gives_pure, gives_schemaLocation, gives_reqAttr, gives_optText, gives_reqText, gives_deviceDescription, gives_rawText,
    gives_parseCpu, gives_reqInt, gives_parseProps, gives_parsePeripherals]
  constructor
  · rintro ⟨_, h1, _, h2, _, h3, _, h4, _, h5, _, h6, _, h7, _, h8, _, h9, _, h10, _, h11, _, h12, _, h13, _, h14, _, h15, _, h16, rfl⟩
    exact ⟨h1, h2, h3, h4, h5, h6, h7, h8, h9, h10, h11, h12, h13, h14, h15, h16⟩
  · rintro ⟨h1, h2, h3, h4, h5, h6, h7, h8, h9, h10, h11, h12, h13, h14, h15, h16⟩
    exact ⟨_, h1, _, h2, _, h3, _, h4, _, h5, _, h6, _, h7, _, h8, _, h9, _, h10, _, h11, _, h12, _, h13, _, h14, _, h15, _, h16, rfl⟩

end Svd
