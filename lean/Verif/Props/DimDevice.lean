import Verif.Spec.DimRow
import Verif.Props.Content
import Verif.Props.Dim
/-
C07 for the whole device: each dim declaration is replaced by exactly the elements it stands for.
-/
namespace Svd
open Spec

theorem entrywise_length {α β : Type} {R : α → β → Prop} {xs : List α} {ys : List β} (h : Entrywise R xs ys) : xs.length = ys.length := by
  induction h with
  | nil => rfl
  | cons _ _ ih => simp [ih]

theorem entrywise_getElem {α β : Type} {R : α → β → Prop} {xs : List α} {ys : List β} (h : Entrywise R xs ys) :
    ∀ {i : Nat} {y : β}, ys[i]? = some y → ∃ x, xs[i]? = some x ∧ R x y := by
  induction h with
  | nil => intro i y h; simp at h
  | cons h1 _ ih =>
    intro i y h
    cases i with
    | zero => simp at h; subst h; exact ⟨_, rfl, h1⟩
    | succ i => simpa using ih (by simpa using h)

theorem headAt_name {ex : Bool} {p : Parsed} {pl : Place} {h : Processed} (hh : HeadAt ex p pl h) : Spec.nameOf h = pl.name := by
  cases hh <;> rfl

theorem headAt_position {ex : Bool} {p : Parsed} {pl : Place} {h : Processed} (hh : HeadAt ex p pl h) :
    ∃ pos, DeclaredAt none p pos ∧ position h = pos + pl.shift := by
  cases hh with
  | periph => exact ⟨_, .periph, rfl⟩
  | clu => exact ⟨_, .clu, rfl⟩
  | reg => exact ⟨_, .reg, rfl⟩
  | field h1 => exact ⟨_, .field (b := none) rfl h1, rfl⟩

theorem standsFor_row {p : Parsed} {hs : List Processed} (h : StandsFor p hs) :
    (Contains listMark (nameOfDecl p) ∧ ∃ n, (dimOf p).dim = some n ∧ Row p n hs) ∨
     (¬ Contains listMark (nameOfDecl p) ∧ ∃ h, hs = [h] ∧ Spec.nameOf h = nameOfDecl p) := by
  obtain ⟨ex, pls, h1, h2⟩ := h
  cases h1 with
  | single hn =>
    right
    refine ⟨hn, ?_⟩
    cases h2 with
    | cons a b =>
      cases b
      exact ⟨_, rfl, headAt_name a⟩
  | @expanded n mark idx hd hn hm hl hi =>
    left
    refine ⟨?_, n, hd, hn, ?_, mark, idx, hm, ?_, hi, ?_⟩
    · cases hm with
      | array h => obtain ⟨x, y, h⟩ := h; exact ⟨x ++ ['['], [']'] ++ y, by simp [h, arrayMark, listMark]⟩
      | list _ h => exact h
    · have := entrywise_length h2
      simp at this
      omega
    · have := entrywise_length h2
      simpa using this
    · intro i h hh
      obtain ⟨pl, h3, h4⟩ := entrywise_getElem h2 hh
      rw [List.getElem?_mapIdx] at h3
      cases hs : idx[i]? with
      | none => rw [hs] at h3; cases h3
      | some s =>
        rw [hs] at h3
        simp only [Option.map_some, Option.some.injEq] at h3
        subst h3
        obtain ⟨pos, h5, h6⟩ := headAt_position h4
        exact ⟨s, pos, rfl, headAt_name h4, h5, h6⟩

theorem replaced_along {d : SDevice} {y : Pos} {l : List Pos} {hs : List Processed} (h : StandsAlong d y l hs) : ReplacedBy d y hs := by
  cases h with
  | own h1 h2 h3 => exact ⟨_, .own h1 h2, standsFor_row h3⟩
  | derived h1 h2 h3 h4 h5 h6 => exact ⟨_, .derived h1 h2 h3 h4 h5, standsFor_row h6⟩

theorem replaced_at {d : SDevice} {y : Pos} {hs : List Processed} (h : StandsAt d y hs) : ReplacedBy d y hs := by
  obtain ⟨l, h⟩ := h
  exact replaced_along h

theorem instance_replaced {d : SDevice} {y : Pos} {l : List Pos} {h : Processed} (hi : Spec.Instance d y l h) :
    ∃ hs, ReplacedBy d y hs ∧ h ∈ hs := by
  obtain ⟨hs, h1, h2⟩ := hi
  exact ⟨hs, replaced_along h1, h2⟩

theorem rcOf_replaced {d : SDevice} {y : Pos} {e : IRC} (h : RCOf d y e) : ∃ hs h, ReplacedBy d y hs ∧ h ∈ hs ∧ ButSize h (headOf e) := by
  cases h with
  | reg h1 _ =>
    obtain ⟨hs, h2, h3⟩ := instance_replaced h1
    exact ⟨hs, _, h2, h3, .reg⟩
  | clu h1 h4 _ _ =>
    obtain ⟨hs, h2, h3⟩ := instance_replaced h1
    exact ⟨hs, _, h2, h3, h4⟩

/-- What is known of the content of an element. -/
theorem contentAt_inv {d : SDevice} {ps : List IPeripheral} {x : Pos} {ys : List IRC} (h : ContentAt d ps x ys) :
    ∃ l, Chain d x l ∧ (∀ y ∈ ys, PartOf d x l y) ∧ (∀ z, InChain d l z → KeptIn d l ys z) ∧ (NoClusterInItself d → ∀ z, InChain d l z → ∃ hs, StandsAt d z hs ∧ ∀ h ∈ hs, FoundIn d ys z h) := by
  cases h with
  | periph hq hp =>
    obtain ⟨l, h0, h1, h2, h3, h4⟩ := hp.ex
    obtain ⟨_, -, hc⟩ := elementOf_head (instance_element h1)
    refine ⟨l, hc, fun y hy => ?_, fun z hz => ?_, fun hd z hz => ?_⟩
    · obtain ⟨z, h5, h6⟩ := h3 y hy
      exact .intro (Or.inl h5) h6
    · obtain ⟨hs, h5, h6⟩ := h4 z hz
      exact .kept h5 h6
    · exact h4 z hz
  | clu hc hm hr =>
    cases hr with
    | clu h1 h2 h3 h4 =>
      obtain ⟨_, -, hc⟩ := elementOf_head (instance_element h1)
      obtain ⟨k, hk⟩ := elementOf_clu (instance_element h1) h2
      refine ⟨_, hc, h3, h4, fun hd z hz => ?_⟩
      cases h4 z hz with
      | kept h5 h6 => exact ⟨_, h5, h6⟩
      | lost h5 h6 => exact (no_endless hd hc hk h5 h6).elim

theorem chain_mem {d : SDevice} {x : Pos} {l : List Pos} (h : Chain d x l) : x ∈ l := by cases h <;> simp

theorem replaced_ne {d : SDevice} {y : Pos} {hs : List Processed} (h : ReplacedBy d y hs) : ∃ h, h ∈ hs := by
  obtain ⟨p, -, ⟨-, n, -, h⟩ | ⟨-, h, rfl, -⟩⟩ := h
  · cases hs with
    | nil => have := h.count; have := h.atLeastOne; simp at *; omega
    | cons a b => exact ⟨a, by simp⟩
  · exact ⟨h, by simp⟩

theorem rcOf_level {d : SDevice} {y : Pos} {e : IRC} (h : RCOf d y e) : ∃ p, DeclAt d y p ∧ procLevel (headOf e) = p.level := by
  cases h with
  | reg h1 _ => exact elementOf_level (instance_element h1)
  | clu h1 h2 _ _ =>
    obtain ⟨p, h3, h4⟩ := elementOf_level (instance_element h1)
    exact ⟨p, h3, by rw [← h4]; exact (butSize_level h2).symm⟩

theorem snoc_own {d : SDevice} {x : Pos} {p : Parsed} (h : DeclAt d x p) (hp : p ≠ .device) :
    ∃ y q, OwnChild d y x ∧ DeclAt d y q ∧ childKind q.level p.level = true ∧ y.length < x.length := by
  rcases List.eq_nil_or_concat x with rfl | ⟨y, k, rfl⟩
  · exact absurd (declAt_unique h (⟨_, rfl⟩ : DeclAt d [] .device)) hp
  · rw [List.concat_eq_append] at h ⊢
    have ho : OwnChild d y (y ++ [k]) := ⟨k, _, rfl, h⟩
    obtain ⟨p', q', hp', hq'⟩ := ownChild_decl ho
    exact ⟨y, p', ho, hp', ownChild_kind ho hp' h, by simp⟩

theorem ownChild_inChain {d : SDevice} {x y : Pos} {l : List Pos} (h : OwnChild d x y) (hc : Chain d x l) : InChain d l y :=
  ⟨x, chain_mem hc, h⟩

/-- One of the elements for a declared child. -/
theorem child_present {d : SDevice} {ps : List IPeripheral} (hd : NoClusterInItself d) {x y : Pos} {ys : List IRC} (h : ContentAt d ps x ys)
    (ho : OwnChild d x y) : ∃ e ∈ ys, RCOf d y e := by
  obtain ⟨l, hc, -, -, h1⟩ := contentAt_inv h
  obtain ⟨hs, h2, h3⟩ := h1 hd y (ownChild_inChain ho hc)
  obtain ⟨h, hh⟩ := replaced_ne (replaced_at h2)
  cases h3 h hh with
  | intro h4 _ h5 => exact ⟨_, h4, h5⟩

theorem content_present {d : SDevice} {ps : List IPeripheral} (hD : DeviceOf d ps) (hd : NoClusterInItself d) : ∀ (n : Nat) (x : Pos), x.length = n → ∀ p, DeclAt d x p →
    kindOf p = .peripheral ∨ kindOf p = .cluster → ∃ ys, ContentAt d ps x ys := by
  intro n
  induction n using Nat.strongRecOn with
  | ind n ih =>
    intro x hx p hp hk
    obtain ⟨y, q, ho, hq, hck, hlt⟩ := snoc_own hp (by rintro rfl; simp [kindOf] at hk)
    rcases hk with hk | hk
    · have hq0 : y = [] := device_pos hq (by
        rw [kindOf_level] at hk; rw [hk] at hck; revert hck; cases q.level <;> simp [childKind])
      subst hq0
      obtain ⟨hs, h1, h2⟩ := hD.all x ho
      obtain ⟨h, hh⟩ := replaced_ne (replaced_at h1)
      obtain ⟨q, h3, -, h4⟩ := h2 h hh
      exact ⟨_, .periph h3 h4⟩
    · have hqk : kindOf q = .peripheral ∨ kindOf q = .cluster := by
        rw [kindOf_level] at hk; rw [hk] at hck; rw [kindOf_level]; revert hck; cases q.level <;> simp [childKind]
      obtain ⟨ys, hys⟩ := ih y.length (by omega) y rfl q hq hqk
      obtain ⟨e, h1, h2⟩ := child_present hd hys ho
      obtain ⟨p', h3, h4⟩ := rcOf_level h2
      rw [declAt_unique h3 hp, ← kindOf_level, hk] at h4
      cases e with
      | reg r fs => cases h4
      | clu c zs => exact ⟨zs, .clu hys h1 h2⟩

theorem fields_present {d : SDevice} {ps : List IPeripheral} (hD : DeviceOf d ps) (hd : NoClusterInItself d) {x : Pos} {r : SRegister}
    (hp : DeclAt d x (.reg r)) : ∃ fs, FieldsAt d ps x fs := by
  obtain ⟨y, q, ho, hq, hck, hlt⟩ := snoc_own hp (by simp)
  have hqk : kindOf q = .peripheral ∨ kindOf q = .cluster := by
    rw [kindOf_level]; revert hck; cases q.level <;> simp [childKind, Parsed.level]
  obtain ⟨ys, hys⟩ := content_present hD hd _ y rfl q hq hqk
  obtain ⟨e, h1, h2⟩ := child_present hd hys ho
  obtain ⟨p', h3, h4⟩ := rcOf_level h2
  rw [declAt_unique h3 hp] at h4
  cases e with
  | clu r fs => cases h4
  | reg c zs => exact ⟨zs, .intro hys h1 h2⟩

theorem dimExpanded_of {d : SDevice} {ps : List IPeripheral} (h : DeviceOf d ps) : DimExpanded d ps := by
  constructor
  · intro x hx
    obtain ⟨hs, h1, h2⟩ := h.all x hx
    refine ⟨hs, replaced_at h1, fun a ha => ?_⟩
    obtain ⟨q, h3, h4, -⟩ := h2 a ha
    exact ⟨q, h3, h4⟩
  · intro q hq
    obtain ⟨x, h1, h2⟩ := h.sub q hq
    obtain ⟨l, h0, h3, h4, -⟩ := h2.ex
    obtain ⟨hs, h5, h6⟩ := instance_replaced h3
    exact ⟨x, hs, h0, h1, h5, h6, h4⟩
  · intro x ys hc
    obtain ⟨l, h1, h2, h3, -⟩ := contentAt_inv hc
    refine ⟨l, h1, fun y hy => ?_, fun e he => ?_⟩
    · cases h3 y hy with
      | kept h4 h5 =>
        refine Or.inr ⟨_, replaced_at h4, fun a ha => ?_⟩
        cases h5 a ha with
        | intro h6 h7 _ => exact ⟨_, h6, h7⟩
      | lost h4 h5 => exact Or.inl ⟨_, h4, h5⟩
    · cases h2 e he with
      | intro h4 h5 =>
        obtain ⟨hs, a, h6, h7, h8⟩ := rcOf_replaced h5
        exact ⟨_, hs, a, h4, h6, h7, h8⟩
  · rintro x fs ⟨hc, hm, hr⟩
    cases hr with
    | reg h1 h2 =>
      obtain ⟨_, -, hch⟩ := elementOf_head (instance_element h1)
      refine ⟨_, hch, fun y hy => ?_, fun f hf => ?_⟩
      · obtain ⟨hs, h3, h4⟩ := h2.all y hy
        refine ⟨hs, replaced_at h3, fun a ha => ?_⟩
        obtain ⟨f, h5, h6, -⟩ := h4 a ha
        exact ⟨f, h5, h6⟩
      · obtain ⟨y, h3, l', h4, -⟩ := h2.sub f hf
        obtain ⟨hs, h5, h6⟩ := instance_replaced h4
        exact ⟨y, hs, h3, h5, h6⟩
  · exact fun hd => ⟨fun x p hp hk => content_present h hd _ x rfl p hp hk, fun x r hr => fields_present h hd hr⟩

section
variable {ord : List Nat → List Nat} {fuel : Nat} {d : SDevice} {dev : Device} {ws : List Warn}

/-- C07: in an accepted device, up to elements ignored with a warning, every declaration with dim is replaced by exactly `dim`
elements, named with the indices and `dimIncrement` apart, wherever it occurs; a declaration without `%s` in its name by one
element of its name; there are no other elements. -/
theorem C07_device (hord : ∀ l, (ord l).Perm l) (h : processDevice ord fuel d = .ok dev ws) :
    ∃ ps raw, DimExpanded d ps ∧ TrimPeripherals ps raw (ws.filter SaysIgnored) ∧ dev.peripherals.Perm raw := by
  obtain ⟨ps, raw, h1, h2, h3⟩ := C53_processed hord h
  exact ⟨ps, raw, dimExpanded_of h1, h2, h3⟩

end

namespace Sample

/-- Dim at every level, also taken from a base: `S[%s]` is derived from `RB`. -/
def rows : SDevice :=
  rdev [
    { hd := { name := s%"T[%s]", baseAddress := 4096, dim := { dim := some 2, dimIncrement := some 1024 }
              addressBlocks := [{ offset := 0, size := 256, usage := .registers }] }
      rcs := [
        .reg { name := s%"R%s", addressOffset := 0, dim := { dim := some 3, dimIncrement := some 4, dimIndex := some (s%"A,B,C") }
               fields := [{ name := s%"F%s", lsb := some 1, msb := some 2, dim := { dim := some 2, dimIncrement := some 3 } }] },
        .reg { name := s%"S[%s]", addressOffset := 32, derivedFrom := some (s%"RB"), dim := { dim := some 2, dimIncrement := some 8 } },
        .clu { name := s%"C[%s]", addressOffset := 64, dim := { dim := some 2, dimIncrement := some 8 } } [rreg (s%"X") 4]] }]

/-- Names and addresses of the registers. -/
def layout (dev : Device) : List (Str × Int) := (registers dev).map fun r => (r.name, r.baseAddress)

end Sample

/-- C07: the hypotheses are met; dim at all four levels, in one case with a base. -/
theorem C07_device_sample : Sample.okAnd (processDevice id 10 Sample.rows) (fun dev _ =>
    dev.peripherals.map (fun p => (p.name, p.baseAddress)) == [(s%"T0", 4096), (s%"T1", 5120)] &&
    Sample.layout dev == [(s%"RA", 4096), (s%"RB", 4100), (s%"RC", 4104), (s%"S0", 4128), (s%"S1", 4136), (s%"X", 4164), (s%"X", 4172),
      (s%"RA", 5120), (s%"RB", 5124), (s%"RC", 5128), (s%"S0", 5152), (s%"S1", 5160), (s%"X", 5188), (s%"X", 5196)] &&
    (Sample.registers dev).all (fun r => r.name == s%"X" || r.fields.map (fun f => (f.name, f.lsb, f.msb)) == [(s%"F0", 1, 2), (s%"F1", 4, 5)])) = true := by
  decide +kernel

end Svd
