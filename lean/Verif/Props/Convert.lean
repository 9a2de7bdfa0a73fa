import Verif.Spec.Convert
import Verif.Model.Convert
import Verif.Lemmas.XmlInt
import Verif.Props.Misc
import Verif.Props.Fields
/-
The conversion of processed devices: C34.
-/
namespace Svd
open Spec

variable {ord ord' : List Nat → List Nat} {fuel fuel' : Nat} {d d' : SDevice} {dev dev' : Device} {ws ws' : List Warn}

/-! ### C34 -/

theorem plain_convField (f : Field) : PlainField (convField f) := by
  refine ⟨rfl, rfl, fun c hc => ?_⟩
  obtain ⟨c', -, rfl⟩ := List.mem_map.1 hc
  rfl

mutual
theorem plain_convRC : ∀ x : RC, PlainRC (convRC x)
  | .reg r => by
      unfold convRC PlainRC
      refine ⟨rfl, rfl, fun f hf => ?_⟩
      obtain ⟨f', -, rfl⟩ := List.mem_map.1 hf
      exact plain_convField f'
  | .clu c ch => by
      unfold convRC PlainRC
      exact ⟨rfl, rfl, plain_convRCs ch⟩
theorem plain_convRCs : ∀ xs : List RC, PlainRCs (convRCs xs)
  | [] => by simp [convRCs, PlainRCs]
  | x :: xs => by
      unfold convRCs PlainRCs
      exact ⟨plain_convRC x, plain_convRCs xs⟩
end

/-- C34: the converted device contains no derivedFrom and no dim. -/
theorem C34_self_contained (dev : Device) : PlainDevice (convDevice dev) := by
  intro p hp
  obtain ⟨q, -, rfl⟩ := List.mem_map.1 hp
  exact ⟨rfl, rfl, plain_convRCs _⟩

theorem sameValue (v : EnumValue) : SameValue v (convEnumValue v) :=
  ⟨rfl, rfl, ⟨_, rfl, toInt_intStr _⟩, by simp [convEnumValue]⟩
theorem sameContainer (c : EnumContainer) : SameContainer c (convEnumContainer c) :=
  ⟨rfl, rfl, rfl, entrywise_map sameValue _⟩
theorem sameField (f : Field) : SameField f (convField f) :=
  ⟨rfl, rfl, rfl, rfl, ⟨rfl, rfl, rfl⟩, rfl, rfl, rfl, rfl, entrywise_map sameContainer _⟩
theorem sameProps (p : FProps) : SameProps p (convProps p) := ⟨rfl, rfl, rfl, rfl, rfl⟩
theorem sameRegister (r : Register) : SameRegister r (convRegister r) :=
  ⟨rfl, rfl, rfl, rfl, rfl, rfl, sameProps _, rfl, rfl, rfl, rfl, entrywise_map sameField _⟩

mutual
theorem sameRC : ∀ x : RC, SameRC x (convRC x)
  | .reg r => by unfold convRC; exact .reg (sameRegister r)
  | .clu c ch => by unfold convRC; exact .clu ⟨rfl, rfl, rfl, rfl, rfl, sameProps _⟩ (sameRCs ch)
theorem sameRCs : ∀ xs : List RC, SameRCs xs (convRCs xs)
  | [] => by unfold convRCs; exact .nil
  | x :: xs => by unfold convRCs; exact .cons (sameRC x) (sameRCs xs)
end

theorem samePeripheral (p : Peripheral) : SamePeripheral p (convPeripheral p) :=
  ⟨rfl, rfl, rfl, rfl, rfl, rfl, rfl, rfl, rfl, rfl, sameProps _, entrywise_map (fun _ => ⟨rfl, rfl, rfl, rfl⟩) _, rfl, sameRCs _⟩

theorem sameCpu (c : Cpu) : SameCpu c (convCpu c) :=
  ⟨rfl, rfl, rfl, rfl, rfl, rfl, rfl, rfl, rfl, rfl, rfl, rfl, rfl, rfl, rfl, rfl,
   optRel_map (fun _ => ⟨rfl, rfl, entrywise_map (fun _ => ⟨rfl, rfl, rfl, rfl, rfl⟩) _⟩) _⟩

/-- C34: the converted device has the same peripherals, clusters, registers, fields, containers and values in the same order,
with the same attributes. -/
theorem C34_same_content (dev : Device) : SameDevice dev (convDevice dev) :=
  ⟨rfl, rfl, rfl, rfl, rfl, rfl, rfl, optRel_map sameCpu _, rfl, rfl, rfl, rfl, sameProps _, entrywise_map samePeripheral _⟩

/-! nothing is lost -/

theorem entrywise_inj {α β : Type} {R S : α → β → Prop} {xs ys : List α} {zs : List β} (h : Entrywise R xs zs) (h' : Entrywise S ys zs)
    (hi : ∀ x ∈ xs, ∀ y ∈ ys, ∀ z, R x z → S y z → x = y) : xs = ys := by
  induction h generalizing ys with
  | nil => cases h'; rfl
  | @cons a b as bs hr _ ih =>
    cases h' with
    | cons hs h's =>
      rw [hi a (List.mem_cons_self ..) _ (List.mem_cons_self ..) b hr hs,
        ih h's fun x hx y hy => hi x (List.mem_cons_of_mem _ hx) y (List.mem_cons_of_mem _ hy)]

theorem sameValue_inj {v v' : EnumValue} {s : SEnumValue} (h : SameValue v s) (h' : SameValue v' s) : v = v' := by
  obtain ⟨n, de, va⟩ := v
  obtain ⟨n', de', va'⟩ := v'
  obtain ⟨h1, h2, ⟨t, h3, h4⟩, -⟩ := h
  obtain ⟨h1', h2', ⟨t', h3', h4'⟩, -⟩ := h'
  rw [h3] at h3'
  cases h3'
  rw [h4] at h4'
  have := (M.ok.inj h4').1
  simp only at *
  subst this; rw [← h1, ← h1', ← h2, ← h2']

theorem sameContainer_inj {v v' : EnumContainer} {s : SEnumContainer} (h : SameContainer v s) (h' : SameContainer v' s) : v = v' := by
  obtain ⟨n, de, va, vs⟩ := v
  obtain ⟨n', de', va', vs'⟩ := v'
  obtain ⟨h1, h2, h3, h4⟩ := h
  obtain ⟨h1', h2', h3', h4'⟩ := h'
  have h5 := entrywise_inj h4 h4' fun _ _ _ _ _ => sameValue_inj
  rw [h3] at h3'
  simp only [Option.some.injEq] at *
  subst h5 h3'
  rw [← h1, ← h1', ← h2, ← h2']

/-- The derived attributes of a field follow from its position. -/
def Positioned (f : Field) : Prop := f.bitOffset = f.lsb ∧ f.bitWidth = f.msb - f.lsb + 1 ∧ f.bitRange = (f.msb, f.lsb)

theorem sameField_inj {v v' : Field} {s : SField} (hp : Positioned v) (hp' : Positioned v') (h : SameField v s) (h' : SameField v' s) :
    v = v' := by
  obtain ⟨n, de, l, m, mw, wc, ra, ac, bo, bw, br, cs⟩ := v
  obtain ⟨n', de', l', m', mw', wc', ra', ac', bo', bw', br', cs'⟩ := v'
  obtain ⟨h1, h2, h3, h4, -, h5, h6, h7, h8, h9⟩ := h
  obtain ⟨h1', h2', h3', h4', -, h5', h6', h7', h8', h9'⟩ := h'
  have hc := entrywise_inj h9 h9' fun _ _ _ _ _ => sameContainer_inj
  obtain ⟨p1, p2, p3⟩ := hp
  obtain ⟨p1', p2', p3'⟩ := hp'
  rw [h3] at h3'; rw [h4] at h4'; rw [h5] at h5'; rw [h6] at h6'
  simp only [Option.some.injEq] at *
  subst hc h3' h4' h5' h6' p1 p2 p3 p1' p2' p3'
  rw [← h1, ← h1', ← h2, ← h2', ← h7, ← h7', ← h8, ← h8']

theorem sameProps_inj {p p' : FProps} {s : Props} (h : SameProps p s) (h' : SameProps p' s) : p = p' := by
  obtain ⟨a, b, c, e, f⟩ := p
  obtain ⟨a', b', c', e', f'⟩ := p'
  obtain ⟨h1, h2, h3, h4, h5⟩ := h
  obtain ⟨h1', h2', h3', h4', h5'⟩ := h'
  rw [h1] at h1'; rw [h2] at h2'; rw [h3] at h3'; rw [h4] at h4'; rw [h5] at h5'
  simp only [Option.some.injEq] at *
  subst h1' h2' h3' h4' h5'
  rfl

theorem sameRegister_inj {v v' : Register} {s : SRegister} (hb : v.baseAddress - v.addressOffset = v'.baseAddress - v'.addressOffset)
    (hp : ∀ f ∈ v.fields, Positioned f) (hp' : ∀ f ∈ v'.fields, Positioned f)
    (h : SameRegister v s) (h' : SameRegister v' s) : v = v' := by
  obtain ⟨n, di, de, ag, ar, ao, dt, mw, wc, ra, pr, fs, ba⟩ := v
  obtain ⟨n', di', de', ag', ar', ao', dt', mw', wc', ra', pr', fs', ba'⟩ := v'
  obtain ⟨h1, h2, h3, h4, h5, h6, h7, h8, h9, h10, h11, h12⟩ := h
  obtain ⟨h1', h2', h3', h4', h5', h6', h7', h8', h9', h10', h11', h12'⟩ := h'
  have hf := entrywise_inj h12 h12' fun x hx y hy z => sameField_inj (hp x hx) (hp' y hy)
  have hpp := sameProps_inj h7 h7'
  rw [h9] at h9'
  simp only [Option.some.injEq] at *
  have ho : ao = ao' := by rw [← h6, ← h6']
  have hbb : ba = ba' := by omega
  subst hf hpp h9' ho hbb
  rw [← h1, ← h1', ← h2, ← h2', ← h3, ← h3', ← h4, ← h4', ← h5, ← h5', ← h8, ← h8', ← h10, ← h10', ← h11, ← h11']

theorem sameRC_inj (n : Nat) : ∀ {x x' : RC} {s : SRC} {b : Int}, sizeOf x < n → FinT b x → FinT b x' →
    (∀ r, Below [x] (.reg r) → ∀ f ∈ r.fields, Positioned f) → (∀ r, Below [x'] (.reg r) → ∀ f ∈ r.fields, Positioned f) →
    SameRC x s → SameRC x' s → x = x' := by
  induction n with
  | zero => intro _ _ _ _ h; omega
  | succ n ih =>
    intro x x' s b hn hf hf' hp hp' hs hs'
    have key : ∀ {c : Int} {xs xs' : List RC} {ss : List SRC}, sizeOf xs < n → (∀ y ∈ xs, FinT c y) → (∀ y ∈ xs', FinT c y) →
        (∀ r, Below xs (.reg r) → ∀ f ∈ r.fields, Positioned f) → (∀ r, Below xs' (.reg r) → ∀ f ∈ r.fields, Positioned f) →
        SameRCs xs ss → SameRCs xs' ss → xs = xs' := by
      intro c xs
      induction xs with
      | nil => intro xs' ss _ _ _ _ _ h h'; cases h; cases h'; rfl
      | cons y ys ihl =>
        intro xs' ss hsz h1 h2 h3 h4 h h'
        have he : sizeOf (y :: ys) = 1 + sizeOf y + sizeOf ys := rfl
        cases h with
        | cons ha hb =>
          cases h' with
          | cons ha' hb' =>
            rename_i z zs
            have e1 := ih (by omega) (h1 y (List.mem_cons_self ..)) (h2 z (List.mem_cons_self ..))
              (fun r hr => h3 r (by
                cases hr with
                | here hm => rw [List.mem_singleton] at hm; subst hm; exact .here (List.mem_cons_self ..)
                | inside hm hi => rw [List.mem_singleton] at hm; subst hm; exact .inside (List.mem_cons_self ..) hi))
              (fun r hr => h4 r (by
                cases hr with
                | here hm => rw [List.mem_singleton] at hm; subst hm; exact .here (List.mem_cons_self ..)
                | inside hm hi => rw [List.mem_singleton] at hm; subst hm; exact .inside (List.mem_cons_self ..) hi)) ha ha'
            have e2 := ihl (by omega) (fun y hy => h1 y (List.mem_cons_of_mem _ hy)) (fun y hy => h2 y (List.mem_cons_of_mem _ hy))
              (fun r hr => h3 r (Sample.Below_cons hr)) (fun r hr => h4 r (Sample.Below_cons hr)) hb hb'
            rw [e1, e2]
    cases hs with
    | @reg r s hr =>
      cases hs' with
      | @reg r' _ hr' =>
        cases hf with
        | reg h1 =>
          cases hf' with
          | reg h1' =>
            rw [sameRegister_inj (by omega) (hp r (.here (List.mem_singleton.2 rfl))) (hp' r' (.here (List.mem_singleton.2 rfl))) hr hr']
    | @clu c s ch ch' hc hl =>
      cases hs' with
      | @clu c' _ ch2 _ hc' hl' =>
        obtain ⟨n1, d1, a1, hh1, o1, p1, b1, e1, s1⟩ := c
        obtain ⟨n2, d2, a2, hh2, o2, p2, b2, e2, s2⟩ := c'
        have he : sizeOf ch < n := by
          simp only [RC.clu.sizeOf_spec] at hn
          omega
        obtain ⟨q1, q2, q3, q4, q5, q6⟩ := hc
        obtain ⟨q1', q2', q3', q4', q5', q6'⟩ := hc'
        have hpp := sameProps_inj q6 q6'
        cases hf with
        | clu h1 h2 h3 h4 h5 h6 =>
          cases hf' with
          | clu h1' h2' h3' h4' h5' h6' =>
            simp only at *
            have ho : o1 = o2 := by rw [← q5, ← q5']
            have hb : b1 = b2 := by omega
            subst hb
            have := key he h6 h6' (fun r hr => hp r (.inside (List.mem_singleton.2 rfl) hr)) (fun r hr => hp' r (.inside (List.mem_singleton.2 rfl) hr)) hl hl'
            cases this
            have hee : e1 = e2 := by rw [h3, h3']
            have hss : s1 = s2 := by rw [h4, h4', hee]
            subst hpp ho hee hss
            rw [← q1, ← q1', ← q2, ← q2', ← q3, ← q3', ← q4, ← q4']

theorem sameRCs_entrywise : ∀ {xs : List RC} {ss : List SRC}, SameRCs xs ss → Entrywise SameRC xs ss
  | [], [], _ => .nil
  | _ :: _, _ :: _, .cons h1 h2 => .cons h1 (sameRCs_entrywise h2)

theorem sameBlock_inj {v v' : AddressBlock} {s : SAddressBlock} (h : SameBlock v s) (h' : SameBlock v' s) : v = v' := by
  obtain ⟨a, b, c, e⟩ := v
  obtain ⟨a', b', c', e'⟩ := v'
  obtain ⟨h1, h2, h3, h4⟩ := h
  obtain ⟨h1', h2', h3', h4'⟩ := h'
  rw [h4] at h4'
  simp only [Option.some.injEq] at *
  subst h4'
  rw [← h1, ← h1', ← h2, ← h2', ← h3, ← h3']

theorem samePeripheral_inj {v v' : Peripheral} {s : SPeriphT} (ok : PeriphOK v) (ok' : PeriphOK v')
    (hp : ∀ r, RegisterOf v r → ∀ f ∈ r.fields, Positioned f) (hp' : ∀ r, RegisterOf v' r → ∀ f ∈ r.fields, Positioned f)
    (h : SamePeripheral v s) (h' : SamePeripheral v' s) : v = v' := by
  obtain ⟨a1, a2, a3, a4, a5, a6, a7, a8, a9, a10, a11, a12, a13, a14, a15, a16, a17, rcs, regs⟩ := v
  obtain ⟨b1, b2, b3, b4, b5, b6, b7, b8, b9, b10, b11, b12, b13, b14, b15, b16, b17, rcs', regs'⟩ := v'
  obtain ⟨h1, h2, h3, h4, h5, h6, h7, h8, h9, h10, h11, h12, h13, h14⟩ := h
  obtain ⟨h1', h2', h3', h4', h5', h6', h7', h8', h9', h10', h11', h12', h13', h14'⟩ := h'
  have e1 := sameProps_inj h11 h11'
  have e2 := entrywise_inj h12 h12' fun _ _ _ _ _ => sameBlock_inj
  have e3 : a10 = b10 := by simp only at h10 h10'; rw [← h10, ← h10']
  subst e3
  have e4 : rcs = rcs' := by
    refine entrywise_inj (sameRCs_entrywise h14) (sameRCs_entrywise h14') fun x hx y hy z hz hz' => ?_
    exact sameRC_inj _ (Nat.lt_succ_self _) (ok.tree x hx) (ok'.tree y hy)
      (fun r hr => hp r (by
        cases hr with
        | here hm => rw [List.mem_singleton] at hm; subst hm; exact .here hx
        | inside hm hi => rw [List.mem_singleton] at hm; subst hm; exact .inside hx hi))
      (fun r hr => hp' r (by
        cases hr with
        | here hm => rw [List.mem_singleton] at hm; subst hm; exact .here hy
        | inside hm hi => rw [List.mem_singleton] at hm; subst hm; exact .inside hy hi)) hz hz'
  subst e4
  obtain ⟨-, -, o1, ⟨z, zs, ab, abs, k1, k2, k3, k4⟩, o2, o3⟩ := ok
  obtain ⟨-, -, o1', ⟨z', zs', ab', abs', k1', k2', k3', k4'⟩, o2', o3'⟩ := ok'
  simp only at *
  subst e1 e2
  rw [k1] at k1'
  rw [k2] at k2'
  cases k1'
  cases k2'
  have f1 : a14 = b14 := by rw [k3, k3']
  have f2 : a15 = b15 := by rw [k4, k4']
  have f3 : a16 = b16 := by rw [o2, o2']
  have f4 : a17 = b17 := by rw [o3, o3', f2]
  have f5 : regs = regs' := by rw [o1, o1']
  subst f1 f2 f3 f4 f5
  rw [← h1, ← h1', ← h2, ← h2', ← h3, ← h3', ← h4, ← h4', ← h5, ← h5', ← h6, ← h6', ← h7, ← h7', ← h8, ← h8', ← h9, ← h9', ← h13, ← h13']

theorem sameRegion_inj {v v' : SauRegion} {s : SSauRegion} (h : SameRegion v s) (h' : SameRegion v' s) : v = v' := by
  obtain ⟨a, b, c, e, f⟩ := v
  obtain ⟨a', b', c', e', f'⟩ := v'
  obtain ⟨h1, h2, h3, h4, h5⟩ := h
  obtain ⟨h1', h2', h3', h4', h5'⟩ := h'
  rw [h1] at h1'
  simp only [Option.some.injEq] at *
  subst h1'
  rw [← h2, ← h2', ← h3, ← h3', ← h4, ← h4', ← h5, ← h5']

theorem sameSau_inj {v v' : SauConfig} {s : SSauConfig} (h : SameSau v s) (h' : SameSau v' s) : v = v' := by
  obtain ⟨a, b, c⟩ := v
  obtain ⟨a', b', c'⟩ := v'
  obtain ⟨h1, h2, h3⟩ := h
  obtain ⟨h1', h2', h3'⟩ := h'
  have := entrywise_inj h3 h3' fun _ _ _ _ _ => sameRegion_inj
  rw [h1] at h1'
  rw [h2] at h2'
  simp only [Option.some.injEq] at *
  subst h1' h2' this
  rfl

theorem optRel_inj {α β : Type} {R : α → β → Prop} {a a' : Option α} {b : Option β} (hi : ∀ x y z, R x z → R y z → x = y)
    (h : OptRel R a b) (h' : OptRel R a' b) : a = a' := by
  rcases h with ⟨rfl, rfl⟩ | ⟨x, z, rfl, rfl, hr⟩
  · rcases h' with ⟨rfl, -⟩ | ⟨_, _, -, h, -⟩
    · rfl
    · cases h
  · rcases h' with ⟨-, h⟩ | ⟨y, z', rfl, h, hr'⟩
    · cases h
    · cases h
      rw [hi _ _ _ hr hr']

theorem sameCpu_inj {v v' : Cpu} {s : SCpu} (h : SameCpu v s) (h' : SameCpu v' s) : v = v' := by
  obtain ⟨a1, a2, a3, a4, a5, a6, a7, a8, a9, a10, a11, a12, a13, a14, a15, a16, a17⟩ := v
  obtain ⟨b1, b2, b3, b4, b5, b6, b7, b8, b9, b10, b11, b12, b13, b14, b15, b16, b17⟩ := v'
  obtain ⟨h1, h2, h3, h4, h5, h6, h7, h8, h9, h10, h11, h12, h13, h14, h15, h16, h17⟩ := h
  obtain ⟨h1', h2', h3', h4', h5', h6', h7', h8', h9', h10', h11', h12', h13', h14', h15', h16', h17'⟩ := h'
  have := optRel_inj (R := SameSau) (fun _ _ _ => sameSau_inj) h17 h17'
  rw [h4] at h4'; rw [h5] at h5'; rw [h6] at h6'; rw [h7] at h7'; rw [h8] at h8'; rw [h9] at h9'; rw [h10] at h10'; rw [h11] at h11'
  rw [h12] at h12'
  simp only [Option.some.injEq] at *
  subst h4' h5' h6' h7' h8' h9' h10' h11' h12' this
  rw [← h1, ← h1', ← h2, ← h2', ← h3, ← h3', ← h13, ← h13', ← h14, ← h14', ← h15, ← h15', ← h16, ← h16']

/-- C34: an SVD device is the content of at most one processed device: nothing is lost. -/
theorem C34_nothing_lost (h : processDevice ord fuel d = .ok dev ws) (h' : processDevice ord' fuel' d' = .ok dev' ws') {s : SDevice}
    (hs : SameDevice dev s) (hs' : SameDevice dev' s) : dev = dev' := by
  have hps : dev.peripherals = dev'.peripherals := by
    refine entrywise_inj hs.peripherals hs'.peripherals fun x hx y hy z => ?_
    exact samePeripheral_inj (process_periphOK h hx) (process_periphOK h' hy)
      (fun r hr f hf => C11_attributes h ⟨r, ⟨x, hx, hr⟩, hf⟩) (fun r hr f hf => C11_attributes h' ⟨r, ⟨y, hy, hr⟩, hf⟩)
  obtain ⟨⟨b1, b2, b3, b4, b5, b6, b7, b8, b9, b10, b11, b12, b13⟩, ps⟩ := dev
  obtain ⟨⟨a1, a2, a3, a4, a5, a6, a7, a8, a9, a10, a11, a12, a13⟩, ps'⟩ := dev'
  obtain ⟨h1, h2, h3, h4, h5, h6, h7, h8, h9, h10, h11, h12, h13, -⟩ := hs
  obtain ⟨h1', h2', h3', h4', h5', h6', h7', h8', h9', h10', h11', h12', h13', -⟩ := hs'
  have e1 := optRel_inj (R := SameCpu) (fun _ _ _ => sameCpu_inj) h8 h8'
  have e2 := sameProps_inj h13 h13'
  simp only at *
  subst hps e1 e2
  rw [← h1, ← h1', ← h2, ← h2', ← h3, ← h3', ← h4, ← h4', ← h5, ← h5', ← h6, ← h6', ← h7, ← h7', ← h9, ← h9', ← h10, ← h10',
    ← h11, ← h11', ← h12, ← h12']

/-- C34: processed devices with equal conversions are equal. -/
theorem C34_injective (h : processDevice ord fuel d = .ok dev ws) (h' : processDevice ord' fuel' d' = .ok dev' ws')
    (he : convDevice dev = convDevice dev') : dev = dev' :=
  C34_nothing_lost h h' (C34_same_content dev) (he ▸ C34_same_content dev')

end Svd
