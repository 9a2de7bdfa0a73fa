import Verif.Spec.Rewrite
import Verif.Spec.Origin
import Verif.Lemmas.RoundTrip
import Verif.Lemmas.Text
/-
Lemmas about reading, writing and reading again.
-/
namespace Svd
open Spec

theorem Spec.Filled.child {e c : XElem} (h : Filled e) (hc : c ∈ e.children) : Filled c := fun x hx => h x (.child hc hx)
theorem Spec.Filled.kid {e c : XElem} {t : Str} (h : Filled e) (hc : c ∈ kids e t) : Filled c := h.child (List.mem_filter.1 hc).1

theorem trim_trim' (s : Str) : trim (trim s) = trim s := by rw [trim_eq]; exact strip_strip s

theorem filled_text {e : XElem} {t s : Str} (h : Filled e) (ht : Text e t (some s)) :
    (t ∈ valueTags → trim s ≠ []) ∧ (t ∈ rawTags → s ≠ []) := by
  cases ht with
  | @last l x _ hk _ hx =>
    have hm : x ∈ kids e t := by rw [hk]; simp
    obtain ⟨h1, h2⟩ := List.mem_filter.1 hm
    have h3 := h x (.child h1 .self)
    have : x.tag = t := by simpa using h2
    rw [this] at h3
    exact ⟨fun a => h3.1 a s hx, fun a => h3.2 a s hx⟩

theorem filled_value {e : XElem} {t s : Str} (h : Filled e) (ht : t ∈ valueTags) (hv : Value Eq e t (some s)) : Tidy s := by
  cases hv with
  | given h1 h2 => subst h2; exact ⟨(filled_text h h1).1 ht, trim_trim' _⟩

theorem filled_valueO {e : XElem} {t : Str} {o : Option Str} (h : Filled e) (ht : t ∈ valueTags) (hv : Value Eq e t o) : TidyO o := by
  intro s hs
  cases hs
  exact filled_value h ht hv

theorem filled_raw {e : XElem} {t : Str} {o : Option Str} (h : Filled e) (ht : t ∈ rawTags) (hv : Text e t o) : NonEmptyO o := by
  intro s hs
  cases hs
  exact (filled_text h hv).2 ht

theorem stripped_attr {e : XElem} {k : Str} {o : Option Str} (hv : AttrValue Eq e k o) : Stripped o := by
  intro s hs
  cases hs
  cases hv with
  | given h1 h2 => subst h2; exact trim_trim' _

theorem entrywise_mem {α β : Type} {R : α → β → Prop} {xs : List α} {ys : List β} (h : Entrywise R xs ys) {y : β} (hy : y ∈ ys) :
    ∃ x ∈ xs, R x y := by
  induction h with
  | nil => cases hy
  | cons h1 _ ih =>
    rcases List.mem_cons.1 hy with rfl | hy
    · exact ⟨_, List.mem_cons_self, h1⟩
    · obtain ⟨x, hx, hr⟩ := ih hy
      exact ⟨x, List.mem_cons_of_mem _ hx, hr⟩

theorem first_mem {α : Type} {R : XElem → α → Prop} {e : XElem} {t : Str} {a : α} (h : First R e t (some a)) : ∃ x ∈ kids e t, R x a := by
  cases h with
  | first hk hr => exact ⟨_, by rw [hk]; exact List.mem_cons_self, hr⟩

/-! ### what was read can be written -/

theorem ok_enumValue {e : XElem} {v : SEnumValue} (hf : Filled e) (h : SaysEnumValue e v) : EnumValueOK v :=
  ⟨filled_value hf (by decide) h.name, filled_raw hf (by decide) h.description, filled_valueO hf (by decide) h.value⟩

theorem ok_enumValues {e : XElem} {vs : List SEnumValue} {t : Str} (hf : Filled e) (h : Entrywise SaysEnumValue (kids e t) vs) : ∀ v ∈ vs, EnumValueOK v := by
  intro v hv
  obtain ⟨x, hx, hr⟩ := entrywise_mem h hv
  exact ok_enumValue (hf.kid hx) hr

theorem ok_dim {e : XElem} {d : SDim} (hf : Filled e) (h : SaysDim e d) : DimOK d := by
  refine ⟨filled_valueO hf (by decide) h.index, filled_valueO hf (by decide) h.name, ?_⟩
  intro a ha
  have h1 := h.array
  rw [ha] at h1
  obtain ⟨x, hx, hr⟩ := first_mem h1
  exact ⟨filled_valueO (hf.kid hx) (by decide) hr.header, ok_enumValues (hf.kid hx) hr.values⟩

theorem ok_container {e : XElem} {c : SEnumContainer} (hf : Filled e) (h : SaysContainer e c) : ContainerOK c :=
  ⟨filled_valueO hf (by decide) h.name, filled_valueO hf (by decide) h.header, ok_enumValues hf h.values, stripped_attr h.derivedFrom⟩

theorem ifBoth_isSome (a b : Option Int) : (ifBoth a b).isSome = (ifBoth b a).isSome := by cases a <;> cases b <;> rfl

theorem ok_field {e : XElem} {f : SField} (hf : Filled e) (h : SaysField e f) : FieldOK (wholeField f) where
  name := filled_value hf (by decide) h.name
  description := filled_raw hf (by decide) h.description
  offsetWidth := ifBoth_isSome _ _
  lsbMsb := ifBoth_isSome _ _
  range := filled_valueO hf (by decide) h.bitRange
  containers := by
    intro c hc
    obtain ⟨x, hx, hr⟩ := entrywise_mem h.containers hc
    exact ok_container (hf.kid hx) hr
  dim := ok_dim hf h.dim
  derived := stripped_attr h.derivedFrom

theorem ok_register {e : XElem} {r : SRegister} (hf : Filled e) (h : SaysRegister e r) : RegisterOK { r with fields := r.fields.map wholeField } where
  name := filled_value hf (by decide) h.name
  display := filled_valueO hf (by decide) h.displayName
  description := filled_raw hf (by decide) h.description
  group := filled_valueO hf (by decide) h.alternateGroup
  alternate := filled_valueO hf (by decide) h.alternateRegister
  fields := by
    intro f hm
    obtain ⟨f0, h0, rfl⟩ := List.mem_map.1 hm
    obtain ⟨x, hx, hr⟩ := entrywise_mem h.fields h0
    obtain ⟨y, hy, hx⟩ := List.mem_flatMap.1 hx
    exact ok_field ((hf.kid hy).kid hx) hr
  dim := ok_dim hf h.dim
  derived := stripped_attr h.derivedFrom

theorem ok_cluster {e : XElem} {c : SCluster} (hf : Filled e) (h : SaysCluster e c) : ClusterOK c :=
  ⟨filled_value hf (by decide) h.name, filled_raw hf (by decide) h.description, filled_valueO hf (by decide) h.alternateCluster,
   filled_valueO hf (by decide) h.headerStructName, ok_dim hf h.dim, stripped_attr h.derivedFrom⟩

mutual
theorem ok_rc {e : XElem} {x : SRC} (hf : Filled e) (h : SaysRC e x) : RCOK (wholeRC x) := by
  match h with
  | .register _ h1 => exact ok_register hf h1
  | .cluster _ h1 h2 => exact ⟨ok_cluster hf h1, ok_rcs (fun x hx => hf.child hx) h2⟩
theorem ok_rcs {es : List XElem} {xs : List SRC} (hf : ∀ e ∈ es, Filled e) (h : SaysRCs es xs) : RCsOK (wholeRCs xs) := by
  match h with
  | .nil => exact trivial
  | .cons h1 h2 => exact ⟨ok_rc (hf _ List.mem_cons_self) h1, ok_rcs (fun x hx => hf x (List.mem_cons_of_mem _ hx)) h2⟩
  | .other _ _ h2 => exact ok_rcs (fun x hx => hf x (List.mem_cons_of_mem _ hx)) h2
end

theorem ok_peripheral {e : XElem} {p : SPeriphT} (hf : Filled e) (h : SaysPeripheral e p) : PeripheralOK (wholePeripheral p) where
  name := filled_value hf (by decide) h.name
  version := filled_valueO hf (by decide) h.version
  description := filled_raw hf (by decide) h.description
  alternate := filled_valueO hf (by decide) h.alternatePeripheral
  group := filled_valueO hf (by decide) h.groupName
  prepend := filled_valueO hf (by decide) h.prependToName
  append := filled_valueO hf (by decide) h.appendToName
  header := filled_valueO hf (by decide) h.headerStructName
  condition := filled_raw hf (by decide) h.disableCondition
  interrupts := by
    intro i hi
    obtain ⟨x, hx, hr⟩ := entrywise_mem h.interrupts hi
    exact ⟨filled_value (hf.kid hx) (by decide) hr.name, filled_raw (hf.kid hx) (by decide) hr.description⟩
  dim := ok_dim hf h.dim
  derived := stripped_attr h.derivedFrom
  rcs := ok_rcs (fun x hx => by
    obtain ⟨y, hy, hx⟩ := List.mem_flatMap.1 hx
    exact (hf.kid hy).child hx) h.rcs

theorem ok_cpu {e : XElem} {c : SCpu} (hf : Filled e) (h : SaysCpu e c) : CpuOK c := by
  refine ⟨filled_value hf (by decide) h.revision, ?_⟩
  intro s hs r hr
  have h1 := h.sauConfig
  rw [hs] at h1
  obtain ⟨x, hx, h2⟩ := first_mem h1
  obtain ⟨y, hy, h3⟩ := entrywise_mem h2.regions hr
  exact stripped_attr h3.name

theorem ok_device {doc : XDoc} {d : SDevice} (hf : Filled doc.root) (h : SaysDevice doc d) (hn : d.peripherals ≠ []) : DeviceOK (whole d) where
  location := by
    have : (whole d).hd = d.hd := rfl
    rw [this, h.location]
    unfold schemaLocation
    split
    · rfl
    · cases doc.root.attrs.lookup _ with
      | none => rfl
      | some s => exact trim_trim' s
  schema := stripped_attr h.schemaVersion _ rfl
  vendor := filled_valueO hf (by decide) h.vendor
  vendorId := filled_valueO hf (by decide) h.vendorId
  name := filled_value hf (by decide) h.name
  series := filled_valueO hf (by decide) h.series
  version := filled_value hf (by decide) h.version
  license := filled_raw hf (by decide) h.licenseText
  cpu := by
    intro c hc
    have h1 := h.cpu
    have hc' : d.hd.cpu = some c := hc
    rw [hc'] at h1
    obtain ⟨x, hx, hr⟩ := first_mem h1
    exact ok_cpu (hf.kid hx) hr
  system := filled_valueO hf (by decide) h.headerSystemFilename
  prefix_ := filled_valueO hf (by decide) h.headerDefinitionsPrefix
  peripherals := by
    intro p hp
    obtain ⟨p0, h0, rfl⟩ := List.mem_map.1 hp
    obtain ⟨x, hx, hr⟩ := first_mem h.peripherals
    obtain ⟨y, hy, h2⟩ := entrywise_mem hr h0
    exact ok_peripheral ((hf.kid hx).kid hy) h2
  nonempty := by
    intro h0
    exact hn (List.map_eq_nil_iff.1 h0)

/-! ### half positions are not written -/

theorem serPair_ifBoth (t1 t2 : Str) (a b : Option Int) : serPair t1 t2 (ifBoth a b) (ifBoth b a) = serPair t1 t2 a b := by
  cases a <;> cases b <;> rfl

theorem serField_whole (f : SField) : serField (wholeField f) = serField f := by
  unfold serField wholeField
  dsimp only
  rw [serPair_ifBoth, serPair_ifBoth]

theorem serFields_whole (fs : List SField) : serFields (fs.map wholeField) = serFields fs := by
  unfold serFields
  have : (fs.map wholeField).map serField = fs.map serField := by
    rw [List.map_map]
    exact List.map_congr_left fun f _ => serField_whole f
  rw [this]
  cases fs <;> rfl

mutual
theorem serRC_whole (x : SRC) : serRC (wholeRC x) = serRC x := by
  match x with
  | .reg r =>
    unfold wholeRC serRC serRegister
    dsimp only
    rw [serFields_whole]
  | .clu c ch =>
    unfold wholeRC serRC
    rw [serRCs_whole ch]
theorem serRCs_whole (xs : List SRC) : serRCs (wholeRCs xs) = serRCs xs := by
  match xs with
  | [] => rfl
  | x :: xs =>
    unfold wholeRCs serRCs
    rw [serRC_whole x, serRCs_whole xs]
end

theorem serPeripheral_whole (p : SPeriphT) : serPeripheral (wholePeripheral p) = serPeripheral p := by
  unfold serPeripheral wholePeripheral serRegisters
  dsimp only
  rw [serRCs_whole]
  cases p.rcs <;> rfl

theorem serDevice_whole (d : SDevice) : serDevice (whole d) = serDevice d := by
  have h : serPeripherals (whole d).peripherals = serPeripherals d.peripherals := by
    unfold serPeripherals whole
    dsimp only
    have : (d.peripherals.map wholePeripheral).map serPeripheral = d.peripherals.map serPeripheral := by
      rw [List.map_map]
      exact List.map_congr_left fun p _ => serPeripheral_whole p
    rw [this]
    cases d.peripherals <;> rfl
  unfold serDevice
  rw [h]
  rfl

/-! ### nothing is lost if there are no half positions -/

theorem ifBoth_eq {a b : Option Int} (h : a.isSome = b.isSome) : ifBoth a b = a ∧ ifBoth b a = b := by
  cases a <;> cases b <;> first | exact ⟨rfl, rfl⟩ | cases h

theorem wholeField_eq {f : SField} (h : WholeField f) : wholeField f = f := by
  unfold wholeField
  rw [(ifBoth_eq h.1).1, (ifBoth_eq h.1).2, (ifBoth_eq h.2).1, (ifBoth_eq h.2).2]

theorem wholeFields_eq {fs : List SField} (h : ∀ f ∈ fs, WholeField f) : fs.map wholeField = fs := by
  conv => rhs; rw [← List.map_id fs]
  exact List.map_congr_left fun f hf => wholeField_eq (h f hf)

mutual
theorem wholeRC_eq (x : SRC) (h : ∀ r, SBelow [x] (.reg r) → ∀ f ∈ r.fields, WholeField f) : wholeRC x = x := by
  match x with
  | .reg r =>
    unfold wholeRC
    rw [wholeFields_eq (h r (.here List.mem_cons_self))]
  | .clu c ch =>
    unfold wholeRC
    rw [wholeRCs_eq ch fun r hr => h r (.inside List.mem_cons_self hr)]
theorem wholeRCs_eq (xs : List SRC) (h : ∀ r, SBelow xs (.reg r) → ∀ f ∈ r.fields, WholeField f) : wholeRCs xs = xs := by
  match xs with
  | [] => rfl
  | x :: xs =>
    have mono : ∀ {ys r}, (∀ y ∈ ys, y ∈ x :: xs) → SBelow ys r → SBelow (x :: xs) r := by
      intro ys r hs hb
      cases hb with
      | here hm => exact .here (hs _ hm)
      | inside hm hb => exact .inside (hs _ hm) hb
    unfold wholeRCs
    rw [wholeRC_eq x fun r hr => h r (mono (by simp) hr), wholeRCs_eq xs fun r hr => h r (mono (by simp +contextual) hr)]
end

theorem whole_eq {d : SDevice} (h : ∀ f, Declared d (.field f) → WholeField f) : whole d = d := by
  unfold whole
  have : d.peripherals.map wholePeripheral = d.peripherals := by
    conv => rhs; rw [← List.map_id d.peripherals]
    refine List.map_congr_left fun p hp => ?_
    unfold wholePeripheral
    rw [wholeRCs_eq p.rcs fun r hr f hf => h f (.field hp hr hf)]
    rfl
  rw [this]

end Svd
