import Verif.Model.Proc
import Verif.Model.Load
/-
Specifications for CPU defaults, XML loading and schema versions.
-/
namespace Svd.Spec

/-- `x` is the given value, or the default if none is given. -/
def GivenOr {α : Type} (o : Option α) (default x : α) : Prop := o = some x ∨ (o = none ∧ x = default)

/-- A processed SAU region and its description. -/
structure RegionOf (s : SSauRegion) (r : SauRegion) : Prop where
  enabled : GivenOr s.enabled true r.enabled
  name : r.name = s.name
  base : r.base = s.base
  limit : r.limit = s.limit
  access : r.access = s.access

/-- Entry by entry. -/
inductive Entrywise {α β : Type} (R : α → β → Prop) : List α → List β → Prop
  | nil : Entrywise R [] []
  | cons {x y xs ys} : R x y → Entrywise R xs ys → Entrywise R (x :: xs) (y :: ys)

/-- Both absent, or both present and related. -/
def OptRel {α β : Type} (R : α → β → Prop) (a : Option α) (b : Option β) : Prop :=
  (a = none ∧ b = none) ∨ ∃ x y, a = some x ∧ b = some y ∧ R x y

/-- A processed SAU configuration and its description. -/
structure SauOf (s : SSauConfig) (c : SauConfig) : Prop where
  enabled : GivenOr s.enabled true c.enabled
  protection : GivenOr s.protectionWhenDisabled .secure c.protectionWhenDisabled
  regions : Entrywise RegionOf s.regions c.regions

/-- A processed CPU and its description. -/
structure CpuOf (s : SCpu) (c : Cpu) : Prop where
  name : (s.name = .CM0_PLUS ∧ c.name = .CM0PLUS) ∨ (s.name ≠ .CM0_PLUS ∧ c.name = s.name)
  revision : c.revision = s.revision
  endian : c.endian = s.endian
  mpu : GivenOr s.mpuPresent false c.mpuPresent
  fpu : GivenOr s.fpuPresent false c.fpuPresent
  fpuDp : GivenOr s.fpuDp false c.fpuDp
  dsp : GivenOr s.dspPresent false c.dspPresent
  icache : GivenOr s.icachePresent false c.icachePresent
  dcache : GivenOr s.dcachePresent false c.dcachePresent
  itcm : GivenOr s.itcmPresent false c.itcmPresent
  dtcm : GivenOr s.dtcmPresent false c.dtcmPresent
  vtor : GivenOr s.vtorPresent true c.vtorPresent
  nvic : c.nvicPrioBits = s.nvicPrioBits
  systick : c.vendorSystickConfig = s.vendorSystickConfig
  interrupts : c.deviceNumInterrupts = s.deviceNumInterrupts
  sauNum : c.sauNumRegions = s.sauNumRegions
  sau : OptRel SauOf s.sauConfig c.sauConfig

/-- The documented order of the fallback attempts: strict with each encoding, then recovering with each encoding. -/
def attempts : List (Str × Bool) :=
  [(s%"utf-8", false), (s%"windows-1252", false), (s%"iso-8859-1", false), (s%"utf-16", false), (s%"ascii", false),
   (s%"utf-8", true), (s%"windows-1252", true), (s%"iso-8859-1", true), (s%"utf-16", true), (s%"ascii", true)]

/-- The attempt ends in a syntax error. -/
def Fails {α : Type} (lib : XOpts → XRes α) (o : XOpts) : Prop := ∃ n, lib o = .syntaxError n

/-- The options of a fallback attempt. -/
def fallback (a : Str × Bool) : XOpts := ⟨some a.1, a.2⟩

/-- Component `i` of a version number; missing components count as 0. -/
def comp (v : List Nat) (i : Nat) : Nat := v.getD i 0

/-- Version `a` is older than `b`: at the first component where they differ, `a` has the smaller number. -/
def Older (a b : List Nat) : Prop := ∃ i, (∀ j, j < i → comp a j = comp b j) ∧ comp a i < comp b i

end Svd.Spec
