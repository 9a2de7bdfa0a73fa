import Verif.Spec.Elements
/-
The same description with every `derivedFrom` written out by hand (C67).
-/
namespace Svd.Spec

/-- What the declaration at `x`, with the derivation chain `l`, says if the attributes it takes from its base are added. -/
inductive Completes (d : SDevice) : Pos → List Pos → Parsed → Prop
  | own {x p} : DeclAt d x p → p.derivedFrom = none → Completes d x [x] p
  | derived {x p path z l b} : DeclAt d x p → p.derivedFrom = some path → Refers d x z → ElementOf d z l b →
      nameOf b = lastName path → Completes d x (x :: l) (completed p b)

/-- `zs` are the positions declared directly inside the members of the chain, each of them once, in some order. -/
def PartsList (d : SDevice) (l zs : List Pos) : Prop := zs.Nodup ∧ ∀ z, z ∈ zs ↔ InChain d l z

/-- `enumeratedValues` with the values that count. -/
def InlinedEnum (d : SDevice) (x : Pos) (c : SEnumContainer) : Prop := ∃ c0, Takes d x c0 ∧ c = { c0 with derivedFrom := none }

/-- A field with the attributes and the `enumeratedValues` of its derivation chain. -/
def InlinedField (d : SDevice) (x : Pos) (f : SField) : Prop :=
  ∃ l g zs cs, Completes d x l (.field g) ∧ PartsList d l zs ∧ Entrywise (InlinedEnum d) zs cs ∧
    f = { g with derivedFrom := none, containers := cs }

mutual
/-- A register or cluster with the attributes and the content of its derivation chain. -/
def InlinedRC (d : SDevice) : Pos → SRC → Prop
  | x, .reg r => ∃ l g zs fs, Completes d x l (.reg g) ∧ PartsList d l zs ∧ Entrywise (InlinedField d) zs fs ∧
      r = { g with derivedFrom := none, fields := fs }
  | x, .clu c ch => ∃ l g zs, Completes d x l (.clu g) ∧ PartsList d l zs ∧ InlinedRCs d zs ch ∧ c = { g with derivedFrom := none }
/-- The same for the registers and clusters at the positions `zs`. -/
def InlinedRCs (d : SDevice) : List Pos → List SRC → Prop
  | zs, [] => zs = []
  | zs, s :: ss => ∃ z zs', zs = z :: zs' ∧ InlinedRC d z s ∧ InlinedRCs d zs' ss
end

/-- A peripheral with the attributes and the content of its derivation chain. -/
def InlinedPeriph (d : SDevice) (x : Pos) (p : SPeriphT) : Prop :=
  ∃ l g zs, Completes d x l (.periph g) ∧ PartsList d l zs ∧ InlinedRCs d zs p.rcs ∧ p.hd = { g with derivedFrom := none }

/-- `d'` is the description `d` with every `derivedFrom` written out: each peripheral, register, cluster, field and
`enumeratedValues` is declared with all it takes from what it is derived from. -/
def Inlined (d d' : SDevice) : Prop :=
  d'.hd = d.hd ∧ ∃ xs : List Pos, xs.Nodup ∧ (∀ x, x ∈ xs ↔ OwnChild d [] x) ∧ Entrywise (InlinedPeriph d) xs d'.peripherals

end Svd.Spec
