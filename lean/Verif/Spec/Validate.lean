import Verif.Spec.Alternate
import Verif.Spec.Enum
/-
Which resolved devices are refused by the validation, and which warnings it issues: conditions on the resolved
peripherals (the result of resolving references and arrays), without reference to the validating code.
-/
namespace Svd.Spec

/-- A property group with the gaps filled from the enclosing one. -/
def over (own encl : Props) : Props :=
  { size := own.size.or encl.size, access := own.access.or encl.access, protection := own.protection.or encl.protection
    resetValue := own.resetValue.or encl.resetValue, resetMask := own.resetMask.or encl.resetMask }

/-- The property group of the device, with the defaults of the CMSIS-SVD format. -/
def deviceLevel (d : SDevice) : Props :=
  over d.hd.props { size := some 32, access := some .readWrite, protection := some .any, resetValue := some 0
                    resetMask := some 0xFFFFFFFF }

/-- Name, offset and declared properties of a register or cluster. -/
def ircName : IRC → Str
  | .reg r _ => r.name
  | .clu c _ => c.name
def ircOffset : IRC → Int
  | .reg r _ => r.addressOffset
  | .clu c _ => c.addressOffset
def ircProps : IRC → Props
  | .reg r _ => r.props
  | .clu c _ => c.props

/-- The name of a register or cluster, qualified by its alternate group. -/
def ircScopeName : IRC → Str
  | .reg r _ => match r.alternateGroup with
    | none => r.name
    | some [] => r.name
    | some g => r.name ++ s%"_" ++ g
  | .clu c _ => c.name

/-- The size is a multiple of 8 bits. -/
def WholeBytes (p : Props) : Prop := ∃ s, p.size = some s ∧ s % 8 = 0

/-- `ys` is a list of siblings at some depth of `xs` that is examined: the clusters around it have whole bytes.  `e` and
`e'` are the properties in force around `xs` and `ys`. -/
inductive Examined : Props → List IRC → Props → List IRC → Prop
  | here {e xs} : Examined e xs e xs
  | inside {e xs c ch e' ys} : IRC.clu c ch ∈ xs → WholeBytes (over c.props e) → Examined (over c.props e) ch e' ys →
      Examined e xs e' ys

/-- A register is kept if it has whole bytes and is not called "reserved"; a cluster if it has whole bytes and something
in it is kept. -/
inductive Kept : Props → IRC → Prop
  | reg {e r fs} : WholeBytes (over r.props e) → ¬ Reserved r.name → Kept e (.reg r fs)
  | clu {e c ch x} : WholeBytes (over c.props e) → x ∈ ch → Kept (over c.props e) x → Kept e (.clu c ch)

/-- Sizes of registers and clusters that are supported. -/
def Supported (s : Int) : Prop := s = 8 ∨ s = 16 ∨ s = 32 ∨ s = 64 ∨ s = 128

/-- Registers and clusters are aligned to their size, but at most to 4 bytes. -/
def Misaligned (p : Props) (offset : Int) : Prop := ∃ s, p.size = some s ∧ offset % min (s / 8) 4 ≠ 0

/-- The field `f` can be read (written), `a` being the access of its register. -/
def CanRead (a : Option Access) (f : IField) : Prop := f.hd.access.or a ≠ some .writeOnly
def CanWrite (a : Option Access) (f : IField) : Prop := f.hd.access.or a ≠ some .readOnly

/-- The bits of the fields intersect. -/
def Collide (f g : IField) : Prop := f.hd.lsb ≤ g.hd.msb ∧ g.hd.lsb ≤ f.hd.msb

/-- `v` can be stored in `w` bits. -/
def Fits (v w : Int) : Prop := 0 ≤ v ∧ 0 ≤ w ∧ v < 2 ^ w.toNat

/-! ### warnings -/

/-- Warnings about the fields `fs` of a register of `size` bits. -/
def FieldWarning (fs : List IField) (size : Int) : Warn → Prop
  | .fieldReserved => ∃ f ∈ fs, Reserved f.hd.name
  | .fieldExceeds n m s => s = size ∧ ∃ f ∈ fs, ¬ Reserved f.hd.name ∧ f.hd.name = n ∧ f.hd.msb = m ∧ size ≤ m
  | .enumOutOfRange n v => ∃ f ∈ fs, ¬ Reserved f.hd.name ∧ ∃ c ∈ f.containers, ∃ x ∈ c.values,
      x.name = n ∧ x.value = some v ∧ ¬ Fits v (f.hd.msb - f.hd.lsb + 1)
  | _ => False

/-- Warnings about a register or cluster `x` in an element with the properties `e`, not about what a cluster contains. -/
def ElementWarning (e : Props) (x : IRC) (w : Warn) : Prop :=
  (w = .regClusterBadSize (ircName x) ∧ ¬ WholeBytes (over (ircProps x) e)) ∨
  (w = .regClusterUnaligned (ircName x) ∧ WholeBytes (over (ircProps x) e) ∧
    Misaligned (over (ircProps x) e) (ircOffset x)) ∨
  (∃ c ch, x = .clu c ch ∧ w = .clusterEmpty c.name ∧ WholeBytes (over c.props e) ∧
    ∀ y ∈ ch, ¬ Kept (over c.props e) y) ∨
  (∃ r fs, x = .reg r fs ∧ w = .registerReserved ∧ WholeBytes (over r.props e) ∧ Reserved r.name) ∨
  (∃ r fs s, x = .reg r fs ∧ Kept e x ∧ (over r.props e).size = some s ∧ FieldWarning fs s w)

/-- Something in the peripheral is kept. -/
def NotEmpty (e : Props) (p : IPeripheral) : Prop := ∃ x ∈ p.rcs, Kept (over p.hd.props e) x

/-- The peripheral is kept. -/
def KeptPeripheral (e : Props) (p : IPeripheral) : Prop := NotEmpty e p ∧ WholeBytes (over p.hd.props e)

/-- Warnings about a peripheral itself. -/
def PeripheralWarning (e : Props) (p : IPeripheral) (w : Warn) : Prop :=
  (w = .peripheralEmpty p.hd.name ∧ ¬ NotEmpty e p) ∨
  (w = .peripheralUnaligned p.hd.name ∧ NotEmpty e p ∧ p.hd.baseAddress % 4 ≠ 0) ∨
  (w = .peripheralBadSize p.hd.name ∧ NotEmpty e p ∧ ¬ WholeBytes (over p.hd.props e)) ∨
  (∃ a b, w = .addressBlockOverlap b.offset a.offset ∧ KeptPeripheral e p ∧ [a, b] <:+: p.hd.addressBlocks ∧
    b.offset < a.offset + a.size)

/-- All warnings of the validation, except those about overlaps of registers, clusters or peripherals. -/
def Warranted (d : SDevice) (ps : List IPeripheral) (w : Warn) : Prop :=
  ∃ p ∈ ps, PeripheralWarning (deviceLevel d) p w ∨
    ∃ e ys, Examined (over p.hd.props (deviceLevel d)) p.rcs e ys ∧ ∃ x ∈ ys, ElementWarning e x w

/-- The warnings described by `Warranted`. -/
def ValidationWarning : Warn → Prop
  | .regClusterBadSize _ | .regClusterUnaligned _ | .clusterEmpty _ | .registerReserved => True
  | .fieldReserved | .fieldExceeds _ _ _ | .enumOutOfRange _ _ => True
  | .peripheralEmpty _ | .peripheralUnaligned _ | .peripheralBadSize _ | .addressBlockOverlap _ _ => True
  | _ => False

/-! ### defects -/

/-- Defects of the fields `fs` of a register with access `a`, and the exceptions raised for them. -/
def FieldDefect (a : Option Access) (fs : List IField) : Exn → Prop
  | .process (.duplicateField n) => ∃ f g, Before fs f g ∧ ¬ Reserved f.hd.name ∧ f.hd.name = n ∧ g.hd.name = n
  | .process (.fieldOverlapRead n m) => ∃ f ∈ fs, ∃ g ∈ fs, ¬ Reserved f.hd.name ∧ ¬ Reserved g.hd.name ∧
      f.hd.name = n ∧ g.hd.name = m ∧ n ≠ m ∧ Collide f g ∧ CanRead a f ∧ CanRead a g
  | .process (.fieldOverlapWrite n m) => ∃ f ∈ fs, ∃ g ∈ fs, ¬ Reserved f.hd.name ∧ ¬ Reserved g.hd.name ∧
      f.hd.name = n ∧ g.hd.name = m ∧ n ≠ m ∧ Collide f g ∧ CanWrite a f ∧ CanWrite a g
  | .process .enumValueNone => ∃ f ∈ fs, ¬ Reserved f.hd.name ∧ ∃ c ∈ f.containers, ∃ x ∈ c.values, x.value = none
  | _ => False

/-- Defects of a register or cluster itself. -/
def ElementDefect (e : Props) (x : IRC) (ex : Exn) : Prop :=
  (ex = .process .unsupportedSize ∧ ∃ s, (over (ircProps x) e).size = some s ∧ s % 8 = 0 ∧ ¬ Supported s) ∨
  (∃ r fs, x = .reg r fs ∧ Kept e x ∧
    ((ex = .process (.altRegAndGroup r.name) ∧ r.alternateRegister.isSome ∧ r.alternateGroup.isSome) ∨
     FieldDefect (over r.props e).access fs ex))

/-- Defects of a list of siblings: two of the kept ones with one (qualified) name, or a kept cluster that is declared as
an alternate of none of the kept clusters. -/
def ScopeDefect (e : Props) (ys : List IRC) (ex : Exn) : Prop :=
  (∃ x y, Before ys x y ∧ Kept e x ∧ Kept e y ∧ ircScopeName x = ircScopeName y ∧
    ex = .process (.duplicateRegCluster (ircScopeName x))) ∨
  (∃ c ch a, .clu c ch ∈ ys ∧ Kept e (.clu c ch) ∧ c.alternateCluster = some a ∧ ex = .keyError ∧
    ∀ c' ch', .clu c' ch' ∈ ys → Kept e (.clu c' ch') → c'.name ≠ a)

/-- Defects of the peripherals themselves: no address block, one name for two of them, or an alternate of none of them. -/
def PeripheralDefect (e : Props) (ps : List IPeripheral) (ex : Exn) : Prop :=
  (∃ p ∈ ps, KeptPeripheral e p ∧ p.hd.addressBlocks = [] ∧ ex = .process (.noAddressBlocks p.hd.name)) ∨
  (∃ p q, Before ps p q ∧ KeptPeripheral e p ∧ KeptPeripheral e q ∧ p.hd.name = q.hd.name ∧
    ex = .process (.duplicatePeripheral p.hd.name)) ∨
  (∃ p ∈ ps, ∃ a, KeptPeripheral e p ∧ p.hd.alternatePeripheral = some a ∧ ex = .keyError ∧
    ∀ q ∈ ps, KeptPeripheral e q → q.hd.name ≠ a)

/-- All defects of the resolved peripherals, with the exceptions raised for them. -/
def Defect (d : SDevice) (ps : List IPeripheral) (ex : Exn) : Prop :=
  PeripheralDefect (deviceLevel d) ps ex ∨
  ∃ p ∈ ps, ∃ e ys, Examined (over p.hd.props (deviceLevel d)) p.rcs e ys ∧
    (ScopeDefect e ys ex ∨ ∃ x ∈ ys, ElementDefect e x ex)

end Svd.Spec
