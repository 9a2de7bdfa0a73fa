import Verif.Lemmas.XmlInt
/-
Parsing what the serializer writes.
-/
namespace Svd
open Spec




/-- The elements with tag `t`. -/
def sel (t : Str) (l : List XElem) : List XElem := l.filter (fun c => decide (c.tag = t))

theorem sel_nil (t : Str) : sel t [] = [] := rfl
theorem sel_append (t : Str) (a b : List XElem) : sel t (a ++ b) = sel t a ++ sel t b := List.filter_append ..
theorem sel_leaf_eq (t s : Str) (l : List XElem) : sel t (leaf t s :: l) = leaf t s :: sel t l := by
  simp [sel, leaf, XElem.tag]
theorem sel_leaf_ne {t u : Str} (h : u ≠ t) (s : Str) (l : List XElem) : sel t (leaf u s :: l) = sel t l := by
  simp [sel, leaf, XElem.tag, h]
theorem sel_optLeaf_eq {α : Type} (t : Str) (f : α → Str) (o : Option α) : sel t (optLeaf t f o) = optLeaf t f o := by
  cases o <;> simp [sel, optLeaf, leaf, XElem.tag]
theorem sel_optLeaf_ne {α : Type} {t u : Str} (h : u ≠ t) (f : α → Str) (o : Option α) : sel t (optLeaf u f o) = [] := by
  cases o <;> simp [sel, optLeaf, leaf, XElem.tag, h]
/-- Every element built by `f` has tag `t`. -/
def AllTag {α : Type} (f : α → XElem) (t : Str) : Prop := ∀ a, (f a).tag = t
/-- No element built by `f` has tag `t`. -/
def NoTag {α : Type} (f : α → XElem) (t : Str) : Prop := ∀ a, (f a).tag ≠ t
theorem sel_optElem_eq {α : Type} {t : Str} {f : α → XElem} (h : AllTag f t) (o : Option α) :
    sel t (optElem f o) = optElem f o := by
  cases o <;> simp [sel, optElem, h _]
theorem sel_optElem_ne {α : Type} {t : Str} {f : α → XElem} (h : NoTag f t) (o : Option α) :
    sel t (optElem f o) = [] := by
  cases o <;> simp [sel, optElem, h _]
theorem sel_map_eq {α : Type} {t : Str} {f : α → XElem} (h : AllTag f t) (l : List α) :
    sel t (l.map f) = l.map f := by
  induction l with
  | nil => rfl
  | cons a l ih => simp [sel, h _] at ih ⊢
theorem sel_map_ne {α : Type} {t : Str} {f : α → XElem} (h : NoTag f t) (l : List α) :
    sel t (l.map f) = [] := by
  induction l with
  | nil => rfl
  | cons a l ih => simp [sel, h _] at ih ⊢

theorem rereadAll_eq (fmt : Nat → Option Str) (n : Nat) (l : List XElem) : rereadAll fmt n l = l.map (reread fmt n) := by
  induction l with
  | nil => simp [rereadAll]
  | cons x l ih => simp [rereadAll, ih]

theorem reread_tag (fmt : Nat → Option Str) (n : Nat) (e : XElem) : (reread fmt n e).tag = e.tag := by
  cases e; simp [reread, XElem.tag]
theorem reread_attrs (fmt : Nat → Option Str) (n : Nat) (e : XElem) : (reread fmt n e).attrs = e.attrs := by
  cases e; simp [reread, XElem.attrs]
theorem reread_children (fmt : Nat → Option Str) (n : Nat) (e : XElem) :
    (reread fmt n e).children = e.children.map (reread fmt (n + 1)) := by
  cases e; simp [reread, XElem.children, rereadAll_eq]

theorem findall_reread (fmt : Nat → Option Str) (n : Nat) (e : XElem) (t : Str) :
    (reread fmt n e).findall t = (sel t e.children).map (reread fmt (n + 1)) := by
  unfold XElem.findall sel
  rw [reread_children, List.filter_map]
  congr 2
  funext c
  simp [reread_tag]

theorem get_reread (fmt : Nat → Option Str) (n : Nat) (e : XElem) (t : Str) : (reread fmt n e).get t = e.get t := by
  unfold XElem.get; rw [reread_attrs]

theorem reread_leaf {fmt : Nat → Option Str} {n : Nat} {t s : Str} (h : s ≠ []) : reread fmt n (leaf t s) = leaf t s := by
  cases s with
  | nil => exact absurd rfl h
  | cons c s => simp [reread, leaf, rereadAll]

theorem bind_ok_nil {α β : Type} (a : α) (f : α → M β) : M.bind (.ok a []) f = f a := by
  unfold M.bind
  simp only []
  generalize f a = x
  cases x <;> simp
theorem bind_pure {α β : Type} (a : α) (f : α → M β) : M.bind (M.pure a) f = f a := bind_ok_nil a f

section texts
variable {fmt : Nat → Option Str} {n : Nat} {e : XElem} {t : Str}

theorem elementText_none {b : Bool} (h : sel t e.children = []) : elementText t (reread fmt n e) b true = .ok none [] := by
  unfold elementText; rw [findall_reread, h]; rfl

theorem elementText_one {s : Str} {b opt : Bool} (h : sel t e.children = [leaf t s]) (hs : s ≠ []) (hb : b = true → trim s = s) :
    elementText t (reread fmt n e) b opt = .ok (some s) [] := by
  rw [trim_eq] at hb
  unfold elementText
  rw [findall_reread, h, List.map_singleton, reread_leaf hs]
  simp only [lastText, leaf, XElem.text]
  cases b with
  | false => rfl
  | true => simp [hb rfl, M.warnIf, M.bind, M.pure]

theorem optText_rt {α : Type} {f : α → Str} {o : Option α} (h : sel t e.children = optLeaf t f o)
    (hc : ∀ a ∈ o, Tidy (f a)) : optText t (reread fmt n e) = .ok (o.map f) [] := by
  cases o with
  | none => exact elementText_none h
  | some a => exact elementText_one h (hc a rfl).1 (fun _ => (hc a rfl).2)

theorem rawText_rt {o : Option Str} (h : sel t e.children = optLeaf t id o) (hc : ∀ a ∈ o, a ≠ []) :
    rawText t (reread fmt n e) = .ok o [] := by
  cases o with
  | none => exact elementText_none h
  | some a => exact elementText_one h (hc a rfl) (fun h => by cases h)

theorem reqText_rt {s : Str} (h : sel t e.children = [leaf t s]) (hc : Tidy s) : reqText t (reread fmt n e) = .ok s [] := by
  unfold reqText
  rw [elementText_one h hc.1 (fun _ => hc.2)]; rfl

theorem tidy_of_no_space {s : Str} (h : s ≠ []) (hs : ∀ c ∈ s, isSpaceC c = false) : Tidy s := ⟨h, by rw [trim_eq]; exact strip_of_no_space hs⟩

theorem intStr_clean (i : Int) : Tidy (intStr i) :=
  tidy_of_no_space (by cases i <;> simp [intStr, natStr_ne_nil]) (intStr_no_space i)
theorem hexStr_clean (i : Int) : Tidy (hexStr i) :=
  tidy_of_no_space (by cases i <;> simp [hexStr]) (hexStr_no_space i)
theorem boolStr_clean (b : Bool) : Tidy (boolStr b) := by
  cases b <;> exact ⟨by simp [boolStr], by decide⟩

theorem toBool_boolStr (b : Bool) : toBool (boolStr b) = .ok b [] := by cases b <;> rfl

/-- A token or number type: `f` writes it, `g` reads it. -/
def Reads {α : Type} (f : α → Str) (g : Str → M α) : Prop := ∀ a, Tidy (f a) ∧ g (f a) = .ok a []

theorem reads_int : Reads intStr toInt := fun i => ⟨intStr_clean i, toInt_intStr i⟩
theorem reads_hex : Reads hexStr toInt := fun i => ⟨hexStr_clean i, toInt_hexStr i⟩
theorem reads_bool : Reads boolStr toBool := fun i => ⟨boolStr_clean i, toBool_boolStr i⟩
theorem reads_endian : Reads Endian.val (fromVal Endian.all Endian.val) := by intro a; cases a <;> exact ⟨⟨by decide, by decide⟩, rfl⟩
theorem reads_protection : Reads Protection.val (fromVal Protection.all Protection.val) := by
  intro a; cases a <;> exact ⟨⟨by decide, by decide⟩, rfl⟩
theorem reads_sauAccess : Reads SauAccess.val (fromVal SauAccess.all SauAccess.val) := by
  intro a; cases a <;> exact ⟨⟨by decide, by decide⟩, rfl⟩
theorem reads_enumToken : Reads EnumToken.val (fromVal EnumToken.all EnumToken.val) := by
  intro a; cases a <;> exact ⟨⟨by decide, by decide⟩, rfl⟩
theorem reads_dataType : Reads DataType.val (fromVal DataType.all DataType.val) := by
  intro a; cases a <;> exact ⟨⟨by decide, by decide⟩, rfl⟩
theorem reads_modWrite : Reads ModWrite.val (fromVal ModWrite.all ModWrite.val) := by
  intro a; cases a <;> exact ⟨⟨by decide, by decide⟩, rfl⟩
theorem reads_readAction : Reads ReadAction.val (fromVal ReadAction.all ReadAction.val) := by
  intro a; cases a <;> exact ⟨⟨by decide, by decide⟩, rfl⟩
theorem reads_usage : Reads Usage.val (fromVal Usage.all Usage.val) := by
  intro a; cases a <;> exact ⟨⟨by decide, by decide⟩, rfl⟩
theorem reads_cpuName : Reads CPUName.val CPUName.fromStr := by
  intro a; cases a <;> exact ⟨⟨by decide, by decide⟩, rfl⟩
theorem access_clean (a : Access) : Tidy a.val := by cases a <;> exact ⟨by decide, by decide⟩
theorem access_reads (a : Access) : Access.fromStr a.val = .ok (some a) [] := by cases a <;> rfl

theorem optM_rt {α : Type} {f : α → Str} {g : Str → M α} (h : Reads f g) (o : Option α) : optM g (o.map f) = .ok o [] := by
  cases o with
  | none => rfl
  | some a => simp only [Option.map_some, optM, (h a).2, bind_ok_nil]; rfl

theorem optAccess_rt (o : Option Access) : optAccess (o.map Access.val) = .ok o [] := by
  cases o with
  | none => rfl
  | some a => exact access_reads a

theorem optText_reads {α : Type} {f : α → Str} {g : Str → M α} (hr : Reads f g) {o : Option α} (h : sel t e.children = optLeaf t f o) :
    optText t (reread fmt n e) = .ok (o.map f) [] := optText_rt h fun a _ => (hr a).1

theorem optInt_rt {f : Int → Str} (hr : Reads f toInt) {o : Option Int} (h : sel t e.children = optLeaf t f o) :
    optInt t (reread fmt n e) = .ok o [] := by
  unfold optInt; rw [optText_reads hr h, bind_ok_nil, optM_rt hr]

theorem optBool_rt {o : Option Bool} (h : sel t e.children = optLeaf t boolStr o) : optBool t (reread fmt n e) = .ok o [] := by
  unfold optBool; rw [optText_reads reads_bool h, bind_ok_nil, optM_rt reads_bool]

theorem reqTok_rt {α : Type} {f : α → Str} {g : Str → M α} (hr : Reads f g) {a : α} (h : sel t e.children = [leaf t (f a)]) :
    M.bind (reqText t (reread fmt n e)) g = .ok a [] := by
  rw [reqText_rt h (hr a).1, bind_ok_nil, (hr a).2]

theorem reqInt_rt {f : Int → Str} (hr : Reads f toInt) {a : Int} (h : sel t e.children = [leaf t (f a)]) :
    reqInt t (reread fmt n e) = .ok a [] := reqTok_rt hr h

theorem optAttr_rt {α : Type} {f : α → Str} {o : Option α} (h : e.get t = o.map f) (hc : ∀ a ∈ o, trim (f a) = f a) :
    optAttr t (reread fmt n e) = .ok (o.map f) [] := by
  rw [trim_eq] at hc
  unfold optAttr
  rw [get_reread, h]
  cases o with
  | none => rfl
  | some a => simp [hc a rfl, M.warnIf, M.bind, M.pure]

theorem optAttrBool_rt {o : Option Bool} (h : e.get t = o.map boolStr) : optAttrBool t (reread fmt n e) = .ok o [] := by
  unfold optAttrBool
  rw [optAttr_rt h (fun a _ => (boolStr_clean a).2), bind_ok_nil, optM_rt reads_bool]

theorem find_none (h : sel t e.children = []) : (reread fmt n e).find t = none := by
  unfold XElem.find; rw [findall_reread, h]; rfl
theorem find_one {x : XElem} {l : List XElem} (h : sel t e.children = x :: l) : (reread fmt n e).find t = some (reread fmt (n + 1) x) := by
  unfold XElem.find; rw [findall_reread, h]; rfl

theorem mapM_rt {α : Type} {f : α → XElem} {g : XElem → M α} {l : List α} (hg : ∀ a ∈ l, ∀ k, g (reread fmt k (f a)) = .ok a []) (k : Nat) :
    M.mapM g ((l.map f).map (reread fmt k)) = .ok l [] := by
  induction l with
  | nil => rfl
  | cons a l ih =>
    simp only [List.map_cons, M.mapM, hg a (List.mem_cons_self ..) k, bind_ok_nil, ih fun x hx => hg x (List.mem_cons_of_mem _ hx)]
    rfl

end texts

/-! ### elements -/

theorem bind_rt {α β : Type} {x : M α} {f : α → M β} {a : α} {y : M β} (h : x = .ok a []) (h2 : f a = y) : M.bind x f = y := by
  rw [h, bind_ok_nil, h2]

/-- Tags that are different. -/
macro "tagne" : tactic => `(tactic|
  (unfold NoTag; intro a; simp only [serEnumValue, serDimArrayIndex, serAddressBlock, serInterrupt, serRange, serWriteConstraint, serEnumContainer, serField,
    serRegister, serPeripheral, serSauRegion, serSauConfig, serCpu, XElem.tag]; decide; done))

/-- Tags that are equal. -/
macro "tageq" : tactic => `(tactic|
  (unfold AllTag; intro a; simp only [serEnumValue, serDimArrayIndex, serAddressBlock, serInterrupt, serRange, serWriteConstraint, serEnumContainer, serField,
    serRegister, serPeripheral, serSauRegion, serSauConfig, serCpu, XElem.tag]; done))

/-- Select the children with one tag. -/
macro "selx" : tactic => `(tactic|
  simp (disch := first | decide | tageq | tagne) only [XElem.children, sel_append, sel_nil, sel_leaf_eq, sel_leaf_ne,
    sel_optLeaf_eq, sel_optLeaf_ne,
    sel_optElem_eq, sel_optElem_ne, sel_map_eq, sel_map_ne, List.append_nil, List.nil_append, List.cons_append])

section elems
variable {fmt : Nat → Option Str}

theorem parseEnumValue_rt {v : SEnumValue} (h : EnumValueOK v) (k : Nat) :
    parseEnumValue (reread fmt k (serEnumValue v)) = .ok v [] := by
  unfold serEnumValue parseEnumValue
  refine bind_rt (reqText_rt (s := v.name) (by selx) h.name) ?_
  refine bind_rt (rawText_rt (o := v.description) (by selx) h.description) ?_
  refine bind_rt (optText_rt (f := id) (o := v.value) (by selx) h.value) ?_
  refine bind_rt (optBool_rt (o := v.isDefault) (by selx)) ?_
  simp [M.pure]

theorem parseEnumValues_rt {e : XElem} {l : List SEnumValue} (hl : ∀ v ∈ l, EnumValueOK v)
    (h : sel (s%"enumeratedValue") e.children = l.map serEnumValue) (k : Nat) : parseEnumValues (reread fmt k e) = .ok l [] := by
  unfold parseEnumValues
  rw [findall_reread, h]
  exact mapM_rt (fun a ha k => parseEnumValue_rt (hl a ha) k) _

theorem parseDimArrayIndex_rt {e : XElem} {o : Option SDimArrayIndex} (ho : ∀ a ∈ o, DimArrayOK a)
    (h : sel (s%"dimArrayIndex") e.children = optElem serDimArrayIndex o) (k : Nat) :
    parseDimArrayIndex (reread fmt k e) = .ok o [] := by
  unfold parseDimArrayIndex
  cases o with
  | none => rw [find_none h]; rfl
  | some a =>
    rw [find_one h]
    have ha := ho a rfl
    show (M.bind _ _) = _
    refine bind_rt (optText_rt (f := id) (o := a.headerEnumName) (by unfold serDimArrayIndex; selx) ha.header) ?_
    refine bind_rt (parseEnumValues_rt ha.values (by unfold serDimArrayIndex; selx) _) ?_
    simp [M.pure]

theorem parseDim_rt {e : XElem} {d : SDim} (hd : DimOK d)
    (h : ∀ t ∈ [s%"dim", s%"dimIncrement", s%"dimIndex", s%"dimName", s%"dimArrayIndex"], sel t e.children = sel t (serDim d)) (k : Nat) :
    parseDim (reread fmt k e) = .ok d [] := by
  unfold parseDim
  refine bind_rt (optInt_rt reads_int (o := d.dim) (by rw [h _ (by simp)]; unfold serDim; selx)) ?_
  refine bind_rt (optInt_rt reads_int (o := d.dimIncrement) (by rw [h _ (by simp)]; unfold serDim; selx)) ?_
  refine bind_rt (optText_rt (f := id) (o := d.dimIndex) (by rw [h _ (by simp)]; unfold serDim; selx) hd.index) ?_
  refine bind_rt (optText_rt (f := id) (o := d.dimName) (by rw [h _ (by simp)]; unfold serDim; selx) hd.name) ?_
  refine bind_rt (parseDimArrayIndex_rt hd.array (by rw [h _ (by simp)]; unfold serDim; selx) _) ?_
  simp [M.pure]

theorem parseProps_rt {e : XElem} {p : Props}
    (h : ∀ t ∈ [s%"size", s%"access", s%"protection", s%"resetValue", s%"resetMask"], sel t e.children = sel t (serProps p)) (k : Nat) :
    parseProps (reread fmt k e) = .ok p [] := by
  unfold parseProps
  refine bind_rt (optInt_rt reads_int (o := p.size) (by rw [h _ (by simp)]; unfold serProps; selx)) ?_
  refine bind_rt (optText_rt (o := p.access) (f := Access.val) (by rw [h _ (by simp)]; unfold serProps; selx) (fun a _ => access_clean a)) ?_
  refine bind_rt (optText_reads reads_protection (o := p.protection) (by rw [h _ (by simp)]; unfold serProps; selx)) ?_
  refine bind_rt (optInt_rt reads_hex (o := p.resetValue) (by rw [h _ (by simp)]; unfold serProps; selx)) ?_
  refine bind_rt (optInt_rt reads_hex (o := p.resetMask) (by rw [h _ (by simp)]; unfold serProps; selx)) ?_
  refine bind_rt (optAccess_rt _) ?_
  refine bind_rt (optM_rt reads_protection _) ?_
  rfl

theorem parseAddressBlock_rt (b : SAddressBlock) (k : Nat) : parseAddressBlock (reread fmt k (serAddressBlock b)) = .ok b [] := by
  unfold serAddressBlock parseAddressBlock
  refine bind_rt (optInt_rt reads_hex (o := some b.offset) (by selx; rfl)) ?_
  refine bind_rt (reqInt_rt reads_hex (a := b.size) (by selx)) ?_
  refine bind_rt (reqTok_rt reads_enumToken (a := b.usage) (by selx)) ?_
  refine bind_rt (optText_reads reads_protection (o := b.protection) (by selx)) ?_
  refine bind_rt (optM_rt reads_protection _) ?_
  rfl

theorem parseInterrupt_rt {i : Interrupt} (h : InterruptOK i) (k : Nat) : parseInterrupt (reread fmt k (serInterrupt i)) = .ok i [] := by
  unfold serInterrupt parseInterrupt
  refine bind_rt (reqText_rt (s := i.name) (by selx) h.name) ?_
  refine bind_rt (rawText_rt (o := i.description) (by selx) h.description) ?_
  refine bind_rt (a := i.value) ?_ rfl
  unfold interruptValue
  rw [reqInt_rt reads_int (a := i.value) (by selx)]

theorem parseWriteConstraint_rt {e : XElem} {o : Option WriteConstraint}
    (h : sel (s%"writeConstraint") e.children = optElem serWriteConstraint o) (k : Nat) :
    parseWriteConstraint (reread fmt k e) = .ok o [] := by
  unfold parseWriteConstraint
  cases o with
  | none => rw [find_none h]; rfl
  | some c =>
    rw [find_one h]
    show (M.bind _ _) = _
    refine bind_rt (optBool_rt (o := c.writeAsRead) (by unfold serWriteConstraint; selx)) ?_
    refine bind_rt (optBool_rt (o := c.useEnumeratedValues) (by unfold serWriteConstraint; selx)) ?_
    refine bind_rt (a := c.range) ?_ rfl
    have hr : sel (s%"range") (serWriteConstraint c).children = optElem serRange c.range := by unfold serWriteConstraint; selx
    cases hc : c.range with
    | none =>
      rw [hc] at hr
      rw [find_none hr]; rfl
    | some r =>
      rw [hc] at hr
      rw [find_one hr]
      show (M.bind _ _) = _
      refine bind_rt (reqInt_rt reads_int (a := r.1) (by unfold serRange; selx)) ?_
      refine bind_rt (reqInt_rt reads_int (a := r.2) (by unfold serRange; selx)) ?_
      rfl

theorem get_optAttrib {α : Type} (tag t : Str) (tx : Option Str) (f : α → Str) (o : Option α) (ch : List XElem) :
    (XElem.mk tag tx (optAttrib t f o) ch).get t = o.map f := by
  cases o <;> simp [XElem.get, XElem.attrs, optAttrib]

theorem parseEnumContainer_rt {c : SEnumContainer} (h : ContainerOK c) (k : Nat) :
    parseEnumContainer (reread fmt k (serEnumContainer c)) = .ok c [] := by
  unfold serEnumContainer parseEnumContainer
  refine bind_rt (optAttr_rt (get_optAttrib ..) h.derived) ?_
  refine bind_rt (optText_rt (f := id) (o := c.name) (by selx) h.name) ?_
  refine bind_rt (optText_rt (f := id) (o := c.headerEnumName) (by selx) h.header) ?_
  refine bind_rt (optText_reads reads_usage (o := c.usage) (by selx)) ?_
  refine bind_rt (parseEnumValues_rt h.values (by selx) _) ?_
  refine bind_rt (optM_rt reads_usage _) ?_
  simp [M.pure]

/-- The tags of the dim group. -/
def dimTags : List Str := [s%"dim", s%"dimIncrement", s%"dimIndex", s%"dimName", s%"dimArrayIndex"]
/-- The tags of the property group. -/
def propTags : List Str := [s%"size", s%"access", s%"protection", s%"resetValue", s%"resetMask"]

theorem sel_eq_nil {t : Str} {l : List XElem} (h : ∀ x ∈ l, x.tag ≠ t) : sel t l = [] := by
  unfold sel
  rw [List.filter_eq_nil_iff]
  intro x hx
  simpa using h x hx

theorem mem_optLeaf {α : Type} {t : Str} {f : α → Str} {o : Option α} {x : XElem} (h : x ∈ optLeaf t f o) : x.tag = t := by
  cases o with
  | none => simp [optLeaf] at h
  | some a => simp only [optLeaf, List.mem_singleton] at h; subst h; rfl

theorem sel_serDim_ne {t : Str} (h : t ∉ dimTags) (d : SDim) : sel t (serDim d) = [] := by
  refine sel_eq_nil fun x hx e => h ?_
  subst e
  unfold serDim at hx
  simp only [List.mem_append] at hx
  unfold dimTags
  rcases hx with (((hx | hx) | hx) | hx) | hx
  · simp [mem_optLeaf hx]
  · simp [mem_optLeaf hx]
  · simp [mem_optLeaf hx]
  · simp [mem_optLeaf hx]
  · cases ha : d.dimArrayIndex with
    | none => rw [ha] at hx; simp [optElem] at hx
    | some a => rw [ha] at hx; simp only [optElem, List.mem_singleton] at hx; subst hx; simp [serDimArrayIndex, XElem.tag]

theorem sel_serProps_ne {t : Str} (h : t ∉ propTags) (d : Props) : sel t (serProps d) = [] := by
  refine sel_eq_nil fun x hx e => h ?_
  subst e
  unfold serProps at hx
  simp only [List.mem_append] at hx
  unfold propTags
  rcases hx with (((hx | hx) | hx) | hx) | hx <;> simp [mem_optLeaf hx]

theorem serPair_eq {t1 t2 : Str} {a b : Option Int} (h : a.isSome = b.isSome) :
    serPair t1 t2 a b = optLeaf t1 intStr a ++ optLeaf t2 intStr b := by
  cases a <;> cases b <;> simp at h <;> rfl

theorem sel_serFields_ne {t : Str} (h : t ≠ s%"fields") (fs : List SField) : sel t (serFields fs) = [] := by
  refine sel_eq_nil fun x hx e => h ?_
  subst e
  unfold serFields at hx
  split at hx
  · simp at hx
  · simp only [List.mem_singleton] at hx; subst hx; rfl

theorem sel_serRegisters_ne {t : Str} (h : t ≠ s%"registers") (rs : List SRC) : sel t (serRegisters rs) = [] := by
  refine sel_eq_nil fun x hx e => h ?_
  subst e
  unfold serRegisters at hx
  split at hx
  · simp at hx
  · simp only [List.mem_singleton] at hx; subst hx; rfl

theorem sel_serPeripherals_ne {t : Str} (h : t ≠ s%"peripherals") (rs : List SPeriphT) : sel t (serPeripherals rs) = [] := by
  refine sel_eq_nil fun x hx e => h ?_
  subst e
  unfold serPeripherals at hx
  split at hx
  · simp at hx
  · simp only [List.mem_singleton] at hx; subst hx; rfl

theorem serRC_tag (x : SRC) : (serRC x).tag = s%"register" ∨ (serRC x).tag = s%"cluster" := by
  cases x with
  | reg r => left; simp only [serRC, serRegister, XElem.tag]
  | clu c ch => right; simp only [serRC, XElem.tag]

theorem sel_serRCs_ne {t : Str} (h : t ∉ [s%"register", s%"cluster"]) : ∀ rs : List SRC, sel t (serRCs rs) = [] := by
  intro rs
  induction rs with
  | nil => simp [serRCs, sel]
  | cons x rs ih =>
    have : (serRC x).tag ≠ t := by
      rintro rfl
      rcases serRC_tag x with e | e <;> rw [e] at h <;> simp at h
    simp only [serRCs, sel, List.filter_cons, this, decide_false] at ih ⊢
    simpa using ih

/-- `selx` with the groups. -/
macro "selg" : tactic => `(tactic|
  simp (disch := first | decide | tageq | tagne) only [XElem.children, sel_append, sel_nil, sel_leaf_eq, sel_leaf_ne,
    sel_optLeaf_eq, sel_optLeaf_ne, sel_serDim_ne, sel_serProps_ne, sel_serFields_ne, sel_serRegisters_ne, sel_serRCs_ne, sel_serPeripherals_ne,
    sel_optElem_eq, sel_optElem_ne, sel_map_eq, sel_map_ne, List.append_nil, List.nil_append, List.cons_append])

theorem parseField_rt {f : SField} (h : FieldOK f) (k : Nat) : parseField (reread fmt k (serField f)) = .ok f [] := by
  unfold serField parseField
  rw [serPair_eq h.offsetWidth, serPair_eq h.lsbMsb]
  refine bind_rt (optAttr_rt (get_optAttrib ..) h.derived) ?_
  refine bind_rt (reqText_rt (s := f.name) (by selg) h.name) ?_
  refine bind_rt (rawText_rt (o := f.description) (by selg) h.description) ?_
  refine bind_rt (optInt_rt reads_int (o := f.bitOffset) (by selg)) ?_
  refine bind_rt (optInt_rt reads_int (o := f.bitWidth) (by selg)) ?_
  refine bind_rt (optInt_rt reads_int (o := f.lsb) (by selg)) ?_
  refine bind_rt (optInt_rt reads_int (o := f.msb) (by selg)) ?_
  refine bind_rt (optText_rt (f := id) (o := f.bitRange) (by selg) h.range) ?_
  refine bind_rt (optText_rt (o := f.access) (f := Access.val) (by selg) (fun a _ => access_clean a)) ?_
  refine bind_rt (optText_reads reads_modWrite (o := f.modifiedWriteValues) (by selg)) ?_
  refine bind_rt (parseWriteConstraint_rt (o := f.writeConstraint) (by selg) _) ?_
  refine bind_rt (optText_reads reads_readAction (o := f.readAction) (by selg)) ?_
  refine bind_rt (a := f.containers) (by
    rw [findall_reread]
    rw [show sel (s%"enumeratedValues") _ = f.containers.map serEnumContainer by selg]
    exact mapM_rt (fun a ha k => parseEnumContainer_rt (h.containers a ha) k) _) ?_
  refine bind_rt (parseDim_rt (d := f.dim) h.dim (by
    intro t ht
    simp only [List.mem_cons, List.not_mem_nil, or_false] at ht
    rcases ht with rfl | rfl | rfl | rfl | rfl <;> selg) _) ?_
  refine bind_rt (optAccess_rt _) ?_
  refine bind_rt (optM_rt reads_modWrite _) ?_
  refine bind_rt (optM_rt reads_readAction _) ?_
  simp [M.pure]

theorem parseFields_rt {e : XElem} {fs : List SField} (hf : ∀ f ∈ fs, FieldOK f)
    (h : sel (s%"fields") e.children = serFields fs) (k : Nat) : parseFields (reread fmt k e) = .ok fs [] := by
  unfold parseFields
  rw [findall_reread, h]
  unfold serFields
  cases fs with
  | nil => rfl
  | cons f fs =>
    simp only [List.isEmpty_cons, Bool.false_eq_true, if_false, List.map_singleton, List.flatMap_singleton]
    rw [findall_reread]
    rw [show sel (s%"field") _ = (f :: fs).map serField by selg]
    exact mapM_rt (fun a ha k => parseField_rt (hf a ha) k) _

theorem parseRegister_rt {r : SRegister} (h : RegisterOK r) (k : Nat) : parseRegister (reread fmt k (serRegister r)) = .ok r [] := by
  unfold serRegister parseRegister
  refine bind_rt (optAttr_rt (get_optAttrib ..) h.derived) ?_
  refine bind_rt (reqText_rt (s := r.name) (by selg) h.name) ?_
  refine bind_rt (optText_rt (f := id) (o := r.displayName) (by selg) h.display) ?_
  refine bind_rt (rawText_rt (o := r.description) (by selg) h.description) ?_
  refine bind_rt (optText_rt (f := id) (o := r.alternateGroup) (by selg) h.group) ?_
  refine bind_rt (optText_rt (f := id) (o := r.alternateRegister) (by selg) h.alternate) ?_
  refine bind_rt (reqInt_rt reads_hex (a := r.addressOffset) (by selg)) ?_
  refine bind_rt (optText_reads reads_dataType (o := r.dataType) (by selg)) ?_
  refine bind_rt (optText_reads reads_modWrite (o := r.modifiedWriteValues) (by selg)) ?_
  refine bind_rt (parseWriteConstraint_rt (o := r.writeConstraint) (by selg) _) ?_
  refine bind_rt (optText_reads reads_readAction (o := r.readAction) (by selg)) ?_
  refine bind_rt (parseFields_rt (fs := r.fields) h.fields (by
    selg
    unfold serFields; split
    · rfl
    · simp [sel, XElem.tag]) _) ?_
  refine bind_rt (parseDim_rt (d := r.dim) h.dim (by
    intro t ht
    simp only [List.mem_cons, List.not_mem_nil, or_false] at ht
    rcases ht with rfl | rfl | rfl | rfl | rfl <;> selg) _) ?_
  refine bind_rt (parseProps_rt (p := r.props) (by
    intro t ht
    simp only [List.mem_cons, List.not_mem_nil, or_false] at ht
    rcases ht with rfl | rfl | rfl | rfl | rfl <;> selg) _) ?_
  refine bind_rt (optM_rt reads_dataType _) ?_
  refine bind_rt (optM_rt reads_modWrite _) ?_
  refine bind_rt (optM_rt reads_readAction _) ?_
  simp [M.pure]

theorem parseRC_other {e : XElem} (h : e.tag ≠ s%"register" ∧ e.tag ≠ s%"cluster") : parseRC e = .ok none [] := by
  cases e with
  | mk t tx at_ ch =>
    simp only [XElem.tag] at h
    simp [parseRC, h.1, h.2, M.pure]

theorem parseRCs_skip {a : List XElem} (h : ∀ e ∈ a, e.tag ≠ s%"register" ∧ e.tag ≠ s%"cluster") (b : List XElem) :
    parseRCs (a ++ b) = parseRCs b := by
  induction a with
  | nil => rfl
  | cons x a ih =>
    rw [List.cons_append, parseRCs, parseRC_other (h x (List.mem_cons_self ..)), bind_ok_nil, ih fun e he => h e (List.mem_cons_of_mem _ he)]
    cases parseRCs b <;> simp [M.bind, M.pure]

theorem not_rc_of_sel {l : List XElem} (h1 : sel (s%"register") l = []) (h2 : sel (s%"cluster") l = []) :
    ∀ e ∈ l, e.tag ≠ s%"register" ∧ e.tag ≠ s%"cluster" := by
  intro e he
  unfold sel at h1 h2
  rw [List.filter_eq_nil_iff] at h1 h2
  exact ⟨by simpa using h1 e he, by simpa using h2 e he⟩

mutual
theorem parseRC_rt (x : SRC) (h : RCOK x) (k : Nat) : parseRC (reread fmt k (serRC x)) = .ok (some x) [] := by
  cases x with
  | reg r =>
    have hr := parseRegister_rt (fmt := fmt) (r := r) (by simpa [RCOK] using h) k
    have ht := reread_tag fmt k (serRegister r)
    simp only [serRC]
    cases he : reread fmt k (serRegister r) with
    | mk t tx a ch =>
      rw [he] at hr ht
      simp only [XElem.tag, serRegister] at ht
      simp [parseRC, ht]
      rw [← ht, hr]; rfl
  | clu c ch =>
    simp only [RCOK] at h
    obtain ⟨hc, hch⟩ := h
    have ih := parseRCs_rt ch hch (k + 1)
    simp only [serRC]
    generalize hel : XElem.mk (s%"cluster") none (optAttrib (s%"derivedFrom") id c.derivedFrom) _ = el
    have htag : el.tag = s%"cluster" := by rw [← hel]; rfl
    have h1 : optAttr (s%"derivedFrom") (reread fmt k el) = .ok c.derivedFrom [] := by
      have := optAttr_rt (fmt := fmt) (n := k) (e := el) (t := s%"derivedFrom") (f := id) (o := c.derivedFrom) (by rw [← hel]; exact get_optAttrib ..) hc.derived
      simpa using this
    have h2 : reqText (s%"name") (reread fmt k el) = .ok c.name [] := reqText_rt (by subst hel; selg) hc.name
    have h3 : rawText (s%"description") (reread fmt k el) = .ok c.description [] := rawText_rt (by subst hel; selg) hc.description
    have h4 : optText (s%"alternateCluster") (reread fmt k el) = .ok c.alternateCluster [] := by
      have := optText_rt (fmt := fmt) (n := k) (e := el) (t := s%"alternateCluster") (f := id) (o := c.alternateCluster) (by subst hel; selg) hc.alternate
      simpa using this
    have h5 : optText (s%"headerStructName") (reread fmt k el) = .ok c.headerStructName [] := by
      have := optText_rt (fmt := fmt) (n := k) (e := el) (t := s%"headerStructName") (f := id) (o := c.headerStructName) (by subst hel; selg) hc.header
      simpa using this
    have h6 : reqInt (s%"addressOffset") (reread fmt k el) = .ok c.addressOffset [] := reqInt_rt reads_hex (by subst hel; selg)
    have h7 : parseDim (reread fmt k el) = .ok c.dim [] := parseDim_rt hc.dim (by
      intro t ht
      subst hel
      simp only [List.mem_cons, List.not_mem_nil, or_false] at ht
      rcases ht with rfl | rfl | rfl | rfl | rfl <;> selg) _
    have h8 : parseProps (reread fmt k el) = .ok c.props [] := parseProps_rt (by
      intro t ht
      subst hel
      simp only [List.mem_cons, List.not_mem_nil, or_false] at ht
      rcases ht with rfl | rfl | rfl | rfl | rfl <;> selg) _
    have h9 : parseRCs (reread fmt k el).children = .ok ch [] := by
      rw [reread_children, ← hel]
      simp only [XElem.children]
      rw [List.map_append, parseRCs_skip, ← rereadAll_eq, ih]
      intro e he
      obtain ⟨e', he', rfl⟩ := List.mem_map.1 he
      rw [reread_tag]
      refine not_rc_of_sel ?_ ?_ e' he'
      · selg
      · selg
    have ht := reread_tag fmt k el
    rw [htag] at ht
    cases he : reread fmt k el with
    | mk t tx a ch' =>
      rw [he] at h1 h2 h3 h4 h5 h6 h7 h8 h9 ht
      simp only [XElem.tag] at ht
      subst ht
      simp only [XElem.children] at h9
      rw [parseRC]
      rw [if_neg (by decide), if_pos rfl]
      refine bind_rt h1 ?_
      refine bind_rt h2 ?_
      refine bind_rt h3 ?_
      refine bind_rt h4 ?_
      refine bind_rt h5 ?_
      refine bind_rt h6 ?_
      refine bind_rt h9 ?_
      refine bind_rt h7 ?_
      refine bind_rt h8 ?_
      rfl
theorem parseRCs_rt (xs : List SRC) (h : RCsOK xs) (k : Nat) : parseRCs (rereadAll fmt k (serRCs xs)) = .ok xs [] := by
  cases xs with
  | nil => simp [serRCs, rereadAll, parseRCs, M.pure]
  | cons x xs =>
    simp only [RCsOK] at h
    rw [serRCs, rereadAll, parseRCs, parseRC_rt x h.1 k, bind_ok_nil, parseRCs_rt xs h.2 k, bind_ok_nil]
    rfl
end

theorem parsePeripheral_rt {p : SPeriphT} (h : PeripheralOK p) (k : Nat) : parsePeripheral (reread fmt k (serPeripheral p)) = .ok p [] := by
  unfold serPeripheral parsePeripheral
  refine bind_rt (optAttr_rt (get_optAttrib ..) h.derived) ?_
  refine bind_rt (reqText_rt (s := p.hd.name) (by selg) h.name) ?_
  refine bind_rt (optText_rt (f := id) (o := p.hd.version) (by selg) h.version) ?_
  refine bind_rt (rawText_rt (o := p.hd.description) (by selg) h.description) ?_
  refine bind_rt (optText_rt (f := id) (o := p.hd.alternatePeripheral) (by selg) h.alternate) ?_
  refine bind_rt (optText_rt (f := id) (o := p.hd.groupName) (by selg) h.group) ?_
  refine bind_rt (optText_rt (f := id) (o := p.hd.prependToName) (by selg) h.prepend) ?_
  refine bind_rt (optText_rt (f := id) (o := p.hd.appendToName) (by selg) h.append) ?_
  refine bind_rt (optText_rt (f := id) (o := p.hd.headerStructName) (by selg) h.header) ?_
  refine bind_rt (rawText_rt (o := p.hd.disableCondition) (by selg) h.condition) ?_
  refine bind_rt (reqInt_rt reads_hex (a := p.hd.baseAddress) (by selg)) ?_
  refine bind_rt (a := p.hd.addressBlocks) (by
    rw [findall_reread, show sel (s%"addressBlock") _ = p.hd.addressBlocks.map serAddressBlock by selg]
    exact mapM_rt (fun a _ k => parseAddressBlock_rt a k) _) ?_
  refine bind_rt (a := p.hd.interrupts) (by
    rw [findall_reread, show sel (s%"interrupt") _ = p.hd.interrupts.map serInterrupt by selg]
    exact mapM_rt (fun a ha k => parseInterrupt_rt (h.interrupts a ha) k) _) ?_
  refine bind_rt (a := if p.rcs.isEmpty then [] else [p.rcs]) (by
    rw [findall_reread, show sel (s%"registers") _ = serRegisters p.rcs by
      selg
      unfold serRegisters; split
      · rfl
      · simp [sel, XElem.tag]]
    unfold serRegisters
    split
    · rfl
    · simp only [List.map_singleton, M.mapM]
      rw [reread_children, ← rereadAll_eq]
      simp only [XElem.children, parseRCs_rt p.rcs h.rcs, bind_ok_nil]
      rfl) ?_
  refine bind_rt (parseDim_rt (d := p.hd.dim) h.dim (by
    intro t ht
    simp only [List.mem_cons, List.not_mem_nil, or_false] at ht
    rcases ht with rfl | rfl | rfl | rfl | rfl <;> selg) _) ?_
  refine bind_rt (parseProps_rt (p := p.hd.props) (by
    intro t ht
    simp only [List.mem_cons, List.not_mem_nil, or_false] at ht
    rcases ht with rfl | rfl | rfl | rfl | rfl <;> selg) _) ?_
  have hrc : (if p.rcs.isEmpty then [] else [p.rcs] : List (List SRC)).flatten = p.rcs := by
    cases p.rcs <;> simp
  rw [hrc]
  simp [M.pure]

theorem parseSauRegion_rt {r : SSauRegion} (h : Stripped r.name) (k : Nat) : parseSauRegion (reread fmt k (serSauRegion r)) = .ok r [] := by
  unfold serSauRegion parseSauRegion
  refine bind_rt (optAttrBool_rt (o := r.enabled) (by cases r.enabled <;> cases r.name <;> simp [XElem.get, XElem.attrs, optAttrib, List.lookup])) ?_
  refine bind_rt (optAttr_rt (f := id) (o := r.name) (by cases r.enabled <;> cases r.name <;> simp [XElem.get, XElem.attrs, optAttrib, List.lookup]) h) ?_
  refine bind_rt (reqInt_rt reads_hex (a := r.base) (by selg)) ?_
  refine bind_rt (reqInt_rt reads_hex (a := r.limit) (by selg)) ?_
  refine bind_rt (reqTok_rt reads_sauAccess (a := r.access) (by selg)) ?_
  simp [M.pure]

theorem parseSauConfig_rt {e : XElem} {o : Option SSauConfig} (ho : ∀ s ∈ o, ∀ r ∈ s.regions, Stripped r.name)
    (h : sel (s%"sauRegionsConfig") e.children = optElem serSauConfig o) (k : Nat) :
    parseSauConfig (reread fmt k e) = .ok o [] := by
  unfold parseSauConfig
  cases o with
  | none => rw [find_none h]; rfl
  | some c =>
    rw [find_one h]
    show (M.bind _ _) = _
    refine bind_rt (optAttrBool_rt (o := c.enabled) (by unfold serSauConfig; cases c.enabled <;> cases c.protectionWhenDisabled <;> simp [XElem.get, XElem.attrs, optAttrib, List.lookup])) ?_
    refine bind_rt (optAttr_rt (f := Protection.val) (o := c.protectionWhenDisabled) (by unfold serSauConfig; cases c.enabled <;> cases c.protectionWhenDisabled <;> simp [XElem.get, XElem.attrs, optAttrib, List.lookup])
      (fun a _ => (reads_protection a).1.2)) ?_
    refine bind_rt (a := c.regions) (by
      rw [findall_reread, show sel (s%"region") _ = c.regions.map serSauRegion by unfold serSauConfig; selg]
      exact mapM_rt (fun a ha k => parseSauRegion_rt (ho c rfl a ha) k) _) ?_
    refine bind_rt (optM_rt reads_protection _) ?_
    rfl

theorem parseCpu_rt {e : XElem} {o : Option SCpu} (ho : ∀ c ∈ o, CpuOK c)
    (h : sel (s%"cpu") e.children = optElem serCpu o) (k : Nat) : parseCpu (reread fmt k e) = .ok o [] := by
  unfold parseCpu
  cases o with
  | none => rw [find_none h]; rfl
  | some c =>
    have hc := ho c rfl
    rw [find_one h]
    show (M.bind _ _) = _
    unfold serCpu
    refine bind_rt (reqTok_rt reads_cpuName (a := c.name) (by selg)) ?_
    refine bind_rt (reqText_rt (s := c.revision) (by selg) hc.revision) ?_
    refine bind_rt (reqTok_rt reads_endian (a := c.endian) (by selg)) ?_
    refine bind_rt (optBool_rt (o := c.mpuPresent) (by selg)) ?_
    refine bind_rt (optBool_rt (o := c.fpuPresent) (by selg)) ?_
    refine bind_rt (optBool_rt (o := c.fpuDp) (by selg)) ?_
    refine bind_rt (optBool_rt (o := c.dspPresent) (by selg)) ?_
    refine bind_rt (optBool_rt (o := c.icachePresent) (by selg)) ?_
    refine bind_rt (optBool_rt (o := c.dcachePresent) (by selg)) ?_
    refine bind_rt (optBool_rt (o := c.itcmPresent) (by selg)) ?_
    refine bind_rt (optBool_rt (o := c.dtcmPresent) (by selg)) ?_
    refine bind_rt (optBool_rt (o := c.vtorPresent) (by selg)) ?_
    refine bind_rt (reqInt_rt reads_int (a := c.nvicPrioBits) (by selg)) ?_
    refine bind_rt (reqTok_rt reads_bool (a := c.vendorSystickConfig) (by selg)) ?_
    refine bind_rt (optInt_rt reads_int (o := c.deviceNumInterrupts) (by selg)) ?_
    refine bind_rt (optInt_rt reads_int (o := c.sauNumRegions) (by selg)) ?_
    refine bind_rt (parseSauConfig_rt (o := c.sauConfig) hc.regions (by selg) _) ?_
    rfl

/-- The warnings of reading a written device. -/
def rereadWarns (d : SDevice) : List Warn := if d.hd.description = [] then [.noDescription] else []

theorem bind_ws {α β : Type} {x : M α} {f : α → M β} {a : α} {w w' : List Warn} {b : β} (h : x = .ok a w) (h2 : f a = .ok b w') :
    M.bind x f = .ok b (w ++ w') := by
  rw [h]; unfold M.bind; simp only [h2]

theorem parseDevice_rt {d : SDevice} (h : DeviceOK d) : serializeThenParse fmt d = .ok d (rereadWarns d) := by
  unfold serializeThenParse parseDevice
  simp only []
  refine bind_rt (a := d.hd.xsNoNamespaceSchemaLocation) (by
    have h1 : reqAttr (('{' :: xsUri) ++ ('}' :: s%"noNamespaceSchemaLocation")) (reread fmt 0 (serDevice d).root) = .ok d.hd.xsNoNamespaceSchemaLocation [] := by
      unfold reqAttr
      rw [optAttr_rt (f := id) (o := some d.hd.xsNoNamespaceSchemaLocation) (by unfold serDevice; simp [XElem.get, XElem.attrs, List.lookup])
        (by intro a ha; cases ha; exact h.location)]
      rfl
    unfold parseSchemaLocation
    simp only [show (serDevice d).nsmap = [(s%"xs", xsUri)] from rfl]
    simp only [List.lookup, beq_self_eq_true, Option.isSome_some, if_true]
    rw [h1]) ?_
  unfold serDevice
  refine bind_rt (a := d.hd.schemaVersion) (by
    unfold reqAttr
    rw [optAttr_rt (f := id) (o := some d.hd.schemaVersion) (by simp [XElem.get, XElem.attrs, List.lookup])
      (by intro a ha; cases ha; exact h.schema)]
    rfl) ?_
  refine bind_rt (optText_rt (f := id) (o := d.hd.vendor) (by selg) h.vendor) ?_
  refine bind_rt (optText_rt (f := id) (o := d.hd.vendorId) (by selg) h.vendorId) ?_
  refine bind_rt (reqText_rt (s := d.hd.name) (by selg) h.name) ?_
  refine bind_rt (optText_rt (f := id) (o := d.hd.series) (by selg) h.series) ?_
  refine bind_rt (reqText_rt (s := d.hd.version) (by selg) h.version) ?_
  refine (bind_ws (w := rereadWarns d) (w' := []) (a := d.hd.description) (b := d) ?_ ?_).trans (by rw [List.append_nil])
  · unfold parseDeviceDescription rereadWarns
    by_cases hd : d.hd.description = []
    · rw [if_pos hd, hd]
      refine bind_rt (a := none) ?_ rfl
      unfold rawText elementText
      rw [findall_reread, show sel (s%"description") _ = [leaf (s%"description") []] by selg]
      simp [lastText, reread, leaf, XElem.text, M.pure]
    · rw [if_neg hd]
      exact bind_rt (rawText_rt (o := some d.hd.description) (by selg; rfl) (by intro a ha; cases ha; exact hd)) rfl
  refine bind_rt (rawText_rt (o := d.hd.licenseText) (by selg) h.license) ?_
  refine bind_rt (parseCpu_rt (o := d.hd.cpu) h.cpu (by selg) _) ?_
  refine bind_rt (optText_rt (f := id) (o := d.hd.headerSystemFilename) (by selg) h.system) ?_
  refine bind_rt (optText_rt (f := id) (o := d.hd.headerDefinitionsPrefix) (by selg) h.prefix_) ?_
  refine bind_rt (reqInt_rt reads_int (a := d.hd.addressUnitBits) (by selg)) ?_
  refine bind_rt (reqInt_rt reads_int (a := d.hd.width) (by selg)) ?_
  refine bind_rt (parseProps_rt (p := d.hd.props) (by
    intro t ht
    simp only [List.mem_cons, List.not_mem_nil, or_false] at ht
    rcases ht with rfl | rfl | rfl | rfl | rfl <;> selg) _) ?_
  refine bind_rt (a := d.peripherals) (by
    unfold parsePeripherals
    have hne : d.peripherals.isEmpty = false := by simpa using h.nonempty
    rw [find_one (x := .mk (s%"peripherals") none [] (d.peripherals.map serPeripheral)) (l := []) (by
      selg
      unfold serPeripherals
      rw [hne]; simp [sel, XElem.tag])]
    simp only []
    rw [findall_reread, show sel (s%"peripheral") _ = d.peripherals.map serPeripheral by selg]
    exact mapM_rt (fun a ha k => parsePeripheral_rt (h.peripherals a ha) k) _) ?_
  simp [M.pure]

end elems
end Svd
