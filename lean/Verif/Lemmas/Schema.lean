import Verif.Spec.Schema
import Verif.Model.Serialize
/-
Lemmas about the structure of written documents.
-/
namespace Svd
open Spec CM

theorem structuredAll_iff {xs : List XElem} : StructuredAll xs ↔ ∀ x ∈ xs, Structured x := by
  induction xs with
  | nil => simp [StructuredAll]
  | cons x xs ih => simp [StructuredAll, ih]

theorem structured_mk {tag : Str} {text : Option Str} {attrs : List (Str × Str)} {ch : List XElem} {m : CM} (hm : models.lookup tag = some m)
    (h : m.Allows (ch.map XElem.tag)) (hc : ∀ x ∈ ch, Structured x) : Structured (.mk tag text attrs ch) := by
  refine ⟨?_, structuredAll_iff.2 hc⟩
  unfold Structure
  rw [hm]
  exact h

theorem structured_leaf {t s : Str} (h : (models.lookup t).isNone = true) : Structured (leaf t s) := by
  refine ⟨?_, trivial⟩
  unfold Structure
  rw [Option.isNone_iff_eq_none.1 h]
  rfl

theorem structured_optLeaf {α : Type} {t : Str} {f : α → Str} {o : Option α} (h : (models.lookup t).isNone = true) : ∀ x ∈ optLeaf t f o, Structured x := by
  cases o with
  | none => intro x hx; cases hx
  | some a =>
    intro x hx
    rw [List.mem_singleton.1 hx]
    exact structured_leaf h

theorem structured_optElem {α : Type} {f : α → XElem} {o : Option α} (h : ∀ a ∈ o, Structured (f a)) : ∀ x ∈ optElem f o, Structured x := by
  cases o with
  | none => intro x hx; cases hx
  | some a =>
    intro x hx
    rw [List.mem_singleton.1 hx]
    exact h a rfl

theorem structured_map {α : Type} {f : α → XElem} {xs : List α} (h : ∀ a ∈ xs, Structured (f a)) : ∀ x ∈ xs.map f, Structured x := by
  intro x hx
  obtain ⟨a, ha, rfl⟩ := List.mem_map.1 hx
  exact h a ha

theorem structured_append {xs ys : List XElem} (h : ∀ x ∈ xs, Structured x) (h' : ∀ x ∈ ys, Structured x) : ∀ x ∈ xs ++ ys, Structured x := by
  intro x hx
  rcases List.mem_append.1 hx with hx | hx
  · exact h x hx
  · exact h' x hx

theorem structured_one {t s : Str} (h : (models.lookup t).isNone = true) : ∀ x ∈ [leaf t s], Structured x := by
  intro x hx
  rw [List.mem_singleton.1 hx]
  exact structured_leaf h

/-! ### the tags of the parts -/

theorem allows_leaf (t s : Str) : (CM.one t).Allows ([leaf t s].map XElem.tag) := .one

theorem allows_optLeaf {α : Type} (t : Str) (f : α → Str) (o : Option α) : (maybe t).Allows ((optLeaf t f o).map XElem.tag) := by
  cases o with
  | none => exact .left .nothing
  | some a => exact .right .one

theorem allows_optElem {α : Type} {t : Str} {f : α → XElem} (hf : ∀ a, (f a).tag = t) (o : Option α) :
    (maybe t).Allows ((optElem f o).map XElem.tag) := by
  cases o with
  | none => exact .left .nothing
  | some a =>
    refine .right ?_
    show CM.Allows _ [(f a).tag]
    rw [hf]
    exact .one

theorem allows_map {α : Type} {t : Str} {f : α → XElem} (hf : ∀ a, (f a).tag = t) (xs : List α) :
    (any t).Allows ((xs.map f).map XElem.tag) := by
  induction xs with
  | nil => exact .stop
  | cons x xs ih =>
    show CM.Allows _ ([(f x).tag] ++ _)
    rw [hf]
    exact .more .one ih

theorem allows_some {α : Type} {t : Str} {f : α → XElem} (hf : ∀ a, (f a).tag = t) {xs : List α} (h : xs ≠ []) :
    (CM.atLeastOne t).Allows ((xs.map f).map XElem.tag) := by
  cases xs with
  | nil => exact absurd rfl h
  | cons x xs =>
    show CM.Allows _ ([(f x).tag] ++ _)
    rw [hf]
    exact .seq .one (allows_map hf xs)

theorem allows_cons {a : CM} {as : List CM} {x y : List XElem} (h : a.Allows (x.map XElem.tag)) (h' : (all as).Allows (y.map XElem.tag)) :
    (all (a :: as)).Allows ((x ++ y).map XElem.tag) := by
  rw [List.map_append]
  exact .seq h h'

theorem allows_last {a : CM} {x : List XElem} (h : a.Allows (x.map XElem.tag)) : (all [a]).Allows (x.map XElem.tag) := by
  have := CM.Allows.seq h CM.Allows.nothing
  rwa [List.append_nil] at this

theorem allows_cons2 {t u s s' : Str} {as : List CM} {y : List XElem} (h : (all as).Allows (y.map XElem.tag)) :
    (all (.one t :: .one u :: as)).Allows (([leaf t s, leaf u s'] ++ y).map XElem.tag) :=
  allows_cons (x := [leaf t s]) (y := [leaf u s'] ++ y) (allows_leaf _ _) (allows_cons (x := [leaf u s']) (allows_leaf _ _) h)

theorem allows_cons3 {t u v s s' s'' : Str} {as : List CM} {y : List XElem} (h : (all as).Allows (y.map XElem.tag)) :
    (all (.one t :: .one u :: .one v :: as)).Allows (([leaf t s, leaf u s', leaf v s''] ++ y).map XElem.tag) :=
  allows_cons (x := [leaf t s]) (y := [leaf u s', leaf v s''] ++ y) (allows_leaf _ _) (allows_cons2 h)

/-! ### the elements -/

theorem structured_enumValue {v : SEnumValue} (h : EnumValueFits v) : Structured (serEnumValue v) := by
  refine structured_mk (m := all [one (s%"name"), maybe (s%"description"), choice (one (s%"value")) (one (s%"isDefault"))]) rfl ?_ ?_
  · simp only [List.append_assoc]
    refine allows_cons (allows_leaf _ _) (allows_cons (allows_optLeaf _ _ _) (allows_last ?_))
    have h1 := h.one
    unfold OneOf2 at h1
    cases hv : v.value <;> cases hd : v.isDefault <;> rw [hv, hd] at h1 <;> simp only [Option.isSome, ne_eq, not_true] at h1
    · exact .right .one
    · exact .left .one
  · exact structured_append (structured_append (structured_append (structured_one rfl) (structured_optLeaf rfl)) (structured_optLeaf rfl)) (structured_optLeaf rfl)

theorem structured_dimArray {a : SDimArrayIndex} (hn : a.values ≠ []) (h : ∀ v ∈ a.values, EnumValueFits v) : Structured (serDimArrayIndex a) := by
  refine structured_mk (m := all [maybe (s%"headerEnumName"), CM.atLeastOne (s%"enumeratedValue")]) rfl ?_ ?_
  · exact allows_cons (allows_optLeaf _ _ _) (allows_last (allows_some (by intro _; rfl) hn))
  · exact structured_append (structured_optLeaf rfl) (structured_map fun v hv => structured_enumValue (h v hv))

theorem structured_dim {d : SDim} (h : DimWhole d) : dimModel.Allows ((serDim d).map XElem.tag) ∧ ∀ x ∈ serDim d, Structured x := by
  constructor
  · unfold serDim dimModel
    rcases h.whole with ⟨h1, h2⟩ | ⟨h1, h2, h3, h4, h5⟩
    · obtain ⟨a, ha⟩ := Option.isSome_iff_exists.1 h1
      obtain ⟨b, hb⟩ := Option.isSome_iff_exists.1 h2
      rw [ha, hb]
      simp only [List.append_assoc]
      exact .right (allows_cons (x := optLeaf _ _ (some a)) .one (allows_cons (x := optLeaf _ _ (some b)) .one (allows_cons (allows_optLeaf _ _ _) (allows_cons (allows_optLeaf _ _ _)
        (allows_last (allows_optElem (by intro _; rfl) _))))))
    · rw [h1, h2, h3, h4, h5]
      exact .left .nothing
  · exact structured_append (structured_append (structured_append (structured_append (structured_optLeaf rfl) (structured_optLeaf rfl)) (structured_optLeaf rfl)) (structured_optLeaf rfl))
      (structured_optElem fun a ha => structured_dimArray (h.array a ha).1 (h.array a ha).2)

theorem structured_props (p : Props) : propsModel.Allows ((serProps p).map XElem.tag) ∧ ∀ x ∈ serProps p, Structured x := by
  constructor
  · unfold serProps propsModel
    simp only [List.append_assoc]
    exact allows_cons (allows_optLeaf _ _ _) (allows_cons (allows_optLeaf _ _ _) (allows_cons (allows_optLeaf _ _ _) (allows_cons (allows_optLeaf _ _ _)
        (allows_last (allows_optLeaf _ _ _)))))
  · exact structured_append (structured_append (structured_append (structured_append (structured_optLeaf rfl) (structured_optLeaf rfl)) (structured_optLeaf rfl)) (structured_optLeaf rfl))
      (structured_optLeaf rfl)

theorem structured_range (r : Int × Int) : Structured (serRange r) := by
  refine structured_mk (m := all [one (s%"minimum"), one (s%"maximum")]) rfl ?_ ?_
  · exact allows_cons (x := [leaf _ _]) (y := [leaf _ _]) .one (allows_last .one)
  · exact structured_append (xs := [leaf _ _]) (ys := [leaf _ _]) (structured_one rfl) (structured_one rfl)

theorem structured_constraint {c : WriteConstraint} (h : ConstraintFits c) : Structured (serWriteConstraint c) := by
  refine structured_mk (m := choice (one (s%"writeAsRead")) (choice (one (s%"useEnumeratedValues")) (one (s%"range")))) rfl ?_ ?_
  · rcases h with ⟨h1, h2, h3⟩ | ⟨h1, h2, h3⟩ | ⟨h1, h2, h3⟩
    · obtain ⟨a, ha⟩ := Option.isSome_iff_exists.1 h1
      rw [ha, h2, h3]
      exact .left .one
    · obtain ⟨a, ha⟩ := Option.isSome_iff_exists.1 h2
      rw [ha, h1, h3]
      exact .right (.left .one)
    · obtain ⟨a, ha⟩ := Option.isSome_iff_exists.1 h3
      rw [ha, h1, h2]
      exact .right (.right .one)
  · exact structured_append (structured_append (structured_optLeaf rfl) (structured_optLeaf rfl)) (structured_optElem fun _ _ => structured_range _)

theorem structured_container {c : SEnumContainer} (h : ∀ v ∈ c.values, EnumValueFits v) : Structured (serEnumContainer c) := by
  refine structured_mk (m := all [maybe (s%"name"), maybe (s%"headerEnumName"), maybe (s%"usage"), any (s%"enumeratedValue")]) rfl ?_ ?_
  · simp only [List.append_assoc]
    exact allows_cons (allows_optLeaf _ _ _) (allows_cons (allows_optLeaf _ _ _) (allows_cons (allows_optLeaf _ _ _) (allows_last (allows_map (by intro _; rfl) _))))
  · exact structured_append (structured_append (structured_append (structured_optLeaf rfl) (structured_optLeaf rfl)) (structured_optLeaf rfl))
      (structured_map fun v hv => structured_enumValue (h v hv))

theorem structured_pair {t1 t2 : Str} (h1 : (models.lookup t1).isNone = true) (h2 : (models.lookup t2).isNone = true) (a b : Option Int) :
    ∀ x ∈ serPair t1 t2 a b, Structured x := by
  unfold serPair
  split
  · exact structured_append (xs := [leaf _ _]) (ys := [leaf _ _]) (structured_one h1) (structured_one h2)
  · intro x hx; cases hx

theorem serPair_none {t1 t2 : Str} {a b : Option Int} (h : ¬ (a.isSome ∧ b.isSome)) : serPair t1 t2 a b = [] := by
  cases a <;> cases b <;> first | rfl | exact absurd ⟨rfl, rfl⟩ h

theorem serPair_some {t1 t2 : Str} {a b : Option Int} (h : a.isSome) (h' : b.isSome) : (serPair t1 t2 a b).map XElem.tag = [t1, t2] := by
  cases a <;> cases b <;> first | rfl | (simp at h; done) | (simp at h'; done)

theorem allows_position {f : SField} (h : FieldFits f) :
    (choice (all [one (s%"lsb"), one (s%"msb")]) (choice (all [one (s%"bitOffset"), maybe (s%"bitWidth")]) (one (s%"bitRange")))).Allows
      ((serPair (s%"bitOffset") (s%"bitWidth") f.bitOffset f.bitWidth ++ (serPair (s%"lsb") (s%"msb") f.lsb f.msb ++ optLeaf (s%"bitRange") id f.bitRange)).map XElem.tag) := by
  rcases h.position with ⟨h1, h2, h3, h4⟩ | ⟨h1, h2, h3, h4⟩ | ⟨h1, h2, h3⟩
  · rw [serPair_none h3, h4, List.map_append, List.map_append, serPair_some h1 h2]
    exact .left (.seq (xs := [_]) (ys := [_]) .one (.seq (xs := [_]) (ys := []) .one .nothing))
  · rw [serPair_none h1, h4, List.map_append, List.map_append, serPair_some h2 h3]
    exact .right (.left (.seq (xs := [_]) (ys := [_]) .one (.seq (xs := [_]) (ys := []) (.right .one) .nothing)))
  · obtain ⟨a, ha⟩ := Option.isSome_iff_exists.1 h3
    rw [serPair_none h1, serPair_none h2, ha]
    exact .right (.right .one)

theorem allows_two {cs : List SEnumContainer} (h : cs.length ≤ 2) :
    (all [opt (one (s%"enumeratedValues")), opt (one (s%"enumeratedValues"))]).Allows ((cs.map serEnumContainer).map XElem.tag) := by
  match cs, h with
  | [], _ => exact .seq (.left .nothing) (.seq (.left .nothing) .nothing)
  | [a], _ => exact .seq (.right .one) (.seq (.left .nothing) .nothing)
  | [a, b], _ => exact .seq (.right .one) (.seq (.right .one) .nothing)
  | _ :: _ :: _ :: _, h => simp at h

theorem structured_field {f : SField} (h : FieldFits f) : Structured (serField f) := by
  refine structured_mk (m := all [dimModel, one (s%"name"), maybe (s%"description"),
    choice (all [one (s%"lsb"), one (s%"msb")]) (choice (all [one (s%"bitOffset"), maybe (s%"bitWidth")]) (one (s%"bitRange"))),
    maybe (s%"access"), maybe (s%"modifiedWriteValues"), maybe (s%"writeConstraint"), maybe (s%"readAction"),
    opt (one (s%"enumeratedValues")), opt (one (s%"enumeratedValues"))]) rfl ?_ ?_
  · have e : ∀ (A B C D E F G H I J K : List XElem), A ++ B ++ C ++ D ++ E ++ F ++ G ++ H ++ I ++ J ++ K =
        A ++ (B ++ (C ++ ((D ++ (E ++ F)) ++ (G ++ (H ++ (I ++ (J ++ K))))))) := by intros; simp only [List.append_assoc]
    rw [e]
    exact allows_cons (structured_dim h.dim).1 (allows_cons (allows_leaf _ _) (allows_cons (allows_optLeaf _ _ _) (allows_cons (allows_position h)
      (allows_cons (allows_optLeaf _ _ _) (allows_cons (allows_optLeaf _ _ _) (allows_cons (allows_optElem (by intro _; rfl) _)
      (allows_cons (allows_optLeaf _ _ _) (allows_two h.two))))))))
  · exact structured_append (structured_append (structured_append (structured_append (structured_append (structured_append (structured_append (structured_append (structured_append (structured_append
      (structured_dim h.dim).2 (structured_one rfl)) (structured_optLeaf rfl)) (structured_pair rfl rfl _ _)) (structured_pair rfl rfl _ _)) (structured_optLeaf rfl))
      (structured_optLeaf rfl)) (structured_optLeaf rfl)) (structured_optElem fun c hc => structured_constraint (h.constraint c hc))) (structured_optLeaf rfl))
      (structured_map fun c hc => structured_container (h.values c hc))

theorem structured_fields {fs : List SField} (h : ∀ f ∈ fs, FieldFits f) :
    (maybe (s%"fields")).Allows ((serFields fs).map XElem.tag) ∧ ∀ x ∈ serFields fs, Structured x := by
  unfold serFields
  cases fs with
  | nil => exact ⟨.left .nothing, fun x hx => by cases hx⟩
  | cons f fs =>
    refine ⟨.right .one, fun x hx => ?_⟩
    rw [List.mem_singleton.1 hx]
    exact structured_mk (m := CM.atLeastOne (s%"field")) rfl (allows_some (by intro _; rfl) (by simp)) (structured_map fun f hf => structured_field (h f hf))

theorem allows_alternate {α β : Type} {f : α → Str} {g : β → Str} {t1 t2 : Str} {a : Option α} {b : Option β} (h : a = none ∨ b = none) :
    (choice (maybe t1) (maybe t2)).Allows ((optLeaf t1 f a ++ optLeaf t2 g b).map XElem.tag) := by
  rcases h with rfl | rfl
  · exact .right (allows_optLeaf _ _ _)
  · rw [show optLeaf t2 g none = [] from rfl, List.append_nil]
    exact .left (allows_optLeaf _ _ _)

theorem structured_register {r : SRegister} (h : RegisterFits r) : Structured (serRegister r) := by
  refine structured_mk (m := all [dimModel, one (s%"name"), maybe (s%"displayName"), maybe (s%"description"),
    choice (maybe (s%"alternateGroup")) (maybe (s%"alternateRegister")), one (s%"addressOffset"), propsModel, maybe (s%"dataType"),
    maybe (s%"modifiedWriteValues"), maybe (s%"writeConstraint"), maybe (s%"readAction"), maybe (s%"fields")]) rfl ?_ ?_
  · have e : ∀ (A B C D E F G H I J K L M : List XElem), A ++ B ++ C ++ D ++ E ++ F ++ G ++ H ++ I ++ J ++ K ++ L ++ M =
        A ++ (B ++ (C ++ (D ++ ((E ++ F) ++ (G ++ (H ++ (I ++ (J ++ (K ++ (L ++ M)))))))))) := by intros; simp only [List.append_assoc]
    rw [e]
    exact allows_cons (structured_dim h.dim).1 (allows_cons (allows_leaf _ _) (allows_cons (allows_optLeaf _ _ _) (allows_cons (allows_optLeaf _ _ _)
      (allows_cons (allows_alternate h.alternate) (allows_cons (allows_leaf _ _) (allows_cons (structured_props _).1 (allows_cons (allows_optLeaf _ _ _)
      (allows_cons (allows_optLeaf _ _ _) (allows_cons (allows_optElem (by intro _; rfl) _) (allows_cons (allows_optLeaf _ _ _) (allows_last (structured_fields h.fields).1)))))))))))
  · exact structured_append (structured_append (structured_append (structured_append (structured_append (structured_append (structured_append (structured_append (structured_append (structured_append (structured_append (structured_append
      (structured_dim h.dim).2 (structured_one rfl)) (structured_optLeaf rfl)) (structured_optLeaf rfl)) (structured_optLeaf rfl)) (structured_optLeaf rfl)) (structured_one rfl))
      (structured_props _).2) (structured_optLeaf rfl)) (structured_optLeaf rfl)) (structured_optElem fun c hc => structured_constraint (h.constraint c hc))) (structured_optLeaf rfl))
      (structured_fields h.fields).2

theorem serRC_tag (x : SRC) : (serRC x).tag = s%"register" ∨ (serRC x).tag = s%"cluster" := by
  cases x with
  | reg r => exact .inl rfl
  | clu c ch => exact .inr rfl

theorem allows_serRCs (xs : List SRC) {m : CM} (h1 : m.Allows [s%"register"]) (h2 : m.Allows [s%"cluster"]) : (CM.many m).Allows ((serRCs xs).map XElem.tag) := by
  induction xs with
  | nil => exact .stop
  | cons x xs ih =>
    show CM.Allows _ ([(serRC x).tag] ++ _)
    refine .more ?_ ih
    rcases serRC_tag x with h | h <;> rw [h] <;> assumption

mutual
theorem structured_rc (x : SRC) (h : RCFits x) : Structured (serRC x) := by
  match x with
  | .reg r => exact structured_register h
  | .clu c ch =>
    obtain ⟨h1, h2⟩ := h
    refine structured_mk (m := all [dimModel, one (s%"name"), one (s%"description"), maybe (s%"alternateCluster"), maybe (s%"headerStructName"),
      one (s%"addressOffset"), propsModel, many (choice (one (s%"register")) (one (s%"cluster")))]) rfl ?_ ?_
    · obtain ⟨s, hs⟩ := Option.isSome_iff_exists.1 h1.description
      rw [hs]
      simp only [List.append_assoc]
      exact allows_cons (structured_dim h1.dim).1 (allows_cons (allows_leaf _ _) (allows_cons (x := optLeaf _ _ (some s)) .one (allows_cons (allows_optLeaf _ _ _) (allows_cons (allows_optLeaf _ _ _)
        (allows_cons (allows_leaf _ _) (allows_cons (structured_props _).1 (allows_last (allows_serRCs ch (.left .one) (.right .one)))))))))
    · exact structured_append (structured_append (structured_append (structured_append (structured_append (structured_append (structured_append
        (structured_dim h1.dim).2 (structured_one rfl)) (structured_optLeaf rfl)) (structured_optLeaf rfl)) (structured_optLeaf rfl)) (structured_one rfl)) (structured_props _).2)
        (structured_rcs ch h2)
theorem structured_rcs (xs : List SRC) (h : RCsFit xs) : ∀ x ∈ serRCs xs, Structured x := by
  match xs with
  | [] => intro x hx; cases hx
  | x :: xs =>
    intro y hy
    rw [serRCs] at hy
    rcases List.mem_cons.1 hy with rfl | hy
    · exact structured_rc x h.1
    · exact structured_rcs xs h.2 y hy
end

theorem structured_registers {xs : List SRC} (h : RCsFit xs) :
    (maybe (s%"registers")).Allows ((serRegisters xs).map XElem.tag) ∧ ∀ x ∈ serRegisters xs, Structured x := by
  unfold serRegisters
  cases xs with
  | nil => exact ⟨.left .nothing, fun x hx => by cases hx⟩
  | cons r rs =>
    refine ⟨.right .one, fun x hx => ?_⟩
    rw [List.mem_singleton.1 hx]
    refine structured_mk (m := .seq (choice (one (s%"cluster")) (one (s%"register"))) (many (choice (one (s%"cluster")) (one (s%"register"))))) rfl ?_ (structured_rcs _ h)
    show CM.Allows _ ([(serRC r).tag] ++ _)
    refine .seq ?_ (allows_serRCs rs (.right .one) (.left .one))
    rcases serRC_tag r with h | h <;> rw [h]
    · exact .right .one
    · exact .left .one

theorem structured_block (b : SAddressBlock) : Structured (serAddressBlock b) := by
  refine structured_mk (m := all [one (s%"offset"), one (s%"size"), one (s%"usage"), maybe (s%"protection")]) rfl ?_ ?_
  · exact .seq (xs := [_]) .one (.seq (xs := [_]) .one (.seq (xs := [_]) .one (allows_last (allows_optLeaf _ _ _))))
  · refine structured_append ?_ (structured_optLeaf rfl)
    exact structured_append (xs := [_]) (ys := [_, _]) (structured_one rfl) (structured_append (xs := [_]) (ys := [_]) (structured_one rfl) (structured_one rfl))

theorem structured_interrupt (i : Interrupt) : Structured (serInterrupt i) := by
  refine structured_mk (m := all [one (s%"name"), maybe (s%"description"), one (s%"value")]) rfl ?_ ?_
  · simp only [List.append_assoc]
    exact allows_cons (allows_leaf _ _) (allows_cons (allows_optLeaf _ _ _) (allows_last .one))
  · exact structured_append (structured_append (structured_one rfl) (structured_optLeaf rfl)) (structured_one rfl)

theorem structured_peripheral {p : SPeriphT} (hd : DimWhole p.hd.dim) (h : RCsFit p.rcs) : Structured (serPeripheral p) := by
  refine structured_mk (m := all [dimModel, one (s%"name"), maybe (s%"version"), maybe (s%"description"), maybe (s%"alternatePeripheral"),
    maybe (s%"groupName"), maybe (s%"prependToName"), maybe (s%"appendToName"), maybe (s%"headerStructName"), maybe (s%"disableCondition"),
    one (s%"baseAddress"), propsModel, any (s%"addressBlock"), any (s%"interrupt"), maybe (s%"registers")]) rfl ?_ ?_
  · simp only [List.append_assoc]
    exact allows_cons (structured_dim hd).1 (allows_cons (allows_leaf _ _) (allows_cons (allows_optLeaf _ _ _) (allows_cons (allows_optLeaf _ _ _) (allows_cons (allows_optLeaf _ _ _)
      (allows_cons (allows_optLeaf _ _ _) (allows_cons (allows_optLeaf _ _ _) (allows_cons (allows_optLeaf _ _ _) (allows_cons (allows_optLeaf _ _ _) (allows_cons (allows_optLeaf _ _ _)
      (allows_cons (allows_leaf _ _) (allows_cons (structured_props _).1 (allows_cons (allows_map (by intro _; rfl) _) (allows_cons (allows_map (by intro _; rfl) _)
      (allows_last (structured_registers h).1))))))))))))))
  · exact structured_append (structured_append (structured_append (structured_append (structured_append (structured_append (structured_append (structured_append (structured_append (structured_append (structured_append (structured_append (structured_append (structured_append
      (structured_dim hd).2 (structured_one rfl)) (structured_optLeaf rfl)) (structured_optLeaf rfl)) (structured_optLeaf rfl)) (structured_optLeaf rfl)) (structured_optLeaf rfl)) (structured_optLeaf rfl))
      (structured_optLeaf rfl)) (structured_optLeaf rfl)) (structured_one rfl)) (structured_props _).2) (structured_map fun b _ => structured_block b)) (structured_map fun i _ => structured_interrupt i))
      (structured_registers h).2

theorem structured_region (r : SSauRegion) : Structured (serSauRegion r) := by
  refine structured_mk (m := .seq (all [one (s%"base"), one (s%"limit"), one (s%"access")]) (many (all [one (s%"base"), one (s%"limit"), one (s%"access")]))) rfl ?_ ?_
  · exact .seq (xs := [s%"base", s%"limit", s%"access"]) (.seq (xs := [_]) .one (.seq (xs := [_]) .one (.seq (xs := [_]) .one .nothing))) .stop
  · exact structured_append (xs := [_]) (ys := [_, _]) (structured_one rfl) (structured_append (xs := [_]) (ys := [_]) (structured_one rfl) (structured_one rfl))

theorem structured_sau (c : SSauConfig) : Structured (serSauConfig c) :=
  structured_mk (m := any (s%"region")) rfl (allows_map (by intro _; rfl) _) (structured_map fun r _ => structured_region r)

theorem structured_cpu (c : SCpu) : Structured (serCpu c) := by
  refine structured_mk (m := all [one (s%"name"), one (s%"revision"), one (s%"endian"), maybe (s%"mpuPresent"), maybe (s%"fpuPresent"), maybe (s%"fpuDP"),
    maybe (s%"dspPresent"), maybe (s%"icachePresent"), maybe (s%"dcachePresent"), maybe (s%"itcmPresent"), maybe (s%"dtcmPresent"),
    maybe (s%"vtorPresent"), one (s%"nvicPrioBits"), one (s%"vendorSystickConfig"), maybe (s%"deviceNumInterrupts"),
    maybe (s%"sauNumRegions"), maybe (s%"sauRegionsConfig")]) rfl ?_ ?_
  · simp only [List.append_assoc]
    exact allows_cons3
      (allows_cons (allows_optLeaf _ _ _) (allows_cons (allows_optLeaf _ _ _) (allows_cons (allows_optLeaf _ _ _) (allows_cons (allows_optLeaf _ _ _) (allows_cons (allows_optLeaf _ _ _)
      (allows_cons (allows_optLeaf _ _ _) (allows_cons (allows_optLeaf _ _ _) (allows_cons (allows_optLeaf _ _ _) (allows_cons (allows_optLeaf _ _ _)
      (allows_cons2 (allows_cons (allows_optLeaf _ _ _) (allows_cons (allows_optLeaf _ _ _) (allows_last (allows_optElem (by intro _; rfl) _))))))))))))))
  · refine structured_append (structured_append (structured_append (structured_append (structured_append (structured_append (structured_append (structured_append (structured_append (structured_append (structured_append (structured_append (structured_append
      ?_ (structured_optLeaf rfl)) (structured_optLeaf rfl)) (structured_optLeaf rfl)) (structured_optLeaf rfl)) (structured_optLeaf rfl)) (structured_optLeaf rfl)) (structured_optLeaf rfl)) (structured_optLeaf rfl)) (structured_optLeaf rfl))
      ?_) (structured_optLeaf rfl)) (structured_optLeaf rfl)) (structured_optElem fun _ _ => structured_sau _)
    · exact structured_append (xs := [_]) (ys := [_, _]) (structured_one rfl) (structured_append (xs := [_]) (ys := [_]) (structured_one rfl) (structured_one rfl))
    · exact structured_append (xs := [_]) (ys := [_]) (structured_one rfl) (structured_one rfl)

theorem structured_device {d : SDevice} (h : Conforms d) : Structured (serDevice d).root := by
  refine structured_mk (m := all [maybe (s%"vendor"), maybe (s%"vendorID"), one (s%"name"), maybe (s%"series"), one (s%"version"), one (s%"description"),
    maybe (s%"licenseText"), maybe (s%"cpu"), maybe (s%"headerSystemFilename"), maybe (s%"headerDefinitionsPrefix"),
    one (s%"addressUnitBits"), one (s%"width"), propsModel, one (s%"peripherals"), maybe (s%"vendorExtensions")]) rfl ?_ ?_
  · simp only [List.append_assoc]
    have hp : (one (s%"peripherals")).Allows ((serPeripherals d.peripherals).map XElem.tag) := by
      unfold serPeripherals
      cases hn : d.peripherals with
      | nil => exact absurd hn h.nonempty
      | cons p ps => exact .one
    have hl : (all [one (s%"peripherals"), maybe (s%"vendorExtensions")]).Allows ((serPeripherals d.peripherals).map XElem.tag) := by
      have := CM.Allows.seq hp (.seq (.left .nothing : (maybe (s%"vendorExtensions")).Allows []) .nothing)
      rwa [List.append_nil, List.append_nil] at this
    exact allows_cons (allows_optLeaf _ _ _) (allows_cons (allows_optLeaf _ _ _) (allows_cons (allows_leaf _ _) (allows_cons (allows_optLeaf _ _ _)
      (allows_cons2 (allows_cons (allows_optLeaf _ _ _) (allows_cons (allows_optElem (by intro _; rfl) _) (allows_cons (allows_optLeaf _ _ _) (allows_cons (allows_optLeaf _ _ _)
      (allows_cons2 (allows_cons (structured_props _).1 hl))))))))))
  · refine structured_append (structured_append (structured_append (structured_append (structured_append (structured_append (structured_append (structured_append (structured_append (structured_append (structured_append
      (structured_optLeaf rfl) (structured_optLeaf rfl)) (structured_one rfl)) (structured_optLeaf rfl)) ?_) (structured_optLeaf rfl)) (structured_optElem fun _ _ => structured_cpu _)) (structured_optLeaf rfl)) (structured_optLeaf rfl))
      ?_) (structured_props _).2) ?_
    · exact structured_append (xs := [_]) (ys := [_]) (structured_one rfl) (structured_one rfl)
    · exact structured_append (xs := [_]) (ys := [_]) (structured_one rfl) (structured_one rfl)
    · unfold serPeripherals
      cases hn : d.peripherals with
      | nil => exact absurd hn h.nonempty
      | cons p ps =>
        intro x hx
        rw [List.mem_singleton.1 hx]
        refine structured_mk (m := CM.atLeastOne (s%"peripheral")) rfl (allows_some (by intro _; rfl) (by simp)) (structured_map fun q hq => ?_)
        rw [← hn] at hq
        exact structured_peripheral (h.dim q hq) (h.rcs q hq)

end Svd
