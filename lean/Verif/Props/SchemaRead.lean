import Verif.Lemmas.SchemaRead
import Verif.Props.Says
import Verif.Props.Schema
/-
C71: the structure of documents that are read and written again.
-/
namespace Svd
open Spec CM

/-- C71: If a document has the structure of the schema and its values are not missing, the document written for what is read from it
has the structure of the schema exactly when no field has half a position; given this structure, half a position can only be a
bitOffset without bitWidth, which the schema allows. -/
theorem C71_reread {doc : XDoc} {d : SDevice} {ws : List Warn} (ht : doc.root.tag = s%"device") (hs : Structured doc.root) (hx : Texts doc.root)
    (h : parseDevice doc = .ok d ws) : Structured (serDevice d).root ↔ ∀ f, Declared d (.field f) → WholeField f := by
  rw [C71_written]
  exact read_device ⟨hs, hx⟩ ht ((C57_reads doc d).1 ⟨ws, h⟩)

mutual
/-- A test for `Texts`. -/
def fineTest : XElem → Bool
  | .mk tag text _ ch => ((models.lookup tag).isSome || text.isSome) && fineTests ch
/-- The test for a list. -/
def fineTests : List XElem → Bool
  | [] => true
  | x :: xs => fineTest x && fineTests xs
end

theorem fineTests_mem {xs : List XElem} {x : XElem} (h : fineTests xs = true) (hx : x ∈ xs) : fineTest x = true := by
  induction xs with
  | nil => cases hx
  | cons y ys ih =>
    simp only [fineTests, Bool.and_eq_true] at h
    rcases List.mem_cons.1 hx with rfl | hx
    · exact h.1
    · exact ih h.2 hx

theorem fineTest_within {e x : XElem} (hw : Within e x) (h : fineTest e = true) : fineTest x = true := by
  induction hw with
  | self => exact h
  | @child e c x hc _ ih =>
    cases e with
    | mk tag text attrs ch =>
      simp only [fineTest, Bool.and_eq_true] at h
      exact ih (fineTests_mem h.2 hc)

theorem texts_of_test {e : XElem} (h : fineTest e = true) : Texts e := by
  intro x hw hx ht
  have := fineTest_within hw h
  cases x with
  | mk tag text attrs ch =>
    simp only [XElem.tag, XElem.text] at hx ht
    subst ht
    simp [fineTest, hx] at this

/-- C71: A document of which `C71_reread` speaks. -/
theorem C71_reread_sample : (serDevice orderly).root.tag = s%"device" ∧ Structured (serDevice orderly).root ∧ Texts (serDevice orderly).root ∧
    ∃ d ws, parseDevice (serDevice orderly) = .ok d ws := by
  have ht : fineTest (serDevice orderly).root = true := by decide +kernel
  refine ⟨rfl, (C71_written _).2 orderly_fits, texts_of_test ht, ?_⟩
  obtain ⟨d, ws, h, -⟩ := Sample.okAnd_spec (x := parseDevice (serDevice orderly)) (p := fun _ _ => true) (by decide +kernel)
  exact ⟨d, ws, h⟩

/-! ### a document that loses the structure -/

/-- What may be left of a list of tags after a part that the content model allows (`many` at most `n` times). -/
def rests (n : Nat) : CM → List Str → List (List Str)
  | .nothing, ts => [ts]
  | .one t, u :: ts => if t = u then [ts] else []
  | .one _, [] => []
  | .seq a b, ts => (rests n a ts).flatMap (rests n b)
  | .choice a b, ts => rests n a ts ++ rests n b ts
  | .many a, ts => (List.range n).foldr (fun _ k ts => ts :: (rests n a ts).flatMap k) (fun ts => [ts]) ts

theorem rests_sound (n : Nat) (m : CM) : ∀ {ts r : List Str}, r ∈ rests n m ts → ∃ p, ts = p ++ r ∧ m.Allows p := by
  induction m with
  | nothing => intro ts r h; exact ⟨[], (List.mem_singleton.1 h).symm, .nothing⟩
  | one t =>
    intro ts r h
    cases ts with
    | nil => cases h
    | cons u ts =>
      unfold rests at h
      split at h
      · rename_i hu
        subst hu
        rw [List.mem_singleton.1 h]
        exact ⟨[t], rfl, .one⟩
      · cases h
  | seq a b iha ihb =>
    intro ts r h
    obtain ⟨q, hq, h2⟩ := List.mem_flatMap.1 h
    obtain ⟨p, rfl, hp⟩ := iha hq
    obtain ⟨p', rfl, hp'⟩ := ihb h2
    exact ⟨p ++ p', (List.append_assoc ..).symm, .seq hp hp'⟩
  | choice a b iha ihb =>
    intro ts r h
    rcases List.mem_append.1 h with h | h
    · obtain ⟨p, hp, h⟩ := iha h
      exact ⟨p, hp, .left h⟩
    · obtain ⟨p, hp, h⟩ := ihb h
      exact ⟨p, hp, .right h⟩
  | many a iha =>
    intro ts r h
    unfold rests at h
    generalize List.range n = l at h
    induction l generalizing ts with
    | nil => exact ⟨[], (List.mem_singleton.1 h).symm, .stop⟩
    | cons x l ih =>
      rcases List.mem_cons.1 h with rfl | h
      · exact ⟨[], rfl, .stop⟩
      · obtain ⟨q, hq, h2⟩ := List.mem_flatMap.1 h
        obtain ⟨p, rfl, hp⟩ := iha hq
        obtain ⟨p', rfl, hp'⟩ := ih h2
        exact ⟨p ++ p', (List.append_assoc ..).symm, .more hp hp'⟩

mutual
/-- A test for `Structured`. -/
def structuredTest (n : Nat) : XElem → Bool
  | .mk tag _ _ ch => (match models.lookup tag with
      | some m => (rests n m (ch.map XElem.tag)).contains []
      | none => ch.isEmpty) && structuredTests n ch
/-- The test for a list. -/
def structuredTests (n : Nat) : List XElem → Bool
  | [] => true
  | x :: xs => structuredTest n x && structuredTests n xs
end

mutual
theorem structured_of_test (n : Nat) (e : XElem) (h : structuredTest n e = true) : Structured e := by
  match e with
  | .mk tag text attrs ch =>
    simp only [structuredTest, Bool.and_eq_true] at h
    refine ⟨?_, structured_of_tests n ch h.2⟩
    have h1 := h.1
    unfold Structure
    split at h1
    · rename_i m hm
      rw [hm]
      obtain ⟨p, hp, h⟩ := rests_sound n m (List.contains_iff_mem.1 h1)
      rw [List.append_nil] at hp
      show m.Allows _
      rwa [hp]
    · rename_i hm
      rw [hm, List.isEmpty_iff.1 h1]
      rfl
theorem structured_of_tests (n : Nat) (xs : List XElem) (h : structuredTests n xs = true) : StructuredAll xs := by
  match xs with
  | [] => trivial
  | y :: ys =>
    simp only [structuredTests, Bool.and_eq_true] at h
    exact ⟨structured_of_test n y h.1, structured_of_tests n ys h.2⟩
end

/-- An element with children. -/
def parent (t : Str) (ch : List XElem) : XElem := .mk t none [] ch

/-- A document with one field, whose position is given by `bitOffset` alone. -/
def offsetOnly : XDoc :=
  { nsmap := []
    root := .mk (s%"device") none [(s%"schemaVersion", s%"1.3")] [leaf (s%"name") (s%"D"), leaf (s%"version") (s%"1"),
      leaf (s%"description") (s%"d"), leaf (s%"addressUnitBits") (s%"8"), leaf (s%"width") (s%"32"),
      parent (s%"peripherals") [parent (s%"peripheral") [leaf (s%"name") (s%"P"), leaf (s%"baseAddress") (s%"0"),
        parent (s%"registers") [parent (s%"register") [leaf (s%"name") (s%"R"), leaf (s%"addressOffset") (s%"0"),
          parent (s%"fields") [parent (s%"field") [leaf (s%"name") (s%"F"), leaf (s%"bitOffset") (s%"0")]]]]]]] }

/-- C71: A document with the structure of the schema is read, and the document written for what is read does not have the structure. -/
theorem C71_offset_only : Structured offsetOnly.root ∧ Texts offsetOnly.root ∧ ∃ d ws, parseDevice offsetOnly = .ok d ws ∧ ¬ Structured (serDevice d).root := by
  have hs : Structured offsetOnly.root := structured_of_test 3 _ (by decide +kernel)
  have ht : Texts offsetOnly.root := texts_of_test (by decide +kernel)
  refine ⟨hs, ht, ?_⟩
  obtain ⟨d, ws, h, hp⟩ := Sample.okAnd_spec (x := parseDevice offsetOnly)
    (p := fun d _ => d.peripherals.any fun p => p.rcs.any fun x => match x with
      | .reg r => r.fields.any fun f => f.bitOffset.isSome && f.bitWidth.isNone
      | .clu _ _ => false) (by decide +kernel)
  refine ⟨d, ws, h, fun hw => ?_⟩
  have hall := (C71_reread rfl hs ht h).1 hw
  obtain ⟨p, hpm, hp⟩ := List.any_eq_true.1 hp
  obtain ⟨x, hxm, hp⟩ := List.any_eq_true.1 hp
  cases x with
  | clu c ch => cases hp
  | reg r =>
    obtain ⟨f, hfm, hp⟩ := List.any_eq_true.1 hp
    have := (hall f (.field hpm (.here hxm) hfm)).1
    simp only [Bool.and_eq_true, Option.isNone_iff_eq_none] at hp
    rw [hp.1, hp.2] at this
    cases this

mutual
theorem reread_structured (fmt : Nat → Option Str) (n : Nat) (e : XElem) : (reread fmt n e).tag = e.tag ∧ (Structured (reread fmt n e) ↔ Structured e) := by
  match e with
  | .mk tag text attrs ch =>
    obtain ⟨h1, h2⟩ := rereads_structured fmt (n + 1) ch
    simp only [reread, XElem.tag, Structured, h1, h2, and_self]
theorem rereads_structured (fmt : Nat → Option Str) (n : Nat) (xs : List XElem) :
    (rereadAll fmt n xs).map XElem.tag = xs.map XElem.tag ∧ (StructuredAll (rereadAll fmt n xs) ↔ StructuredAll xs) := by
  match xs with
  | [] => exact ⟨rfl, Iff.rfl⟩
  | y :: ys =>
    obtain ⟨h1, h2⟩ := reread_structured fmt n y
    obtain ⟨h3, h4⟩ := rereads_structured fmt n ys
    simp only [rereadAll, List.map_cons, StructuredAll, h1, h2, h3, h4, and_self]
end

/-- C71: The same for the written text, whatever its formatting: the document another reader finds in it has the structure of the schema
exactly when the description conforms. -/
theorem C71_text (fmt : Nat → Option Str) (d : SDevice) : Structured (reread fmt 0 (serDevice d).root) ↔ Conforms d :=
  (reread_structured fmt 0 _).2.trans (C71_written d)

end Svd
