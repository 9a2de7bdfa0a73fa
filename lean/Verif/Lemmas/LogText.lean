import Verif.Spec.Log
import Verif.Lemmas.InvRun
import Verif.Lemmas.Ends
/-
The calls of the logger: the result is the same without them, and the text they write.
-/
namespace Svd

open Graph Spec

/-! ### the result -/

def Sees {α : Type} (x : L α) (m : M α) : Prop := ∀ s, (x s).1 = m

theorem sees_pure {α : Type} (a : α) : Sees (L.pure a) (M.pure a) := fun _ => rfl
theorem sees_lift {α : Type} (m : M α) : Sees (L.lift m) m := fun _ => rfl
theorem sees_bind {α β : Type} {x : L α} {m : M α} {f : α → L β} {k : α → M β} (h : Sees x m) (hf : ∀ a, Sees (f a) (k a)) :
    Sees (L.bind x f) (M.bind m k) := by
  intro s
  unfold L.bind
  have h1 := h s
  rcases hx : x s with ⟨r, s1⟩
  rw [hx] at h1
  dsimp only at h1
  subst h1
  cases r with
  | err e => rfl
  | ok a w =>
    have h2 := hf a s1
    dsimp only [M.bind]
    rcases hy : f a s1 with ⟨r, s2⟩
    rw [hy] at h2
    rw [← h2]
    cases r <;> rfl

theorem sees_log {β : Type} {g : Log → Log} {f : Unit → L β} {m : M β} (hf : Sees (f ()) m) : Sees (L.bind (L.log g) f) m := by
  intro s
  have h := hf (g s)
  unfold L.bind L.log
  dsimp only
  rcases hy : f () (g s) with ⟨r, s2⟩
  rw [hy] at h
  rw [← h]
  cases r <;> rfl

theorem M_bind_pure {α : Type} (x : M α) : M.bind x M.pure = x := by
  cases x with
  | err e => rfl
  | ok a w => simp [M.bind, M.pure]

theorem sees_initialization (A : Art) (d : SDevice) : Sees (initializationL A d) (initialization d) := by
  unfold initializationL initialization
  refine sees_bind (sees_lift _) fun g => sees_log ?_
  rw [← M_bind_pure (ensurePlaceholderParents g g.placeholders)]
  exact sees_bind (M_bind_pure _ ▸ sees_lift _) fun g1 => sees_log (sees_pure _)

theorem sees_resolvePlaceholder (g : Graph) (ph : Nat) : Sees (resolvePlaceholderL g ph) (resolvePlaceholder g ph) := by
  unfold resolvePlaceholderL resolvePlaceholder
  rcases g.node? ph with _ | (e | path)
  · exact sees_lift _
  · exact sees_lift _
  · refine sees_bind (sees_lift _) fun par => ?_
    split
    · exact sees_pure _
    · refine sees_bind (sees_lift _) fun derived => ?_
      rcases g.elem? derived with _ | e
      · exact sees_lift _
      · refine sees_bind (sees_lift _) fun o => ?_
        rcases o with _ | base
        · exact sees_pure _
        · dsimp only
          rw [← M_bind_pure (rawAddEdge _ _ _ _ _)]
          exact sees_bind (M_bind_pure _ ▸ sees_lift _) fun g2 => sees_log (sees_pure _)

theorem sees_resolvePlaceholders (phs : List Nat) : ∀ g, Sees (resolvePlaceholdersL g phs) (resolvePlaceholders g phs) := by
  induction phs with
  | nil => exact fun g => sees_pure _
  | cons ph phs ih => exact fun g => sees_bind (sees_resolvePlaceholder g ph) fun g1 => ih g1

theorem sees_rounds (A : Art) (ord : List Nat → List Nat) (fuel : Nat) : ∀ g prev, Sees (roundsL A ord fuel g prev) (rounds ord fuel g prev) := by
  induction fuel with
  | zero => exact fun g prev => sees_lift _
  | succ f ih =>
    intro g prev
    unfold roundsL rounds
    refine sees_log (sees_bind (sees_resolvePlaceholders _ _) fun g1 => sees_log (sees_log ?_))
    dsimp only
    split
    · exact sees_pure _
    · split
      · exact sees_log (sees_lift _)
      · exact sees_bind (sees_lift _) fun g2 => sees_log (ih _ _)

theorem sees_resolvePeripherals (A : Art) (ord : List Nat → List Nat) (fuel : Nat) (d : SDevice) :
    Sees (resolvePeripheralsL A ord fuel d) (resolvePeripherals ord fuel d) := by
  unfold resolvePeripheralsL resolvePeripherals
  refine sees_bind (sees_initialization A d) fun g0 => sees_log (sees_bind (sees_rounds A ord fuel g0 []) fun g => sees_log ?_)
  split
  · exact sees_bind (sees_lift _) fun _ => sees_lift _
  · refine sees_bind (sees_lift _) fun s => ?_
    cases s.resolved
    · exact sees_lift _
    · exact sees_pure _

/-! ### the text -/

def drawings : List Entry → Nat
  | [] => 0
  | .drawing _ :: es => drawings es + 1
  | _ :: es => drawings es

/-- The document with these entries added. -/
def Doc.tell (A : Art) (es : List Entry) (s : Doc) : Doc :=
  { s with body := s.body ++ docText A s.count es, count := s.count + drawings es }

theorem docText_cons (A : Art) (k : Nat) (e : Entry) (es : List Entry) :
    docText A k (e :: es) = Entry.text A k e ++ docText A (k + drawings [e]) es := by
  cases e <;> rfl

theorem drawings_cons (e : Entry) (es : List Entry) : drawings (e :: es) = drawings [e] + drawings es := by
  cases e <;> simp [drawings]; omega

theorem tell_nil (A : Art) (s : Doc) : s.tell A [] = s := by
  simp [Doc.tell, docText, drawings]

theorem tell_cons (A : Art) (e : Entry) (es : List Entry) (s : Doc) : s.tell A (e :: es) = (s.tell A [e]).tell A es := by
  simp only [Doc.tell, docText_cons, drawings_cons e es, docText, List.append_nil, Doc.mk.injEq, and_true]
  exact ⟨by simp, by omega⟩

theorem tell_append (A : Art) (es es' : List Entry) (s : Doc) : s.tell A (es ++ es') = (s.tell A es).tell A es' := by
  induction es generalizing s with
  | nil => rw [tell_nil]; rfl
  | cons e es ih => rw [List.cons_append, tell_cons, ih, ← tell_cons]

theorem tell_h1 (A : Art) (t : Str) (s : Doc) : s.addH1 t = s.tell A [.head 1 t] := by
  have : natStr 1 = s%"1" := by decide +kernel
  simp [Doc.addH1, Doc.add, tagged, Doc.tell, docText, Entry.text, drawings, this]
theorem tell_h2 (A : Art) (t : Str) (s : Doc) : s.addH2 t = s.tell A [.head 2 t] := by
  have : natStr 2 = s%"2" := by decide +kernel
  simp [Doc.addH2, Doc.add, tagged, Doc.tell, docText, Entry.text, drawings, this]
theorem tell_h3 (A : Art) (t : Str) (s : Doc) : s.addH3 t = s.tell A [.head 3 t] := by
  have : natStr 3 = s%"3" := by decide +kernel
  simp [Doc.addH3, Doc.add, tagged, Doc.tell, docText, Entry.text, drawings, this]
theorem tell_para (A : Art) (t : Str) (s : Doc) : s.addParagraph t = s.tell A [.para t] := by
  simp [Doc.addParagraph, Doc.add, tagged, Doc.tell, docText, Entry.text, drawings]

theorem joinBr_lines : ∀ xs : List Str, joinBr xs = lines xs
  | [] => rfl
  | [x] => by simp [joinBr, lines]
  | x :: y :: xs => by
    rw [joinBr, joinBr_lines (y :: xs)]
    simp [lines]

theorem tell_div (A : Art) (t : Str) (is : List Str) (s : Doc) : s.addDiv t (joinBr is) = s.tell A [.listing t is] := by
  simp [Doc.addDiv, Doc.add, Doc.tell, docText, Entry.text, drawings, joinBr_lines]

set_option maxRecDepth 100000 in
theorem svgTemplate_replace (x : Str) : replaceAll (s%"SVG_CONTENT") x svgTemplate =
    s%"<div class=\"svg-container\" style=\"width: 100%; height: 60%; border:1px solid black;\">" ++ x ++ s%"</div>\n" := by
  rfl

theorem picture_eq (g : Graph) : picture g = pictureOf g := by
  have hn : ∀ i n, drawNode i n = nodePicture i n := by
    intro i n
    rcases n with ⟨name, lvl, pr, x, y, z⟩ | path
    · cases pr <;> cases lvl <;> rcases name with _ | (_ | ⟨c, n⟩) <;> rfl
    · rfl
  have he : ∀ e, drawEdge e = ⟨e.src, e.dst, edgeColor e.ty⟩ := by
    intro e
    unfold drawEdge edgeColor
    cases e.ty <;> rfl
  unfold picture pictureOf
  rw [show drawEdge = fun e => ⟨e.src, e.dst, edgeColor e.ty⟩ from funext he, List.map_reverse,
    show (fun i => (g.node? i).map (drawNode i)) = fun i => (g.node? i).map (nodePicture i) from funext fun i => by rw [show drawNode i = nodePicture i from funext (hn i)],
    rangeFrom_zero]

theorem tell_svg (A : Art) (g : Graph) (s : Doc) : s.addSvg A (A.svg (picture g)) = s.tell A [.drawing g] := by
  simp only [Doc.addSvg, picture_eq, svgTemplate_replace, Doc.tell, docText, Entry.text, drawings, List.append_nil]

theorem L_bind_ok {α β : Type} {x : L α} {f : α → L β} {s s' : Log} {b : β} {w : List Warn} :
    L.bind x f s = (.ok b w, s') ↔ ∃ a w1 w2 s1, x s = (.ok a w1, s1) ∧ f a s1 = (.ok b w2, s') ∧ w = w1 ++ w2 := by
  unfold L.bind
  rcases hx : x s with ⟨r, s1⟩
  cases r with
  | err e => simp
  | ok a w1 =>
    dsimp only
    rcases hy : f a s1 with ⟨r, s2⟩
    cases r with
    | err e =>
      constructor
      · intro h; cases h
      · rintro ⟨a', w1', w2, s1', h1, h2, -⟩
        cases h1
        rw [hy] at h2
        cases h2
    | ok b' w' =>
      constructor
      · intro h
        cases h
        exact ⟨a, w1, w', s1, rfl, hy, rfl⟩
      · rintro ⟨a', w1', w2, s1', h1, h2, rfl⟩
        cases h1
        rw [hy] at h2
        cases h2
        rfl

theorem L_lift_ok {α : Type} {m : M α} {s s' : Log} {a : α} {w : List Warn} : L.lift m s = (.ok a w, s') ↔ m = .ok a w ∧ s' = s := by
  unfold L.lift
  simp only [Prod.mk.injEq]
  exact ⟨fun h => ⟨h.1, h.2.symm⟩, fun h => ⟨h.1, h.2.symm⟩⟩

theorem L_pure_ok {α : Type} {x a : α} {s s' : Log} {w : List Warn} : L.pure x s = (.ok a w, s') ↔ x = a ∧ w = [] ∧ s' = s := by
  unfold L.pure
  simp only [Prod.mk.injEq, M.ok.injEq]
  exact ⟨fun h => ⟨h.1.1, h.1.2.symm, h.2.symm⟩, fun h => ⟨⟨h.1, h.2.1.symm⟩, h.2.2.symm⟩⟩

theorem L_log_ok {f : Log → Log} {s s' : Log} {a : Unit} {w : List Warn} : L.log f s = (.ok a w, s') ↔ w = [] ∧ s' = f s := by
  unfold L.log
  simp only [Prod.mk.injEq, M.ok.injEq]
  exact ⟨fun h => ⟨h.1.2.symm, h.2.symm⟩, fun h => ⟨⟨trivial, h.1.symm⟩, h.2.symm⟩⟩

theorem L_bind_log {β : Type} {g : Log → Log} {f : Unit → L β} {s s' : Log} {b : β} {w : List Warn} :
    L.bind (L.log g) f s = (.ok b w, s') ↔ f () (g s) = (.ok b w, s') := by
  rw [L_bind_ok]
  constructor
  · rintro ⟨a, w1, w2, s1, h1, h2, rfl⟩
    obtain ⟨rfl, rfl⟩ := L_log_ok.1 h1
    exact h2
  · intro h
    exact ⟨(), [], w, g s, rfl, h, rfl⟩

/-- The state of an active log. -/
def Log.tell (A : Art) (es : List Entry) (s : Log) : Log := { s with doc := s.doc.tell A es }

theorem log_tell_append (A : Art) (es es' : List Entry) (s : Log) : s.tell A (es ++ es') = (s.tell A es).tell A es' := by
  simp [Log.tell, tell_append]

theorem constructed_tell (A : Art) (g : Graph) (s : Log) (h : s.active = true) : s.constructedGraph A g =
    s.tell A [.head 1 (s%"Initialization"), .head 2 (s%"Construct Directed Graph"), .para (s%"Graph after construction:"), .drawing g] := by
  simp only [Log.constructedGraph, Log.when, h, if_true, Log.on, Log.tell, tell_h1 A, tell_h2 A, tell_para A, tell_svg A, ← tell_append]
  rfl

theorem parentChild_tell (A : Art) (g : Graph) (s : Log) (h : s.active = true) : s.parentChild A g =
    s.tell A [.head 2 (s%"Ensure Accurate Parent-Child Relationships for Placeholders"),
      .para (s%"Graph after adding parent-child relationships for placeholders:"), .drawing g] := by
  simp only [Log.parentChild, Log.when, h, if_true, Log.on, Log.tell, tell_h2 A, tell_para A, tell_svg A, ← tell_append]
  rfl

theorem repeatingStart_tell (A : Art) (s : Log) (h : s.active = true) : s.repeatingStart = s.tell A [.head 1 (s%"Repeating Steps")] := by
  simp only [Log.repeatingStart, Log.when, h, if_true, Log.on, Log.tell, tell_h1 A]

theorem roundStart_tell (A : Art) (s : Log) (h : s.active = true) :
    s.roundStart = { s.tell A [roundHead s.round] with round := s.round + 1 } := by
  simp only [Log.roundStart, Log.when, h, if_true, Log.tell, tell_h2 A, roundHead]

theorem roundEnd_tell (A : Art) (g : Graph) (s : Log) (h : s.active = true) :
    s.roundEnd A g = s.tell A [.para (s%"Graph at end of round:"), .drawing g] := by
  simp only [Log.roundEnd, Log.when, h, if_true, Log.on, Log.tell, tell_para A, tell_svg A, ← tell_append]
  rfl

theorem loop_tell (A : Art) (s : Log) (h : s.active = true) :
    s.loopDetected A = { s with doc := (s.doc.tell A [.para (s%"Loop detected")]).generate A } := by
  simp only [Log.loopDetected, Log.when, h, if_true, Log.on, tell_para A]

theorem finished_tell (A : Art) (s : Log) (h : s.active = true) :
    s.repeatingFinished = s.tell A [.para (s%"Repeating steps finished successfully")] := by
  simp only [Log.repeatingFinished, Log.when, h, if_true, Log.on, Log.tell, tell_para A]

theorem placeholders_tell (A : Art) (g : Graph) (s : Log) (h : s.active = true) :
    s.placeholdersFinished A g = { s.tell A (followedEntries g s.resolved) with resolved := [] } := by
  simp only [Log.placeholdersFinished, Log.when, h, if_true, Log.tell]
  cases hr : s.resolved with
  | nil =>
    simp only [if_true, tell_h3 A, tell_para A, ← tell_append, followedEntries]
    rfl
  | cons p ps =>
    simp only [if_neg (List.cons_ne_nil p ps), tell_h3 A, tell_para A, tell_div A, tell_svg A, ← tell_append, followedEntries]
    rfl

theorem level_val : ∀ l : Level, l.val = kindName l
  | .device | .peripheral | .cluster | .register | .field | .enumcont => rfl

theorem nodeLine_eq {g : Graph} {k : Nat} {e : ElemNode} (h : g.elem? k = some e) : nodeLine g k = line k e.name e.level := by
  unfold nodeLine line shown
  rw [h]
  dsimp only
  rw [level_val]
  rcases e.name with _ | (_ | ⟨c, n⟩) <;> rfl

theorem linesOf_map {g : Graph} {ks : List Nat} (h : ∀ k ∈ ks, ∃ e, g.elem? k = some e) : LinesOf g ks (ks.map (nodeLine g)) := by
  induction ks with
  | nil => exact .nil
  | cons k ks ih =>
    obtain ⟨e, he⟩ := h k (by simp)
    rw [List.map_cons, nodeLine_eq he]
    exact .cons he (ih fun k hk => h k (by simp [hk]))

theorem processable_tell (A : Art) (g : Graph) (ns : List Nat) (s : Log) (h : s.active = true) :
    s.processable g ns = s.tell A (if ns = [] then nothingToProcess else toProcess (ns.map (nodeLine g))) := by
  simp only [Log.processable, Log.when, h, if_true, Log.on, Log.tell]
  split
  · simp only [tell_h3 A, tell_para A, ← tell_append, nothingToProcess]
    rfl
  · simp only [tell_h3 A, tell_div A, ← tell_append, toProcess]
    rfl

/-! ### what is told by a run that is not refused -/

theorem resolvePlaceholderL_ok {g g' : Graph} {ph : Nat} {s s' : Log} {w : List Warn} (ha : s.active = true) (hwf : WF g)
    (h : resolvePlaceholderL g ph s = (.ok g' w, s')) :
    (g' = g ∧ s' = s) ∨ ∃ path, g.node? ph = some (.ph path) ∧ g'.node? ph = none ∧ s' = { s with resolved := s.resolved ++ [path] } := by
  unfold resolvePlaceholderL at h
  rcases hn : g.node? ph with _ | (e | path)
  · rw [hn] at h; simp [L.lift, M.throw] at h
  · rw [hn] at h; simp [L.lift, M.throw] at h
  · rw [hn] at h
    dsimp only at h
    rw [L_bind_ok] at h
    obtain ⟨par, w1, w2, s1, h1, h, -⟩ := h
    obtain ⟨-, rfl⟩ := L_lift_ok.1 h1
    split at h
    · obtain ⟨rfl, -, rfl⟩ := L_pure_ok.1 h
      exact .inl ⟨rfl, rfl⟩
    · rw [L_bind_ok] at h
      obtain ⟨derived, w3, w4, s2, h2, h, -⟩ := h
      obtain ⟨-, rfl⟩ := L_lift_ok.1 h2
      cases he : g.elem? derived with
      | none => rw [he] at h; simp [L.lift, M.throw] at h
      | some e =>
        rw [he] at h
        dsimp only at h
        rw [L_bind_ok] at h
        obtain ⟨o, w5, w6, s3, h3, h, -⟩ := h
        obtain ⟨-, rfl⟩ := L_lift_ok.1 h3
        cases o with
        | none =>
          obtain ⟨rfl, -, rfl⟩ := L_pure_ok.1 h
          exact .inl ⟨rfl, rfl⟩
        | some base =>
          dsimp only at h
          rw [L_bind_ok] at h
          obtain ⟨g2, w7, w8, s4, h4, h, -⟩ := h
          obtain ⟨h4', rfl⟩ := L_lift_ok.1 h4
          rw [L_bind_log] at h
          obtain ⟨rfl, -, rfl⟩ := L_pure_ok.1 h
          refine .inr ⟨path, hn ▸ rfl, ?_, ?_⟩
          · have h5 := (rawAddEdge_nodes h4').1
            have h6 := (removePlaceholder_wf hwf (i := ph) (by rw [hn]; rfl)).2.1
            rw [node?_congr (g := g.removePlaceholder ph) (by rw [h5]), h6]
            simp
          · simp [Log.resolvedPlaceholder, Log.when, ha]

theorem resolvePlaceholdersL_ok {d : SDevice} {phs : List Nat} : ∀ {g g' : Graph} {s s' : Log} {w : List Warn}, s.active = true → Inv d g →
    resolvePlaceholdersL g phs s = (.ok g' w, s') →
      ∃ paths, Followed g phs paths g' ∧ s' = { s with resolved := s.resolved ++ paths } := by
  induction phs with
  | nil =>
    intro g g' s s' w ha hi h
    obtain ⟨rfl, -, rfl⟩ := L_pure_ok.1 h
    exact ⟨[], .nil g, by simp⟩
  | cons ph phs ih =>
    intro g g' s s' w ha hi h
    unfold resolvePlaceholdersL at h
    rw [L_bind_ok] at h
    obtain ⟨g1, w1, w2, s1, h1, h2, -⟩ := h
    have h1' : resolvePlaceholder g ph = .ok g1 w1 := by rw [← sees_resolvePlaceholder g ph s, h1]
    rcases resolvePlaceholderL_ok ha hi.wf h1 with ⟨rfl, rfl⟩ | ⟨path, hp, hg, rfl⟩
    · obtain ⟨paths, f, e⟩ := ih ha hi h2
      exact ⟨paths, .left h1' f, e⟩
    · obtain ⟨paths, f, e⟩ := ih (s := { s with resolved := s.resolved ++ [path] }) ha (inv_resolvePlaceholder hi h1') h2
      exact ⟨path :: paths, .took hp h1' hg f, by rw [e]; simp⟩

theorem roundsL_ok {d : SDevice} {A : Art} {ord : List Nat → List Nat} {fuel : Nat} : ∀ {g g' : Graph} {prev : List Nat} {s s' : Log} {w : List Warn},
    s.active = true → s.resolved = [] → Inv d g → roundsL A ord fuel g prev s = (.ok g' w, s') →
      ∃ es n, Rounds ord s.round g prev es g' ∧ s' = { s.tell A es with round := n } := by
  induction fuel with
  | zero => intro g g' prev s s' w ha hr hi h; simp [roundsL, L.lift, M.throw] at h
  | succ f ih =>
    intro g g' prev s s' w ha hr hi h
    unfold roundsL at h
    rw [L_bind_log, roundStart_tell A s ha, L_bind_ok] at h
    obtain ⟨g1, w1, w2, s1, h1, h, -⟩ := h
    have h1' : resolvePlaceholders g g.placeholders = .ok g1 w1 := by
      rw [← sees_resolvePlaceholders g.placeholders g _, h1]
    obtain ⟨paths, hf, rfl⟩ := resolvePlaceholdersL_ok (by simpa [Log.tell] using ha) hi h1
    rw [L_bind_log, placeholders_tell A _ _ (by simpa [Log.tell] using ha)] at h
    dsimp only at h
    rw [L_bind_log, processable_tell A _ _ _ (by simpa [Log.tell] using ha)] at h
    have hi1 := inv_resolvePlaceholders hi h1'
    split at h
    · rename_i hn
      obtain ⟨rfl, -, rfl⟩ := L_pure_ok.1 h
      refine ⟨_, s.round + 1, .last hf hn, ?_⟩
      simp [hr, hn, Log.tell, ← tell_append]
    · rename_i hn
      split at h
      · rw [L_bind_log] at h
        simp [L.lift, M.throw] at h
      · rename_i hp
        rw [L_bind_ok] at h
        obtain ⟨g2, w3, w4, s2, h2, h, -⟩ := h
        obtain ⟨h2', rfl⟩ := L_lift_ok.1 h2
        rw [L_bind_log, roundEnd_tell A _ _ (by simpa [Log.tell] using ha)] at h
        obtain ⟨es, n, hR, rfl⟩ := ih (by simpa [Log.tell] using ha) (by simp [Log.tell]) (inv_processNodes hi1 h2') h
        refine ⟨_, n, .more (w := w3) hf hn hp (linesOf_map fun k hk => ?_) h2' (by simpa [Log.tell] using hR), ?_⟩
        · obtain ⟨e, he, -⟩ := unprocessed_iff.1 (sorted_sub.2 k hk)
          exact ⟨e, he⟩
        · simp [hr, hn, Log.tell, ← tell_append]

theorem initializationL_ok {A : Art} {d : SDevice} {g0 : Graph} {s s' : Log} {w : List Warn} (ha : s.active = true)
    (h : initializationL A d s = (.ok g0 w, s')) : ∃ g wg, constructGraph d = .ok g wg ∧ s'.repeatingStart = s.tell A (intro g g0) := by
  unfold initializationL at h
  rw [L_bind_ok] at h
  obtain ⟨g, w1, w2, s1, h1, h, -⟩ := h
  obtain ⟨h1', rfl⟩ := L_lift_ok.1 h1
  rw [L_bind_log, constructed_tell A g _ ha, L_bind_ok] at h
  obtain ⟨g1, w3, w4, s2, h2, h, -⟩ := h
  obtain ⟨h2', rfl⟩ := L_lift_ok.1 h2
  rw [L_bind_log, parentChild_tell A _ _ (by simpa [Log.tell] using ha)] at h
  obtain ⟨rfl, -, rfl⟩ := L_pure_ok.1 h
  refine ⟨g, w1, h1', ?_⟩
  rw [repeatingStart_tell A _ (by simpa [Log.tell] using ha), ← log_tell_append, ← log_tell_append]
  rfl

/-! ### the file -/

theorem generate_page (A : Art) (es : List Entry) : (Doc.tell A es {}).generate A = { Doc.tell A es {} with file := some (page A es) } := by
  simp [Doc.generate, Doc.tell, page, compressed]

theorem generate_twice (A : Art) (s : Doc) : (s.generate A).generate A = s.generate A := by
  unfold Doc.generate
  split
  · rename_i h; simp [h]
  · simp

theorem inactive_when (f : Log → Log) (s : Log) (h : s.active = false) : s.when f = s := by simp [Log.when, h]

/-- Nothing happens to a log without file. -/
def Mute {α : Type} (x : L α) : Prop := ∀ s, s.active = false → (x s).2 = s

theorem mute_lift {α : Type} (m : M α) : Mute (L.lift m) := fun _ _ => rfl
theorem mute_pure {α : Type} (a : α) : Mute (L.pure a) := fun _ _ => rfl
theorem mute_log (f : Log → Log) : Mute (L.log (Log.when f)) := fun s h => inactive_when f s h
theorem mute_bind {α β : Type} {x : L α} {f : α → L β} (h : Mute x) (hf : ∀ a, Mute (f a)) : Mute (L.bind x f) := by
  intro s hs
  have h1 := h s hs
  unfold L.bind
  rcases hx : x s with ⟨r, s1⟩
  rw [hx] at h1
  dsimp only at h1
  subst h1
  cases r with
  | err e => rfl
  | ok a w =>
    have h2 := hf a s1 hs
    dsimp only
    rcases hy : f a s1 with ⟨r, s2⟩
    rw [hy] at h2
    cases r <;> exact h2

/-- Entries are added, and the file may only be written by a failure. -/
def Writes (A : Art) {α : Type} (x : L α) : Prop := ∀ s, s.active = true → ∃ es, (x s).2.active = true ∧
  ((x s).2.doc = s.doc.tell A es ∨ ((∃ e, (x s).1 = .err e) ∧ (x s).2.doc = (s.doc.tell A es).generate A))

theorem writes_lift {A : Art} {α : Type} (m : M α) : Writes A (L.lift m) := fun s h => ⟨[], h, .inl (tell_nil A s.doc).symm⟩
theorem writes_pure {A : Art} {α : Type} (a : α) : Writes A (L.pure a) := fun s h => ⟨[], h, .inl (tell_nil A s.doc).symm⟩
theorem writes_log {A : Art} {f : Log → Log} (hf : ∀ s : Log, s.active = true → ∃ es, (f s).active = true ∧ (f s).doc = s.doc.tell A es) : Writes A (L.log f) := by
  intro s h
  obtain ⟨es, h1, h2⟩ := hf s h
  exact ⟨es, h1, .inl h2⟩
theorem writes_bind {A : Art} {α β : Type} {x : L α} {f : α → L β} (h : Writes A x) (hf : ∀ a, Writes A (f a)) : Writes A (L.bind x f) := by
  intro s hs
  obtain ⟨es, h1, h2⟩ := h s hs
  unfold L.bind
  rcases hx : x s with ⟨r, s1⟩
  rw [hx] at h1 h2
  dsimp only at h1 h2
  cases r with
  | err e =>
    refine ⟨es, h1, ?_⟩
    rcases h2 with h2 | ⟨-, h2⟩
    · exact .inl h2
    · exact .inr ⟨⟨e, rfl⟩, h2⟩
  | ok a w =>
    rcases h2 with h2 | ⟨⟨e, h2⟩, -⟩
    · obtain ⟨es', h3, h4⟩ := hf a s1 h1
      dsimp only
      rcases hy : f a s1 with ⟨r, s2⟩
      rw [hy] at h3 h4
      rw [h2, ← tell_append] at h4
      cases r with
      | err e =>
        refine ⟨es ++ es', h3, ?_⟩
        rcases h4 with h4 | ⟨-, h4⟩
        · exact .inl h4
        · exact .inr ⟨⟨e, rfl⟩, h4⟩
      | ok b w' =>
        refine ⟨es ++ es', h3, ?_⟩
        rcases h4 with h4 | ⟨⟨e, h4⟩, -⟩
        · exact .inl h4
        · cases h4
    · cases h2

theorem writes_initialization (A : Art) (d : SDevice) : Writes A (initializationL A d) := by
  unfold initializationL
  refine writes_bind (writes_lift _) fun g => 
    writes_bind (writes_log fun s h => ⟨_, by rw [constructed_tell A g s h]; exact ⟨h, rfl⟩⟩) fun _ => writes_bind (writes_lift _) fun g1 =>
    writes_bind (writes_log fun s h => ⟨_, by rw [parentChild_tell A _ s h]; exact ⟨h, rfl⟩⟩) fun _ => writes_pure _

theorem writes_resolvePlaceholder (A : Art) (g : Graph) (ph : Nat) : Writes A (resolvePlaceholderL g ph) := by
  unfold resolvePlaceholderL
  split
  · refine writes_bind (writes_lift _) fun par => ?_
    split
    · exact writes_pure _
    · refine writes_bind (writes_lift _) fun derived => ?_
      split
      · exact writes_lift _
      · refine writes_bind (writes_lift _) fun o => ?_
        split
        · exact writes_pure _
        · refine writes_bind (writes_lift _) fun g2 => writes_bind (writes_log fun s h => ⟨[], ?_⟩) fun _ => writes_pure _
          simp [Log.resolvedPlaceholder, Log.when, h, tell_nil]
  · exact writes_lift _

theorem writes_resolvePlaceholders (A : Art) (phs : List Nat) : ∀ g, Writes A (resolvePlaceholdersL g phs) := by
  induction phs with
  | nil => exact fun g => writes_pure _
  | cons ph phs ih => exact fun g => writes_bind (writes_resolvePlaceholder A g ph) fun g1 => ih g1

theorem writes_rounds (A : Art) (ord : List Nat → List Nat) (fuel : Nat) : ∀ g prev, Writes A (roundsL A ord fuel g prev) := by
  induction fuel with
  | zero => exact fun g prev => writes_lift _
  | succ f ih =>
    intro g prev
    unfold roundsL
    refine writes_bind (writes_log fun s h => ⟨_, by rw [roundStart_tell A s h]; exact ⟨h, rfl⟩⟩) fun _ =>
      writes_bind (writes_resolvePlaceholders A _ _) fun g1 =>
      writes_bind (writes_log fun s h => ⟨_, by rw [placeholders_tell A _ s h]; exact ⟨h, rfl⟩⟩) fun _ =>
      writes_bind (writes_log fun s h => ⟨_, by rw [processable_tell A _ _ s h]; exact ⟨h, rfl⟩⟩) fun _ => ?_
    split
    · exact writes_pure _
    · split
      · intro s h
        refine ⟨[.para (s%"Loop detected")], ?_, .inr ⟨⟨.loop, rfl⟩, ?_⟩⟩
        · show (s.loopDetected A).active = true
          rw [loop_tell A s h]; exact h
        · show (s.loopDetected A).doc = _
          rw [loop_tell A s h]
      · exact writes_bind (writes_lift _) fun g2 => writes_bind (writes_log fun s h => ⟨_, by rw [roundEnd_tell A _ s h]; exact ⟨h, rfl⟩⟩) fun _ => ih _ _

theorem writes_resolvePeripherals (A : Art) (ord : List Nat → List Nat) (fuel : Nat) (d : SDevice) :
    Writes A (resolvePeripheralsL A ord fuel d) := by
  unfold resolvePeripheralsL
  refine writes_bind (writes_initialization A d) fun g0 =>
    writes_bind (writes_log fun s h => ⟨_, by rw [repeatingStart_tell A s h]; exact ⟨h, rfl⟩⟩) fun _ =>
    writes_bind (writes_rounds A ord fuel g0 []) fun g =>
    writes_bind (writes_log fun s h => ⟨_, by rw [finished_tell A s h]; exact ⟨h, rfl⟩⟩) fun _ => ?_
  split
  · exact writes_bind (writes_lift _) fun _ => writes_lift _
  · refine writes_bind (writes_lift _) fun s => ?_
    split
    · exact writes_lift _
    · exact writes_pure _

theorem mute_resolvePlaceholder (g : Graph) (ph : Nat) : Mute (resolvePlaceholderL g ph) := by
  unfold resolvePlaceholderL
  split
  · refine mute_bind (mute_lift _) fun par => ?_
    split
    · exact mute_pure _
    · refine mute_bind (mute_lift _) fun derived => ?_
      split
      · exact mute_lift _
      · refine mute_bind (mute_lift _) fun o => ?_
        split
        · exact mute_pure _
        · exact mute_bind (mute_lift _) fun g2 => mute_bind (mute_log _) fun _ => mute_pure _
  · exact mute_lift _

theorem mute_resolvePlaceholders (phs : List Nat) : ∀ g, Mute (resolvePlaceholdersL g phs) := by
  induction phs with
  | nil => exact fun g => mute_pure _
  | cons ph phs ih => exact fun g => mute_bind (mute_resolvePlaceholder g ph) fun g1 => ih g1

theorem mute_rounds (A : Art) (ord : List Nat → List Nat) (fuel : Nat) : ∀ g prev, Mute (roundsL A ord fuel g prev) := by
  induction fuel with
  | zero => exact fun g prev => mute_lift _
  | succ f ih =>
    intro g prev
    unfold roundsL
    refine mute_bind (mute_log _) fun _ => mute_bind (mute_resolvePlaceholders _ _) fun g1 =>
      mute_bind (mute_log _) fun _ => mute_bind (mute_log _) fun _ => ?_
    split
    · exact mute_pure _
    · split
      · exact mute_bind (mute_log _) fun _ => mute_lift _
      · exact mute_bind (mute_lift _) fun g2 => mute_bind (mute_log _) fun _ => ih _ _

theorem mute_resolvePeripherals (A : Art) (ord : List Nat → List Nat) (fuel : Nat) (d : SDevice) :
    Mute (resolvePeripheralsL A ord fuel d) := by
  unfold resolvePeripheralsL initializationL
  refine mute_bind (mute_bind (mute_lift _) fun g => mute_bind (mute_log _) fun _ => mute_bind (mute_lift _) fun g1 =>
    mute_bind (mute_log _) fun _ => mute_pure _) fun g0 => mute_bind (mute_log _) fun _ => mute_bind (mute_rounds A ord fuel g0 []) fun g =>
    mute_bind (mute_log _) fun _ => ?_
  split
  · exact mute_bind (mute_lift _) fun _ => mute_lift _
  · refine mute_bind (mute_lift _) fun s => ?_
    split
    · exact mute_lift _
    · exact mute_pure _

theorem close_page (A : Art) (es : List Entry) (s : Log) (ha : s.active = true)
    (h : s.doc = Doc.tell A es {} ∨ s.doc = (Doc.tell A es {}).generate A) : (s.close A).doc.file = some (page A es) := by
  simp only [Log.close, Log.when, ha, if_true, Log.on]
  rcases h with h | h
  · rw [h, generate_page]
  · rw [h, generate_twice, generate_page]

/-! ### what is told by a run that is refused -/

/-- Nothing is told. -/
def Silent {α : Type} (x : L α) : Prop := ∀ s, (x s).2.doc = s.doc ∧ (x s).2.active = s.active

theorem silent_lift {α : Type} (m : M α) : Silent (L.lift m) := fun _ => ⟨rfl, rfl⟩
theorem silent_pure {α : Type} (a : α) : Silent (L.pure a) := fun _ => ⟨rfl, rfl⟩
theorem silent_bind {α β : Type} {x : L α} {f : α → L β} (h : Silent x) (hf : ∀ a, Silent (f a)) : Silent (L.bind x f) := by
  intro s
  have h1 := h s
  unfold L.bind
  rcases hx : x s with ⟨r, s1⟩
  rw [hx] at h1
  dsimp only at h1
  cases r with
  | err e => exact h1
  | ok a w =>
    have h2 := hf a s1
    dsimp only
    rcases hy : f a s1 with ⟨r, s2⟩
    rw [hy] at h2
    cases r <;> exact ⟨h2.1.trans h1.1, h2.2.trans h1.2⟩

theorem silent_resolvePlaceholder (g : Graph) (ph : Nat) : Silent (resolvePlaceholderL g ph) := by
  unfold resolvePlaceholderL
  split
  · refine silent_bind (silent_lift _) fun par => ?_
    split
    · exact silent_pure _
    · refine silent_bind (silent_lift _) fun derived => ?_
      split
      · exact silent_lift _
      · refine silent_bind (silent_lift _) fun o => ?_
        split
        · exact silent_pure _
        · refine silent_bind (silent_lift _) fun g2 => silent_bind (fun s => ?_) fun _ => silent_pure _
          simp only [L.log, Log.resolvedPlaceholder, Log.when]
          split <;> exact ⟨rfl, rfl⟩
  · exact silent_lift _

theorem silent_resolvePlaceholders (phs : List Nat) : ∀ g, Silent (resolvePlaceholdersL g phs) := by
  induction phs with
  | nil => exact fun g => silent_pure _
  | cons ph phs ih => exact fun g => silent_bind (silent_resolvePlaceholder g ph) fun g1 => ih g1

theorem L_bind_err {α β : Type} {x : L α} {f : α → L β} {s s' : Log} {e : Exn} :
    L.bind x f s = (.err e, s') ↔ x s = (.err e, s') ∨ ∃ a w s1, x s = (.ok a w, s1) ∧ f a s1 = (.err e, s') := by
  unfold L.bind
  rcases hx : x s with ⟨r, s1⟩
  cases r with
  | err e' => simp
  | ok a w =>
    dsimp only
    rcases hy : f a s1 with ⟨r, s2⟩
    cases r with
    | err e' =>
      constructor
      · intro h
        cases h
        exact .inr ⟨a, w, s1, rfl, hy⟩
      · rintro (h | ⟨a', w', s1', h1, h2⟩)
        · cases h
        · cases h1
          rw [hy] at h2
          exact h2
    | ok b w' =>
      constructor
      · intro h; cases h
      · rintro (h | ⟨a', w', s1', h1, h2⟩)
        · cases h
        · cases h1
          rw [hy] at h2
          cases h2

theorem L_log_bind_err {β : Type} {g : Log → Log} {f : Unit → L β} {s s' : Log} {e : Exn} :
    L.bind (L.log g) f s = (.err e, s') ↔ f () (g s) = (.err e, s') := by
  rw [L_bind_err]
  constructor
  · rintro (h | ⟨a, w, s1, h1, h2⟩)
    · cases h
    · obtain ⟨-, rfl⟩ := L_log_ok.1 h1
      exact h2
  · intro h
    exact .inr ⟨(), [], g s, rfl, h⟩

theorem L_lift_err {α : Type} {m : M α} {s s' : Log} {e : Exn} : L.lift m s = (.err e, s') ↔ m = .err e ∧ s' = s := by
  unfold L.lift
  simp only [Prod.mk.injEq]
  exact ⟨fun h => ⟨h.1, h.2.symm⟩, fun h => ⟨h.1, h.2.symm⟩⟩

theorem roundsL_err {d : SDevice} {A : Art} {ord : List Nat → List Nat} {x : Exn} (hx : x ≠ .outOfFuel) (hx' : x ≠ .loop) {fuel : Nat} :
    ∀ {g : Graph} {prev : List Nat} {s s' : Log},
    s.active = true → s.resolved = [] → Inv d g → roundsL A ord fuel g prev s = (.err x, s') →
      ∃ es, FailsTelling ord x s.round g prev es ∧ s'.doc = s.doc.tell A es ∧ s'.active = true := by
  induction fuel with
  | zero => intro g prev s s' ha hr hi h; simp [roundsL, L.lift, M.throw] at h; exact absurd h.1.symm hx
  | succ f ih =>
    intro g prev s s' ha hr hi h
    unfold roundsL at h
    rw [L_log_bind_err, roundStart_tell A s ha, L_bind_err] at h
    rcases h with h | ⟨g1, w1, s1, h1, h⟩
    · refine ⟨_, .follow ?_, ?_, ?_⟩
      · rw [← sees_resolvePlaceholders g.placeholders g _, h]
      · have := (silent_resolvePlaceholders g.placeholders g { s.tell A [roundHead s.round] with round := s.round + 1 }).1
        rw [h] at this
        exact this
      · have := (silent_resolvePlaceholders g.placeholders g { s.tell A [roundHead s.round] with round := s.round + 1 }).2
        rw [h] at this
        exact this.trans ha
    have h1' : resolvePlaceholders g g.placeholders = .ok g1 w1 := by
      rw [← sees_resolvePlaceholders g.placeholders g _, h1]
    obtain ⟨paths, hf, rfl⟩ := resolvePlaceholdersL_ok (by simpa [Log.tell] using ha) hi h1
    rw [L_log_bind_err, placeholders_tell A _ _ (by simpa [Log.tell] using ha)] at h
    dsimp only at h
    rw [L_log_bind_err, processable_tell A _ _ _ (by simpa [Log.tell] using ha)] at h
    have hi1 := inv_resolvePlaceholders hi h1'
    have hlines : LinesOf g1 (sortedProcessable g1) ((sortedProcessable g1).map (nodeLine g1)) := linesOf_map fun k hk => by
      obtain ⟨e, he, -⟩ := unprocessed_iff.1 (sorted_sub.2 k hk)
      exact ⟨e, he⟩
    split at h
    · simp [L.pure] at h
    · rename_i hn
      split at h
      · rw [L_log_bind_err, L_lift_err] at h
        simp only [M.throw, M.err.injEq] at h
        exact absurd h.1.symm hx'
      · rename_i hp
        rw [L_bind_err] at h
        rcases h with h | ⟨g2, w3, s2, h2, h⟩
        · obtain ⟨h2, rfl⟩ := L_lift_err.1 h
          refine ⟨_, .process hf hn hlines h2, ?_, by simpa [Log.tell] using ha⟩
          simp [hr, hn, Log.tell, ← tell_append]
        · obtain ⟨h2', rfl⟩ := L_lift_ok.1 h2
          rw [L_log_bind_err, roundEnd_tell A _ _ (by simpa [Log.tell] using ha)] at h
          obtain ⟨es, hR, he, ha'⟩ := ih (by simpa [Log.tell] using ha) (by simp [Log.tell]) (inv_processNodes hi1 h2') h
          refine ⟨_, .more (w := w3) hf hn hp hlines h2' (by simpa [Log.tell] using hR), ?_, ha'⟩
          rw [he]
          simp [hr, hn, Log.tell, ← tell_append]

end Svd
