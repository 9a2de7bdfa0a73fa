import Verif.Lemmas.LogRun
import Verif.Lemmas.LogText
import Verif.Props.Inline
import Verif.Lemmas.Tidy
import Verif.Lemmas.Escape
/-
C68: the log of the resolver.  C69: the resolver is never stuck in a loop.
-/
namespace Svd

open Graph Spec

/-- C68: the result is the same with and without a log. -/
theorem C68_transparent (A : Art) (active : Bool) (ord : List Nat → List Nat) (fuel : Nat) (d : SDevice) :
    (resolveWithLog A active ord fuel d).1 = resolvePeripherals ord fuel d := by
  unfold resolveWithLog
  rw [← sees_resolvePeripherals A ord fuel d { active := active }]

/-- C68: without a path no file is written. -/
theorem C68_off (A : Art) (ord : List Nat → List Nat) (fuel : Nat) (d : SDevice) : (resolveWithLog A false ord fuel d).2 = none := by
  have h := mute_resolvePeripherals A ord fuel d { active := false } rfl
  unfold resolveWithLog
  dsimp only
  rw [h]
  rfl

/-- C68: with a path a file is written, whatever happens, and it is a page with a list of entries. -/
theorem C68_always (A : Art) (ord : List Nat → List Nat) (fuel : Nat) (d : SDevice) :
    ∃ es, (resolveWithLog A true ord fuel d).2 = some (page A es) := by
  obtain ⟨es, h1, h2⟩ := writes_resolvePeripherals A ord fuel d { active := true } rfl
  exact ⟨es, close_page A es _ h1 (h2.imp id And.right)⟩

/-- C68: what the log tells if the rounds come to an end, whether the description is accepted then or not. -/
theorem C68_told {A : Art} {ord : List Nat → List Nat} {fuel : Nat} {d : SDevice} {g0 g' : Graph} {w0 w1 : List Warn}
    (h0 : initialization d = .ok g0 w0) (h1 : rounds ord fuel g0 [] = .ok g' w1) :
    ∃ g wg es, constructGraph d = .ok g wg ∧ Rounds ord 1 g0 [] es g' ∧ (resolveWithLog A true ord fuel d).2 =
      some (page A (intro g g0 ++ es ++ [.para (s%"Repeating steps finished successfully")])) := by
  rcases hx : initializationL A d { active := true } with ⟨r1, s1⟩
  have e1 := sees_initialization A d { active := true }
  rw [hx, h0] at e1
  dsimp only at e1
  subst e1
  obtain ⟨g, wg, hg, ht⟩ := initializationL_ok rfl hx
  rcases hy : roundsL A ord fuel g0 [] s1.repeatingStart with ⟨r2, s2⟩
  have e2 := sees_rounds A ord fuel g0 [] s1.repeatingStart
  rw [hy, h1] at e2
  dsimp only at e2
  subst e2
  rw [ht] at hy
  obtain ⟨es, n, hR, hs2⟩ := roundsL_ok (by rfl) (by rfl) (inv_initialization h0) hy
  refine ⟨g, wg, es, hg, hR, ?_⟩
  have key : (resolvePeripheralsL A ord fuel d { active := true }).2 = s2.repeatingFinished := by
    unfold resolvePeripheralsL
    simp only [L.bind, hx, L.log, ht, hy]
    cases hg' : decide (g'.unprocessed ≠ []) with
    | true =>
      rw [if_pos (by simpa using hg')]
      unfold L.bind L.lift
      cases unresolvedInfo g' g'.placeholders <;> rfl
    | false =>
      rw [if_neg (by simpa using hg')]
      unfold L.bind L.lift
      cases finalizeProcessing g' with
      | err e => rfl
      | ok s w =>
        dsimp only
        cases s.resolved <;> rfl
  have hact : s2.active = true := by rw [hs2]; rfl
  unfold resolveWithLog
  dsimp only
  rw [key, finished_tell A s2 hact]
  refine close_page A _ _ hact (.inl ?_)
  rw [hs2]
  simp only [Log.tell, ← tell_append]

/-- C68: what the log of an accepted description tells. -/
theorem C68_document {A : Art} {ord : List Nat → List Nat} {fuel : Nat} {d : SDevice} {ps : List IPeripheral} {w : List Warn} {f : Option Str}
    (h : resolveWithLog A true ord fuel d = (.ok ps w, f)) :
    ∃ g wg g0 w0 es g', constructGraph d = .ok g wg ∧ initialization d = .ok g0 w0 ∧ Rounds ord 1 g0 [] es g' ∧ g'.unprocessed = [] ∧
      f = some (page A (intro g g0 ++ es ++ [.para (s%"Repeating steps finished successfully")])) := by
  have h1 : resolvePeripherals ord fuel d = .ok ps w := by rw [← C68_transparent A true ord fuel d, h]
  obtain ⟨g0, g', s, w1, w2, w3, h2, h3, hu, -⟩ := resolve_graph h1
  obtain ⟨g, wg, es, hg, hR, hf⟩ := C68_told (A := A) h2 h3
  exact ⟨g, wg, g0, w1, es, g', hg, h2, hR, hu, by rw [← hf, h]⟩

/-- C68: what the log of a refused description tells: everything up to the point of the refusal.  If it is not the end of the
rounds, then a reference cannot be followed or one of the elements that are listed last cannot be processed. -/
theorem C68_refused {A : Art} {ord : List Nat → List Nat} (hord : ∀ l, (ord l).Perm l) {fuel : Nat} {d : SDevice} {x : Exn} {f : Option Str} (hx : x ≠ .outOfFuel)
    (h : resolveWithLog A true ord fuel d = (.err x, f)) :
    ∃ g wg g0 w0, constructGraph d = .ok g wg ∧ initialization d = .ok g0 w0 ∧ ∃ es, f = some (page A (intro g g0 ++ es)) ∧
      (FailsTelling ord x 1 g0 [] es ∨ ∃ es' g', Rounds ord 1 g0 [] es' g' ∧ es = es' ++ [.para (s%"Repeating steps finished successfully")]) := by
  have hr : resolvePeripherals ord fuel d = .err x := by rw [← C68_transparent A true ord fuel d, h]
  obtain ⟨g0, h0, -, -⟩ := initialization_total d
  cases h1 : rounds ord fuel g0 [] with
  | ok g' w1 =>
    obtain ⟨g, wg, es, hg, hR, hf⟩ := C68_told (A := A) h0 h1
    refine ⟨g, wg, g0, [], hg, h0, es ++ [.para (s%"Repeating steps finished successfully")], ?_, .inr ⟨es, g', hR, rfl⟩⟩
    rw [← List.append_assoc, ← hf, h]
  | err y =>
    have hy : y = x := by
      unfold resolvePeripherals at hr
      rw [h0, M.bind_ok_nil, h1] at hr
      simpa [M.bind] using hr
    subst hy
    have hloop : y ≠ .loop := fun e => resolve_no_loop hord fuel d (e ▸ hr)
    rcases hi : initializationL A d { active := true } with ⟨r1, s1⟩
    have e1 := sees_initialization A d { active := true }
    rw [hi, h0] at e1
    dsimp only at e1
    subst e1
    obtain ⟨g, wg, hg, ht⟩ := initializationL_ok rfl hi
    rcases hy : roundsL A ord fuel g0 [] s1.repeatingStart with ⟨r2, s2⟩
    have e2 := sees_rounds A ord fuel g0 [] s1.repeatingStart
    rw [hy, h1] at e2
    dsimp only at e2
    subst e2
    rw [ht] at hy
    obtain ⟨es, hF, hs2, hact⟩ := roundsL_err hx hloop (by rfl) (by rfl) (inv_initialization h0) hy
    refine ⟨g, wg, g0, [], hg, h0, es, ?_, .inl hF⟩
    have key : (resolvePeripheralsL A ord fuel d { active := true }).2 = s2 := by
      unfold resolvePeripheralsL
      simp only [L.bind, hi, L.log, ht, hy]
    have hfile : f = (s2.close A).doc.file := by
      have h' := congrArg Prod.snd h
      unfold resolveWithLog at h'
      dsimp only at h'
      rw [← h', key]
    rw [hfile]
    refine close_page A _ _ hact (.inl ?_)
    rw [hs2]
    simp only [Log.tell, ← tell_append]

/-- C68: in the log of an accepted description every declared element is listed for processing with its name and its kind,
each under its own number, and nothing is listed twice. -/
theorem C68_listed {A : Art} {ord : List Nat → List Nat} (hord : ∀ l, (ord l).Perm l) {fuel : Nat} {d : SDevice} {ps : List IPeripheral} {w : List Warn} {f : Option Str}
    (h : resolveWithLog A true ord fuel d = (.ok ps w, f)) :
    ∃ es, f = some (page A es) ∧ (offered es).Nodup ∧ ∃ number : Pos → Nat,
      ∀ x p, DeclAt d x p → x ≠ [] → line (number x) (declName p) (kindOf p) ∈ offered es ∧
        ∀ y q, DeclAt d y q → number y = number x → y = x := by
  obtain ⟨g, wg, g0, w0, es, g', hg, h0, hR, hu, hf⟩ := C68_document h
  have S := labState_initialization h0
  obtain ⟨ks, k1, k2, -⟩ := rounds_once hord hR S
  have hof : offered (intro g g0 ++ es ++ [.para (s%"Repeating steps finished successfully")]) = offered es := by
    simp [offered, List.flatMap_append, intro, offer]
  refine ⟨_, hf, by rw [hof]; exact k1.nodup k2, ?_⟩
  rw [hof]
  obtain ⟨lab, hl, hsur, -⟩ := lab_initialization h0
  classical
  refine ⟨fun x => if hx : ∃ p, DeclAt d x p then (hsur x hx.choose hx.choose_spec).choose else 0, ?_⟩
  intro x p hp hx
  have hnum : ∀ y q, DeclAt d y q → ∃ k, (if hx : ∃ p, DeclAt d y p then (hsur y hx.choose hx.choose_spec).choose else 0) = k ∧ IsE g0 k ∧ lab k = y := by
    intro y q hq
    have hy : ∃ p, DeclAt d y p := ⟨q, hq⟩
    rw [dif_pos hy]
    exact ⟨_, rfl, (hsur y hy.choose hy.choose_spec).choose_spec⟩
  obtain ⟨k, hk, ⟨e, he⟩, hlab⟩ := hnum x p hp
  dsimp only
  constructor
  · rw [hk]
    obtain ⟨p', N⟩ := hl.node k e he
    rw [hlab] at N
    have hpp : p' = p := by
      obtain ⟨ts, h1⟩ := N.decl
      obtain ⟨ts', h2⟩ := hp
      rw [h1] at h2
      injection h2 with h2
      injection h2
    subst hpp
    have hproc : e.isProcessed = false := by
      cases hpe : e.isProcessed with
      | false => rfl
      | true =>
        have : k = 0 := initial_done h0 ⟨e, he, hpe⟩
        subst this
        exact absurd (hlab.symm.trans hl.root.1) hx
    have hline := rounds_listed hord hR S hu k e he hproc
    have hO := S.inv.nodes.elem he
    have hnone : e.processed = none := by
      cases hc : e.processed with
      | none => rfl
      | some z => rw [(hO.2.2.2.1 z hc).2.1] at hproc; cases hproc
    have hname : e.name = declName p' := by
      by_cases hen : e.level = .enumcont
      · rw [N.level] at hen
        cases p' with
        | «enum» c => exact (N.enum c rfl).1
        | _ => cases hen
      · rw [hO.2.2.1 hnone hen, N.parsed hen]
        cases p' with
        | device => exact absurd (device_pos hp rfl) hx
        | «enum» c => exact absurd N.level hen
        | _ => rfl
    have hkind : e.level = kindOf p' := by rw [N.level]; cases p' <;> rfl
    rw [← hname, ← hkind]
    exact hline
  · intro y q hq hyx
    obtain ⟨k', hk', -, hlab'⟩ := hnum y q hq
    rw [← hlab, ← hlab', ← hk, ← hk', hyx]

/-- C68: the last drawing of the log of an accepted description is the graph with which the rounds end: no element is black. -/
theorem C68_drawn {A : Art} {ord : List Nat → List Nat} {fuel : Nat} {d : SDevice} {ps : List IPeripheral} {w : List Warn} {f : Option Str}
    (h : resolveWithLog A true ord fuel d = (.ok ps w, f)) :
    ∃ es g, f = some (page A es) ∧ lastDrawing es = some g ∧ g.unprocessed = [] ∧
      ∀ n ∈ (pictureOf g).nodes, n.color = s%"blue" ∨ (n.color = s%"red" ∧ ∃ path, g.node? n.index = some (.ph path)) := by
  obtain ⟨g, wg, g0, w0, es, g', -, h0, hR, hu, hf⟩ := C68_document h
  refine ⟨_, g', hf, ?_, hu, ?_⟩
  · rw [lastDrawing_append, show lastDrawing [.para _] = none from rfl, Option.none_or]
    exact rounds_lastDrawing hR _ rfl
  · intro n hn
    simp only [pictureOf, List.mem_filterMap, List.mem_range, Option.map_eq_some_iff] at hn
    obtain ⟨i, -, m, hm, rfl⟩ := hn
    rcases m with ⟨name, lvl, pr, x, y, z⟩ | path
    · left
      cases pr with
      | true => cases lvl <;> rfl
      | false =>
        have : i ∈ g'.unprocessed := unprocessed_iff.2 ⟨_, elem?_node?.2 hm, rfl⟩
        rw [hu] at this
        cases this
    · exact .inr ⟨rfl, path, hm⟩

/-- C68: if every reference can be followed and nothing is derived into a marked element, everything in the last drawing is an element
that has been processed (blue), and only the edges to the children are left (black or blue). -/
theorem C68_last {A : Art} {ord : List Nat → List Nat} (hord : ∀ l, (ord l).Perm l) {fuel : Nat} {d : SDevice} {ps : List IPeripheral} {w : List Warn} {f : Option Str}
    (hf : Followable d) (hq : Quiet d) (h : resolveWithLog A true ord fuel d = (.ok ps w, f)) :
    ∃ es g, f = some (page A es) ∧ lastDrawing es = some g ∧ (∀ n ∈ (pictureOf g).nodes, n.color = s%"blue") ∧
      ∀ e ∈ (pictureOf g).edges, e.color = s%"black" ∨ e.color = s%"blue" := by
  have h1 : resolvePeripherals ord fuel d = .ok ps w := by rw [← C68_transparent A true ord fuel d, h]
  obtain ⟨g0, g', s, w1, w2, w3, h2, h3, hu, -⟩ := resolve_graph h1
  obtain ⟨g, wg, es, hg, hR, hfile⟩ := C68_told (A := A) h2 h3
  obtain ⟨-, lab, T⟩ := tidy_rounds hord hf hq h2 h3
  have S : Sound d g' := sound_rounds hord (sound_initialization h2) h3
  refine ⟨_, g', by rw [← hfile, h], ?_, ?_, ?_⟩
  · rw [lastDrawing_append, show lastDrawing [.para _] = none from rfl, Option.none_or]
    exact rounds_lastDrawing hR _ rfl
  · intro n hn
    simp only [pictureOf, List.mem_filterMap, List.mem_range, Option.map_eq_some_iff] at hn
    obtain ⟨i, -, m, hm, rfl⟩ := hn
    rcases m with ⟨name, lvl, pr, x, y, z⟩ | path
    · cases pr with
      | true => cases lvl <;> rfl
      | false => exact absurd (T.all i _ (elem?_node?.2 hm)) (by simp)
    · exfalso
      obtain ⟨a, ha⟩ := S.2.1.inE i ⟨path, hm⟩
      obtain ⟨-, e, he⟩ := T.at_.lab.tch _ _ (T.edges _ ha)
      rw [elem?_node?, hm] at he
      cases he
  · intro e he
    simp only [pictureOf, List.mem_reverse, List.mem_map] at he
    obtain ⟨x, hx, rfl⟩ := he
    obtain ⟨a, b, ty⟩ := x
    cases ty with
    | childU => exact .inl rfl
    | childR => exact .inr rfl
    | derive =>
      exact absurd hx (end_edges hord hf hq h2 h3 a b)
    | placeholder =>
      exfalso
      rcases T.at_.lab.tpl a b hx with ⟨-, p, hp⟩ | ⟨⟨p, hp⟩, -⟩
      · obtain ⟨-, e, he⟩ := T.at_.lab.tch _ _ (T.edges _ hx)
        rw [elem?_node?, hp] at he
        cases he
      · obtain ⟨⟨e, he⟩, -⟩ := T.at_.lab.tch _ _ (T.edges _ hx)
        rw [elem?_node?, hp] at he
        cases he

/-! ### a sample -/

namespace Sample

/-- Drawings that show nothing but their number, and pages that are the text. -/
def plainArt : Art := { svg := fun _ => [], modify := fun _ k => natStr k, compress := id, content := s%"BODY_CONTENT", packer := s%"COMPRESSED_DATA" }

def shortLog : List Entry :=
  intro {} {} ++
  [roundHead 1, .head 3 (s%"Resolve Placeholders"), .listing (s%"Resolved placeholders") [s%"P"],
    .para (s%"Graph after resolving placeholders:"), .drawing {}] ++
  toProcess [line 7 (some (s%"P")) .peripheral, line 8 (some (s%"T")) .register, line 9 (some (s%"F1")) .field, line 10 (some (s%"E1")) .enumcont,
    line 1 (some (s%"Q")) .peripheral, line 3 (some (s%"Z")) .register, line 4 (some (s%"F2")) .field] ++
  [.para (s%"Graph at end of round:"), .drawing {}] ++
  [roundHead 2, .head 3 (s%"Resolve Placeholders"), .listing (s%"Resolved placeholders") [s%"P.T.F1.E1", s%"T", s%"T"],
    .para (s%"Graph after resolving placeholders:"), .drawing {}] ++
  toProcess [line 5 (some (s%"E2")) .enumcont, line 11 (some (s%"S")) .register, line 15 (some (s%"S")) .register] ++
  [.para (s%"Graph at end of round:"), .drawing {}] ++
  [roundHead 3, .head 3 (s%"Resolve Placeholders"), .para (s%"No placeholders resolved in this round")] ++ nothingToProcess ++
  [.para (s%"Repeating steps finished successfully")]

end Sample

/-- C68: the log of a description with references, among them one to a later element. -/
theorem C68_sample : (∃ ps w, resolveWithLog Sample.plainArt true id 5 Sample.shortForm = (.ok ps w, some (docText Sample.plainArt 1 Sample.shortLog))) ∧
    natStr 7 ++ s%": P (Peripheral)" ∈ offered Sample.shortLog ∧ (offered Sample.shortLog).length = 10 := by
  have h1 : (resolveWithLog Sample.plainArt true id 5 Sample.shortForm).2 = some (docText Sample.plainArt 1 Sample.shortLog) := by decide +kernel
  have h2 : (match (resolveWithLog Sample.plainArt true id 5 Sample.shortForm).1 with | .ok _ _ => true | .err _ => false) = true := by decide +kernel
  refine ⟨?_, by decide +kernel, by decide +kernel⟩
  rcases h : resolveWithLog Sample.plainArt true id 5 Sample.shortForm with ⟨r, f⟩
  rw [h] at h1 h2
  cases r with
  | err e => cases h2
  | ok ps w => exact ⟨ps, w, by rw [← h1]⟩

/-- C68: a description with a reference to nothing: the log ends with "finished successfully", but the description is refused. -/
theorem C68_refused_sample : resolveWithLog Sample.plainArt true id 5 (Sample.rdev [Sample.rper (s%"P") 0 (some (s%"Nope")) []]) =
    (.err .unprocessed, some (docText Sample.plainArt 1 (intro {} {} ++ [roundHead 1, .head 3 (s%"Resolve Placeholders"),
      .para (s%"No placeholders resolved in this round")] ++ nothingToProcess ++ [.para (s%"Repeating steps finished successfully")]))) := by
  have h1 : (resolveWithLog Sample.plainArt true id 5 (Sample.rdev [Sample.rper (s%"P") 0 (some (s%"Nope")) []])).2 =
    some (docText Sample.plainArt 1 (intro {} {} ++ [roundHead 1, .head 3 (s%"Resolve Placeholders"),
      .para (s%"No placeholders resolved in this round")] ++ nothingToProcess ++ [.para (s%"Repeating steps finished successfully")])) := by decide +kernel
  have h2 : (match (resolveWithLog Sample.plainArt true id 5 (Sample.rdev [Sample.rper (s%"P") 0 (some (s%"Nope")) []])).1 with | .err .unprocessed => true | _ => false) = true := by decide +kernel
  revert h1 h2
  generalize resolveWithLog Sample.plainArt true id 5 (Sample.rdev [Sample.rper (s%"P") 0 (some (s%"Nope")) []]) = x
  rcases x with ⟨r, f⟩
  intro h1 h2
  dsimp only at h1 h2
  split at h2
  · rw [h1]
  · cases h2

/-- C69: whatever the description, the resolver is never stuck in a loop. -/
theorem C69_never_loops {ord : List Nat → List Nat} (hord : ∀ l, (ord l).Perm l) (fuel : Nat) (d : SDevice) :
    resolvePeripherals ord fuel d ≠ .err .loop ∧ processDevice ord fuel d ≠ .err (.process .wrapLoop) :=
  ⟨resolve_no_loop hord fuel d, device_no_loop hord fuel d⟩

/-- Three indices for two registers: the last list names the register that cannot be processed. -/
def Sample.badIndex : SDevice :=
  Sample.rdev [Sample.rper (s%"P") 0 none [.reg { name := s%"R%s", addressOffset := 0, dim := { dim := some 2, dimIncrement := some 4, dimIndex := some (s%"0,1,2") } }]]

theorem C68_refused_process_sample : resolveWithLog Sample.plainArt true id 5 Sample.badIndex =
    (.err (.process .dimIndexCount), some (docText Sample.plainArt 1 (intro {} {} ++ [roundHead 1, .head 3 (s%"Resolve Placeholders"),
      .para (s%"No placeholders resolved in this round")] ++ toProcess [s%"1: P (Peripheral)", s%"2: R%s (Register)"]))) := by
  have h1 : (resolveWithLog Sample.plainArt true id 5 Sample.badIndex).2 =
    some (docText Sample.plainArt 1 (intro {} {} ++ [roundHead 1, .head 3 (s%"Resolve Placeholders"),
      .para (s%"No placeholders resolved in this round")] ++ toProcess [s%"1: P (Peripheral)", s%"2: R%s (Register)"])) := by decide +kernel
  have h2 : (match (resolveWithLog Sample.plainArt true id 5 Sample.badIndex).1 with | .err (.process .dimIndexCount) => true | _ => false) = true := by decide +kernel
  revert h1 h2
  generalize resolveWithLog Sample.plainArt true id 5 Sample.badIndex = x
  rcases x with ⟨r, f⟩
  intro h1 h2
  dsimp only at h1 h2
  split at h2
  · rw [h1]
  · cases h2

end Svd
