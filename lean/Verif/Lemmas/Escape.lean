import Verif.Lemmas.HeldInit
import Verif.Props.Dim
/-
Which exceptions can leave the resolution, whatever the description: the internal consistency checks never fail.
-/
namespace Svd
open Graph Spec M

/-- All exceptions but the internal ones that never occur. -/
def Kept : Exn → Prop
  | .resolve 93 | .resolve 97 | .resolve 134 | .resolve 303 | .resolve 345 | .resolve 425 | .resolve 472 => True
  | .resolve _ | .resolverGraph _ | .dagWouldCycle | .noEdge | .keyError => False
  | _ => True

abbrev KSat {α : Type} (x : M α) : Prop := Sat Kept ResolveWarn x

theorem ksat_convert (s : Str) : KSat (convertEnumValue s) := by unfold convertEnumValue; sats
theorem ksat_resolveOne (p : SEnumValue) (v : Option Int) : KSat (resolveOne p v) := by
  unfold resolveOne; sats
theorem ksat_resolveWildcard (p : SEnumValue) : KSat (resolveWildcard p) := by
  unfold resolveWildcard
  have := ksat_convert
  refine sat_bind ?_ fun _ => sat_filterMapM fun x _ => ksat_resolveOne _ _
  sats
  exact this _
theorem ksat_isValueValid (st : EVState) (v : IEnumValue) : KSat (isValueValid st v) := by
  unfold isValueValid; sats
theorem ksat_validateLoop (acc : EVState × List IEnumValue) (ps : List SEnumValue) : KSat (validateLoop acc ps) := by
  refine sat_foldM fun b p _ => sat_bind (ksat_resolveWildcard p) fun vs => sat_foldM fun b v _ => ?_
  exact sat_bind (ksat_isValueValid _ _) fun _ => sat_pure _
theorem ksat_processEnumValues (ps : List SEnumValue) (l m : Int) : KSat (processEnumValues ps l m) := by
  refine sat_bind (ksat_validateLoop _ _) fun ⟨st, evs⟩ => sat_bind ?_ fun _ => sat_pure _
  try dsimp only
  split
  · unfold extendDefault; sats
  · sats
theorem ksat_createContainer (p : SEnumContainer) (l m : Int) : KSat (createContainer p l m) :=
  sat_bind (ksat_processEnumValues _ _ _) fun _ => sat_pure _

theorem ksat_dimIndexList (n : Int) (s : Option Str) : KSat (dimIndexList n s) := by unfold dimIndexList; sats
theorem ksat_processDimIndex (n : Int) (s : Option Str) : KSat (processDimIndex n s) := by
  have := ksat_dimIndexList n s
  unfold processDimIndex; sats
theorem ksat_processDim (name : Str) (disp : Option Str) (dim : Option Int) (di : Option Str) (ty : Level) :
    KSat (processDim name disp dim di ty) := by
  have := fun n => ksat_processDimIndex n di
  unfold processDim processDimArray processDimList
  sats
  exact this _
theorem ksat_extractDim (ty : Level) (name : Str) (pd : SDim) (pdisp : Option Str) (bd : Option IDim)
    (bdisp : Option Str) : KSat (extractDim ty name pd pdisp bd bdisp) := by
  have := ksat_processDim name
  unfold extractDim
  sats
  all_goals exact this _ _ _ _

theorem ksat_bitRangePos (r : Str) : KSat (bitRangePos r) := by unfold bitRangePos; sats
theorem ksat_fieldMsbLsb (p : SField) (b : Option IFieldHd) : KSat (fieldMsbLsb p b) := by
  have := ksat_bitRangePos
  unfold fieldMsbLsb
  sats
  exact this _
theorem ksat_processField (i : Nat) (n : Str) (p : SField) (b : Option IFieldHd) : KSat (processField i n p b) :=
  sat_bind (ksat_fieldMsbLsb _ _) fun _ => sat_pure _
theorem ksat_extractDimOf (p : Parsed) (b : Option Processed) : KSat (extractDimOf p b) := by
  unfold extractDimOf
  cases p <;> first | exact ksat_extractDim _ _ _ _ _ _ | sats
theorem ksat_createDimable (i : Nat) (n : Str) (dn : Option Str) (p : Parsed) (b : Option Processed) :
    KSat (createDimable i n dn p b) := by
  unfold createDimable
  split <;> first | exact sat_bind (ksat_processField _ _ _ _) fun _ => sat_pure _ | sats
theorem ksat_createAll (p : Parsed) (b : Option Processed) (i : Nat) (ns : List Str) (ds : List (Option Str)) :
    KSat (createAll p b i ns ds) := by
  induction ns generalizing i ds with
  | nil => cases ds <;> exact sat_pure _
  | cons n ns ih =>
    cases ds with
    | nil => exact sat_pure _
    | cons d ds => exact sat_bind (ksat_createDimable _ _ _ _ _) fun _ => sat_bind (ih _ _) fun _ => sat_pure _

theorem ksat_filterAlternates (g : Graph) (is : List Nat) : KSat (filterAlternates g is) := by
  induction is with
  | nil => exact sat_pure _
  | cons i is ih =>
    rw [filterAlternates]
    sats
theorem ksat_searchGo (g : Graph) (ex : Nat) (part : Str) (sub : Nat → M (List Nat)) (hs : ∀ n, KSat (sub n))
    (ms ns : List Nat) : KSat (searchGo g ex part sub ms ns) := by
  induction ns generalizing ms with
  | nil => exact sat_pure _
  | cons n ns ih =>
    rw [searchGo]
    split
    · exact ih _
    · split
      · exact ih _
      · refine sat_bind (hs _) fun cs => ?_
        split
        · refine sat_bind (ksat_filterAlternates _ _) fun _ => ?_
          sats
        · exact ih _
theorem ksat_searchNodes (g : Graph) (ex : Nat) (lvl : Level) (parts : List Str) (ns : List Nat) :
    KSat (searchNodes g ex lvl parts ns) := by
  induction parts generalizing ns with
  | nil => exact sat_pure _
  | cons p ps ih =>
    rw [searchNodes]
    refine ksat_searchGo _ _ _ _ (fun n => ?_) _ _
    split
    · exact sat_pure _
    · exact ih _
theorem ksat_pathResolving (g : Graph) (i : Nat) (lvl : Level) (p : Str) : KSat (pathResolving g i lvl p) := by
  unfold pathResolving
  refine sat_bind (ksat_searchNodes _ _ _ _ _) fun m1 => ?_
  split
  · exact sat_pure _
  · refine sat_bind (ksat_searchNodes _ _ _ _ _) fun m2 => ?_
    sats

/-! ### the nodes of one round -/

theorem ksat_ex {α : Type} {x : M α} (h : ∃ a, x = .ok a []) : KSat x := by
  obtain ⟨a, h⟩ := h
  rw [h]
  exact sat_pure a

theorem dim_names {p : Parsed} {b : Option Processed} {isDim : Bool} {names : List Str} {displays : List (Option Str)} {w : List Warn}
    (h : extractDimOf p b = .ok (isDim, names, displays) w) : names ≠ [] ∧ displays ≠ [] := by
  obtain ⟨display, ho, -⟩ := extractDimOf_outcome h
  rcases ho with ⟨-, rfl, rfl, -⟩ | ⟨-, -, n, -, hn, -, mark, idx, rfl, rfl, hl, -⟩
  · simp
  · have : idx ≠ [] := by
      rintro rfl
      simp at hl
      omega
    simp [this]

theorem ksat_processDimable {ord : List Nat → List Nat} (hord : ∀ l, (ord l).Perm l) {g : Graph} {i : Nat} {bn : Option Nat} {e : ElemNode}
    {p : Parsed} {bp : Option Processed} (h : WF g) (hac : Acyclic g.edges) (he : g.elem? i = some e) (hp : e.processed = none)
    (hb : ∀ b, bn = some b → De g b i) : KSat (processDimable ord g i p bn bp) := by
  unfold processDimable
  refine sat_bind' (ksat_extractDimOf _ _) fun ⟨isDim, names, displays⟩ w h1 => ?_
  refine sat_bind' (ksat_createAll _ _ _ _ _) fun xs w2 h2 => ?_
  cases xs with
  | nil =>
    exfalso
    have := (createAll_ok h2).1
    obtain ⟨n1, n2⟩ := dim_names h1
    rw [List.length_nil] at this
    have := List.length_pos_iff.2 n1
    have := List.length_pos_iff.2 n2
    omega
  | cons x xs =>
    dsimp only
    split
    · exact ksat_ex (updateDimNode_total hord h hac he hp hb)
    · exact ksat_ex (updateNode_total hord h hac he hp hb)

/-- An element that waits for being processed. -/
def Waits (g : Graph) (i : Nat) : Prop := ∃ e, g.elem? i = some e ∧ e.isProcessed = false ∧ e.parsed ≠ .device

theorem ksat_processNode {d : SDevice} {ord : List Nat → List Nat} (hord : ∀ l, (ord l).Perm l) {g : Graph} {lab : Nat → Pos} {i : Nat}
    (A : LabAt d g lab) (hu : Waits g i) : KSat (processNode ord g i) := by
  obtain ⟨e, he, hpe, hdev⟩ := hu
  have hn := A.inv.nodes.elem he
  have hnone : e.processed = none := by
    cases hx : e.processed with
    | none => rfl
    | some x =>
      have := (hn.2.2.2.1 x hx).2.1
      rw [hpe] at this
      cases this
  unfold processNode
  rw [he]
  dsimp only
  rw [if_neg hdev]
  have fin : ∀ bn bp, (∀ b, bn = some b → De g b i) →
      KSat (if e.parsed.isEnum = true then processEnumNode ord g i bn else processDimable ord g i e.parsed bn bp) := by
    intro bn bp hb
    split
    · unfold processEnumNode
      rw [he]
      dsimp only
      obtain ⟨hw, hno⟩ := setElem_wf A.inv.wf (i := i) (e := { e with parsed := adoptedParsed g e bn }) (IsE.some ⟨e, he⟩)
      have hi : ((g.setElem i { e with parsed := adoptedParsed g e bn }).node? i).isSome := by
        rw [hno, if_pos rfl]; rfl
      have h1 := adoptBase_total hord (bn := bn) hw (A.ac : Acyclic (g.setElem i { e with parsed := adoptedParsed g e bn }).edges) hi hb
      refine sat_bind' (ksat_ex h1) fun g1 w h2 => ?_
      have he0 : (g.setElem i { e with parsed := adoptedParsed g e bn }).elem? i = some { e with parsed := adoptedParsed g e bn } := by
        rw [elem?_node?, hno, if_pos rfl]
      rw [(adoptBase_wf hw h2 hi).2.elem he0]
      exact sat_pure _
    · exact ksat_processDimable hord A.inv.wf A.ac he hnone hb
  refine sat_bind' ?_ fun ⟨bn, bp⟩ w hbb => fin bn bp ?_
  · split
    · exact sat_pure _
    · refine sat_bind ?_ fun _ => ?_
      · unfold derivedFromBase
        split
        · exact sat_throw trivial
        · rename_i b hb
          split
          · exact sat_throw trivial
          · rename_i eb heb
            split
            · rename_i hlev
              exfalso
              obtain ⟨s, t, hs, ht, hE⟩ := A.inv.edges _ (baseElementNode_edge hb)
              obtain ⟨es, ed, rfl, rfl, h3, -⟩ := hE
              rw [elem?_node?] at he heb
              simp only [hs, ht, Option.some.injEq, Node.elem.injEq] at he heb
              subst he heb
              exact hlev h3.symm
            · exact sat_pure _
      · sats
  · intro b hb
    subst hb
    split at hbb
    · simp at hbb
    · simp only [M.bind_eq_ok] at hbb
      obtain ⟨⟨b', eb⟩, w1, w2, h1, h2, -⟩ := hbb
      split at h2
      · simp at h2
      · simp only [M.pure_eq_ok, Prod.mk.injEq, Option.some.injEq] at h2
        obtain ⟨⟨rfl, -⟩, -⟩ := h2
        unfold derivedFromBase at h1
        split at h1
        · simp at h1
        · rename_i b hb
          split at h1
          · simp at h1
          · split at h1
            · simp at h1
            · simp only [M.pure_eq_ok, Prod.mk.injEq] at h1
              obtain ⟨⟨rfl, -⟩, -⟩ := h1
              exact baseElementNode_edge hb

/-! ### one round -/

/-- The state between the steps. -/
def Sound (d : SDevice) (g : Graph) : Prop := (∃ lab, LabAt d g lab) ∧ Held g ∧ Listed g

theorem sound_processNode {d : SDevice} {ord : List Nat → List Nat} (hord : ∀ l, (ord l).Perm l) {g g' : Graph} {i : Nat} {ws : List Warn}
    (S : Sound d g) (hr : processNode ord g i = .ok g' ws) : Sound d g' ∧ ∀ k, Waits g k → k ≠ i → Waits g' k := by
  obtain ⟨⟨lab, A⟩, H, L⟩ := S
  obtain ⟨lab', h3, -, h5, -⟩ := lab_processNode hord A.inv A.ac A.lab hr
  refine ⟨⟨⟨lab', (inv_processNode A.inv hr).1, ac_processNode A.ac hr, h3⟩, held_processNode hord A H hr, L.processNode A.inv.wf hr⟩, ?_⟩
  rintro k ⟨e, he, h1, h2⟩ hk
  refine ⟨e, ?_, h1, h2⟩
  have := h5.old k (IsE.some ⟨e, he⟩) hk
  unfold Graph.elem? at he ⊢
  rw [this]
  exact he

theorem ksat_processNodes {d : SDevice} {ord : List Nat → List Nat} (hord : ∀ l, (ord l).Perm l) {is : List Nat} : ∀ {g : Graph},
    Sound d g → is.Nodup → (∀ k ∈ is, Waits g k) → KSat (processNodes ord g is) := by
  induction is with
  | nil => intro g _ _ _; exact sat_pure _
  | cons i is ih =>
    intro g S hnd hw
    obtain ⟨hnd1, hnd2⟩ := List.nodup_cons.1 hnd
    obtain ⟨lab, A⟩ := S.1
    refine sat_bind' (ksat_processNode hord A (hw i (by simp))) fun g1 w h1 => ?_
    obtain ⟨S1, hk⟩ := sound_processNode hord S h1
    exact ih S1 hnd2 fun k hm => hk k (hw k (by simp [hm])) (by rintro rfl; exact hnd1 hm)

theorem sound_processNodes {d : SDevice} {ord : List Nat → List Nat} (hord : ∀ l, (ord l).Perm l) {is : List Nat} : ∀ {g g' : Graph} {ws : List Warn},
    Sound d g → processNodes ord g is = .ok g' ws → Sound d g' := by
  induction is with
  | nil =>
    intro g g' ws S hr
    simp only [processNodes, M.pure_eq_ok] at hr
    exact hr.1 ▸ S
  | cons i is ih =>
    intro g g' ws S hr
    simp only [processNodes, M.bind_eq_ok] at hr
    obtain ⟨g1, w1, w2, h1, h2, -⟩ := hr
    exact ih (sound_processNode hord S h1).1 h2

theorem sound_resolvePlaceholder {d : SDevice} {g g' : Graph} {k : Nat} {ws : List Warn} (S : Sound d g)
    (hr : resolvePlaceholder g k = .ok g' ws) : Sound d g' := by
  obtain ⟨⟨lab, A⟩, H, L⟩ := S
  refine ⟨⟨lab, (at_resolvePlaceholder A hr).1⟩, held_resolvePlaceholder A H hr, ?_⟩
  obtain ⟨path, hn, hc⟩ := resolvePlaceholder_cases hr
  rcases hc with rfl | ⟨i, e, b, w, h1, h2, h3, h4⟩
  · exact L
  · obtain ⟨hw, hnode, hedge⟩ := removePlaceholder_wf A.inv.wf (i := k) (by rw [hn]; rfl)
    have hg := (rawAddEdge_nodes h4).1
    have hpl : g'.placeholders = g.placeholders.filter (· != k) := by rw [hg]; rfl
    have hno : ∀ j, g'.node? j = if j = k then none else g.node? j := by
      intro j
      rw [← hnode j]
      unfold Graph.node?
      rw [hg]
    refine ⟨by rw [hpl]; exact L.1.filter _, fun j => ?_⟩
    unfold IsP
    rw [hpl, List.mem_filter, L.2, hno]
    unfold IsP
    by_cases hj : j = k
    · simp [hj]
    · simp [hj]

theorem ksat_resolvePlaceholder {d : SDevice} {g : Graph} (S : Sound d g) (k : Nat) (hp : IsP g k) : KSat (resolvePlaceholder g k) := by
  obtain ⟨⟨lab, A⟩, H, L⟩ := S
  unfold resolvePlaceholder
  split
  · rename_i path hk
    obtain ⟨p, h1, -, -⟩ := placeholderParent_total H A.lab.typed ⟨_, hk⟩
    refine sat_bind (ksat_ex ⟨_, h1⟩) fun _ => ?_
    split
    · exact sat_pure _
    · obtain ⟨c, h2, -, -⟩ := placeholderChild_total H A.lab.typed ⟨_, hk⟩
      refine sat_bind (ksat_ex ⟨_, h2⟩) fun _ => ?_
      split
      · exact sat_throw trivial
      · refine sat_bind (ksat_pathResolving _ _ _ _) fun o => ?_
        cases o with
        | none => exact sat_pure _
        | some b => exact (by unfold Graph.rawAddEdge; sats)
  · rename_i hk
    obtain ⟨path, hp⟩ := hp
    exact absurd hp (hk path)

/-- The other placeholders stay. -/
theorem others_resolvePlaceholder {d : SDevice} {g g' : Graph} {k : Nat} {ws : List Warn} (S : Sound d g)
    (hr : resolvePlaceholder g k = .ok g' ws) {j : Nat} (hj : j ≠ k) (hp : IsP g j) : IsP g' j := by
  obtain ⟨⟨lab, A⟩, H, L⟩ := S
  obtain ⟨path, hn, hc⟩ := resolvePlaceholder_cases hr
  rcases hc with rfl | ⟨i, e, b, w, h1, h2, h3, h4⟩
  · exact hp
  · obtain ⟨hw, hnode, hedge⟩ := removePlaceholder_wf A.inv.wf (i := k) (by rw [hn]; rfl)
    have hg := (rawAddEdge_nodes h4).1
    have hno : g'.node? j = g.node? j := by
      have := hnode j
      rw [if_neg hj] at this
      rw [← this]
      unfold Graph.node?
      rw [hg]
    unfold IsP
    rw [hno]
    exact hp

theorem ksat_resolvePlaceholders {d : SDevice} {phs : List Nat} : ∀ {g : Graph}, Sound d g → phs.Nodup → (∀ k ∈ phs, IsP g k) →
    KSat (resolvePlaceholders g phs) := by
  induction phs with
  | nil => intro g _ _ _; exact sat_pure _
  | cons k ks ih =>
    intro g S hnd hp
    obtain ⟨hnd1, hnd2⟩ := List.nodup_cons.1 hnd
    exact sat_bind' (ksat_resolvePlaceholder S k (hp k (by simp))) fun g1 w h1 => ih (sound_resolvePlaceholder S h1) hnd2
      fun j hj => others_resolvePlaceholder S h1 (by rintro rfl; exact hnd1 hj) (hp j (by simp [hj]))

theorem sound_resolvePlaceholders {d : SDevice} {phs : List Nat} : ∀ {g g' : Graph} {ws : List Warn}, Sound d g →
    resolvePlaceholders g phs = .ok g' ws → Sound d g' := by
  induction phs with
  | nil =>
    intro g g' ws S hr
    simp only [resolvePlaceholders, M.pure_eq_ok] at hr
    exact hr.1 ▸ S
  | cons k ks ih =>
    intro g g' ws S hr
    simp only [resolvePlaceholders, M.bind_eq_ok] at hr
    obtain ⟨g1, w1, w2, h1, h2, -⟩ := hr
    exact ih (sound_resolvePlaceholder S h1) h2

/-- What contains what, in the graph. -/
theorem ch_rank {d : SDevice} {g : Graph} {lab : Nat → Pos} (A : LabAt d g lab) {a b : Nat} (h : Ch g a b) :
    ∃ ea eb, g.elem? a = some ea ∧ g.elem? b = some eb ∧
      (kindRank ea.level < kindRank eb.level ∨ (ea.level = .cluster ∧ eb.level = .cluster)) := by
  obtain ⟨⟨ea, hea⟩, ⟨eb, heb⟩⟩ := A.lab.tch a b h
  obtain ⟨p, q, hp, hq, hk⟩ := hasChild_deeper (A.lab.hasChild h id)
  obtain ⟨p', hp'⟩ := A.lab.node a ea hea
  obtain ⟨q', hq'⟩ := A.lab.node b eb heb
  refine ⟨ea, eb, hea, heb, ?_⟩
  rw [hp'.level, hq'.level, declAt_unique hp'.decl hp, declAt_unique hq'.decl hq]
  exact hk

theorem sorted_waits {d : SDevice} {g : Graph} (S : Sound d g) {k : Nat} (hk : k ∈ sortedProcessable g) : Waits g k := by
  obtain ⟨⟨lab, A⟩, -, -⟩ := S
  obtain ⟨e, he, hp⟩ := unprocessed_iff.1 (sorted_sub.2 k hk)
  refine ⟨e, he, hp, ?_⟩
  intro hdev
  have hl : e.level = .device := by rw [(A.inv.nodes.elem he).2.1, hdev]; rfl
  have hno : ∀ a, ¬ Ch g a k := by
    intro a ha
    obtain ⟨ea, eb, -, h2, h3⟩ := ch_rank A ha
    rw [he] at h2
    injection h2 with h2
    rw [← h2, hl] at h3
    rcases h3 with h3 | ⟨-, h3⟩
    · simp [kindRank] at h3
    · cases h3
  have h1 := (List.mem_filter.1 (topoGo_sub.2 k hk)).1
  unfold processableNodes at h1
  have h2 := (List.mem_filter.1 h1).2
  rw [List.contains_iff_mem, mem_closure] at h2
  obtain ⟨s, hs, hr⟩ := h2
  rcases hr with rfl | hr
  · have h3 := (List.mem_filter.1 (List.mem_filter.1 hs).1).2
    unfold Graph.hasIncoming at h3
    rw [List.any_eq_true] at h3
    obtain ⟨ed, h4, h5⟩ := h3
    unfold Graph.inEdges at h4
    rw [List.mem_filter, beq_iff_eq] at h4
    rw [beq_iff_eq] at h5
    refine hno ed.src ?_
    rw [← h4.2]
    exact ch_iff.2 ⟨ed, h4.1, rfl, rfl, by simp [isChildEdge, h5]⟩
  · obtain ⟨ed, h4, h5, -⟩ := conn_last hr
    rw [List.mem_filter, Bool.and_eq_true, Bool.and_eq_true] at h4
    refine hno ed.src ?_
    rw [← h5]
    exact ch_iff.2 ⟨ed, h4.1, rfl, rfl, h4.2.1.1⟩

theorem ksat_rounds {d : SDevice} {ord : List Nat → List Nat} (hord : ∀ l, (ord l).Perm l) {f : Nat} : ∀ {g : Graph} {prev : List Nat}, Sound d g →
    KSat (rounds ord f g prev) := by
  induction f with
  | zero => intro g prev _; exact sat_throw trivial
  | succ f ih =>
    intro g prev S
    rw [rounds]
    refine sat_bind' (ksat_resolvePlaceholders S S.2.2.1 fun k hk => (S.2.2.2 k).1 hk) fun g1 w h1 => ?_
    have S1 := sound_resolvePlaceholders S h1
    dsimp only
    split
    · exact sat_pure _
    · split
      · exact sat_throw trivial
      · refine sat_bind' (ksat_processNodes hord S1 sorted_sub.1 fun k hk => sorted_waits S1 hk) fun g2 w2 h2 => ?_
        exact ih (sound_processNodes hord S1 h2)

theorem sound_rounds {d : SDevice} {ord : List Nat → List Nat} (hord : ∀ l, (ord l).Perm l) {f : Nat} : ∀ {g g' : Graph} {prev : List Nat} {ws : List Warn},
    Sound d g → rounds ord f g prev = .ok g' ws → Sound d g' := by
  induction f with
  | zero => intro g g' prev ws _ hr; simp [rounds] at hr
  | succ f ih =>
    intro g g' prev ws S hr
    rw [rounds] at hr
    simp only [M.bind_eq_ok] at hr
    obtain ⟨g1, w1, w2, h1, h2, -⟩ := hr
    have S1 := sound_resolvePlaceholders S h1
    split at h2
    · simp only [M.pure_eq_ok] at h2
      exact h2.1 ▸ S1
    · split at h2
      · simp at h2
      · simp only [M.bind_eq_ok] at h2
        obtain ⟨g2, w3, w4, h3, h4, -⟩ := h2
        exact ih (sound_processNodes hord S1 h3) h4

theorem sound_initialization {d : SDevice} {g : Graph} {ws : List Warn} (hr : initialization d = .ok g ws) : Sound d g := by
  obtain ⟨g', h1, h2, h3⟩ := initialization_total d
  rw [h1] at hr
  injection hr with hr _
  subst hr
  obtain ⟨lab, hl, -⟩ := lab_initialization h1
  exact ⟨⟨lab, inv_initialization h1, ac_initialization h1, hl⟩, h2, h3⟩

theorem ksat_unresolvedInfo {d : SDevice} {g : Graph} (S : Sound d g) : KSat (unresolvedInfo g g.placeholders) := by
  obtain ⟨⟨lab, A⟩, H, L⟩ := S
  have : ∀ phs, (∀ k ∈ phs, IsP g k) → KSat (unresolvedInfo g phs) := by
    intro phs
    induction phs with
    | nil => intro _; exact sat_pure _
    | cons k ks ih =>
      intro h
      obtain ⟨c, h1, -, -⟩ := placeholderChild_total H A.lab.typed (h k (by simp))
      exact sat_bind (ksat_ex ⟨_, h1⟩) fun _ => ih fun k hk => h k (by simp [hk])
  exact this _ fun k hk => (L.2 k).1 hk

end Svd
