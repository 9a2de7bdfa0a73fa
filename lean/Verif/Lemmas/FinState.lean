import Verif.Lemmas.InvRun
import Verif.Lemmas.Fin
/- The result of the resolver: every element of the intermediate tree is made from declared elements. -/
namespace Svd
open Graph Spec

/-- Made from the declared elements of the list, up to the adjustment of the size (`_calculate_size`). -/
def MadeS (d : SDevice) (ch : List Parsed) (x : Processed) : Prop :=
  ∃ x0, Made d ch x0 ∧ (x = x0 ∨ (∃ p t, ch = p :: t ∧ (p.level = .peripheral ∨ p.level = .cluster)) ∧ ∃ s, x = x0.withSize s)

/-- The containers of a field at the given position. -/
def ContsOK (d : SDevice) (W : Warn → Prop) (lsb msb : Int) (cs : List IEnumContainer) : Prop :=
  (∀ c ∈ cs, ∃ ec w, Declared d (.enum ec) ∧ createContainer ec lsb msb = .ok c w ∧ ∀ x ∈ w, W x) ∧
  (cs.map (·.usage)).Nodup ∧ cs.length ≤ 2 ∧
  (cs.length = 2 → ∀ c ∈ cs, c.usage = .read ∨ c.usage = .write)

def OkField (d : SDevice) (W : Warn → Prop) (f : IField) : Prop :=
  (∃ ch, MadeS d ch (.field f.hd)) ∧ ContsOK d W f.hd.lsb f.hd.msb f.containers

inductive OkRC (d : SDevice) (W : Warn → Prop) : IRC → Prop
  | reg {r fs ch} : MadeS d ch (.reg r) → (∀ f ∈ fs, OkField d W f) → fs.Pairwise (fun a b => ifLe a b = true) →
      OkRC d W (.reg r fs)
  | clu {c xs ch} : MadeS d ch (.clu c) → (∀ x ∈ xs, OkRC d W x) → xs.Pairwise (fun a b => ircLe a b = true) →
      OkRC d W (.clu c xs)

def OkPeriph (d : SDevice) (W : Warn → Prop) (p : IPeripheral) : Prop :=
  (∃ ch, MadeS d ch (.periph p.hd)) ∧ (∀ x ∈ p.rcs, OkRC d W x) ∧ p.rcs.Pairwise (fun a b => ircLe a b = true)

/-- The node differs from the original one by its size only. -/
def NodeRel (e0 e : ElemNode) : Prop :=
  ∃ o, e = { e0 with processed := o } ∧
    (o = e0.processed ∨ (e0.level = .peripheral ∨ e0.level = .cluster) ∧
      ∃ x z, e0.processed = some x ∧ o = some (x.withSize z))

def ContentOK (d : SDevice) (W : Warn → Prop) (g0 : Graph) (i : Nat) : Content → Prop
  | .conts cs => ∃ e f, g0.elem? i = some e ∧ e.processed = some (.field f) ∧ ContsOK d W f.lsb f.msb cs
  | .fields fs => (∀ f ∈ fs, OkField d W f) ∧ fs.Pairwise (fun a b => ifLe a b = true)
  | .rcs xs => (∀ x ∈ xs, OkRC d W x) ∧ xs.Pairwise (fun a b => ircLe a b = true)

structure FinInv (d : SDevice) (W : Warn → Prop) (g0 : Graph) (s : FinState) : Prop where
  nodes : ∀ i e, s.g.elem? i = some e → ∃ e0, g0.elem? i = some e0 ∧ NodeRel e0 e
  content : ∀ i c, s.content.lookup i = some c → ContentOK d W g0 i c
  resolved : ∀ ps, s.resolved = some ps → (∀ p ∈ ps, OkPeriph d W p) ∧ ps.Pairwise (fun a b => ipLe a b = true)

theorem withSize_withSize (x : Processed) (a b : Int) : (x.withSize a).withSize b = x.withSize b := by cases x <;> rfl

theorem NodeRel.made {d : SDevice} {e0 e : ElemNode} (h : NodeRel e0 e) (hn : NodeOK d (.elem e0)) {x : Processed}
    (hx : e.processed = some x) : ∃ ch, MadeS d ch x := by
  obtain ⟨o, rfl, h1 | ⟨hl, y, z, h1, h2⟩⟩ := h
  · simp only at hx
    rw [h1] at hx
    obtain ⟨-, -, ch, hm⟩ := hn.2.2.2.1 x hx
    exact ⟨_, x, hm, Or.inl rfl⟩
  · simp only at hx
    rw [h2] at hx
    simp only [Option.some.injEq] at hx
    obtain ⟨-, -, ch, hm⟩ := hn.2.2.2.1 y h1
    exact ⟨_, y, hm, Or.inr ⟨⟨_, _, rfl, by rw [← hn.2.1]; exact hl⟩, z, hx.symm⟩⟩

theorem NodeRel.field {e0 e : ElemNode} (h : NodeRel e0 e) {f : IFieldHd} (hx : e.processed = some (.field f)) :
    e0.processed = some (.field f) := by
  obtain ⟨o, rfl, h1 | ⟨-, y, z, h1, h2⟩⟩ := h
  · simp only at hx; rw [← h1]; exact hx
  · simp only at hx
    rw [h2] at hx
    cases y with
    | field y => rw [h1]; exact hx
    | _ => simp [Processed.withSize] at hx

theorem NodeRel.set {e0 e : ElemNode} (h : NodeRel e0 e) {x : Processed} (hx : e.processed = some x)
    (hl : e.level = .peripheral ∨ e.level = .cluster) (z : Int) :
    NodeRel e0 { e with processed := some (x.withSize z) } := by
  obtain ⟨o, rfl, h1 | ⟨-, y, z', h1, h2⟩⟩ := h
  · simp only at hx
    exact ⟨_, rfl, Or.inr ⟨hl, x, z, by rw [← h1]; exact hx, rfl⟩⟩
  · simp only at hx
    rw [h2] at hx
    simp only [Option.some.injEq] at hx
    subst hx
    exact ⟨_, rfl, Or.inr ⟨hl, y, z, h1, by rw [withSize_withSize]⟩⟩

theorem procOf_ok {g : Graph} {i : Nat} {p : Processed} {ws : List Warn} (h : procOf g i = .ok p ws) :
    ∃ e, g.elem? i = some e ∧ e.processed = some p ∧ ws = [] := by
  unfold procOf at h
  split at h
  · simp at h
  · rename_i e he
    split at h
    · simp at h
    · rename_i p' hp
      simp only [M.pure_eq_ok] at h
      obtain ⟨rfl, rfl⟩ := h
      exact ⟨e, he, hp, rfl⟩

theorem templateOf_ok {g : Graph} {i : Nat} {b : Bool} {ws : List Warn} (h : templateOf g i = .ok b ws) :
    ∃ e, g.elem? i = some e ∧ e.isDimTemplate = b ∧ ws = [] := by
  unfold templateOf at h
  split at h
  · simp at h
  · rename_i e he
    simp only [M.pure_eq_ok] at h
    exact ⟨e, he, h.1, h.2⟩

theorem collect_ok {α : Type} {s : FinState} {pick : Nat → Processed → M α} {cs : List Nat} {xs : List α}
    {ws : List Warn} (h : collect s pick cs = .ok xs ws) {x : α} (hx : x ∈ xs) :
    ∃ i ∈ cs, ∃ e p w, s.g.elem? i = some e ∧ e.isDimTemplate = false ∧ e.processed = some p ∧ pick i p = .ok x w := by
  unfold collect at h
  obtain ⟨os, he, rfl⟩ := M.filterMapM_eq_ok.1 h
  simp only [List.mem_filterMap, id] at hx
  obtain ⟨o, ho, rfl⟩ := hx
  obtain ⟨i, hi, w, hw⟩ := he.mem ho
  simp only [M.bind_eq_ok] at hw
  obtain ⟨t, w1, w2, h1, h2, -⟩ := hw
  split at h2
  · simp at h2
  · rename_i ht
    simp only [M.bind_eq_ok, M.pure_eq_ok, Option.some.injEq] at h2
    obtain ⟨p, w3, w4, h3, ⟨y, w5, w6, h4, ⟨rfl, -⟩, -⟩, -⟩ := h2
    obtain ⟨e, he, h5, -⟩ := templateOf_ok h1
    obtain ⟨e', he', h6, -⟩ := procOf_ok h3
    rw [he] at he'
    simp only [Option.some.injEq] at he'
    subst he'
    exact ⟨i, hi, e, p, w5, he, by rw [h5]; simpa using ht, h6, h4⟩

section
variable {d : SDevice} {W : Warn → Prop} {g0 : Graph} {s : FinState}

theorem FinInv.made (h : FinInv d W g0 s) (hn : AllN (NodeOK d) g0) {i : Nat} {e : ElemNode} {x : Processed}
    (he : s.g.elem? i = some e) (hx : e.processed = some x) : ∃ ch, MadeS d ch x := by
  obtain ⟨e0, h0, hr⟩ := h.nodes i e he
  exact hr.made (hn.elem h0) hx

theorem FinInv.fieldsOK (h : FinInv d W g0 s) (i : Nat) :
    (∀ f ∈ s.fields i, OkField d W f) ∧ (s.fields i).Pairwise (fun a b => ifLe a b = true) := by
  unfold FinState.fields
  split
  · rename_i fs hl
    exact h.content i _ hl
  · simp

theorem FinInv.rcsOK (h : FinInv d W g0 s) (i : Nat) :
    (∀ x ∈ s.rcs i, OkRC d W x) ∧ (s.rcs i).Pairwise (fun a b => ircLe a b = true) := by
  unfold FinState.rcs
  split
  · rename_i fs hl
    exact h.content i _ hl
  · simp

theorem contsOK_nil {lsb msb : Int} : ContsOK d W lsb msb [] := by
  refine ⟨by simp, by simp, by simp, by simp⟩

theorem pickField_ok (h : FinInv d W g0 s) (hn : AllN (NodeOK d) g0) {i : Nat} {e : ElemNode} {p : Processed}
    {f : IField} {w : List Warn} (he : s.g.elem? i = some e) (hp : e.processed = some p)
    (hk : pickField s i p = .ok f w) : OkField d W f := by
  unfold pickField at hk
  split at hk
  · rename_i hd
    simp only [M.pure_eq_ok] at hk
    obtain ⟨rfl, -⟩ := hk
    refine ⟨h.made hn he hp, ?_⟩
    unfold FinState.conts
    split
    · rename_i cs hl
      obtain ⟨e1, f1, h1, h2, h3⟩ := h.content i _ hl
      obtain ⟨e0, h0, hr⟩ := h.nodes i e he
      rw [h0] at h1
      simp only [Option.some.injEq] at h1
      subst h1
      rw [hr.field hp] at h2
      simp only [Option.some.injEq, Processed.field.injEq] at h2
      subst h2
      exact h3
    · exact contsOK_nil
  · simp at hk

theorem pickRC_ok (h : FinInv d W g0 s) (hn : AllN (NodeOK d) g0) {i : Nat} {e : ElemNode} {p : Processed}
    {x : IRC} {w : List Warn} (he : s.g.elem? i = some e) (hp : e.processed = some p)
    (hk : pickRC s i p = .ok x w) : OkRC d W x := by
  unfold pickRC at hk
  split at hk
  · simp only [M.pure_eq_ok] at hk
    obtain ⟨rfl, -⟩ := hk
    obtain ⟨ch, hm⟩ := h.made hn he hp
    exact .reg hm (h.fieldsOK i).1 (h.fieldsOK i).2
  · simp only [M.pure_eq_ok] at hk
    obtain ⟨rfl, -⟩ := hk
    obtain ⟨ch, hm⟩ := h.made hn he hp
    exact .clu hm (h.rcsOK i).1 (h.rcsOK i).2
  · simp at hk

theorem pickPeripheral_ok (h : FinInv d W g0 s) (hn : AllN (NodeOK d) g0) {i : Nat} {e : ElemNode} {p : Processed}
    {x : IPeripheral} {w : List Warn} (he : s.g.elem? i = some e) (hp : e.processed = some p)
    (hk : pickPeripheral s i p = .ok x w) : OkPeriph d W x := by
  unfold pickPeripheral at hk
  split at hk
  · simp only [M.pure_eq_ok] at hk
    obtain ⟨rfl, -⟩ := hk
    exact ⟨h.made hn he hp, h.rcsOK i⟩
  · simp at hk

theorem lookup_cons_cases {β : Type} {i j : Nat} {c : β} {l : List (Nat × β)} {x : β}
    (h : ((j, c) :: l).lookup i = some x) : (i = j ∧ x = c) ∨ l.lookup i = some x := by
  simp only [List.lookup] at h
  split at h
  · rename_i hij
    simp only [Option.some.injEq] at h
    exact Or.inl ⟨by simpa using hij, h.symm⟩
  · exact Or.inr h

theorem FinInv.push (h : FinInv d W g0 s) {i : Nat} {c : Content} (hc : ContentOK d W g0 i c) :
    FinInv d W g0 { s with content := (i, c) :: s.content } := by
  refine ⟨h.nodes, ?_, h.resolved⟩
  intro j x hx
  rcases lookup_cons_cases hx with ⟨rfl, rfl⟩ | hx
  · exact hc
  · exact h.content j x hx

theorem eraseDups_length_nodup {α : Type} [BEq α] [LawfulBEq α] (l : List α) (h : l.length = l.eraseDups.length) :
    l.Nodup := by
  induction hn : l.length using Nat.strongRecOn generalizing l with
  | _ n ih =>
    cases l with
    | nil => simp
    | cons x xs =>
      rw [List.eraseDups_cons] at h
      simp only [List.length_cons] at h hn
      have le1 : (xs.filter fun b => !b == x).length ≤ xs.length := List.length_filter_le _ _
      have le2 : ∀ l : List α, l.eraseDups.length ≤ l.length := by
        intro l
        induction hm : l.length using Nat.strongRecOn generalizing l with
        | _ m ihm =>
          cases l with
          | nil => simp
          | cons y ys =>
            rw [List.eraseDups_cons]
            simp only [List.length_cons] at hm ⊢
            have := List.length_filter_le (fun b => !b == y) ys
            have := ihm (ys.filter fun b => !b == y).length (by omega) _ rfl
            omega
      have h3 := le2 (xs.filter fun b => !b == x)
      have h4 : (xs.filter fun b => !b == x).length = xs.length := by omega
      have h5 : xs.filter (fun b => !b == x) = xs := List.filter_eq_self.2 (by
        have := List.length_filter_eq_length_iff.1 h4
        exact this)
      rw [h5] at h
      refine List.nodup_cons.2 ⟨?_, ih xs.length (by omega) xs (by omega) rfl⟩
      intro hx
      have := (List.filter_eq_self.1 h5) x hx
      simp at this

theorem finalizeFieldNode_inv (h : FinInv d W g0 s) (hn : AllN (NodeOK d) g0) {i : Nat} {cs : List Nat} {s' : FinState}
    {ws : List Warn} (hr : finalizeFieldNode s i cs = .ok s' ws) (hw : ∀ w ∈ ws, W w) : FinInv d W g0 s' := by
  unfold finalizeFieldNode at hr
  simp only [M.bind_eq_ok] at hr
  obtain ⟨p, w1, w2, h1, h2, rfl⟩ := hr
  split at h2
  · rename_i f
    simp only [M.bind_eq_ok] at h2
    obtain ⟨conts, w3, w4, h3, h4, rfl⟩ := h2
    split at h4
    · simp at h4
    · rename_i hu
      split at h4
      · simp at h4
      · rename_i hlen
        split at h4
        · simp at h4
        · rename_i htwo
          simp only [M.pure_eq_ok] at h4
          obtain ⟨rfl, rfl⟩ := h4
          obtain ⟨e, he, hp, rfl⟩ := procOf_ok h1
          obtain ⟨e0, h0, hrel⟩ := h.nodes i e he
          apply h.push
          refine ⟨e0, f, h0, hrel.field hp, ?_, ?_, by omega, ?_⟩
          · intro c hc
            have hE := M.mapM_eq_ok.1 h3
            have key : ∀ {xs ys ws'}, M.Each (fun c =>
                match s.g.elem? c with
                | none => M.throw .attributeError
                | some ce => match ce.parsed with
                  | .enum ec => createContainer ec f.lsb f.msb
                  | _ => M.throw .attributeError) xs ys ws' → c ∈ ys → (∀ w ∈ ws', W w) →
                ∃ ec w, Declared d (.enum ec) ∧ createContainer ec f.lsb f.msb = .ok c w ∧ ∀ x ∈ w, W x := by
              intro xs ys ws' hE
              induction hE with
              | nil => intro hc; cases hc
              | @cons x y w xs ys ws hx _ ih =>
                intro hc hW
                rcases List.mem_cons.1 hc with rfl | hc
                · split at hx
                  · simp at hx
                  · rename_i ce hce
                    split at hx
                    · rename_i ec hec
                      obtain ⟨ce0, hce0, o, hrel, -⟩ := h.nodes _ _ hce
                      have := (hn.elem hce0).1
                      rw [hrel] at hec
                      simp only at hec
                      rw [hec] at this
                      exact ⟨ec, w, this, hx, fun x hx => hW x (by simp [hx])⟩
                    · simp at hx
                · exact ih hc (fun w hw => hW w (by simp [hw]))
            exact key hE hc (fun w hw' => hw w (by simp [hw']))
          · apply eraseDups_length_nodup
            exact Decidable.of_not_not hu
          · intro hl c hc
            have h8 : ∀ x ∈ conts, ¬ x.usage = Usage.read → x.usage = Usage.write := by
              simpa [hl] using htwo
            by_cases hr : c.usage = .read
            · exact Or.inl hr
            · exact Or.inr (h8 c hc hr)
  · simp at h2

theorem ircLe_total : TotalPre ircLe := totalPre_intStr (fun x : IRC => (x.addressOffset, x.name))
theorem ifLe_total : TotalPre ifLe := totalPre_intStr (fun x : IField => (x.hd.lsb, x.hd.name))
theorem ipLe_total : TotalPre ipLe := totalPre_intStr (fun x : IPeripheral => (x.hd.baseAddress, x.hd.name))

theorem finalizeContainerNode_inv (h : FinInv d W g0 s) (hn : AllN (NodeOK d) g0) {i : Nat} {e : ElemNode}
    {cs : List Nat} {s' : FinState} {ws : List Warn} (he : s.g.elem? i = some e)
    (hl : e.level = .peripheral ∨ e.level = .cluster)
    (hr : finalizeContainerNode s i e cs = .ok s' ws) : FinInv d W g0 s' := by
  unfold finalizeContainerNode at hr
  simp only [M.bind_eq_ok] at hr
  obtain ⟨p, w1, w2, h1, ⟨size, w3, w4, h2, ⟨xs, w5, w6, h3, h4, -⟩, -⟩, -⟩ := hr
  obtain ⟨e', he', hp, -⟩ := procOf_ok h1
  rw [he] at he'
  simp only [Option.some.injEq] at he'
  subst he'
  have hi : (s.g.node? i).isSome := by rw [elem?_node?.1 he]; rfl
  have hs1 : FinInv d W g0 { s with g := s.g.setElem i { e with processed := some (p.withSize size) } } := by
    refine ⟨?_, h.content, h.resolved⟩
    intro j e1 hj
    simp only at hj
    rw [setElem_elem? hi] at hj
    split at hj
    · rename_i hji
      subst hji
      simp only [Option.some.injEq] at hj
      subst hj
      obtain ⟨e0, h0, hrel⟩ := h.nodes j e he
      exact ⟨e0, h0, hrel.set hp hl size⟩
    · exact h.nodes j e1 hj
  simp only [M.pure_eq_ok] at h4
  obtain ⟨rfl, -⟩ := h4
  apply hs1.push
  refine ⟨?_, sortBy_sorted ircLe_total _⟩
  intro x hx
  rw [mem_sortBy] at hx
  obtain ⟨j, -, ej, pj, w, h5, -, h6, h7⟩ := collect_ok h3 hx
  exact pickRC_ok hs1 hn h5 h6 h7

theorem finalizeNode_inv (h : FinInv d W g0 s) (hn : AllN (NodeOK d) g0) {i : Nat} {cs : List Nat} {s' : FinState}
    {ws : List Warn} (hr : finalizeNode s i cs = .ok s' ws) (hw : ∀ w ∈ ws, W w) : FinInv d W g0 s' := by
  unfold finalizeNode at hr
  split at hr
  · simp at hr
  · rename_i e he
    split at hr
    · simp only [M.pure_eq_ok] at hr
      obtain ⟨rfl, -⟩ := hr
      exact h
    · split at hr
      · simp only [M.bind_eq_ok, M.pure_eq_ok] at hr
        obtain ⟨ps, w1, w2, h1, ⟨rfl, -⟩, -⟩ := hr
        refine ⟨h.nodes, h.content, ?_⟩
        intro qs hq
        simp only [Option.some.injEq] at hq
        subst hq
        refine ⟨?_, sortBy_sorted ipLe_total _⟩
        intro q hq
        rw [mem_sortBy] at hq
        obtain ⟨j, -, ej, pj, w, h5, -, h6, h7⟩ := collect_ok h1 hq
        exact pickPeripheral_ok h hn h5 h6 h7
      · rename_i hl
        exact finalizeContainerNode_inv h hn he (Or.inl hl) hr
      · rename_i hl
        exact finalizeContainerNode_inv h hn he (Or.inr hl) hr
      · simp only [M.bind_eq_ok, M.pure_eq_ok] at hr
        obtain ⟨p, w1, w2, h1, ⟨fs, w3, w4, h2, ⟨rfl, -⟩, -⟩, -⟩ := hr
        apply h.push
        refine ⟨?_, sortBy_sorted ifLe_total _⟩
        intro x hx
        rw [mem_sortBy] at hx
        obtain ⟨j, -, ej, pj, w, h5, -, h6, h7⟩ := collect_ok h2 hx
        exact pickField_ok h hn h5 h6 h7
      · exact finalizeFieldNode_inv h hn hr hw
      · simp at hr

theorem bottomUp_inv (hn : AllN (NodeOK d) g0) {fuel : Nat} {q done : List Nat} {s s' : FinState} {ws : List Warn}
    (h : FinInv d W g0 s) (hr : bottomUp g0 fuel q done s = .ok s' ws) (hw : ∀ w ∈ ws, W w) : FinInv d W g0 s' := by
  induction fuel generalizing q done s ws with
  | zero =>
    cases q with
    | nil =>
      simp only [bottomUp, M.pure_eq_ok] at hr
      obtain ⟨rfl, -⟩ := hr
      exact h
    | cons i q => simp [bottomUp] at hr
  | succ f ih =>
    cases q with
    | nil =>
      simp only [bottomUp, M.pure_eq_ok] at hr
      obtain ⟨rfl, -⟩ := hr
      exact h
    | cons i q =>
      simp only [bottomUp, M.bind_eq_ok] at hr
      obtain ⟨s1, w1, w2, h1, h2, rfl⟩ := hr
      refine ih ?_ h2 (fun w hw' => hw w (by simp [hw']))
      split at h1
      · simp only [M.pure_eq_ok] at h1
        obtain ⟨rfl, -⟩ := h1
        exact h
      · exact finalizeNode_inv h hn h1 (fun w hw' => hw w (by simp [hw']))
end

/-- The final graph of a successful resolution. -/
theorem resolvePeripherals_split {ord : List Nat → List Nat} {fuel : Nat} {d : SDevice} {ps : List IPeripheral}
    {ws : List Warn} (h : resolvePeripherals ord fuel d = .ok ps ws) :
    ∃ g0 g s w1 w2 w3, initialization d = .ok g0 w1 ∧ rounds ord fuel g0 [] = .ok g w2 ∧ g.unprocessed = [] ∧
      finalizeProcessing g = .ok s w3 ∧ s.resolved = some ps ∧ ws = w1 ++ (w2 ++ w3) := by
  unfold resolvePeripherals at h
  simp only [M.bind_eq_ok] at h
  obtain ⟨g0, w1, w2, h1, ⟨g, w3, w4, h2, h3, rfl⟩, rfl⟩ := h
  by_cases hu : g.unprocessed = []
  case neg =>
    rw [if_pos hu] at h3
    simp [M.bind_eq_ok] at h3
  case pos =>
    rw [if_neg (by simpa using hu), M.bind_eq_ok] at h3
    obtain ⟨s, w5, w6, h4, h5, rfl⟩ := h3
    split at h5
    · simp at h5
    · rename_i ps' hps
      simp only [M.pure_eq_ok] at h5
      obtain ⟨rfl, rfl⟩ := h5
      exact ⟨g0, g, s, w1, w3, w5, h1, h2, hu, h4, hps, by simp⟩

theorem resolvePeripherals_ok {ord : List Nat → List Nat} {fuel : Nat} {d : SDevice} {ps : List IPeripheral}
    {ws : List Warn} (h : resolvePeripherals ord fuel d = .ok ps ws) :
    (∀ p ∈ ps, OkPeriph d (· ∈ ws) p) ∧ ps.Pairwise (fun a b => ipLe a b = true) := by
  obtain ⟨g0, g, s, w1, w2, w3, h1, h2, -, h4, h5, rfl⟩ := resolvePeripherals_split h
  have hi := inv_rounds (inv_initialization h1) h2
  have : FinInv d (· ∈ w1 ++ (w2 ++ w3)) g { g := g } := by
    refine ⟨fun i e he => ⟨e, he, e.processed, rfl, Or.inl rfl⟩, by simp, by simp⟩
  exact (bottomUp_inv hi.nodes this h4 (fun w hw => by simp [hw])).resolved ps h5

end Svd
