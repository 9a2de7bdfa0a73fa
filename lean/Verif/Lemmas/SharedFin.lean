import Verif.Lemmas.Shared
import Verif.Lemmas.Traverse
/-
The finalisation on objects does what the finalisation by value does.
-/
namespace Svd
open Graph Spec

/-- Same outcome: the same exception, or related results with the same warnings. -/
def MRel {α β : Type} (R : α → β → Prop) : M α → M β → Prop
  | .ok a w, .ok b w' => w = w' ∧ R a b
  | .err e, .err e' => e = e'
  | _, _ => False

theorem MRel.bind {α β γ δ : Type} {R : α → β → Prop} {Q : γ → δ → Prop} {m : M α} {m' : M β} {f : α → M γ} {f' : β → M δ}
    (h : MRel R m m') (hf : ∀ a b, R a b → MRel Q (f a) (f' b)) : MRel Q (M.bind m f) (M.bind m' f') := by
  cases m with
  | err e =>
    cases m' with
    | err e' => exact h
    | ok b w' => exact h.elim
  | ok a w =>
    cases m' with
    | err e' => exact h.elim
    | ok b w' =>
      obtain ⟨rfl, h⟩ := h
      have := hf a b h
      simp only [M.bind]
      cases h1 : f a with
      | err e =>
        cases h2 : f' b with
        | err e' => rw [h1, h2] at this; exact this
        | ok y w' => rw [h1, h2] at this; exact this.elim
      | ok x w' =>
        cases h2 : f' b with
        | err e' => rw [h1, h2] at this; exact this.elim
        | ok y w'' =>
          rw [h1, h2] at this
          obtain ⟨rfl, h⟩ := this
          exact ⟨rfl, h⟩

theorem MRel.of_eq {α : Type} {R : α → α → Prop} {m m' : M α} (h : m = m') (hR : ∀ a w, m = .ok a w → R a a) : MRel R m m' := by
  subst h
  cases m with
  | err e => exact rfl
  | ok a w => exact ⟨rfl, hR a w rfl⟩

theorem entrywise_insert {α β : Type} {R : α → β → Prop} {le : α → α → Bool} {le' : β → β → Bool} {x : α} {y : β} (hxy : R x y)
    (hle : ∀ b b', R b b' → le x b = le' y b') {l : List α} {m : List β} (h : Entrywise R l m) :
    Entrywise R (insertBy le x l) (insertBy le' y m) := by
  induction h with
  | nil => exact .cons hxy .nil
  | cons h1 h2 ih =>
    rename_i a b as bs
    simp only [insertBy]
    rw [hle a b h1]
    split
    · exact .cons hxy (.cons h1 h2)
    · exact .cons h1 ih

theorem entrywise_sort {α β : Type} {R : α → β → Prop} {le : α → α → Bool} {le' : β → β → Bool}
    (hle : ∀ a a' b b', R a a' → R b b' → le a b = le' a' b') {l : List α} {m : List β} (h : Entrywise R l m) :
    Entrywise R (sortBy le l) (sortBy le' m) := by
  induction h with
  | nil => exact .nil
  | cons h1 _ ih => exact entrywise_insert h1 (fun b b' hb => hle _ _ b b' h1 hb) ih

theorem entrywise_map_eq {α β γ : Type} {R : α → β → Prop} {f : α → γ} {f' : β → γ} (hf : ∀ a b, R a b → f a = f' b)
    {l : List α} {m : List β} (h : Entrywise R l m) : l.map f = m.map f' := by
  induction h with
  | nil => rfl
  | cons h1 _ ih => rw [List.map_cons, List.map_cons, hf _ _ h1, ih]

theorem entrywise_of_map {α β γ : Type} {f : α → γ} {f' : β → γ} : ∀ {l : List α} {m : List β}, l.map f = m.map f' →
    Entrywise (fun a b => f a = f' b) l m
  | [], [], _ => .nil
  | [], _ :: _, h => by simp at h
  | _ :: _, [], h => by simp at h
  | _ :: _, _ :: _, h => by
    simp only [List.map_cons, List.cons.injEq] at h
    exact .cons h.1 (entrywise_of_map h.2)

theorem entrywise_filter {α β : Type} {R : α → β → Prop} {f : α → Bool} {f' : β → Bool} (hf : ∀ a b, R a b → f a = f' b)
    {l : List α} {m : List β} (h : Entrywise R l m) : Entrywise R (l.filter f) (m.filter f') := by
  induction h with
  | nil => exact .nil
  | cons h1 _ ih =>
    rename_i a b as bs _
    simp only [List.filter_cons]
    rw [hf a b h1]
    split
    · exact .cons h1 ih
    · exact ih

/-! ### reading -/

theorem readAll_some {α : Type} {read : Nat → Option α} {os : List Nat} {xs : List α} :
    readAll read os = some xs ↔ Entrywise (fun o x => read o = some x) os xs := by
  induction os generalizing xs with
  | nil =>
    simp only [readAll, Option.some.injEq]
    constructor
    · rintro rfl; exact .nil
    · intro h; cases h; rfl
  | cons o os ih =>
    simp only [readAll]
    constructor
    · intro h
      cases h1 : read o with
      | none => rw [h1] at h; simp at h
      | some x =>
        cases h2 : readAll read os with
        | none => rw [h1, h2] at h; simp at h
        | some ys =>
          rw [h1, h2] at h
          simp only [Option.some.injEq] at h
          subst h
          exact .cons h1 (ih.1 h2)
    · intro h
      cases h with
      | cons h1 h2 =>
        rw [h1, ih.2 h2]

theorem readAll_congr {α : Type} {read read' : Nat → Option α} {os : List Nat} (h : ∀ o ∈ os, read o = read' o) :
    readAll read os = readAll read' os := by
  induction os with
  | nil => rfl
  | cons o os ih =>
    simp only [readAll]
    rw [h o (by simp), ih fun x hx => h x (by simp [hx])]

/-- Two heaps with the same objects in `X`. -/
def AgreeOn (X : Nat → Prop) (h h' : Heap) : Prop :=
  ∀ o, X o → h'.head o = h.head o ∧ h'.kids o = h.kids o ∧ h'.conts o = h.conts o

theorem readField_agree {X : Nat → Prop} {h h' : Heap} (ha : AgreeOn X h h') {o : Nat} (ho : X o) :
    readField h' o = readField h o := by
  unfold readField
  rw [(ha o ho).1, (ha o ho).2.2]

theorem readRC_agree {X : Nat → Prop} {h h' : Heap} (ha : AgreeOn X h h') (hX : ∀ o, X o → ∀ k ∈ h.kids o, X k) :
    ∀ f o, X o → readRC h' f o = readRC h f o := by
  intro f
  induction f with
  | zero => intro o _; rfl
  | succ f ih =>
    intro o ho
    simp only [readRC]
    rw [(ha o ho).1, (ha o ho).2.1]
    rw [readAll_congr (read := readField h') (read' := readField h) fun k hk => readField_agree ha (hX o ho k hk),
      readAll_congr (read := readRC h' f) (read' := readRC h f) fun k hk => ih k (hX o ho k hk)]

theorem readPeripheral_agree {X : Nat → Prop} {h h' : Heap} (ha : AgreeOn X h h') (hX : ∀ o, X o → ∀ k ∈ h.kids o, X k)
    (f o : Nat) (ho : X o) : readPeripheral h' f o = readPeripheral h f o := by
  unfold readPeripheral
  rw [(ha o ho).1, (ha o ho).2.1, readAll_congr (read := readRC h' f) (read' := readRC h f) fun k hk => readRC_agree ha hX f k (hX o ho k hk)]

theorem readRC_mono {h : Heap} : ∀ f o x, readRC h f o = some x → readRC h (f + 1) o = some x := by
  intro f
  induction f with
  | zero => intro o x hx; cases hx
  | succ f ih =>
    intro o x hx
    unfold readRC at hx ⊢
    split at hx
    · rename_i r hr
      exact hx
    · rename_i c hc
      obtain ⟨xs, h1, h2⟩ := Option.map_eq_some_iff.1 hx
      rw [readAll_some.2 (entrywise_imp (readAll_some.1 h1) fun o _ y _ hy => ih o y hy)]
      rw [← h2]; rfl
    · cases hx

theorem readPeripheral_mono {h : Heap} {f o : Nat} {x : IPeripheral} (hx : readPeripheral h f o = some x) :
    readPeripheral h (f + 1) o = some x := by
  unfold readPeripheral at hx ⊢
  split at hx
  · rename_i p hp
    obtain ⟨xs, h1, h2⟩ := Option.map_eq_some_iff.1 hx
    rw [readAll_some.2 (entrywise_imp (readAll_some.1 h1) fun o _ y _ hy => readRC_mono f o y hy)]
    rw [← h2]; rfl
  · cases hx

/-! ### the simulation -/

/-- The sort key of a node. -/
def key0 (g : Graph) (c : Nat) : Int × Str :=
  match head0 g c with
  | some p => p.key
  | none => (0, [])

/-- The objects of the children that are not templates, sorted. -/
def okids (g : Graph) (obj : Nat → Nat) (i : Nat) : List Nat :=
  (sortBy (fun a b => intStrLe (key0 g a) (key0 g b)) ((g.successors i).filter (live g))).map obj

/-- The containers of a field. -/
def contsM (g : Graph) (f : IFieldHd) (cs : List Nat) : M (List IEnumContainer) :=
  M.mapM (fun c =>
    match g.elem? c with
    | none => M.throw .attributeError
    | some ce => match ce.parsed with
      | .enum ec => createContainer ec f.lsb f.msb
      | _ => M.throw .attributeError) cs

/-- The heap has what the node has by value. -/
def ReadsOK (s : FinState) (h : Heap) (obj : Nat → Nat) (f i : Nat) : Prop :=
  ∀ e p, s.g.elem? i = some e → e.processed = some p →
    match p with
    | .field x => readField h (obj i) = some ⟨x, s.conts i⟩
    | .reg r => readRC h f (obj i) = some (.reg r (s.fields i))
    | .clu c => readRC h f (obj i) = some (.clu c (s.rcs i))
    | .periph q => readPeripheral h f (obj i) = some ⟨q, s.rcs i⟩

/-- A node that refers to the object of a finalised node. -/
def Touched (obj : Nat → Nat) (done : List Nat) (j : Nat) : Prop := ∃ k ∈ done, obj k = obj j

/-- The two states after the nodes in `done`. -/
structure Sim (g0 : Graph) (obj cls : Nat → Nat) (E : Nat → Int) (hgt : Nat → Nat) (done : List Nat) (s : FinState) (t : HState)
    (S : Nat → Int) : Prop where
  tg : t.g = g0
  tobj : t.obj = obj
  stage : Stage g0 (· ∈ done) (fun j => S (obj j)) s.g
  head : ∀ i e, g0.elem? i = some e → t.heap.head (obj i) = headIn g0 (Touched obj done) (fun j => S (obj j)) i e.processed
  form : ∀ j ∈ done, Boxed g0 j → S (obj j) = boxSize g0 (fun j => S (obj j)) E j
  classy : Classy g0 cls (· ∈ done) (fun j => S (obj j))
  fresh : ∀ i, i ∉ done → s.content.lookup i = none
  leaf : ∀ i, g0.successors i = [] → s.content.lookup i = none
  empty : ∀ o, (∀ j ∈ done, obj j = o → live g0 j = true → g0.successors j = []) → t.heap.kids o = [] ∧ t.heap.conts o = []
  kids : ∀ i ∈ done, live g0 i = true → ∀ e, g0.elem? i = some e → e.level ≠ .field → e.level ≠ .device → t.heap.kids (obj i) = okids g0 obj i
  kidsF : ∀ i ∈ done, ∀ e, g0.elem? i = some e → (e.level = .field ∨ e.level = .device ∨ live g0 i = false) → t.heap.kids (obj i) = []
  conts : ∀ i ∈ done, live g0 i = true → ∀ e f, g0.elem? i = some e → e.processed = some (.field f) → g0.successors i ≠ [] →
    ∃ w, contsM g0 f (g0.successors i) = .ok (t.heap.conts (obj i)) w
  reads : ∀ i ∈ done, live g0 i = true → ReadsOK s t.heap obj done.length i
  res : (s.resolved = none ∧ t.resolved = none) ∨ ∃ ps os, s.resolved = some ps ∧ t.resolved = some os ∧
    Entrywise (fun o p => readPeripheral t.heap done.length o = some p) os ps ∧ ∀ o ∈ os, ∃ c ∈ done, c ∈ g0.successors 0 ∧ live g0 c = true ∧ obj c = o

section
variable {g0 : Graph} {obj cls : Nat → Nat} {E : Nat → Int} {hgt : Nat → Nat} {done : List Nat} {s s1 : FinState} {t t1 : HState} {S S1 : Nat → Int}

theorem view_elem (t : HState) (i : Nat) :
    t.view.elem? i = (t.g.elem? i).map fun e => { e with processed := t.heap.head (t.obj i) } := by
  unfold HState.view Graph.elem? Graph.node?
  simp only [List.getElem?_mapIdx]
  cases h : t.g.nodes[i]? with
  | none => rfl
  | some n =>
    cases n with
    | none => rfl
    | some x => cases x <;> rfl

theorem Sim.view (I : Sim g0 obj cls E hgt done s t S) :
    Stage g0 (Touched obj done) (fun j => S (obj j)) t.view := by
  constructor
  · show t.g.edges = _
    rw [I.tg]
  · show (t.g.nodes.mapIdx _).length = _
    rw [List.length_mapIdx, I.tg]
  · intro i
    rw [view_elem, I.tg, I.tobj]
    cases h : g0.elem? i with
    | none => rfl
    | some e =>
      simp only [Option.map_some]
      rw [I.head i e h]

theorem Coherent.share_live (C : Coherent g0 obj cls E hgt) {a b : Nat} (h : obj a = obj b) : live g0 a = live g0 b := by
  unfold live
  rw [(C.share a b h).1]

theorem Coherent.share_nil (C : Coherent g0 obj cls E hgt) {a b : Nat} (h : obj a = obj b) :
    g0.successors a = [] ↔ g0.successors b = [] := by
  have h1 := (C.share a b h).2.2
  constructor
  · intro h2
    rw [h2] at h1
    exact List.map_eq_nil_iff.1 h1.symm
  · intro h2
    rw [h2] at h1
    exact List.map_eq_nil_iff.1 h1

theorem Coherent.share_boxed (C : Coherent g0 obj cls E hgt) {a b : Nat} (h : obj a = obj b) (hb : Boxed g0 a) : Boxed g0 b := by
  obtain ⟨h1, ⟨e, h2, h3⟩, h4⟩ := hb
  exact ⟨by rw [← C.share_live h]; exact h1, ⟨e, by rw [← (C.share a b h).1]; exact h2, h3⟩, fun h5 => h4 ((C.share_nil h).2 h5)⟩

theorem Coherent.share_okids (C : Coherent g0 obj cls E hgt) {a b : Nat} (h : obj a = obj b) : okids g0 obj a = okids g0 obj b := by
  have h1 := entrywise_of_map (C.share a b h).2.2
  have h2 := entrywise_filter (f := live g0) (f' := live g0) (fun a b hab => C.share_live hab) h1
  have h3 := entrywise_sort (le := fun a b => intStrLe (key0 g0 a) (key0 g0 b)) (le' := fun a b => intStrLe (key0 g0 a) (key0 g0 b))
    (fun a a' b b' ha hb => by
      have h4 : key0 g0 a = key0 g0 a' := by unfold key0 head0; rw [(C.share a a' ha).1]
      have h5 : key0 g0 b = key0 g0 b' := by unfold key0 head0; rw [(C.share b b' hb).1]
      rw [h4, h5]) h2
  exact entrywise_map_eq (fun a b hab => hab) h3

theorem Coherent.share_conts (C : Coherent g0 obj cls E hgt) {a b : Nat} (h : obj a = obj b) (f : IFieldHd) :
    contsM g0 f (g0.successors a) = contsM g0 f (g0.successors b) := by
  have h1 := entrywise_of_map (C.share a b h).2.2
  generalize g0.successors a = l at h1
  generalize g0.successors b = m at h1
  unfold contsM
  induction h1 with
  | nil => rfl
  | cons h2 _ ih =>
    simp only [M.mapM]
    rw [ih, (C.share _ _ h2).1]

theorem touched_down (C : Coherent g0 obj cls E hgt) {q : List Nat} (T : Trav g0 q done) :
    ∀ j, Touched obj done j → ∀ c ∈ g0.successors j, Touched obj done c := by
  rintro j ⟨k, hk, hkj⟩ c hc
  have h1 : obj c ∈ (g0.successors k).map obj := by
    rw [(C.share k j hkj).2.2]
    exact List.mem_map.2 ⟨c, hc, rfl⟩
  obtain ⟨c', h2, h3⟩ := List.mem_map.1 h1
  exact ⟨c', T.ds k hk c' h2, h3⟩

theorem Sim.classyT (C : Coherent g0 obj cls E hgt) (I : Sim g0 obj cls E hgt done s t S) :
    Classy g0 cls (Touched obj done) (fun j => S (obj j)) := by
  rintro a b ⟨a', ha, hoa⟩ ⟨b', hb, hob⟩ ba bb hc
  have := I.classy a' b' ha hb (C.share_boxed hoa.symm ba) (C.share_boxed hob.symm bb)
    (by rw [(C.share a' a hoa).2.1, (C.share b' b hob).2.1, hc])
  simp only at this ⊢
  rw [← hoa, ← hob]
  exact this

theorem Sim.formT (C : Coherent g0 obj cls E hgt) {q : List Nat} (T : Trav g0 q done) (I : Sim g0 obj cls E hgt done s t S) :
    ∀ j, Touched obj done j → Boxed g0 j → S (obj j) = boxSize g0 (fun j => S (obj j)) E j := by
  rintro j ⟨k, hk, hkj⟩ bj
  have bk := C.share_boxed hkj.symm bj
  rw [← hkj, I.form k hk bk]
  exact C.boxSize_eq (I.classyT C) bk bj (C.share k j hkj).2.1
    (touched_down C T k ⟨k, hk, rfl⟩) (touched_down C T j ⟨k, hk, hkj⟩)

/-- The objects of the finalised nodes contain only such objects. -/
theorem Sim.closed (C : Coherent g0 obj cls E hgt) (I : Sim g0 obj cls E hgt done s t S) {q : List Nat} (T : Trav g0 q done) :
    ∀ o, (∃ j ∈ done, obj j = o) → ∀ k ∈ t.heap.kids o, ∃ j ∈ done, obj j = k := by
  rintro o ⟨j, hj, rfl⟩ k hk
  cases he : g0.elem? j with
  | none =>
    rw [(I.empty (obj j) fun k _ hkj hl => by
      unfold live at hl
      rw [(C.share k j hkj).1, he] at hl
      cases hl).1] at hk
    cases hk
  | some e =>
    by_cases h : e.level = .field ∨ e.level = .device ∨ live g0 j = false
    · rw [I.kidsF j hj e he h] at hk
      cases hk
    · simp only [not_or, Bool.not_eq_false] at h
      rw [I.kids j hj h.2.2 e he h.1 h.2.1] at hk
      unfold okids at hk
      obtain ⟨c, hc, rfl⟩ := List.mem_map.1 hk
      have hc' := (sortBy_perm _).mem_iff.1 hc
      exact ⟨c, T.ds j hj c (List.mem_filter.1 hc').1, rfl⟩

/-- One node more. -/
theorem Sim.push (C : Coherent g0 obj cls E hgt) (I : Sim g0 obj cls E hgt done s t S) {i : Nat} {q : List Nat} (T : Trav g0 (i :: q) done)
    (hg : t1.g = t.g) (ho : t1.obj = t.obj) (hS : ∀ j ∈ done, S1 (obj j) = S (obj j))
    (stage : Stage g0 (· ∈ i :: done) (fun j => S1 (obj j)) s1.g)
    (head : ∀ j e, g0.elem? j = some e → t1.heap.head (obj j) = headIn g0 (Touched obj (i :: done)) (fun j => S1 (obj j)) j e.processed)
    (form : ∀ j ∈ i :: done, Boxed g0 j → S1 (obj j) = boxSize g0 (fun j => S1 (obj j)) E j)
    (classy : Classy g0 cls (· ∈ i :: done) (fun j => S1 (obj j)))
    (cont : ∀ j, j ≠ i → s1.content.lookup j = s.content.lookup j)
    (contL : (live g0 i = false ∨ g0.successors i = []) → s1.content.lookup i = none)
    (agree : AgreeOn (fun o => ∃ j ∈ done, obj j = o) t.heap t1.heap)
    (other : ∀ o, (o ≠ obj i ∨ live g0 i = false ∨ g0.successors i = []) → t1.heap.kids o = t.heap.kids o ∧ t1.heap.conts o = t.heap.conts o)
    (kids : live g0 i = true → ∀ e, g0.elem? i = some e → e.level ≠ .field → e.level ≠ .device → g0.successors i ≠ [] →
      t1.heap.kids (obj i) = okids g0 obj i)
    (kidsF : ∀ e, g0.elem? i = some e → (e.level = .field ∨ e.level = .device) → t1.heap.kids (obj i) = t.heap.kids (obj i))
    (conts : live g0 i = true → ∀ e f, g0.elem? i = some e → e.processed = some (.field f) → g0.successors i ≠ [] →
      ∃ w, contsM g0 f (g0.successors i) = .ok (t1.heap.conts (obj i)) w)
    (reads : live g0 i = true → g0.successors i ≠ [] → ReadsOK s1 t1.heap obj (done.length + 1) i)
    (res : (s1.resolved = s.resolved ∧ t1.resolved = t.resolved) ∨ ∃ ps os, s1.resolved = some ps ∧ t1.resolved = some os ∧
      Entrywise (fun o p => readPeripheral t1.heap done.length o = some p) os ps ∧ ∀ o ∈ os, ∃ c ∈ done, c ∈ g0.successors 0 ∧ live g0 c = true ∧ obj c = o) :
    Sim g0 obj cls E hgt (i :: done) s1 t1 S1 := by
  have hnd : i ∉ done := by
    have := T.nodup
    rw [List.cons_append, List.nodup_cons, List.mem_append] at this
    exact fun h => this.1 (Or.inr h)
  have hcl := I.closed C T
  have hempty : (live g0 i = false ∨ g0.successors i = []) → t1.heap.kids (obj i) = [] ∧ t1.heap.conts (obj i) = [] := by
    intro h
    have h1 := other (obj i) (Or.inr h)
    rw [h1.1, h1.2]
    refine I.empty (obj i) ?_
    intro j hj hji hl
    rcases h with h | h
    · rw [C.share_live hji, h] at hl; cases hl
    · exact (C.share_nil hji).2 h
  have hrest : ∀ j, j ∈ done → s1.g.elem? j = s.g.elem? j := by
    intro j hj
    rw [stage.elem, I.stage.elem]
    cases g0.elem? j with
    | none => rfl
    | some e =>
      have : headIn g0 (· ∈ i :: done) (fun j => S1 (obj j)) j e.processed = headIn g0 (· ∈ done) (fun j => S (obj j)) j e.processed := by
        by_cases hb : Boxed g0 j
        · rw [headIn_some hb (List.mem_cons_of_mem _ hj), headIn_some hb hj, hS j hj]
        · rw [headIn_none (fun h => hb h.1), headIn_none (fun h => hb h.1)]
      rw [Option.map_some, Option.map_some, this]
  constructor
  · rw [hg, I.tg]
  · rw [ho, I.tobj]
  · exact stage
  · exact head
  · exact form
  · exact classy
  · intro j hj
    rw [List.mem_cons, not_or] at hj
    rw [cont j hj.1]
    exact I.fresh j hj.2
  · intro j hj
    by_cases h : j = i
    · subst h; exact contL (Or.inr hj)
    · rw [cont j h]; exact I.leaf j hj
  · intro o ho
    by_cases h : o = obj i
    · subst h
      have := ho i (by simp) rfl
      refine hempty ?_
      cases hl : live g0 i with
      | false => exact Or.inl rfl
      | true => exact Or.inr (this hl)
    · rw [(other o (Or.inl h)).1, (other o (Or.inl h)).2]
      exact I.empty o fun j hj => ho j (List.mem_cons_of_mem _ hj)
  · intro j hj hl e he h1 h2
    rcases List.mem_cons.1 hj with rfl | hj
    · by_cases hs : g0.successors j = []
      · rw [(hempty (Or.inr hs)).1]
        unfold okids
        rw [hs]; rfl
      · exact kids hl e he h1 h2 hs
    · rw [(agree (obj j) ⟨j, hj, rfl⟩).2.1]
      exact I.kids j hj hl e he h1 h2
  · intro j hj e he h
    rcases List.mem_cons.1 hj with rfl | hj
    · by_cases hs : g0.successors j = []
      · exact (hempty (Or.inr hs)).1
      · by_cases hl : live g0 j = false
        · exact (hempty (Or.inl hl)).1
        · have hld : e.level = .field ∨ e.level = .device := by
            rcases h with h | h | h
            · exact Or.inl h
            · exact Or.inr h
            · exact absurd h hl
          rw [kidsF e he hld]
          by_cases hx : ∃ k ∈ done, obj k = obj j
          · obtain ⟨k, hk, hkj⟩ := hx
            rw [← hkj]
            exact I.kidsF k hk e (by rw [(C.share k j hkj).1, he]) (hld.elim Or.inl fun h => Or.inr (Or.inl h))
          · exact (I.empty (obj j) fun k hk hkj => absurd ⟨k, hk, hkj⟩ hx).1
    · rw [(agree (obj j) ⟨j, hj, rfl⟩).2.1]
      exact I.kidsF j hj e he h
  · intro j hj hl e f he hf hs
    rcases List.mem_cons.1 hj with rfl | hj
    · exact conts hl e f he hf hs
    · rw [(agree (obj j) ⟨j, hj, rfl⟩).2.2]
      exact I.conts j hj hl e f he hf hs
  · intro j hj hl
    rcases List.mem_cons.1 hj with rfl | hj
    · by_cases hs : g0.successors j = []
      · intro e p he hp
        have hk := hempty (Or.inr hs)
        have hc := contL (Or.inr hs)
        obtain ⟨e0, he0, he1⟩ : ∃ e0, g0.elem? j = some e0 ∧ e.processed = headIn g0 (· ∈ j :: done) (fun j => S1 (obj j)) j e0.processed := by
          rw [stage.elem] at he
          cases h : g0.elem? j with
          | none => rw [h] at he; cases he
          | some e0 =>
            rw [h] at he
            cases he
            exact ⟨e0, rfl, rfl⟩
        have hnb : ¬ Boxed g0 j := fun h => h.2.2 hs
        rw [headIn_none (fun h => hnb h.1)] at he1
        have hh : t1.heap.head (obj j) = some p := by
          rw [head j e0 he0, headIn_none (fun h => hnb h.1), ← he1, hp]
        have hsc : s1.conts j = [] := by unfold FinState.conts; rw [hc]
        have hsf : s1.fields j = [] := by unfold FinState.fields; rw [hc]
        have hsr : s1.rcs j = [] := by unfold FinState.rcs; rw [hc]
        cases p with
        | field x => simp only; unfold readField; rw [hh, hk.2, hsc]
        | reg r => simp only [List.length_cons, readRC]; rw [hh, hk.1, hsf]; rfl
        | clu c => simp only [List.length_cons, readRC]; rw [hh, hk.1, hsr]; rfl
        | periph p => simp only; unfold readPeripheral; rw [hh, hk.1, hsr]; rfl
      · exact reads hl hs
    · intro e p he hp
      rw [hrest j hj] at he
      have hlk : s1.content.lookup j = s.content.lookup j := cont j (fun h => hnd (h ▸ hj))
      have h1 := I.reads j hj hl e p he hp
      have hsc : s1.conts j = s.conts j := by unfold FinState.conts; rw [hlk]
      have hsf : s1.fields j = s.fields j := by unfold FinState.fields; rw [hlk]
      have hsr : s1.rcs j = s.rcs j := by unfold FinState.rcs; rw [hlk]
      rw [List.length_cons]
      cases p with
      | field x => simp only at h1 ⊢; rw [readField_agree agree ⟨j, hj, rfl⟩, hsc]; exact h1
      | reg r => simp only at h1 ⊢; rw [readRC_agree agree hcl _ _ ⟨j, hj, rfl⟩, hsf]; exact readRC_mono _ _ _ h1
      | clu c => simp only at h1 ⊢; rw [readRC_agree agree hcl _ _ ⟨j, hj, rfl⟩, hsr]; exact readRC_mono _ _ _ h1
      | periph p => simp only at h1 ⊢; rw [readPeripheral_agree agree hcl _ _ ⟨j, hj, rfl⟩, hsr]; exact readPeripheral_mono h1
  · rcases res with ⟨h1, h2⟩ | ⟨ps, os, h1, h2, h3, h4⟩
    · rcases I.res with ⟨h3, h4⟩ | ⟨ps, os, h3, h4, h5, h6⟩
      · exact Or.inl ⟨by rw [h1, h3], by rw [h2, h4]⟩
      · refine Or.inr ⟨ps, os, by rw [h1, h3], by rw [h2, h4], ?_, ?_⟩
        · refine entrywise_imp h5 fun o ho p _ hp => ?_
          obtain ⟨c, hc, -, -, hco⟩ := h6 o ho
          rw [readPeripheral_agree agree hcl _ _ ⟨c, hc, hco⟩]
          exact readPeripheral_mono hp
        · intro o ho
          obtain ⟨c, hc, h7⟩ := h6 o ho
          exact ⟨c, List.mem_cons_of_mem _ hc, h7⟩
    · refine Or.inr ⟨ps, os, h1, h2, entrywise_imp h3 fun o _ p _ hp => readPeripheral_mono hp, ?_⟩
      intro o ho
      obtain ⟨c, hc, h7⟩ := h4 o ho
      exact ⟨c, List.mem_cons_of_mem _ hc, h7⟩

/-- Nothing changes in the sizes when the node is not given one. -/
theorem Sim.same (C : Coherent g0 obj cls E hgt) (I : Sim g0 obj cls E hgt done s t S) {i : Nat} (hb : ¬ Boxed g0 i) :
    Stage g0 (· ∈ i :: done) (fun j => S (obj j)) s.g ∧
    (∀ j e, g0.elem? j = some e → t.heap.head (obj j) = headIn g0 (Touched obj (i :: done)) (fun j => S (obj j)) j e.processed) ∧
    (∀ j ∈ i :: done, Boxed g0 j → S (obj j) = boxSize g0 (fun j => S (obj j)) E j) ∧
    Classy g0 cls (· ∈ i :: done) (fun j => S (obj j)) := by
  have hmem : ∀ j, Boxed g0 j → j ∈ i :: done → j ∈ done := by
    intro j hj hm
    rcases List.mem_cons.1 hm with rfl | hm
    · exact absurd hj hb
    · exact hm
  refine ⟨⟨I.stage.edges, I.stage.len, ?_⟩, ?_, ?_, ?_⟩
  · intro j
    rw [I.stage.elem]
    cases g0.elem? j with
    | none => rfl
    | some e =>
      have : headIn g0 (· ∈ done) (fun j => S (obj j)) j e.processed = headIn g0 (· ∈ i :: done) (fun j => S (obj j)) j e.processed := by
        by_cases h : Boxed g0 j ∧ j ∈ done
        · rw [headIn_some h.1 h.2, headIn_some h.1 (List.mem_cons_of_mem _ h.2)]
        · rw [headIn_none h, headIn_none (fun h' => h ⟨h'.1, hmem j h'.1 h'.2⟩)]
      rw [Option.map_some, Option.map_some, this]
  · intro j e he
    rw [I.head j e he]
    by_cases h : Boxed g0 j ∧ Touched obj done j
    · obtain ⟨k, hk, hkj⟩ := h.2
      rw [headIn_some h.1 h.2, headIn_some h.1 ⟨k, List.mem_cons_of_mem _ hk, hkj⟩]
    · rw [headIn_none h, headIn_none]
      rintro ⟨h1, k, hk, hkj⟩
      rcases List.mem_cons.1 hk with rfl | hk
      · exact hb (C.share_boxed hkj.symm h1)
      · exact h ⟨h1, k, hk, hkj⟩
  · intro j hj bj
    exact I.form j (hmem j bj hj) bj
  · intro a b ha hb' ba bb
    exact I.classy a b (hmem a ba ha) (hmem b bb hb') ba bb

/-- Nodes for which nothing is done. -/
theorem Sim.idle (C : Coherent g0 obj cls E hgt) (I : Sim g0 obj cls E hgt done s t S) {i : Nat} {q : List Nat} (T : Trav g0 (i :: q) done)
    (h : live g0 i = false ∨ g0.successors i = []) : Sim g0 obj cls E hgt (i :: done) s t S := by
  have hb : ¬ Boxed g0 i := by
    rintro ⟨h1, -, h3⟩
    rcases h with h | h
    · rw [h] at h1; cases h1
    · exact h3 h
  have hnd : i ∉ done := by
    have := T.nodup
    rw [List.cons_append, List.nodup_cons, List.mem_append] at this
    exact fun h => this.1 (Or.inr h)
  obtain ⟨h1, h2, h3, h4⟩ := I.same C hb
  refine I.push C T rfl rfl (fun _ _ => rfl) h1 h2 h3 h4 (fun _ _ => rfl) (fun _ => I.fresh i hnd) (fun _ _ => ⟨rfl, rfl, rfl⟩)
    (fun _ _ => ⟨rfl, rfl⟩) ?_ (fun _ _ _ => rfl) ?_ ?_ (Or.inl ⟨rfl, rfl⟩)
  · intro hl e he _ _ hs
    rcases h with h | h
    · rw [h] at hl; cases hl
    · exact absurd h hs
  · intro hl e f _ _ hs
    rcases h with h | h
    · rw [h] at hl; cases hl
    · exact absurd h hs
  · intro hl hs
    rcases h with h | h
    · rw [h] at hl; cases hl
    · exact absurd h hs

theorem key_withSize (p : Processed) (z : Int) : (p.withSize z).key = p.key := by cases p <;> rfl

/-- The children collected on the heap. -/
theorem heap_collect {D : Nat → Prop} {S' : Nat → Int} {ok : Processed → Bool} {i : Nat} (st : Stage g0 D S' t.view) (ho : t.obj = obj)
    (h : ∀ c ∈ g0.successors i, ∃ ec p, g0.elem? c = some ec ∧ ec.processed = some p ∧ ok p = true ∧ ∀ z, ok (p.withSize z) = true) :
    t.collect ok (g0.successors i) = .ok (okids g0 obj i) [] := by
  have hp : ∀ c ∈ g0.successors i, ∃ e p, t.view.elem? c = some e ∧ e.processed = some p ∧ ok p = true ∧ p.key = key0 g0 c := by
    intro c hc
    obtain ⟨ec, p, h1, h2, h3, h4⟩ := h c hc
    rw [st.elem, h1]
    have hk : key0 g0 c = p.key := by unfold key0 head0; rw [h1]; simp [h2]
    by_cases hb : Boxed g0 c ∧ D c
    · refine ⟨_, p.withSize (S' c), rfl, ?_, h4 _, by rw [hk, key_withSize]⟩
      show headIn _ _ _ _ _ = _
      rw [headIn_some hb.1 hb.2, h2]; rfl
    · refine ⟨_, p, rfl, ?_, h3, hk.symm⟩
      show headIn _ _ _ _ _ = _
      rw [headIn_none hb, h2]
  obtain ⟨xs, h1, h2⟩ := collect_eq (s := { g := t.view }) (pick := fun i p => if ok p then M.pure (t.obj i, p) else M.throw .attributeError)
    (cs := g0.successors i) (by
      intro c hc
      obtain ⟨e, p, h1, h2, h3, -⟩ := hp c hc
      refine ⟨e, h1, fun _ => ⟨(t.obj c, p), e, p, h1, h2, ?_⟩⟩
      simp only [h3, if_true]
      rfl)
  unfold HState.collect
  rw [h1]
  show M.bind (M.pure xs) _ = _
  rw [M.pure_bind]
  have h3 : Entrywise (fun c x => obj c = x.1 ∧ x.2.key = key0 g0 c) ((g0.successors i).filter (live g0)) xs := by
    have hf : (g0.successors i).filter (live t.view) = (g0.successors i).filter (live g0) :=
      List.filter_congr fun c _ => st.live c
    rw [← hf]
    refine entrywise_imp h2 ?_
    rintro c hc x - ⟨e, p, h3, h4, h5⟩
    obtain ⟨e', p', h6, h7, h8, h9⟩ := hp c (List.mem_filter.1 hc).1
    have h6' : t.view.elem? c = some e := h3
    rw [h6] at h6'
    cases h6'
    rw [h4] at h7
    cases h7
    simp only [h8, if_true] at h5
    cases h5
    exact ⟨by rw [ho], h9⟩
  have h4 := entrywise_sort (le := fun a b => intStrLe (key0 g0 a) (key0 g0 b)) (le' := fun a b => intStrLe a.2.key b.2.key)
    (fun a a' b b' ha hb => by rw [ha.2, hb.2]) h3
  have h5 := entrywise_map_eq (f := obj) (f' := fun x => x.1) (fun a b hab => hab.1) h4
  show M.pure _ = _
  rw [← h5]
  rfl

/-- The children collected by value are those on the heap. -/
theorem value_collect {α : Type} {read : Nat → Option α} {key : α → Int × Str} {le : α → α → Bool}
    (hle : ∀ x y, le x y = intStrLe (key x) (key y)) {i : Nat} {xs : List α}
    (h : Entrywise (fun c x => read (obj c) = some x ∧ key x = key0 g0 c) ((g0.successors i).filter (live g0)) xs) :
    Entrywise (fun o x => read o = some x) (okids g0 obj i) (sortBy le xs) := by
  have h1 := entrywise_sort (le := fun a b => intStrLe (key0 g0 a) (key0 g0 b)) (le' := le)
    (fun a a' b b' ha hb => by rw [hle, ha.2, hb.2]) h
  unfold okids
  have conv : ∀ {l : List Nat} {m : List α}, Entrywise (fun c x => read (obj c) = some x ∧ key x = key0 g0 c) l m →
      Entrywise (fun o x => read o = some x) (l.map obj) m := by
    intro l m h
    induction h with
    | nil => exact .nil
    | cons h1 _ ih => exact .cons h1.1 ih
  exact conv h1

end
end Svd
