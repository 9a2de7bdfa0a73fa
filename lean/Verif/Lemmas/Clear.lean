import Verif.Lemmas.Single
import Verif.Spec.Resolvable
import Verif.Lemmas.PathText
/-
Unambiguous names: looking up a `derivedFrom` path never fails with an error.
-/
namespace Svd
open Graph Spec M

theorem searchGo_one {g : Graph} {ex : Nat} {part : Str} {sub : Nat → M (List Nat)} {nodes : List Nat} : ∀ {ms : List Nat},
    nodes.Nodup → (∀ a ∈ nodes, ∀ b ∈ nodes, g.nameOf a = some part → g.nameOf b = some part → a ≠ ex → b ≠ ex → a = b) →
    (∀ n ∈ nodes, n ≠ ex → g.nameOf n = some part → ∃ cs, sub n = .ok cs [] ∧ cs.length ≤ 1) → ms.length ≤ 1 →
    (ms = [] ∨ ∀ n ∈ nodes, n ≠ ex → g.nameOf n ≠ some part) → ∃ r, searchGo g ex part sub ms nodes = .ok r [] ∧ r.length ≤ 1 := by
  induction nodes with
  | nil => intro ms _ _ _ hm _; exact ⟨ms, rfl, hm⟩
  | cons n ns ih =>
    intro ms hn hu hs hm hc
    obtain ⟨hn1, hn2⟩ := List.nodup_cons.1 hn
    have hu' : ∀ a ∈ ns, ∀ b ∈ ns, g.nameOf a = some part → g.nameOf b = some part → a ≠ ex → b ≠ ex → a = b :=
      fun a ha b hb => hu a (by simp [ha]) b (by simp [hb])
    have hs' : ∀ n ∈ ns, n ≠ ex → g.nameOf n = some part → ∃ cs, sub n = .ok cs [] ∧ cs.length ≤ 1 := fun a ha => hs a (by simp [ha])
    have hc' : ms = [] ∨ ∀ n ∈ ns, n ≠ ex → g.nameOf n ≠ some part := hc.imp id fun h a ha => h a (by simp [ha])
    rw [searchGo]
    by_cases h1 : n = ex
    · rw [if_pos h1]
      exact ih hn2 hu' hs' hm hc'
    rw [if_neg h1]
    by_cases h2 : g.nameOf n = some part
    · rw [if_neg (by simp [h2])]
      obtain ⟨cs, h3, h4⟩ := hs n (by simp) h1 h2
      have hm0 : ms = [] := by
        rcases hc with h | h
        · exact h
        · exact absurd h2 (h n (by simp) h1)
      subst hm0
      rw [h3]
      have hl : ¬ ([] ++ cs).length > 1 := by simp; omega
      obtain ⟨r, h5, h6⟩ := ih (ms := [] ++ cs) hn2 hu' hs' (by simpa using h4) (Or.inr fun a ha hae han => by
        have := hu n (by simp) a (by simp [ha]) h2 han h1 hae
        exact hn1 (this ▸ ha))
      refine ⟨r, ?_, h6⟩
      simp only [M.bind, if_neg hl, h5]
      rfl
    · rw [if_pos h2]
      exact ih hn2 hu' hs' hm hc'

theorem searchNodes_one {g : Graph} {ex : Nat} {lvl : Level} (S : ∀ a, (g.elementChildren a).Nodup) {parts : List Str} : ∀ {nodes : List Nat},
    nodes.Nodup → (∀ n rest, parts = n :: rest → ∀ a ∈ nodes, ∀ b ∈ nodes, g.nameOf a = some n → g.nameOf b = some n → a ≠ ex → b ≠ ex → a = b) →
    (∀ n ∈ parts, ∀ q, ∀ a ∈ g.elementChildren q, ∀ b ∈ g.elementChildren q, g.nameOf a = some n → g.nameOf b = some n → a ≠ ex → b ≠ ex → a = b) →
    ∃ r, searchNodes g ex lvl parts nodes = .ok r [] ∧ r.length ≤ 1 := by
  induction parts with
  | nil => intro nodes _ _ _; exact ⟨[], rfl, by simp⟩
  | cons part parts ih =>
    intro nodes hn hu hd
    rw [searchNodes]
    refine searchGo_one hn (hu part parts rfl) (fun n _ _ _ => ?_) (by simp) (Or.inl rfl)
    cases parts with
    | nil =>
      refine ⟨_, rfl, ?_⟩
      split <;> simp
    | cons q qs =>
      exact ih (S n) (fun m rest hm => by cases hm; exact hd q (by simp) n) fun m hm => hd m (List.mem_cons_of_mem _ hm)

theorem marked_contains {d : SDevice} {x : Pos} (h : Marked d x) (hx : x ≠ []) : ∃ q, DeclAt d x q ∧ kindOf q ≠ .enumcont ∧ Contains listMark (nameOfDecl q) := by
  obtain ⟨p, h1, h2, h3⟩ := h
  refine ⟨p, h1, by rw [kindOf_level]; exact h2, ?_⟩
  rw [← parsed_nameOfDecl (fun h => hx (device_pos h1 (by rw [h]; rfl))) h2]
  exact hasSub_iff.1 h3

mutual
theorem hasChild_ne {d : SDevice} {x y : Pos} : HasChild d x y → y ≠ []
  | .own ⟨k, _, h, _⟩ => by rw [h]; simp
  | .inherited _ h => hasChild_ne h
  | .nested h => nested_ne h
theorem nested_ne {d : SDevice} {x y : Pos} : Nested d x y → y ≠ []
  | .here _ h _ => by rintro rfl; exact device_none h
  | .inherited _ h => nested_ne h
end

/-- Two elements in one element that are called as a name of the path are one. -/
theorem clear_children {d : SDevice} {g : Graph} {lab : Nat → Pos} (hc : Clear d) (A : LabAt d g lab) (K : Kin d g lab) {x : Pos} {p : Parsed} {path n : Str}
    {parts : List Str} (hx : DeclAt d x p) (hp : p.derivedFrom = some path) (hparts : PathNames path parts) (hn : n ∈ parts) {q a b : Nat} (ha : Ch g q a)
    (hb : Ch g q b) (na : g.nameOf a = some n) (nb : g.nameOf b = some n) : a = b := by
  have ca := called_of_name A.inv A.lab na
  have cb := called_of_name A.inv A.lab nb
  have ga := A.lab.hasChild ha id
  have e := hc.distinct x p path parts n _ _ _ hx hp hparts hn ga (A.lab.hasChild hb id) ca cb
  rcases K q q a a b ha ha ha hb e with h | h
  · exact h
  · exfalso
    obtain ⟨r, h1, h2, h3⟩ := marked_contains h (hasChild_ne ga)
    exact hc.single x p path parts n _ r hx hp hparts hn ca h1 h2 h3

theorem pathResolving_total {d : SDevice} {g : Graph} {lab : Nat → Pos} (hc : Clear d) (A : LabAt d g lab) (K : Kin d g lab) (S : Single g) {i : Nat}
    {lvl : Level} {p : Parsed} {path : Str} (hx : DeclAt d (lab i) p) (hp : p.derivedFrom = some path) : ∃ o, pathResolving g i lvl path = .ok o [] := by
  have hparts := pathNames_exists path
  have down : ∀ n ∈ splitC '.' path, ∀ q, ∀ a ∈ g.elementChildren q, ∀ b ∈ g.elementChildren q, g.nameOf a = some n → g.nameOf b = some n → a ≠ i → b ≠ i →
      a = b := fun n hn q a ha b hb na nb _ _ => clear_children hc A K hx hp hparts hn (A.lab.chElem.1 ha) (A.lab.chElem.1 hb) na nb
  have sib : (g.elementSiblings i).Nodup ∧ ∀ n rest, splitC '.' path = n :: rest → ∀ a ∈ g.elementSiblings i, ∀ b ∈ g.elementSiblings i,
      g.nameOf a = some n → g.nameOf b = some n → a ≠ i → b ≠ i → a = b := by
    unfold Graph.elementSiblings
    split
    · exact ⟨List.nodup_nil, by simp⟩
    · rename_i q qs hq
      have hqi : Ch g q i := A.lab.chParents.1 (by rw [hq]; simp)
      refine ⟨(nodup_dedup _).filter _, fun n rest hnr a ha b hb na nb _ _ => ?_⟩
      have key : ∀ a ∈ (g.successors q).filter fun c => g.isElem c && c != i, g.nameOf a = some n → Ch g q a := by
        intro a ha na
        obtain ⟨h1, h2⟩ := List.mem_filter.1 ha
        simp only [Bool.and_eq_true] at h2
        obtain ⟨ed, h3, h4, h5⟩ := mem_successors.1 h1
        have hE : IsE g a := isE_iff.1 h2.1
        have h6 := edge_view h3
        rw [h4, h5] at h6
        rcases h6 with h6 | h6 | h6
        · exact h6
        · exact (hc.apart _ p path n rest _ _ hx hp (hnr ▸ hparts) (A.lab.hasChild hqi id) (A.lab.der _ _ h6) (called_of_name A.inv A.lab na)).elim
        · exfalso
          rcases A.lab.tpl _ _ h6 with ⟨-, h7⟩ | ⟨h7, -⟩
          · exact isE_notP hE h7
          · exact isE_notP (A.lab.tch _ _ hqi).1 h7
      exact clear_children hc A K hx hp hparts (by rw [hnr]; simp) (key a ha na) (key b hb nb) na nb
  obtain ⟨m1, h1, -⟩ := searchNodes_one (lvl := lvl) (fun a => S.children a) sib.1 sib.2 down
  obtain ⟨m2, h2, -⟩ := searchNodes_one (lvl := lvl) (fun a => S.children a) (S.children 0) (fun n rest hnr => down n (by rw [hnr]; simp) 0) down
  unfold pathResolving
  simp only []
  rw [h1, M.bind_ok_nil]
  have : ∃ o, (M.bind (searchNodes g i lvl (splitC '.' path) (g.elementChildren 0)) fun m2 =>
      match m2 with
      | [b] => M.pure (some b)
      | _ => M.pure none) = .ok o [] := by
    rw [h2, M.bind_ok_nil]
    match m2 with
    | [] => exact ⟨_, rfl⟩
    | [_] => exact ⟨_, rfl⟩
    | _ :: _ :: _ => exact ⟨_, rfl⟩
  match m1 with
  | [] => exact this
  | [_] => exact ⟨_, rfl⟩
  | _ :: _ :: _ => exact this

theorem resolvePlaceholder_total {d : SDevice} {g : Graph} {lab : Nat → Pos} (hf : Followable d) (hc : Clear d) (P : Phase d g lab) (N : Neat d g lab)
    (S : Single g) {k : Nat} (hk : IsP g k) : ∃ g', resolvePlaceholder g k = .ok g' [] := by
  have h := P.at_.lab
  have hi := P.at_.inv
  obtain ⟨path, hn⟩ := hk
  obtain ⟨par, h1, h2, h3⟩ := placeholderParent_total N.held h.typed ⟨path, hn⟩
  obtain ⟨c, h4, h5, ⟨ec, he⟩⟩ := placeholderChild_total N.held h.typed ⟨path, hn⟩
  obtain ⟨p, hp1, hp2⟩ := h.ph k c path hn h5
  obtain ⟨o, h6⟩ := pathResolving_total (lvl := ec.level) hc P.at_ N.kin S hp1 hp2
  unfold resolvePlaceholder
  rw [hn]
  simp only [h1, M.bind]
  by_cases hD : (!g.isProcessed par) = true
  · rw [if_pos hD]; exact ⟨_, rfl⟩
  rw [if_neg hD]
  simp only [h4, he, h6]
  cases o with
  | none => exact ⟨_, rfl⟩
  | some b =>
    simp only [Graph.rawAddEdge]
    rw [if_neg]
    · exact ⟨_, rfl⟩
    · intro hp
      have href := refers_of hi h he hp1 hp2 h6
      obtain ⟨-, hl⟩ := pathResolving_ok h6
      obtain ⟨eb, heb, -⟩ := hasLevel_elem hl
      have hsub : ∀ ed ∈ (g.removePlaceholder k).edges, ed ∈ g.edges := fun ed hed => (List.mem_filter.1 hed).1
      rcases (hasPath_iff.1 hp).mono hsub with rfl | hc
      · exact hf.acyclic _ (.ref href)
      · exact hf.acyclic _ (.trans (.ref href) ((conn_precedes h hc ⟨eb, heb⟩).1 ⟨ec, he⟩))

theorem resolvePlaceholders_total {d : SDevice} {lab : Nat → Pos} (hf : Followable d) (hc : Clear d) {phs : List Nat} : ∀ {g : Graph}, Phase d g lab → Neat d g lab →
    Calm g → Single g → phs.Nodup → (∀ k ∈ phs, IsP g k) → ∃ g', resolvePlaceholders g phs = .ok g' [] := by
  induction phs with
  | nil => intro g _ _ _ _ _ _; exact ⟨g, rfl⟩
  | cons k ks ih =>
    intro g P N C S hnd hk
    obtain ⟨g1, h1⟩ := resolvePlaceholder_total hf hc P N S (hk k (by simp))
    obtain ⟨N1, C1⟩ := neat_phase hf P N C h1
    obtain ⟨hk1, hk2⟩ := List.nodup_cons.1 hnd
    have hP : ∀ j ∈ ks, IsP g1 j := by
      intro j hj
      obtain ⟨path, par, q1, -, q2⟩ := resolvePlaceholder_ok h1
      rcases q2 with ⟨rfl, -⟩ | ⟨c, e, b, w, -, -, -, -, q3⟩
      · exact hk j (by simp [hj])
      · obtain ⟨rfl, -, -⟩ := rawAddEdge_nodes q3
        obtain ⟨-, q4, -⟩ := removePlaceholder_wf P.at_.inv.wf (i := k) (by rw [q1]; rfl)
        obtain ⟨path', q5⟩ := hk j (by simp [hj])
        refine ⟨path', ?_⟩
        have : ({ g.removePlaceholder k with edges := ⟨b, c, .derive⟩ :: (g.removePlaceholder k).edges } : Graph).node? j = (g.removePlaceholder k).node? j := rfl
        rw [this, q4, if_neg (fun h => hk1 (by rw [← h]; exact hj)), q5]
    obtain ⟨g2, h2⟩ := ih (phase_step hf P h1).1 N1 C1 (single_resolvePlaceholder S h1) hk2 hP
    exact ⟨g2, by rw [resolvePlaceholders, h1]; simp only [M.bind, h2]; rfl⟩

end Svd
