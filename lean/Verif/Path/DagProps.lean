import Verif.Path.DagTotal
import Verif.Path.DagGraph
import Verif.Path.ESGProps
/-!
# C53: the paths extracted from the exploded supergraph

`pathsDagToAll` for all links, filters and queries: the graph has no cycles, every path through it is a way back in the exploded
supergraph; which ways back have a path; when the extraction ends.
-/
namespace Phasar.Dag
set_option linter.unusedSectionVars false

variable {V N : Type} [DecidableEq V] {lk : Links V N} {f : Filter V}

/-! ## From finished vertices to paths -/

theorem C53.labels_cons (g : Adj.Graph (List N) Nat) (r : Nat) (us : List Nat) {ls : List N} (h : g.nodes[r]? = some ls) :
    labels g (r :: us) = ls ++ labels g us := by
  simp [labels, h]

theorem C53.sound {dead : V → Prop} {d : Adj.Graph (List N) Nat} {P : List Nat} {v : V} {r : Nat} (h : OK lk f dead d P v r) :
    ∀ us e, Walk d r us e → Leaf d e → Trail lk f v (labels d us) := by
  induction h with
  | mk tgt h1 h2 h3 h4 h5 h6 h7 h8 _ ih =>
    intro us e hw hl
    rw [walk_trail h1]
    cases hw with
    | one =>
      have hl : _ = some [] := hl
      rw [h3] at hl; cases hl
      exact .inl ⟨h5 rfl, by simp [labels, h2]⟩
    | cons hs hw =>
      obtain ⟨es', he, hm⟩ := hs
      rw [h3] at he; cases he
      obtain ⟨q, hq⟩ := h6 _ hm
      exact .inr ⟨q, _, (h7 _ _ hq).2, ih _ _ hq _ _ hw hl, C53.labels_cons _ _ _ h2⟩

theorem C53.exists {dead : V → Prop} {d : Adj.Graph (List N) Nat} {P : List Nat} {v : V} {r : Nat} (h : OK lk f dead d P v r) :
    ∃ us e, Walk d r us e ∧ Leaf d e := by
  induction h with
  | @mk v r w ls stop es tgt h1 h2 h3 h4 h5 h6 h7 h8 _ ih =>
    cases es with
    | nil => exact ⟨[r], r, .one (List.getElem?_eq_some_iff.1 h3).1, h3⟩
    | cons e es =>
      obtain ⟨q, hq⟩ := h6 e (.head _)
      obtain ⟨us, e', hw, hl⟩ := ih e q hq
      exact ⟨r :: us, e', .cons ⟨_, h3, .head _⟩ hw, hl⟩

theorem C53.acc {dead : V → Prop} {d : Adj.Graph (List N) Nat} {P : List Nat} {v : V} {r : Nat} (h : OK lk f dead d P v r) :
    Acc (fun t v => Succ d v t) r := by
  induction h with
  | mk tgt h1 h2 h3 h4 h5 h6 h7 h8 _ ih =>
    refine ⟨_, fun t ht => ?_⟩
    obtain ⟨es', he, hm⟩ := ht
    rw [h3] at he; cases he
    obtain ⟨q, hq⟩ := h6 _ hm
    exact ih t q hq

theorem C53.complete {d : Adj.Graph (List N) Nat} {P : List Nat} {v : V} {r : Nat} (hf : ∀ v q, f.reachedEnd v q = false)
    (h : OK lk f (fun v => ∀ l, ¬ Trail lk f v l) d P v r) : ∀ l, Trail lk f v l → ∃ us e, Walk d r us e ∧ Leaf d e ∧ labels d us = l := by
  induction h with
  | @mk v r w ls stop es tgt h1 h2 h3 h4 h5 h6 h7 h8 _ ih =>
    intro l ht
    rcases (walk_trail h1 l).1 ht with ⟨he, rfl⟩ | ⟨q, l', hq, ht', rfl⟩
    · have hes : es = [] := by
        cases es with
        | nil => rfl
        | cons e es =>
          obtain ⟨q, hq⟩ := h6 e (.head _)
          cases stop with
          | ended b => exact ((h7 e q hq).2).elim
          | «at» prev x b1 b2 =>
            have he : f.Ends lk prev := he
            rw [Filter.Ends, (walk_wf h1).1] at he
            rcases he with he | ⟨q, _, he, _⟩ <;> rw [hf] at he <;> cases he
      subst hes
      exact ⟨[r], r, .one (List.getElem?_eq_some_iff.1 h3).1, h3, by simp [labels, h2]⟩
    · rcases h8 q hq with h | ⟨e, he, hte⟩
      · exact absurd ht' (h l')
      · obtain ⟨us, e', hw, hl, hlab⟩ := ih e q hte l' ht'
        exact ⟨r :: us, e', .cons ⟨_, h3, he⟩ hw, hl, by rw [C53.labels_cons _ _ _ h2, hlab]⟩

/-! ## The graph of a query -/

theorem C53.okOf {dead : V → Prop} {inst : N} {st : St V N} {R : List (Nat × V)} (hq : QInv lk f dead inst st R) {q : V} {e : Nat}
    (h : st.cache q = some (some e)) : OK lk f dead st.dag st.path q e := by
  rcases hq.inv.ok q e h with h | h
  · rw [hq.path] at h; cases h
  · exact h

theorem C53.inRange {dead : V → Prop} {inst : N} {st : St V N} {R : List (Nat × V)} (hq : QInv lk f dead inst st R) : InRange st.dag := by
  refine ⟨hq.inv.wf, fun t u h => ?_, fun r hr => ?_⟩
  · obtain ⟨q, hq'⟩ := hq.inv.tgt t u h
    exact (C53.okOf hq hq').lt
  · rw [hq.roots] at hr
    obtain ⟨⟨r', v⟩, hm, rfl⟩ := List.mem_map.1 hr
    obtain ⟨es, _, h, _⟩ := hq.root _ _ hm
    exact (List.getElem?_eq_some_iff.1 h).1

theorem C53.accAll {dead : V → Prop} {inst : N} {st : St V N} {R : List (Nat × V)} (hq : QInv lk f dead inst st R) (r : Nat) :
    Acc (fun t v => Succ st.dag v t) r := by
  refine ⟨_, fun t ht => ?_⟩
  obtain ⟨q, hq'⟩ := hq.inv.tgt r t ht
  exact C53.acc (C53.okOf hq hq')

/-- A vertex without an edge to it is a root, and no edge leads to a root. -/
theorem C53.rootIff {dead : V → Prop} {inst : N} {st : St V N} {R : List (Nat × V)} (hq : QInv lk f dead inst st R) {u : Nat}
    (hu : u < st.dag.adj.length) : u ∈ st.dag.roots ↔ ∀ t, ¬ Succ st.dag t u := by
  constructor
  · intro h t ht
    obtain ⟨q, hq'⟩ := hq.inv.tgt t u ht
    exact hq.fresh u h q hq'
  · intro h
    rcases hq.linked u hu with h' | ⟨t, ht⟩
    · exact h'
    · exact absurd ht (h t)

theorem C53.query {inst : N} {w k : Nat} {vs : List V} {g : Adj.Graph (List N) Nat} (h : pathsDagToAll lk f w k inst vs = some g) :
    ∃ st, query lk f w k inst vs = some st ∧ reverseGraph st.dag = some g := by
  obtain ⟨st, h1, h⟩ := Option.bind_eq_some_iff.1 h
  obtain ⟨b, h2, h⟩ := Option.bind_eq_some_iff.1 h
  split at h
  · exact ⟨st, h1, h⟩
  · cases h

theorem C53.leafIff {st : St V N} {g : Adj.Graph (List N) Nat} (hg : InRange st.dag) (hr : reverseGraph st.dag = some g) {u : Nat} :
    Leaf g u ↔ u < st.dag.adj.length ∧ ∀ t, ¬ Succ st.dag t u := by
  obtain ⟨g', h1, _, h3, _, _⟩ := reverseGraph_ok st.dag hg
  rw [hr] at h1; cases h1
  constructor
  · intro hl
    have hl : g.adj[u]? = some [] := hl
    refine ⟨h3 ▸ (List.getElem?_eq_some_iff.1 hl).1, fun t ht => ?_⟩
    obtain ⟨es, he, hm⟩ := (succ_reversed hg hr u t).2 ht
    rw [hl] at he; cases he; cases hm
  · rintro ⟨hlt, h⟩
    show g.adj[u]? = some []
    have hlt' : u < g.adj.length := h3 ▸ hlt
    rw [List.getElem?_eq_getElem hlt']
    cases hx : g.adj[u] with
    | nil => rfl
    | cons t es => exact absurd ((succ_reversed hg hr u t).1 ⟨_, List.getElem?_eq_getElem hlt', by rw [hx]; exact .head _⟩) (h t)

/-- The paths of the reversed graph are those of the graph backwards. -/
theorem C53.pathIff {dead : V → Prop} {inst : N} {st : St V N} {R : List (Nat × V)} (hq : QInv lk f dead inst st R)
    {g : Adj.Graph (List N) Nat} (hr : reverseGraph st.dag = some g) (us : List Nat) (r e : Nat) :
    (r ∈ g.roots ∧ Walk g r us e ∧ Leaf g e) ↔ (e ∈ st.dag.roots ∧ Walk st.dag e us.reverse r ∧ Leaf st.dag r) := by
  have hg := C53.inRange hq
  obtain ⟨g', h1, h2, h3, _, h5⟩ := reverseGraph_ok st.dag hg
  rw [hr] at h1; cases h1
  have hroot : ∀ r, r ∈ g.roots ↔ Leaf st.dag r := by
    intro r
    rw [h5, List.mem_filter, List.mem_range, decide_eq_true_eq]
    exact ⟨fun h => h.2, fun h => ⟨(List.getElem?_eq_some_iff.1 h).1, h⟩⟩
  have hleaf : ∀ e, Leaf g e ↔ e ∈ st.dag.roots := by
    intro e
    rw [C53.leafIff hg hr]
    exact ⟨fun h => (C53.rootIff hq h.1).2 h.2, fun h => ⟨hg.roots e h, (C53.rootIff hq (hg.roots e h)).1 h⟩⟩
  constructor
  · rintro ⟨a, b, c⟩
    exact ⟨(hleaf e).1 c, b.reverse h3.symm (fun t i h => (succ_reversed hg hr i t).1 h), (hroot r).1 a⟩
  · rintro ⟨a, b, c⟩
    have := b.reverse h3 (fun t i h => (succ_reversed hg hr t i).2 h)
    rw [List.reverse_reverse] at this
    exact ⟨(hroot r).2 c, this, (hleaf e).2 a⟩

theorem C53.labels {dead : V → Prop} {inst : N} {st : St V N} {R : List (Nat × V)} (hq : QInv lk f dead inst st R)
    {g : Adj.Graph (List N) Nat} (hr : reverseGraph st.dag = some g) (us : List Nat) :
    labelsFwd g us = (labels st.dag us.reverse).reverse := by
  obtain ⟨g', h1, h2, _⟩ := reverseGraph_ok st.dag (C53.inRange hq)
  rw [hr] at h1; cases h1
  rw [← labelsFwd_reverse, List.reverse_reverse]
  unfold labelsFwd
  rw [h2]

/-! ## The theorems -/

/-- C53: every path from a root to a leaf of the returned graph is, read in the order of execution, a way from an end of the exploded
supergraph to the queried statement; or it is a single vertex with nothing but the queried statement. -/
theorem C53_sound {inst : N} {w k : Nat} {vs : List V} {g : Adj.Graph (List N) Nat} (h : pathsDagToAll lk f w k inst vs = some g)
    {r e : Nat} {us : List Nat} (hr : r ∈ g.roots) (hw : Walk g r us e) (hl : Leaf g e) :
    (us = [r] ∧ labelsFwd g us = [inst]) ∨
      ∃ v ∈ vs, ∃ q, (q = v ∨ q ∈ lk.nbrs v) ∧ ∃ ls, Trail lk f q ls ∧ labelsFwd g us = (inst :: ls).reverse := by
  obtain ⟨st, h1, h2⟩ := C53.query h
  obtain ⟨R, hq, hR⟩ := query_ok (Params.trivial lk f) h1
  obtain ⟨ha, hb, hc⟩ := (C53.pathIff hq h2 us r e).1 ⟨hr, hw, hl⟩
  rw [C53.labels hq h2 us]
  rw [hq.roots] at ha
  obtain ⟨⟨e', v⟩, hm, rfl⟩ := List.mem_map.1 ha
  obtain ⟨es, g1, g2, g3, _⟩ := hq.root e' v hm
  generalize hus : us.reverse = us' at hb
  cases hb with
  | one =>
    left
    have : us = [e'] := by rw [← List.reverse_reverse us, hus]; rfl
    exact ⟨this, by simp [labels, g1]⟩
  | cons hs hw' =>
    right
    obtain ⟨es', he, hm'⟩ := hs
    rw [g2] at he; cases he
    obtain ⟨q, hqv, hqc⟩ := g3 _ hm'
    refine ⟨v, hR ▸ List.mem_map.2 ⟨_, hm, rfl⟩, q, ?_, _, C53.sound (C53.okOf hq hqc) _ _ hw' hc, ?_⟩
    · rcases List.mem_append.1 hqv with h | h
      · exact .inr h
      · exact .inl (by simpa using h)
    · rw [C53.labels_cons _ _ _ g1]; rfl

/-- C53: the returned graph has no cycles, and neither has the graph before it is reversed, so that the check in debug builds succeeds. -/
theorem C53_acyclic {inst : N} {w k : Nat} {vs : List V} :
    (∀ st, query lk f w k inst vs = some st → assertIsDAG st.dag (st.dag.adj.length + 1) = some true) ∧
    ∀ g, pathsDagToAll lk f w k inst vs = some g → ∀ u, ¬ ReachP g u u := by
  constructor
  · intro st h
    obtain ⟨R, hq, hR⟩ := query_ok (Params.trivial lk f) h
    obtain ⟨b, hb⟩ := assertIsDAG_total st.dag (C53.inRange hq) (Nat.lt_succ_self _)
    cases b with
    | true => exact hb
    | false =>
      exfalso
      have := assertIsDAG_ok st.dag hb
      rw [if_neg (by nofun)] at this
      obtain ⟨r, _, c, _, hcc⟩ := this
      exact acc_no_cycle (C53.accAll hq c) hcc
  · intro g h u hu
    obtain ⟨st, h1, h2⟩ := C53.query h
    obtain ⟨R, hq, hR⟩ := query_ok (Params.trivial lk f) h1
    have hrev : ∀ a b, Reach g a b → Reach st.dag b a := by
      intro a b hab
      induction hab with
      | refl => exact .refl _
      | step hs _ ih => exact ih.trans (.step ((succ_reversed (C53.inRange hq) h2 _ _).1 hs) (.refl _))
    obtain ⟨t, hs, ht⟩ := hu
    exact acc_no_cycle (C53.accAll hq u) ((hrev _ _ ht).snoc ((succ_reversed (C53.inRange hq) h2 _ _).1 hs))

/-- C53: the extraction ends on every finite exploded supergraph unless predecessors form a cycle on which no node has neighbours. -/
theorem C53_terminates {all : List V} (hall : ∀ v, v ∈ all) (hacc : ∀ v, Acc (fun x v => lk.pred v = some x ∧ lk.nbrs x = []) v)
    (inst : N) (vs : List V) : ∃ w k g, pathsDagToAll lk f w k inst vs = some g := by
  obtain ⟨w, hw⟩ := walk_bound (f := f) (fun v => walk_acc (hacc v)) all
  obtain ⟨st, h⟩ := query_total hall (fun v => hw v (hall v)) (Nat.lt_succ_self all.length) inst vs .init [] (QInv.init inst)
  have h : Phasar.Dag.query lk f w (all.length + 1) inst vs = some st := h
  obtain ⟨R, hq, _⟩ := query_ok (Params.trivial lk f) h
  obtain ⟨g, hg, _⟩ := reverseGraph_ok st.dag (C53.inRange hq)
  refine ⟨w, all.length + 1, g, ?_⟩
  unfold pathsDagToAll
  rw [h]
  dsimp only [Option.bind_some]
  rw [C53_acyclic.1 st h]
  exact hg

/-- C53: otherwise it does not end. -/
theorem C53_loops_false {S : V → Prop} (hS : ∀ v, S v → ∃ x, lk.pred v = some x ∧ lk.nbrs x = [] ∧ f.Passes v x ∧ S x) {v : V} (hv : S v)
    (hn : lk.nbrs v = []) (inst : N) (w k : Nat) : pathsDagToAll lk f w k inst [v] = none := by
  have hl : ∀ st : St V N, st.cache v = none → la lk f w k v st = none := by
    intro st hc
    cases k with
    | zero => rfl
    | succ k =>
      unfold la
      rw [hc]
      dsimp only
      rw [walk_loops hS w v hv]
      rfl
  have hq : query lk f w k inst [v] = none := by
    show (queryOne lk f w k inst .init v).bind some = none
    unfold queryOne pathsToImpl
    dsimp only
    rw [hn]
    show (Option.bind (Option.bind (Option.bind (link (la lk f w k) _ _ v) some) _) _).bind some = none
    unfold link
    rw [hl _ rfl]
    rfl
  unfold pathsDagToAll
  rw [hq]
  rfl

/-- C53: a query for one fact that has a way back returns a graph with a path to it. -/
theorem C53_nonempty {inst : N} {w k : Nat} {v : V} {g : Adj.Graph (List N) Nat} (h : pathsDagToAll lk f w k inst [v] = some g)
    {q : V} (hqv : q = v ∨ q ∈ lk.nbrs v) {l : List N} (ht : Trail lk f q l) :
    ∃ r us e, r ∈ g.roots ∧ Walk g r us e ∧ Leaf g e ∧ us ≠ [r] := by
  obtain ⟨st, h1, h2⟩ := C53.query h
  have h1' : queryOne lk f w k inst .init v = some st := by
    obtain ⟨s, h3, h4⟩ := Option.bind_eq_some_iff.1 (show (queryOne lk f w k inst .init v).bind some = some st from h1)
    cases h4; exact h3
  obtain ⟨hq, hshut⟩ := queryOne_ok (Params.trivial lk f) (QInv.init inst) h1'
  have hm : (0, v) ∈ ([] : List (Nat × V)) ++ [((St.init : St V N).dag.adj.length, v)] := by simp [St.init, Adj.empty]
  obtain ⟨es, g1, g2, g3, g4⟩ := hq.root 0 v hm
  cases es with
  | nil =>
    exfalso
    have hshut := hshut g2
    have hqm : q ∈ lk.nbrs v ++ [v] := by
      rcases hqv with rfl | h
      · simp
      · exact List.mem_append_left _ h
    have hdead : ∀ n (q : V) (l : List N), l.length ≤ n → st.cache q ≠ none → ¬ Trail lk f q l := by
      intro n
      induction n with
      | zero =>
        intro q l hl _ ht
        cases ht <;> simp at hl
      | succ n ih =>
        intro q l hl hc ht
        obtain ⟨_, w', ls, stop, hw', he, hn⟩ := hshut q rfl hc
        rcases (walk_trail hw' l).1 ht with ⟨h, _⟩ | ⟨q', l', h5, h6, rfl⟩
        · exact he h
        · have := walk_ne_nil hw'
          refine ih q' l' ?_ (hn q' h5) h6
          have : 0 < ls.length := List.length_pos_iff.2 this
          simp at hl; omega
    refine hdead l.length q l (Nat.le_refl _) ?_ ht
    rcases g4 q hqm with h | ⟨e, _, h⟩ <;> rw [h] <;> nofun
  | cons e es =>
    obtain ⟨q', _, hqc⟩ := g3 e (.head _)
    obtain ⟨us, e', hw, hl⟩ := C53.exists (C53.okOf hq hqc)
    have hroot : 0 ∈ st.dag.roots := by rw [hq.roots]; exact List.mem_map.2 ⟨_, hm, rfl⟩
    have hw' : Walk st.dag 0 (0 :: us) e' := .cons ⟨_, g2, .head _⟩ hw
    have := (C53.pathIff hq h2 (0 :: us).reverse e' 0).2 ⟨hroot, by rw [List.reverse_reverse]; exact hw', hl⟩
    refine ⟨e', (0 :: us).reverse, 0, this.1, this.2.1, this.2.2, fun h => ?_⟩
    have h := congrArg List.length h
    simp only [List.length_reverse, List.length_cons, List.length_nil] at h
    cases hw <;> simp at h

/-- C53, for exploded supergraphs without cycles and filters without ends: every way back has a path in the returned graph. -/
theorem C53_complete_partial {inst : N} {w k : Nat} {vs : List V} {g : Adj.Graph (List N) Nat}
    (h : pathsDagToAll lk f w k inst vs = some g) (rank : V → Nat) (hrank : ∀ v q, lk.Next v q → rank q < rank v)
    (hf : ∀ v q, f.reachedEnd v q = false) {v q : V} (hv : v ∈ vs) (hqv : q = v ∨ q ∈ lk.nbrs v) {l : List N} (ht : Trail lk f q l) :
    ∃ r us e, r ∈ g.roots ∧ Walk g r us e ∧ Leaf g e ∧ labelsFwd g us = (inst :: l).reverse := by
  have hwr : ∀ {w : Nat} {v : V} {ls : List N} {stop : Stop V}, walk lk f w v = some (ls, stop) →
      ∀ q, StopNext lk f stop q → rank q < rank v := by
    intro w
    induction w with
    | zero => intro v ls stop h; cases h
    | succ w ih =>
      intro v ls stop h q hq
      unfold walk at h
      cases hp : lk.pred v with
      | none => rw [hp] at h; cases h; exact hq.elim
      | some x =>
        rw [hp] at h
        dsimp only at h
        split at h
        · cases h; exact hrank v q hq.1
        · obtain ⟨r, hr, he⟩ := Option.map_eq_some_iff.1 h
          cases he
          exact Nat.lt_trans (ih hr q hq) (hrank v x ⟨x, hp, .inl rfl⟩)
  have hp : Params lk f (fun v => ∀ l, ¬ Trail lk f v l) (fun u v => rank v < rank u) := by
    refine ⟨fun hw he hn l ht => ?_, fun hw hq => hwr hw _ hq, fun hw hq ha => Nat.lt_trans (hwr hw _ hq) ha, fun q h => absurd h (Nat.lt_irrefl _)⟩
    rcases (walk_trail hw l).1 ht with ⟨h, _⟩ | ⟨q, l', h1, h2, _⟩
    · exact he h
    · exact hn q h1 l' h2
  obtain ⟨st, h1, h2⟩ := C53.query h
  obtain ⟨R, hq, hR⟩ := query_ok hp h1
  rw [← hR] at hv
  obtain ⟨⟨r, v'⟩, hm, rfl⟩ := List.mem_map.1 hv
  obtain ⟨es, g1, g2, _, g4⟩ := hq.root r v' hm
  have hqm : q ∈ lk.nbrs v' ++ [v'] := by
    rcases hqv with rfl | h
    · simp
    · exact List.mem_append_left _ h
  rcases g4 q hqm with h | ⟨e, he, hc⟩
  · exact absurd ht (hq.inv.dead q h l)
  · obtain ⟨us, e', hw, hl, hlab⟩ := C53.complete hf (C53.okOf hq hc) l ht
    have hroot : r ∈ st.dag.roots := by rw [hq.roots]; exact List.mem_map.2 ⟨_, hm, rfl⟩
    have hw' : Walk st.dag r (r :: us) e' := .cons ⟨_, g2, he⟩ hw
    have := (C53.pathIff hq h2 (r :: us).reverse e' r).2 ⟨hroot, by rw [List.reverse_reverse]; exact hw', hl⟩
    refine ⟨e', (r :: us).reverse, r, this.1, this.2.1, this.2.2, ?_⟩
    rw [C53.labels hq h2, List.reverse_reverse, C53.labels_cons _ _ _ g1, hlab]
    rfl

/-- C53: a call that finds no path leaves the graph as it was; in particular the vertex it added can always be removed. -/
theorem C53_invalid_unchanged {inst : N} {w k : Nat} {vs : List V} {st st' : St V N} {v : V} (h : query lk f w k inst vs = some st)
    (hl : la lk f w k v st = some (st', none)) : st'.dag = st.dag ∧ st'.path = st.path := by
  obtain ⟨R, hq, _⟩ := query_ok (Params.trivial lk f) h
  have post := la_ok (Params.trivial lk f) w k v st st' none hl hq.inv (fun _ _ _ _ => True.intro)
  exact ⟨post.back rfl, post.frame.path⟩

/-- C53: `assertIsDAG` ends on every graph whose edges stay inside and tells whether a cycle can be reached from a root. -/
theorem C53_assertIsDAG {T : Type} (g : Adj.Graph T Nat) (hg : InRange g) :
    ∃ b, assertIsDAG g (g.adj.length + 1) = some b ∧ (b = false ↔ ∃ r ∈ g.roots, ∃ c, Reach g r c ∧ ReachP g c c) := by
  obtain ⟨b, hb⟩ := assertIsDAG_total g hg (Nat.lt_succ_self _)
  refine ⟨b, hb, ?_⟩
  have := assertIsDAG_ok g hb
  cases b with
  | false => rw [if_neg (by nofun)] at this; exact ⟨fun _ => this, fun _ => rfl⟩
  | true =>
    rw [if_pos rfl] at this
    refine ⟨fun h => (by cases h), ?_⟩
    rintro ⟨r, hr, c, hc, hcc⟩
    exact absurd hcc (acc_no_cycle (Acc.reach (this r hr) hc))

theorem C53.count_flatMap (c : Nat → Nat) (i : Nat) : ∀ (l : List Nat), l.Nodup →
    (l.flatMap fun j => List.replicate (c j) j).count i = if i ∈ l then c i else 0 := by
  intro l
  induction l with
  | nil => intro _; rfl
  | cons a l ih =>
    intro hn
    obtain ⟨h1, h2⟩ := List.nodup_cons.1 hn
    rw [List.flatMap_cons, List.count_append, ih h2, List.count_replicate]
    by_cases hia : a = i
    · subst hia; simp [h1]
    · have : ¬ i = a := fun h => hia h.symm
      simp [hia, this]

/-- C53: `reverseGraph` keeps the vertices, turns every edge around as often as it is there, and makes the vertices without successors
the roots. -/
theorem C53_reverseGraph {T : Type} (g : Adj.Graph T Nat) (hg : InRange g) :
    ∃ r, reverseGraph g = some r ∧ r.nodes = g.nodes ∧ r.adj.length = g.adj.length ∧
      (∀ (t i : Nat) (es rs : List Nat), g.adj[i]? = some es → r.adj[t]? = some rs → rs.count i = es.count t) ∧
      ∀ i, i ∈ r.roots ↔ Leaf g i := by
  obtain ⟨r, h1, h2, h3, h4, h5⟩ := reverseGraph_ok g hg
  refine ⟨r, h1, h2, h3, fun t i es rs he hr => ?_, fun i => ?_⟩
  · have ht := (List.getElem?_eq_some_iff.1 hr).1
    rw [h4 t (h3 ▸ ht)] at hr
    cases hr
    have hi := (List.getElem?_eq_some_iff.1 he).1
    rw [C53.count_flatMap (fun i => ((g.adj[i]?).getD []).count t) i _ List.nodup_range, if_pos (List.mem_range.2 hi), he]
    rfl
  · rw [h5, List.mem_filter, List.mem_range, decide_eq_true_eq]
    exact ⟨fun h => h.2, fun h => ⟨(List.getElem?_eq_some_iff.1 h).1, h⟩⟩

/-! ## On a recorded graph -/

/-- Specification: `es` is a way back along reported edges.  The target of each edge shares an alternative with the source of the edge
before it in the list. -/
inductive C53.Way {N D : Type} [DecidableEq N] [DecidableEq D] (g : ESG.Graph N D) (cs : List (ESG.Call N D)) : List (ESG.Edge N D) → Prop
  | one {e} : ESG.Reports cs e → C53.Way g cs [e]
  | cons {e e' es p v j} : ESG.Reports cs e → g.getNode e.src.1 e.src.2 = some p → g.Alt p j → g.getNode e'.dst.1 e'.dst.2 = some v →
      g.Alt v j → C53.Way g cs (e' :: es) → C53.Way g cs (e :: e' :: es)

theorem C53.linksPred {N D : Type} {g : ESG.Graph N D} {hb : g.Bounded} {i x : Fin g.nodes.length} :
    (linksOf g hb).pred i = some x ↔ (g.nodes[i.1]).pred = some x.1 := by
  show (match hp : (g.nodes[i.1]).pred with
    | none => none
    | some p => some (⟨p, hb.pred i.1 _ p (List.getElem?_eq_getElem i.2) hp⟩ : Fin g.nodes.length)) = some x ↔ _
  split
  · rename_i h; rw [h]; exact ⟨fun h => (by cases h), fun h => (by cases h)⟩
  · rename_i p h
    constructor
    · intro h'; rw [← Option.some.inj h']; exact h
    · intro h'; exact congrArg some (Fin.ext (Option.some.inj (h.symm.trans h')))

theorem C53.linksEnd {N D : Type} {g : ESG.Graph N D} {hb : g.Bounded} {i : Fin g.nodes.length} :
    (linksOf g hb).pred i = none ↔ (g.nodes[i.1]).pred = none := by
  show (match hp : (g.nodes[i.1]).pred with
    | none => none
    | some p => some (⟨p, hb.pred i.1 _ p (List.getElem?_eq_getElem i.2) hp⟩ : Fin g.nodes.length)) = none ↔ _
  split
  · rename_i h; rw [h]; simp
  · rename_i p h; exact ⟨fun h' => (by cases h'), fun h' => (by cases h.symm.trans h')⟩

theorem C53.linksNbrs {N D : Type} {g : ESG.Graph N D} {hb : g.Bounded} {i x : Fin g.nodes.length} :
    x ∈ (linksOf g hb).nbrs i ↔ x.1 ∈ (g.nodes[i.1]).nbrs := by
  show x ∈ (g.nodes[i.1]).nbrs.attach.map (fun j => (⟨j.1, _⟩ : Fin g.nodes.length)) ↔ _
  rw [List.mem_map]
  constructor
  · rintro ⟨j, _, rfl⟩; exact j.2
  · intro h; exact ⟨⟨x.1, h⟩, List.mem_attach _ _, rfl⟩

/-- C53 with C52: on a recorded graph, the statements on a way back are the sources of reported edges that meet at the nodes of the
graph, and without a filter it starts at a seed or where zero comes from zero. -/
theorem C53_recorded_partial {N D : Type} [DecidableEq N] [DecidableEq D] {env : ESG.Env N D} {seeds : N × D → Prop}
    {cs : List (ESG.Call N D)} (hc : ESG.Causal seeds cs) {g : ESG.Graph N D} (hg : ESG.record env .empty cs = some g)
    (hb : g.Bounded) {q : Fin g.nodes.length} {ls : List N} (ht : Trail (linksOf g hb) .default q ls) :
    ∃ es, C53.Way g cs es ∧ es.map (·.src.1) = ls ∧
      (∀ e, es.head? = some e → ∃ v, g.getNode e.dst.1 e.dst.2 = some v ∧ g.Alt v q.1) ∧
      ∀ e, es.getLast? = some e → seeds e.src ∨ (e.src.2 = env.zero ∧ e.dst.2 = env.zero) := by
  induction ht with
  | @last v h =>
    have hp : (linksOf g hb).pred v = none := by
      unfold Filter.Ends at h
      split at h
      · assumption
      · rcases h with h | ⟨_, _, h, _⟩ <;> cases h
    obtain ⟨e, h1, h2, h3, w, h4, h5⟩ := ESG.C52_ends_partial hc hg (List.getElem?_eq_getElem v.2) (C53.linksEnd.1 hp)
    refine ⟨[e], .one h1, by simp [h2, linksOf], ?_, ?_⟩
    · intro e' he; cases he; exact ⟨w, h4, h5⟩
    · intro e' he; cases he; exact h3
  | @step v q ls hn hpass ht ih =>
    obtain ⟨x, hx, hq⟩ := hn
    obtain ⟨e, ⟨c, hcm, hem, _⟩, h2, h3, w, h4, h5⟩ :=
      ESG.C52_links_sound_partial hc hg (List.getElem?_eq_getElem v.2) (C53.linksPred.1 hx)
    have h1 : ESG.Reports cs e := ⟨c, hcm, hem⟩
    have halt : g.Alt x.1 q.1 := by
      rcases hq with rfl | hq
      · exact .inl rfl
      · exact .inr ⟨_, List.getElem?_eq_getElem x.2, C53.linksNbrs.1 hq⟩
    obtain ⟨es, i1, i2, i3, i4⟩ := ih
    cases es with
    | nil => cases i1
    | cons e' es =>
      obtain ⟨u, h6, h7⟩ := i3 e' rfl
      refine ⟨e :: e' :: es, .cons h1 h3 halt h6 h7 i1, ?_, ?_, ?_⟩
      · rw [List.map_cons, i2, h2]; rfl
      · intro e'' he; cases he; exact ⟨w, h4, h5⟩
      · intro e'' he; exact i4 e'' (by simpa [List.getLast?_cons_cons] using he)

/-! ## Examples -/

/-- Links given by a table of source, predecessor and neighbours. -/
def C53.tbl (t : List (Nat × Option Nat × List Nat)) : Links Nat Nat :=
  ⟨fun v => ((t[v]?).map (·.1)).getD 0, fun v => (t[v]?).bind (·.2.1), fun v => ((t[v]?).map (·.2.2)).getD []⟩

/-- A fact at statement 14 that comes through one of two branches, 12 and 13, from 11 and 10. -/
def C53.diamond : Links Nat Nat := C53.tbl [(10, none, []), (11, some 0, []), (12, some 1, [3]), (13, some 1, []), (14, some 2, [])]

/-- The graph for it: the vertices for 15, for 14, and for the two branches up to the start. -/
def C53.diamondDag : Adj.Graph (List Nat) Nat := { adj := [[], [0], [1], [1]], roots := [2, 3], nodes := [[15], [14], [12, 11, 10], [13, 11, 10]] }

theorem C53.diamond_eq : pathsDagToAll C53.diamond .default 9 9 15 [4] = some C53.diamondDag := by decide

theorem C53.diamond_trail : Trail C53.diamond .default 4 [14, 13, 11, 10] :=
  .step ⟨2, rfl, .inr (.head _)⟩ ⟨rfl, rfl⟩ (.step ⟨1, rfl, .inl rfl⟩ ⟨rfl, rfl⟩ (.step ⟨0, rfl, .inl rfl⟩ ⟨rfl, rfl⟩ (.last (.inr rfl))))

/-- Every hypothesis of `C53_sound`, `C53_complete_partial` and `C53_nonempty` holds here. -/
example : (∃ v ∈ [4], ∃ q, (q = v ∨ q ∈ C53.diamond.nbrs v) ∧ ∃ ls, Trail C53.diamond .default q ls ∧
      labelsFwd C53.diamondDag [2, 1, 0] = (15 :: ls).reverse) ∧
    (∃ r us e, r ∈ C53.diamondDag.roots ∧ Walk C53.diamondDag r us e ∧ Leaf C53.diamondDag e ∧
      labelsFwd C53.diamondDag us = [10, 11, 13, 14, 15]) ∧
    (∃ r us e, r ∈ C53.diamondDag.roots ∧ Walk C53.diamondDag r us e ∧ Leaf C53.diamondDag e ∧ us ≠ [r]) ∧
    ∀ u, ¬ ReachP C53.diamondDag u u := by
  refine ⟨?_, ?_, C53_nonempty C53.diamond_eq (.inl rfl) C53.diamond_trail, C53_acyclic.2 _ C53.diamond_eq⟩
  · rcases C53_sound C53.diamond_eq (r := 2) (e := 0) (us := [2, 1, 0]) (by decide)
      (.cons ⟨[1], rfl, .head _⟩ (.cons ⟨[0], rfl, .head _⟩ (.one (by decide)))) rfl with h | h
    · exact absurd h.1 (by decide)
    · exact h
  · refine C53_complete_partial C53.diamond_eq id ?_ (fun _ _ => rfl) (.head _) (.inl rfl) C53.diamond_trail
    rintro v q ⟨p, hp, hq⟩
    match v, hp with
    | 1, hp => cases hp; rcases hq with rfl | hq; decide; cases hq
    | 2, hp => cases hp; rcases hq with rfl | hq; decide; cases hq
    | 3, hp => cases hp; rcases hq with rfl | hq; decide; cases hq
    | 4, hp => cases hp; rcases hq with rfl | hq; decide; cases hq with | head => decide | tail _ h => cases h

/-- A loop: node 1 is an alternative of node 0 that comes from node 0. -/
def C53.cyc : Links (Fin 3) Nat := ⟨fun v => v.1 + 10, fun v => if v = 2 then some 0 else if v = 1 then some 0 else none,
  fun v => if v = 0 then [1] else []⟩

/-- The extraction ends although the exploded supergraph has a cycle: the cycle leads through a node with a neighbour. -/
example : ∃ w k g, pathsDagToAll C53.cyc .default w k 15 [2] = some g := by
  refine C53_terminates (all := [0, 1, 2]) (by decide) (fun v => ⟨v, ?_⟩) 15 [2]
  rintro x ⟨h1, h2⟩
  exfalso
  match v, h1 with
  | 0, h1 => cases h1
  | 1, h1 => cases h1; cases h2
  | 2, h1 => cases h1; cases h2

/-- A call that finds no path: in `C53.cyc` with every step from node 2 an error. -/
example : ∃ st st', query C53.cyc ⟨fun _ _ => false, fun v _ => decide (v = 2)⟩ 9 9 15 [0] = some st ∧
    la C53.cyc ⟨fun _ _ => false, fun v _ => decide (v = 2)⟩ 9 9 2 st = some (st', none) ∧ st'.dag = st.dag := by
  obtain ⟨st, h, h'⟩ : ∃ st, query C53.cyc ⟨fun _ _ => false, fun v _ => decide (v = 2)⟩ 9 9 15 [0] = some st ∧
      (la C53.cyc ⟨fun _ _ => false, fun v _ => decide (v = 2)⟩ 9 9 2 st).map (·.2) = some none := by
    have : ((query C53.cyc ⟨fun _ _ => false, fun v _ => decide (v = 2)⟩ 9 9 15 [0]).bind fun st =>
      (la C53.cyc ⟨fun _ _ => false, fun v _ => decide (v = 2)⟩ 9 9 2 st).map (·.2)) = some none := by decide
    exact Option.bind_eq_some_iff.1 this
  obtain ⟨⟨st', r⟩, h1, h2⟩ := Option.map_eq_some_iff.1 h'
  have h2 : r = none := h2
  subst h2
  exact ⟨st, st', h, h1, (C53_invalid_unchanged h h1).1⟩

/-- `assertIsDAG` and `reverseGraph` on a graph with a double edge and a cycle. -/
example : ∃ g : Adj.Graph Nat Nat, InRange g ∧ (∃ b, assertIsDAG g (g.adj.length + 1) = some b ∧ b = false) ∧
    ∃ r, reverseGraph g = some r ∧ r.adj = [[], [0, 0, 2], [1], [2]] ∧ r.roots = [3] := by
  refine ⟨{ adj := [[1, 1], [2], [1, 3], []], roots := [0], nodes := [5, 6, 7, 8] }, ⟨rfl, ?_, by decide⟩, ⟨false, by decide, rfl⟩, ⟨_, _, _⟩, rfl, rfl, rfl⟩
  rintro t u ⟨es, he, hm⟩
  have : es ∈ [[1, 1], [2], [1, 3], ([] : List Nat)] := List.mem_of_getElem? he
  clear he
  revert u
  revert es
  decide

/-- A way back on the graph recorded for `C52.ex`. -/
example : ∃ (g : ESG.Graph Nat Nat) (_ : g.Bounded) (q : Fin g.nodes.length), ESG.record ESG.C52.exEnv .empty ESG.C52.ex = some g ∧
    g.getNode 4 1 = some q.1 ∧ ∃ es, C53.Way g ESG.C52.ex es ∧ es.map (·.src.1) = [2, 1, 0] := by
  obtain ⟨g, hg, hn, hm⟩ := ESG.C52.run_some (env := ESG.C52.exEnv) (cs := ESG.C52.ex) (ks := [(4, 1)]) (ns := ESG.C52.exNodes)
    (vs := [some 8]) (by decide)
  obtain ⟨g', hg', hb⟩ := ESG.C52_total (env := ESG.C52.exEnv) ESG.C52.ex_causal
  rw [hg] at hg'; cases hg'
  obtain ⟨ns, map⟩ := g
  have hn : ns = ESG.C52.exNodes := hn
  subst hn
  have ht : Trail (linksOf _ hb) .default (⟨8, by decide⟩ : Fin ESG.C52.exNodes.length) [2, 1, 0] :=
    .step ⟨⟨4, (show 4 < ESG.C52.exNodes.length by decide)⟩, C53.linksPred.2 rfl, .inl rfl⟩ ⟨rfl, rfl⟩ (.step ⟨⟨1, (show 1 < ESG.C52.exNodes.length by decide)⟩, C53.linksPred.2 rfl, .inl rfl⟩ ⟨rfl, rfl⟩
      (.last (.inr rfl)))
  obtain ⟨es, h1, h2, _⟩ := C53_recorded_partial ESG.C52.ex_causal hg hb ht
  exact ⟨_, hb, ⟨8, (show 8 < ESG.C52.exNodes.length by decide)⟩, hg, (List.cons.inj hm).1, es, h1, h2⟩

/-! ## Where the extraction is wrong -/

theorem C53.labelsMem {g : Adj.Graph (List N) Nat} {us : List Nat} {n : N} (h : n ∈ labelsFwd g us) : ∃ l ∈ g.nodes, n ∈ l := by
  obtain ⟨u, _, h⟩ := List.mem_flatMap.1 h
  cases hu : g.nodes[u]? with
  | none => rw [hu] at h; simp at h
  | some l =>
    rw [hu] at h
    exact ⟨l, List.mem_of_getElem? hu, List.mem_reverse.1 (by simpa using h)⟩

/-- C53, false on recorded graphs: on the graph of `C52_seed_lost_false`, recorded for a loop at the start of a function, the extraction
does not end, whatever is queried. -/
theorem C53_endless_false : ESG.Causal (· ∈ [(0, 0)]) ESG.C52.loop ∧
    ∃ (g : ESG.Graph Nat Nat) (hb : g.Bounded), ESG.record ESG.C52.loopEnv .empty ESG.C52.loop = some g ∧ g.getNode 3 0 ≠ none ∧
      ∀ (v : Fin g.nodes.length) inst w k, pathsDagToAll (linksOf g hb) .default w k inst [v] = none := by
  obtain ⟨hc, _, g, hg, hn, h3⟩ := ESG.C52_seed_lost_false
  obtain ⟨g', hg', hb⟩ := ESG.C52_total (env := ESG.C52.loopEnv) hc
  rw [hg] at hg'; cases hg'
  have hnb : ∀ i, (linksOf g hb).nbrs i = [] := by
    intro i
    cases hx : (linksOf g hb).nbrs i with
    | nil => rfl
    | cons x xs =>
      have := C53.linksNbrs.1 (show x ∈ (linksOf g hb).nbrs i by rw [hx]; exact .head _)
      rw [(hn _ (List.getElem_mem i.2)).2.2] at this; cases this
  refine ⟨hc, g, hb, hg, h3, fun v inst w k => C53_loops_false (S := fun _ => True) (fun v _ => ?_) trivial (hnb v) inst w k⟩
  cases hp : (linksOf g hb).pred v with
  | none => exact absurd (C53.linksEnd.1 hp) (hn _ (List.getElem_mem v.2)).2.1
  | some x => exact ⟨x, rfl, hnb x, ⟨rfl, rfl⟩, trivial⟩

/-- A loop through the keys A, Y and X that is entered at Y and left at A and at X.  A has the nodes 0 and 3, Y has 1 and the entry 2,
X has 4 and 5; 6 leaves from X and 7 from A.  The source of node `i` is statement `10 + i`.  The argument tells whether 6 and 7 are
alternatives of one fact. -/
def C53.leave (alts : List Nat) : Links Nat Nat := C53.tbl [(10, some 1, [3]), (11, some 4, [2]), (12, none, []), (13, some 0, []),
  (14, some 0, [5]), (15, some 0, []), (16, some 4, alts), (17, some 0, [])]

theorem C53.leave_trail (alts : List Nat) : Trail (C53.leave alts) .default 6 [16, 14, 10, 12] :=
  .step ⟨4, rfl, .inl rfl⟩ ⟨rfl, rfl⟩ (.step ⟨0, rfl, .inl rfl⟩ ⟨rfl, rfl⟩ (.step ⟨1, rfl, .inr (.head _)⟩ ⟨rfl, rfl⟩ (.last (.inr rfl))))

/-- C53, false in general: a path without repetition can be missing.  A node that was visited while all nodes it leads to were being
visited counts as leading nowhere from then on.  Here a fact comes through 17 and through 16; the path through 16 exists, but no path of
the result contains statement 16. -/
theorem C53_break_lost_false : Trail (C53.leave [7]) .default 6 [16, 14, 10, 12] ∧
    ∃ g, pathsDagToAll (C53.leave [7]) .default 9 9 20 [6] = some g ∧ ∀ us, 16 ∉ labelsFwd g us := by
  refine ⟨C53.leave_trail _, _, rfl, fun us h => ?_⟩
  obtain ⟨l, h1, h2⟩ := C53.labelsMem h
  revert l
  decide

/-- C53, false in general: a query for two facts can lose all paths of one of them, as the facts share the cache.  Alone, the second
fact has a path; after the first, only a vertex without edges is left of it, which looks like a path of the queried statement alone. -/
theorem C53_second_lost_false : (∃ g r us e, pathsDagToAll (C53.leave []) .default 9 9 20 [6] = some g ∧ r ∈ g.roots ∧ Walk g r us e ∧
      Leaf g e ∧ 16 ∈ labelsFwd g us) ∧
    ∃ g, pathsDagToAll (C53.leave []) .default 9 9 20 [7, 6] = some g ∧ (∀ us, 16 ∉ labelsFwd g us) ∧
      ∃ r ∈ g.roots, Walk g r [r] r ∧ Leaf g r ∧ labelsFwd g [r] = [20] := by
  constructor
  · exact ⟨_, 4, [4, 3, 2, 1, 0], 0, rfl, by decide, .cons ⟨_, rfl, .head _⟩ (.cons ⟨_, rfl, .head _⟩ (.cons ⟨_, rfl, .head _⟩
      (.cons ⟨_, rfl, .head _⟩ (.one (by decide))))), rfl, by decide⟩
  · refine ⟨_, rfl, fun us h => ?_, 4, by decide, .one (by decide), rfl, by decide⟩
    obtain ⟨l, h1, h2⟩ := C53.labelsMem h
    revert l
    decide

/-- C53, false in general: a path that ends where the filter says so is missing if the way back also goes on. -/
theorem C53_end_hidden_false : ∃ (lk : Links Nat Nat) (f : Filter Nat), Trail lk f 0 [10] ∧
    ∃ g, pathsDagToAll lk f 9 9 20 [0] = some g ∧ ∀ r us e, r ∈ g.roots → Walk g r us e → Leaf g e → labelsFwd g us ≠ [10, 20] := by
  refine ⟨C53.tbl [(10, some 1, []), (11, none, [2]), (12, none, [])], ⟨fun v q => decide (v = 0 ∧ q = some 1), fun _ _ => false⟩,
    .last (.inl rfl), _, rfl, fun r us e hr hw hl hlab => ?_⟩
  have hr : r = 2 := List.mem_singleton.1 hr
  subst hr
  have : 12 ∈ labelsFwd (⟨[[20], [10], [12]], [[], [0], [1]], [2]⟩ : Adj.Graph (List Nat) Nat) us := by
    cases hw <;> simp [labelsFwd]
  have hlab : labelsFwd (⟨[[20], [10], [12]], [[], [0], [1]], [2]⟩ : Adj.Graph (List Nat) Nat) us = _ := hlab
  rw [hlab] at this
  revert this
  decide

/-- C53, false in general: whether the end or the error counts if the filter reports both depends on the position.  For the predecessor
of a node the end counts, so that the path is kept; for the neighbours of the predecessor the error counts. -/
theorem C53_priority_false : ∃ (lk : Links Nat Nat) (f : Filter Nat), (∀ v q, f.erroneous v q = decide (q ≠ none)) ∧
    lk.pred 0 = some 1 ∧ f.reachedEnd 0 (some 1) = true ∧ lk.pred 3 = some 4 ∧ lk.nbrs 4 = [2] ∧ f.reachedEnd 3 (some 2) = true ∧
    (∃ g, pathsDagToAll lk f 9 9 20 [0] = some g ∧ ∃ r us e, r ∈ g.roots ∧ Walk g r us e ∧ Leaf g e ∧ labelsFwd g us = [10, 20]) ∧
    ∃ g, pathsDagToAll lk f 9 9 20 [3] = some g ∧ ∀ us, 13 ∉ labelsFwd g us := by
  refine ⟨C53.tbl [(10, some 1, []), (11, none, []), (12, none, []), (13, some 4, []), (14, none, [2])],
    ⟨fun v q => decide (v = 0 ∧ q = some 1 ∨ v = 3 ∧ q = some 2), fun _ q => decide (q ≠ none)⟩,
    fun _ _ => rfl, rfl, rfl, rfl, rfl, rfl, ⟨_, rfl, 1, [1, 0], 0, by decide, .cons ⟨_, rfl, .head _⟩ (.one (by decide)), rfl, by decide⟩, _, rfl,
    fun us h => ?_⟩
  obtain ⟨l, h1, h2⟩ := C53.labelsMem h
  revert l
  decide

end Phasar.Dag
