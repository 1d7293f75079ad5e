import Verif.Path.FilterAll
import Verif.Path.DagProps
/-!
# C54: the filtering of paths

`pathsTo` for all graphs, programs, constraints and thresholds: which paths it reports.
-/
namespace Phasar.PathFilter
open Phasar Dag
set_option linter.unusedSectionVars false

variable {N C M : Type} [DecidableEq N]

/-! ## The call stack -/

/-- C54: `isDirectSuccessorOf` decides whether a statement directly follows another. -/
theorem C54_direct (p : Prog N) (succ of : N) : isDirect p succ of = true ↔ Direct p succ of (p.rest of) := directLoop_iff p succ _ _

/-- C54: the call stack filter accepts a path iff every return that matches a call on it goes on directly behind that call. -/
theorem C54_callstack (p : Prog N) (path : List N) : ∃ s, (pairs path).foldlM (fun s e => s.saveEdge p e.1 e.2) CSF.new = some s ∧
    (s.valid = true ↔ Matched p path) := by
  have : ∀ (l : List (N × N)) (s : CSF N) (r : Option (List N)), CsOk s r →
      ∃ s', l.foldlM (fun s e => s.saveEdge p e.1 e.2) s = some s' ∧ CsOk s' (run p r l) := by
    intro l
    induction l with
    | nil => intro s r h; exact ⟨s, rfl, h⟩
    | cons e l ih =>
      intro s r h
      obtain ⟨s1, h1, h2, _⟩ := saveEdge_ok (p := p) h e.1 e.2
      obtain ⟨s2, h3, h4⟩ := ih s1 _ h2
      exact ⟨s2, by rw [List.foldlM_cons, h1]; exact h3, h4⟩
  obtain ⟨s, h1, h2⟩ := this (pairs path) .new (some []) ⟨rfl, fun S hS => by cases hS; exact .nil⟩
  exact ⟨s, h1, by rw [h2.valid, matched_iff]⟩

/-- C54: whatever edges follow a `saveState`, `restoreState` brings the state back. -/
theorem C54_restore (p : Prog N) (path : List N) {s s' : CSF N} {l : List (N × N)}
    (hs : (pairs path).foldlM (fun s e => s.saveEdge p e.1 e.2) CSF.new = some s) (hv : s.valid = true)
    (h : l.foldlM (fun s e => s.saveEdge p e.1 e.2) s.save = some s') : s'.restore = some s := by
  have hrun : ∀ (l : List (N × N)) (s s' : CSF N) (r : Option (List N)), CsOk s r →
      l.foldlM (fun s e => s.saveEdge p e.1 e.2) s = some s' →
      CsOk s' (run p r l) ∧ s'.safe = s.safe ∧ ∃ ext, s'.owner = s.owner ++ ext := by
    intro l
    induction l with
    | nil => intro s s' r h h'; cases h'; exact ⟨h, rfl, [], by simp⟩
    | cons e l ih =>
      intro s s' r h h'
      obtain ⟨s1, h1, h2, h3, ⟨ext, h4⟩⟩ := saveEdge_ok (p := p) h e.1 e.2
      rw [List.foldlM_cons, h1] at h'
      obtain ⟨h5, h6, ⟨ext', h7⟩⟩ := ih s1 s' _ h2 h'
      exact ⟨h5, h6.trans h3, ext ++ ext', by rw [h7, h4]; simp⟩
  obtain ⟨h1, _, _⟩ := hrun _ _ _ (some []) ⟨rfl, fun S hS => by cases hS; exact .nil⟩ hs
  obtain ⟨_, h2, ext, h3⟩ := hrun _ s.save s' _ ⟨h1.valid, h1.chain⟩ h
  have h2 : s'.safe = s.safe ++ [(s.owner.length, s.tos)] := h2
  have h3 : s'.owner = s.owner ++ ext := h3
  unfold CSF.restore
  rw [h2]
  simp only [List.getLast?_append, List.getLast?_singleton, Option.some_or, Option.bind_some, h3, List.length_append, List.dropLast_concat]
  rw [if_pos (by omega), List.take_left' rfl, ← hv]

/-! ## The graph -/

/-- Specification: a graph that can be filtered: no edge leaves it, there are no cycles and no empty labels. -/
structure C54.Suitable (g : Adj.Graph (List N) Nat) : Prop where
  range : InRange g
  label : ∀ l ∈ g.nodes, l ≠ []
  acyclic : ∀ u, ¬ ReachP g u u

theorem C54.Suitable.acc {g : Adj.Graph (List N) Nat} (h : C54.Suitable g) : ∀ r ∈ g.roots, Acc (fun t v => Succ g v t) r := by
  obtain ⟨b, hb⟩ := assertIsDAG_total g h.range (Nat.lt_succ_self _)
  have := assertIsDAG_ok g hb
  cases b with
  | true => rw [if_pos rfl] at this; exact this
  | false =>
    rw [if_neg (by nofun)] at this
    obtain ⟨_, _, c, _, hc⟩ := this
    exact absurd hc (h.acyclic c)

/-- C54: the graphs that `pathsDagToAll` returns are suitable; for one fact they have exactly one leaf. -/
theorem C54_suitable {V : Type} [DecidableEq V] {lk : Links V N} {f : Filter V} {inst : N} {w k : Nat} {vs : List V}
    {g : Adj.Graph (List N) Nat} (h : pathsDagToAll lk f w k inst vs = some g) :
    C54.Suitable g ∧ ∀ v, vs = [v] → ∃ e, Leaf g e ∧ ∀ e', Leaf g e' → e' = e := by
  obtain ⟨st, h1, h2⟩ := C53.query h
  obtain ⟨R, hq, hR⟩ := query_ok (Params.trivial lk f) h1
  have hg := C53.inRange hq
  obtain ⟨g', a1, a2, a3, a4, a5⟩ := reverseGraph_ok st.dag hg
  rw [h2] at a1; cases a1
  have hroot : ∀ r, r ∈ g.roots ↔ Leaf st.dag r := by
    intro r
    rw [a5, List.mem_filter, List.mem_range, decide_eq_true_eq]
    exact ⟨fun h => h.2, fun h => ⟨(List.getElem?_eq_some_iff.1 h).1, h⟩⟩
  refine ⟨⟨⟨by rw [a3, a2]; exact hg.wf, fun t u ht => ?_, fun r hr => ?_⟩, fun l hl => ?_, C53_acyclic.2 g h⟩, ?_⟩
  · obtain ⟨es, b1, _⟩ := (succ_reversed hg h2 t u).1 ht
    rw [a3]; exact (List.getElem?_eq_some_iff.1 b1).1
  · rw [a3]; exact (List.getElem?_eq_some_iff.1 ((hroot r).1 hr)).1
  · rw [a2] at hl
    obtain ⟨u, hu, rfl⟩ := List.getElem_of_mem hl
    rcases hq.linked u (by rw [hg.wf]; exact hu) with b | ⟨t, ht⟩
    · rw [hq.roots] at b
      obtain ⟨⟨r, v⟩, b1, rfl⟩ := List.mem_map.1 b
      obtain ⟨es, b2, _⟩ := hq.root r v b1
      intro hx
      rw [List.getElem?_eq_getElem hu] at b2
      have b2 := Option.some.inj b2
      have hx : st.dag.nodes[r] = [] := hx
      rw [hx] at b2; cases b2
    · obtain ⟨q, hq'⟩ := hq.inv.tgt t u ht
      cases C53.okOf hq hq' with
      | mk tgt c1 c2 =>
        rw [List.getElem?_eq_getElem hu] at c2
        cases c2
        exact walk_ne_nil c1
  · rintro v rfl
    have hl : ∀ e, Leaf g e ↔ e ∈ st.dag.roots := by
      intro e
      rw [C53.leafIff hg h2]
      exact ⟨fun h => (C53.rootIff hq h.1).2 h.2, fun h => ⟨hg.roots e h, (C53.rootIff hq (hg.roots e h)).1 h⟩⟩
    have h1' : queryOne lk f w k inst .init v = some st := by
      obtain ⟨s, h3, h4⟩ := Option.bind_eq_some_iff.1 (show (queryOne lk f w k inst .init v).bind some = some st from h1)
      cases h4; exact h3
    obtain ⟨hq', _⟩ := queryOne_ok (Params.trivial lk f) (QInv.init inst) h1'
    have hr : st.dag.roots = [0] := by rw [hq'.roots]; simp [St.init, Adj.empty]
    exact ⟨0, (hl 0).2 (by rw [hr]; exact .head _), fun e' he => List.mem_singleton.1 (hr ▸ (hl e').1 he)⟩

/-! ## Removing edges -/

/-- C54: `filterOutUnreachableNodes` ends, keeps every path that some model satisfies, and returns a constraint that says that some path
is satisfied.  If Z3 recognises `false`, no vertex but the leaf is left without a successor, so that the enumeration does not abort. -/
theorem C54_filter {z : Z3 C} {holds : M → C → Prop} (hs : z.Sound holds) (con : Constr N C) (add : Option C) {g : Adj.Graph (List N) Nat}
    {leaf : Nat} (hg : C54.Suitable g) (hlf : Leaf g leaf) : ∃ k0, ∀ k, k0 ≤ k → ∃ g' c, filterOut z con add leaf k g = some (g', c) ∧
      g'.nodes = g.nodes ∧ (∀ v t, Succ g' v t → Succ g v t) ∧ (∀ r ∈ g'.roots, r ∈ g.roots) ∧
      (∀ m, (∀ a, add = some a → holds m a) →
        (holds m c ↔ ∃ r ∈ g.roots, ∃ us, Walk g r us leaf ∧ Feasible con holds m (labelsFwd g us))) ∧
      (∀ m, (∀ a, add = some a → holds m a) → ∀ r ∈ g.roots, ∀ us, Walk g r us leaf → Feasible con holds m (labelsFwd g us) →
        r ∈ g'.roots ∧ Walk g' r us leaf) ∧
      (z.SeesFalse → ∀ r ∈ g'.roots, ∀ u, Reach g' r u → u = leaf ∨ ¬ Leaf g' u) := by
  obtain ⟨k0, h⟩ := filterOut_ok (con := con) (add := add) hs hg.range hg.label hlf hg.acc
  refine ⟨k0, fun k hk => ?_⟩
  obtain ⟨g', c, h1, h2, _, h4, h5, h6, h7, h8⟩ := h k hk
  exact ⟨g', c, h1, h2, h4, h5, h6, h7, h8⟩

/-! ## All together -/

theorem C54.walk_sub {T T' : Type} {g : Adj.Graph T Nat} {g' : Adj.Graph T' Nat} (hl : g'.adj.length = g.adj.length) (h : ∀ v t, Succ g' v t → Succ g v t)
    {a b : Nat} {us : List Nat} (hw : Walk g' a us b) : Walk g a us b := by
  induction hw with
  | one h1 => exact .one (hl ▸ h1)
  | cons h1 _ ih => exact .cons (h _ _ h1) ih

theorem C54.getD {z : Z3 C} {holds : M → C → Prop} (hs : z.Sound holds) (add : Option C) (m : M) :
    holds m (add.getD z.tt) ↔ ∀ a, add = some a → holds m a := by
  cases add with
  | none => simp [hs.tt m]
  | some a => simp

theorem C54.fold {z : Z3 C} {holds : M → C → Prop} (hs : z.Sound holds) (m : M) : ∀ (l : List C) (a : C),
    holds m (l.foldl z.and a) ↔ holds m a ∧ ∀ c ∈ l, holds m c := by
  intro l
  induction l with
  | nil => intro a; simp
  | cons b l ih => intro a; rw [List.foldl_cons, ih, hs.and]; simp [and_assoc]

/-- C54: what `pathsTo` reports on a suitable graph.  Every reported path leads from a root to the leaf, no path is reported twice; the
reported path is matched and not refuted by Z3, its constraint and the assertions of its model are those of its steps.  If the threshold is
not too small, all matched and satisfiable paths are reported.  The statement queried counts twice at the end. -/
theorem C54_paths {z : Z3 C} {holds : M → C → Prop} (hs : z.Sound holds) (hf : z.SeesFalse) (con : Constr N C) {p : Prog N}
    (hp : ∀ n, p.isCall n = true → p.isExit n = false) {addr : N → Nat} (ha : ∀ a b, addr a = addr b → a = b) (add : Option C) (inst : N)
    {g : Adj.Graph (List N) Nat} (hg : C54.Suitable g) {leaf : Nat} (hl : findLeaf g = some leaf) :
    ∃ B, ∀ maxPaths, ∃ k0, ∀ k, k0 ≤ k → ∃ ps, pathsTo z con p addr add maxPaths k inst g = some ps ∧ (ps.map (·.1)).Nodup ∧
      (∀ e ∈ ps, (∃ r ∈ g.roots, ∃ us, Walk g r us leaf ∧ e.1 = labelsFwd g us) ∧ Matched p (e.1 ++ [inst]) ∧ z.check e.2.2 ≠ .unsat ∧
        ∀ m, (holds m e.2.1 ↔ (∀ a, add = some a → holds m a) ∧ Feasible con holds m (e.1 ++ [inst])) ∧
          ((∀ c ∈ e.2.2, holds m c) ↔ holds m e.2.1)) ∧
      (B < maxPaths → ∀ r ∈ g.roots, ∀ us, Walk g r us leaf → Matched p (labelsFwd g us ++ [inst]) →
        (∃ m, (∀ a, add = some a → holds m a) ∧ Feasible con holds m (labelsFwd g us ++ [inst])) → labelsFwd g us ∈ ps.map (·.1)) := by
  have hlf := findLeaf_ok.1 leaf hl
  obtain ⟨k1, h⟩ := filterOut_ok (con := con) (add := add) hs hg.range hg.label hlf hg.acc
  obtain ⟨g', c, h1, h2, h3, h4, h5, h6, h7, h8⟩ := h k1 (Nat.le_refl _)
  have hadd := C54.getD hs add
  have hr' : InRange g' := ⟨by rw [h3, h2]; exact hg.range.wf, fun t u hu => by rw [h3]; exact hg.range.succ t u (h4 t u hu),
    fun r hr => by rw [h3]; exact hg.range.roots r (h5 r hr)⟩
  have hacc' : ∀ r ∈ g'.roots, Acc (fun t v => Succ g' v t) r :=
    fun r hr => Subrelation.accessible (fun h => h4 _ _ h) (hg.acc r (h5 r hr))
  have hlf' : Leaf g' leaf := by
    have hlt : leaf < g'.adj.length := by rw [h3]; exact (List.getElem?_eq_some_iff.1 hlf).1
    show g'.adj[leaf]? = some []
    rw [List.getElem?_eq_getElem hlt]
    cases hx : g'.adj[leaf] with
    | nil => rfl
    | cons t es =>
      obtain ⟨es', a1, a2⟩ := h4 leaf t ⟨_, List.getElem?_eq_getElem hlt, by rw [hx]; exact .head _⟩
      have hlf : g.adj[leaf]? = some [] := hlf
      rw [hlf] at a1; cases a1; cases a2
  have hlab : ∀ us, labelsFwd g' us = labelsFwd g us := fun us => by unfold labelsFwd; rw [h2]
  obtain ⟨B, hB⟩ := flatten_len z con p g' leaf inst hacc'
  refine ⟨B, fun maxPaths => ?_⟩
  obtain ⟨k2, hk2⟩ := flatten_ok (j := ⟨z, con, p, g', leaf, inst, maxPaths⟩) (add := add) (holds := holds) hs hp hr'
    (fun l hl => hg.label l (h2 ▸ hl)) hlf' hacc' (h8 hf)
  refine ⟨max k1 k2, fun k hk => ?_⟩
  have hfo := filterOut_mono (Nat.le_trans (Nat.le_max_left ..) hk) h1
  obtain ⟨ret, r1, r2, r3⟩ := hk2 k (Nat.le_trans (Nat.le_max_right ..) hk)
  have hpt : pathsTo z con p addr add maxPaths k inst g = if z.isFalse c then some [] else some (dedup addr ret) := by
    unfold pathsTo
    simp only [hl, Option.bind_some, hfo, r1, Option.map_some]
  cases hc : z.isFalse c with
  | true =>
    refine ⟨[], by rw [hpt, hc]; rfl, List.nodup_nil, fun e he => (by cases he), ?_⟩
    rintro _ r hr us hw hM ⟨m, hm1, hm2⟩
    refine absurd ((h6 m hm1).2 ⟨r, hr, us, hw, ?_⟩) (hs.isFalse m c hc)
    obtain ⟨ext, hext⟩ := pairs_prefix (labelsFwd g us) [inst]
    exact fun q hq => hm2 q (by rw [hext]; exact List.mem_append_left _ hq)
  | false =>
    obtain ⟨d1, d2, d3⟩ := dedup_ok ha ret
    refine ⟨dedup addr ret, by rw [hpt, hc]; rfl, d3, fun e he => ?_, ?_⟩
    · obtain ⟨r, a1, us, a2, a3, a4⟩ := r2 e (d1 e he)
      have a3' := a3
      unfold entry at a3'
      dsimp only at a1 a2 a3' a4
      rw [hlab] at a3' a4
      subst a3'
      refine ⟨⟨r, h5 r a1, us, C54.walk_sub h3 h4 a2, rfl⟩, a4.1, a4.2, fun m => ?_⟩
      have e1 : holds m (z.simplify ((cons con (pairs (labelsFwd g us ++ [inst]))).foldl z.and (add.getD z.tt))) ↔
          (∀ a, add = some a → holds m a) ∧ Feasible con holds m (labelsFwd g us ++ [inst]) := by
        rw [hs.simplify, C54.fold hs, hadd, cons_iff]
      refine ⟨e1, ?_⟩
      dsimp only
      rw [e1, ← cons_iff, ← hadd m]
      simp
    · rintro hlt r hr us hw hM ⟨m, hm1, hm2⟩
      rw [d2]
      have hm3 : Feasible con holds m (labelsFwd g us) := by
        obtain ⟨ext, hext⟩ := pairs_prefix (labelsFwd g us) [inst]
        exact fun q hq => hm2 q (by rw [hext]; exact List.mem_append_left _ hq)
      obtain ⟨w1, w2⟩ := h7 m hm1 r hr us hw hm3
      have hmem := r3 (by have := hB maxPaths add k ret r1; dsimp only; omega) r w1 us w2
        ⟨by rw [hlab]; exact hM, fun hu => hs.check _ hu m fun d hd => ?_⟩ ⟨m, (hadd m).2 hm1, by rw [hlab]; exact hm3⟩
      · rw [hlab] at hmem
        exact List.mem_map.2 ⟨_, hmem, rfl⟩
      · dsimp only at hd
        rw [hlab] at hd
        rcases List.mem_cons.1 hd with rfl | hd
        · exact (hadd m).2 hm1
        · exact cons_iff.2 hm2 d hd

/-- C54 with C53: the paths that are reported for a fact of the exploded supergraph.  They are ways back from the queried node, or the
queried statement alone; all ways back are reported that match calls and returns and are satisfiable, if the supergraph has no cycles, the
tracing filter never ends a path early and the threshold is not too small. -/
theorem C54_query_partial {V : Type} [DecidableEq V] {lk : Links V N} {f : Filter V} {w k' : Nat} {v : V} {inst : N}
    {g : Adj.Graph (List N) Nat} (hd : pathsDagToAll lk f w k' inst [v] = some g)
    {z : Z3 C} {holds : M → C → Prop} (hs : z.Sound holds) (hf : z.SeesFalse) (con : Constr N C) {p : Prog N}
    (hp : ∀ n, p.isCall n = true → p.isExit n = false) {addr : N → Nat} (ha : ∀ a b, addr a = addr b → a = b) (add : Option C) :
    ∃ B, ∀ maxPaths, ∃ k0, ∀ k, k0 ≤ k → ∃ ps, pathsTo z con p addr add maxPaths k inst g = some ps ∧ (ps.map (·.1)).Nodup ∧
      (∀ e ∈ ps, (e.1 = [inst] ∨ ∃ q, (q = v ∨ q ∈ lk.nbrs v) ∧ ∃ ls, Trail lk f q ls ∧ e.1 = (inst :: ls).reverse) ∧
        Matched p (e.1 ++ [inst]) ∧ z.check e.2.2 ≠ .unsat ∧
        ∀ m, holds m e.2.1 ↔ (∀ a, add = some a → holds m a) ∧ Feasible con holds m (e.1 ++ [inst])) ∧
      (B < maxPaths → ∀ rank : V → Nat, (∀ v q, lk.Next v q → rank q < rank v) → (∀ v q, f.reachedEnd v q = false) →
        ∀ q, (q = v ∨ q ∈ lk.nbrs v) → ∀ ls, Trail lk f q ls → Matched p ((inst :: ls).reverse ++ [inst]) →
        (∃ m, (∀ a, add = some a → holds m a) ∧ Feasible con holds m ((inst :: ls).reverse ++ [inst])) →
        (inst :: ls).reverse ∈ ps.map (·.1)) := by
  obtain ⟨hg, hl⟩ := C54_suitable hd
  obtain ⟨leaf, hl1, hl2⟩ := hl v rfl
  obtain ⟨leaf', hl'⟩ := findLeaf_ok.2 ⟨leaf, hl1⟩
  cases hl2 _ (findLeaf_ok.1 _ hl')
  obtain ⟨B, h⟩ := C54_paths hs hf con hp ha add inst hg hl'
  refine ⟨B, fun maxPaths => ?_⟩
  obtain ⟨k0, h⟩ := h maxPaths
  refine ⟨k0, fun k hk => ?_⟩
  obtain ⟨ps, h1, h2, h3, h4⟩ := h k hk
  refine ⟨ps, h1, h2, fun e he => ?_, ?_⟩
  · obtain ⟨⟨r, hr, us, hw, hlab⟩, a2, a3, a4⟩ := h3 e he
    refine ⟨?_, a2, a3, fun m => (a4 m).1⟩
    rcases C53_sound hd hr hw hl1 with ⟨_, b⟩ | ⟨v', hv, q, hq, ls, b1, b2⟩
    · exact .inl (hlab.trans b)
    · cases List.mem_singleton.1 hv
      exact .inr ⟨q, hq, ls, b1, hlab.trans b2⟩
  · intro hB rank hrank hre q hq ls ht hM hm
    obtain ⟨r, us, e, hr, hw, hle, hlab⟩ := C53_complete_partial hd rank hrank hre (.head _) hq ht
    cases hl2 e hle
    have := h4 hB r hr us hw
    rw [hlab] at this
    exact this hM hm

/-- C54: that the queried statement counts twice makes no difference if it is no return and has no constraint with itself. -/
theorem C54_final (p : Prog N) (con : Constr N C) (holds : M → C → Prop) (path : List N) (inst : N) (hl : path.getLast? = some inst)
    (he : p.isExit inst = false) (hc : con inst inst = none) : (Matched p (path ++ [inst]) ↔ Matched p path) ∧
      ∀ m, Feasible con holds m (path ++ [inst]) ↔ Feasible con holds m path := by
  rcases List.eq_nil_or_concat path with rfl | ⟨l, a, rfl⟩
  · cases hl
  rw [List.concat_eq_append] at hl ⊢
  simp at hl; subst hl
  constructor
  · rw [matched_iff, matched_iff, pairs_snoc, run_append]
    cases run p (some []) (pairs (l ++ [a])) with
    | none => rw [run_none]
    | some S =>
      show (stepStack p (some S) (a, a)).isSome = true ↔ _
      have : stepOf p (a, a) = .call ∨ stepOf p (a, a) = .intra := by
        unfold stepOf
        split
        · exact .inl rfl
        · rw [if_neg (by simp [he])]; exact .inr rfl
      rcases this with h | h <;> simp [stepStack, h]
  · intro m
    unfold Feasible
    rw [pairs_snoc]
    constructor
    · intro h q hq
      exact h q (List.mem_append_left _ hq)
    · intro h q hq c hc'
      rcases List.mem_append.1 hq with hq | hq
      · exact h q hq c hc'
      · cases List.mem_singleton.1 hq
        rw [hc] at hc'; cases hc'

/-! ## Cases -/

/-- Constraints over one Boolean variable. -/
def C54.z : Z3 (Bool → Bool) where
  tt _ := true
  ff _ := false
  and a b m := a m && b m
  or a b m := a m || b m
  simplify a := a
  isFalse a := !a true && !a false
  check l := if (l.all fun a => a true) || (l.all fun a => a false) then .sat else .unsat

/-- A model is a value of the variable. -/
def C54.holds (m : Bool) (c : Bool → Bool) : Prop := c m = true

theorem C54.z_sound : C54.z.Sound C54.holds := by
  refine ⟨fun m => rfl, fun m h => (by cases h), fun m a b => (by simp [C54.z, C54.holds]), fun m a b => (by simp [C54.z, C54.holds]),
    fun m a => .rfl, fun m a h => ?_, fun l h m hm => ?_⟩
  · simp [C54.z] at h
    cases m <;> simp [C54.holds, h]
  · simp only [C54.z] at h
    split at h
    · cases h
    · rename_i hn
      apply hn
      cases m
      · simp only [Bool.or_eq_true, List.all_eq_true]; exact .inr hm
      · simp only [Bool.or_eq_true, List.all_eq_true]; exact .inl hm

theorem C54.z_false : C54.z.SeesFalse := by
  rintro l ⟨c, hc, h⟩
  have hf : ∀ m, c m = false := by
    rcases h with rfl | ⟨d, rfl⟩ <;> intro m <;> rfl
  simp only [C54.z]
  rw [if_neg]
  simp only [Bool.or_eq_true, List.all_eq_true]
  rintro (h | h)
  · have := h c hc; rw [hf] at this; cases this
  · have := h c hc; rw [hf] at this; cases this

/-- Every edge leads to a later vertex. -/
theorem C54.suitable {T : List (List N)} {adj : List (List Nat)} {roots : List Nat} (h1 : adj.length = T.length) (h2 : ∀ l ∈ T, l ≠ [])
    (h3 : ∀ v < adj.length, ∀ t ∈ (adj[v]?).getD [], v < t ∧ t < adj.length) (h4 : ∀ r ∈ roots, r < adj.length) :
    C54.Suitable (⟨T, adj, roots⟩ : Adj.Graph (List N) Nat) := by
  have hs : ∀ v t, Succ (⟨T, adj, roots⟩ : Adj.Graph (List N) Nat) v t → v < t ∧ t < adj.length := by
    rintro v t ⟨es, he, ht⟩
    have he : adj[v]? = some es := he
    exact h3 v (List.getElem?_eq_some_iff.1 he).1 t (by rw [he]; exact ht)
  have hr : ∀ v t, Reach (⟨T, adj, roots⟩ : Adj.Graph (List N) Nat) v t → v ≤ t := by
    intro v t h
    induction h with
    | refl => exact Nat.le_refl _
    | step h _ ih => have := (hs _ _ h).1; omega
  refine ⟨⟨h1, fun t u h => (hs t u h).2, h4⟩, h2, ?_⟩
  rintro u ⟨t, ht, hr'⟩
  have := (hs u t ht).1
  have := hr t u hr'
  omega

/-- A branch at 0 to 1 or 2, joined at 3; the variable tells which way, and 1 to 3 contradicts 0 to 1. -/
def C54.branch : Adj.Graph (List Nat) Nat := ⟨[[0], [1], [2], [3]], [[1, 2], [3], [3], []], [0]⟩

/-- The constraints of `C54.branch`. -/
def C54.branchCon : Constr Nat (Bool → Bool) := fun a b =>
  if a = 0 ∧ b = 1 then some (fun m => m, [0]) else if a = 0 ∧ b = 2 then some (fun m => !m, [0])
  else if a = 1 ∧ b = 3 then some (fun m => !m, [0]) else none

/-- No calls. -/
def C54.plain : Prog Nat := ⟨fun _ => false, fun _ => false, fun _ => false, fun _ => false, fun _ => [], fun _ => []⟩

theorem C54.branch_ok : C54.Suitable C54.branch := C54.suitable rfl (by decide) (by decide) (by decide)

/-- The contradictory path is removed from the graph and not reported, the other one is. -/
example : (∃ k0, ∀ k, k0 ≤ k → ∃ g' c, filterOut C54.z C54.branchCon none 3 k C54.branch = some (g', c) ∧ Walk g' 0 [0, 2, 3] 3) ∧
    (∃ B, ∀ maxPaths, B < maxPaths → ∃ k0, ∀ k, k0 ≤ k → ∃ ps,
      pathsTo C54.z C54.branchCon C54.plain id none maxPaths k 3 C54.branch = some ps ∧ [0, 2, 3] ∈ ps.map (·.1)) ∧
    (filterOut C54.z C54.branchCon none 3 9 C54.branch).map (·.1.adj) = some [[2], [3], [3], []] ∧
    (pathsTo C54.z C54.branchCon C54.plain id none 9 9 3 C54.branch).map (·.map (·.1)) = some [[0, 2, 3]] := by
  have hw : Walk C54.branch 0 [0, 2, 3] 3 := .cons ⟨_, rfl, by decide⟩ (.cons ⟨_, rfl, by decide⟩ (.one (by decide)))
  have hfe : ∀ q ∈ [(0, 2), (2, 3), (3, 3)], ∀ c, C54.branchCon q.1 q.2 = some c → C54.holds false c.1 := by
    intro q hq c hc
    simp only [List.mem_cons, List.not_mem_nil, or_false] at hq
    rcases hq with rfl | rfl | rfl
    · cases hc; rfl
    · cases hc
    · cases hc
  refine ⟨?_, ?_, by decide, by decide⟩
  · obtain ⟨k0, h⟩ := C54_filter C54.z_sound C54.branchCon none C54.branch_ok (leaf := 3) rfl
    refine ⟨k0, fun k hk => ?_⟩
    obtain ⟨g', c, h1, _, _, _, _, h2, _⟩ := h k hk
    refine ⟨g', c, h1, (h2 false (fun a ha => by cases ha) 0 (.head _) _ hw ?_).2⟩
    intro q hq
    exact hfe q (by revert hq; revert q; decide)
  · obtain ⟨B, h⟩ := C54_paths C54.z_sound C54.z_false C54.branchCon (p := C54.plain) (fun _ h => by cases h) (addr := id) (fun _ _ h => h)
      none 3 C54.branch_ok (leaf := 3) rfl
    refine ⟨B, fun maxPaths hB => ?_⟩
    obtain ⟨k0, h⟩ := h maxPaths
    refine ⟨k0, fun k hk => ?_⟩
    obtain ⟨ps, h1, _, _, h2⟩ := h k hk
    refine ⟨ps, h1, h2 hB 0 (.head _) _ hw ?_ ⟨false, (fun a ha => by cases ha), hfe⟩⟩
    exact (matched_iff _ _).2 (by decide)

/-- A program with two calls 1 and 2 of the function with the statements 10 and 11 in one block, followed by 3. -/
def C54.twice : Prog Nat where
  isCall n := n == 1 || n == 2
  isExit n := n == 11
  isTerm n := n == 3 || n == 11
  definedCall n := n == 1 || n == 2
  rest n := if n = 1 then [2, 3] else if n = 2 then [3] else if n = 10 then [11] else []
  succFronts _ := []

/-- Returning from the first call behind the second is not accepted. -/
example : Matched C54.twice [1, 10, 11, 2, 10, 11, 3] ∧ ¬ Matched C54.twice [1, 10, 11, 3] ∧ Matched C54.twice [10, 11, 3] ∧
    isDirect C54.twice 2 1 = true ∧ ¬ Direct C54.twice 3 1 [2, 3] ∧
    ∃ s, (pairs [1, 10, 11, 3]).foldlM (fun s e => s.saveEdge C54.twice e.1 e.2) CSF.new = some s ∧ s.valid = false := by
  refine ⟨(matched_iff _ _).2 (by decide), fun h => absurd ((matched_iff _ _).1 h) (by decide), (matched_iff _ _).2 (by decide), by decide, ?_,
    _, rfl, by decide⟩
  intro h
  exact absurd ((C54_direct C54.twice 3 1).2 h) (by decide)

/-- Saving in front of a return and restoring. -/
example : ∃ s s' : CSF Nat, (pairs [1, 10]).foldlM (fun s e => s.saveEdge C54.twice e.1 e.2) CSF.new = some s ∧ s.owner = [(none, 1)] ∧
    [(10, 11), (11, 2), (2, 10)].foldlM (fun s e => s.saveEdge C54.twice e.1 e.2) s.save = some s' ∧ s'.owner = [(none, 1), (none, 2)] ∧
    s'.restore = some s := by
  refine ⟨_, _, rfl, rfl, rfl, rfl, ?_⟩
  exact C54_restore C54.twice [1, 10] (l := [(10, 11), (11, 2), (2, 10)]) rfl rfl rfl

/-- A query of the exploded supergraph `C53.diamond`, whose two paths are both reported. -/
example : ∃ B, ∀ maxPaths, B < maxPaths → ∃ k0, ∀ k, k0 ≤ k → ∃ ps,
    pathsTo C54.z (fun _ _ => none) C54.plain id none maxPaths k 15 C53.diamondDag = some ps ∧ [10, 11, 13, 14, 15] ∈ ps.map (·.1) := by
  obtain ⟨B, h⟩ := C54_query_partial C53.diamond_eq C54.z_sound C54.z_false (fun _ _ => none) (p := C54.plain) (fun _ h => by cases h)
    (addr := id) (fun _ _ h => h) none
  refine ⟨B, fun maxPaths hB => ?_⟩
  obtain ⟨k0, h⟩ := h maxPaths
  refine ⟨k0, fun k hk => ?_⟩
  obtain ⟨ps, h1, _, _, h2⟩ := h k hk
  refine ⟨ps, h1, h2 hB id ?_ (fun _ _ => rfl) 4 (.inl rfl) _ C53.diamond_trail ((matched_iff _ _).2 (by decide))
    ⟨true, (fun a ha => by cases ha), (fun q _ c hc => by cases hc)⟩⟩
  rintro v q ⟨p, hp, hq⟩
  match v, hp with
  | 1, hp => cases hp; rcases hq with rfl | hq; decide; cases hq
  | 2, hp => cases hp; rcases hq with rfl | hq; decide; cases hq
  | 3, hp => cases hp; rcases hq with rfl | hq; decide; revert q; decide
  | 4, hp => cases hp; rcases hq with rfl | hq; decide; revert q; decide

/-! ## Where the claims fail -/

/-- C54, false in general: at a return of a called function no path with that call is reported, although it is matched and satisfiable: the
edge from the queried statement to itself is taken for a return that does not go back to the call. -/
theorem C54_return_false : ∃ g : Adj.Graph (List Nat) Nat, C54.Suitable g ∧ findLeaf g = some 2 ∧ 0 ∈ g.roots ∧ Walk g 0 [0, 1, 2] 2 ∧
    labelsFwd g [0, 1, 2] = [1, 10, 11] ∧ Matched C54.twice [1, 10, 11] ∧
    ∀ m k, 9 ≤ m → 9 ≤ k → pathsTo C54.z (fun _ _ => none) C54.twice id none m k 11 g = some [] := by
  refine ⟨⟨[[1], [10], [11]], [[1], [2], []], [0]⟩, C54.suitable rfl (by decide) (by decide) (by decide), rfl, .head _,
    .cons ⟨_, rfl, .head _⟩ (.cons ⟨_, rfl, .head _⟩ (.one (by decide))), rfl, (matched_iff _ _).2 (by decide), fun m k hm hk => ?_⟩
  obtain ⟨m, rfl⟩ : ∃ m', m = m' + 9 := ⟨m - 9, by omega⟩
  obtain ⟨k, rfl⟩ : ∃ k', k = k' + 9 := ⟨k - 9, by omega⟩
  rfl

/-- C54, false in general: more paths can be reported than the threshold says.  The threshold is not looked at for edges to the leaf. -/
theorem C54_threshold_false : ∃ g : Adj.Graph (List Nat) Nat, C54.Suitable g ∧
    (pathsTo C54.z (fun _ _ => none) C54.plain id none 1 9 2 g).map (·.map (·.1)) = some [[0, 2], [0, 1, 2]] := by
  exact ⟨⟨[[0], [1], [2]], [[1, 2], [2], []], [0]⟩, C54.suitable rfl (by decide) (by decide) (by decide), by decide⟩

/-- The program `C54.twice` with an invoke as the second call. -/
def C54.invoke : Prog Nat where
  isCall n := n == 1 || n == 2
  isExit n := n == 11
  isTerm n := n == 2 || n == 3 || n == 11
  definedCall n := n == 1 || n == 2
  rest n := if n = 1 then [2] else if n = 10 then [11] else []
  succFronts n := if n = 2 then [3] else []

/-- C54, false in general: a return from one call behind the next is accepted if the next call is an invoke and ends the block. -/
theorem C54_invoke_false : C54.invoke.definedCall 2 = true ∧ C54.invoke.rest 1 = [2] ∧ isDirect C54.invoke 3 1 = true ∧
    Matched C54.invoke [1, 10, 11, 3] ∧ ¬ Matched C54.twice [1, 10, 11, 3] := by
  exact ⟨rfl, rfl, rfl, (matched_iff _ _).2 (by decide), fun h => absurd ((matched_iff _ _).1 h) (by decide)⟩

end Phasar.PathFilter
