import Verif.Path.RevDagPaths
import Verif.Path.FilterProps
/-!
# C59: the depth limit and the minimisation of path graphs

`reverseDAG`, the minimisation and the whole of `pathsDagToAll` for all graphs, facts and options: which paths are left.
-/
namespace Phasar.PathFilter
open Phasar Dag
set_option linter.unusedSectionVars false

variable {T N C M : Type}

/-! ## The depth limit -/

/-- C59: `reverseDAG` never leaves its buffers.  The graph it returns has exactly one vertex for every vertex that is at most `d` edges
away from a root, with the same label; it has exactly the edges that leave vertices less than `d` edges away, turned around; its roots are
the leaves less than `d` edges away and the vertices exactly `d` edges away. -/
theorem C59_reverse {g : Adj.Graph T Nat} (hg : InRange g) (d : Nat) : ∃ r, reverseDAG g id g.adj.length d = some r ∧ InRange r ∧
    ∃ I : Nat → Option Nat,
      (∀ v, (∃ x, I v = some x) ↔ Near g d v) ∧ (∀ u v x, I u = some x → I v = some x → u = v) ∧
      (∀ x, x < r.nodes.length ↔ ∃ v, I v = some x) ∧ (∀ v x, I v = some x → r.nodes[x]? = g.nodes[v]?) ∧
      (∀ x y, Succ r x y ↔ ∃ a b, Inside g d a ∧ Succ g a b ∧ I b = some x ∧ I a = some y) ∧
      ∀ x, x ∈ r.roots ↔ ∃ v, I v = some x ∧ (Leaf g v ∨ ¬ Inside g d v) := by
  obtain ⟨r, I, h1, h2⟩ := reverseDAG_ok hg d
  refine ⟨r, h1, h2.range, I, h2.all, h2.inj, fun x => ?_, h2.lab, fun x y => ?_, fun x => ?_⟩
  · rw [← h2.wf]
    exact ⟨h2.onto x, fun ⟨v, hv⟩ => h2.lt v x hv⟩
  · rw [h2.edge]
    exact ⟨fun ⟨a, b, ⟨x1, x2⟩, x3, x4⟩ => ⟨a, b, x1, x2, x3, x4⟩, fun ⟨a, b, x1, x2, x3, x4⟩ => ⟨a, b, ⟨x1, x2⟩, x3, x4⟩⟩
  · rw [h2.root]
    constructor
    · rintro ⟨v, ⟨_, hl⟩ | ⟨_, hn⟩, hv⟩
      · exact ⟨v, hv, .inl hl⟩
      · exact ⟨v, hv, .inr hn⟩
    · rintro ⟨v, hv, hl⟩
      by_cases hi : Inside g d v
      · exact ⟨v, .inl ⟨hi, hl.resolve_right fun h => h hi⟩, hv⟩
      · exact ⟨v, .inr ⟨(h2.all v).1 ⟨x, hv⟩, hi⟩, hv⟩

theorem C59.map_some {g : Adj.Graph T Nat} (hg : InRange g) {us : List Nat} (h : ∀ v ∈ us, v < g.adj.length) :
    ∃ L : List T, us.map (g.nodes[·]?) = L.map some := by
  induction us with
  | nil => exact ⟨[], rfl⟩
  | cons v us ih =>
    obtain ⟨L, hL⟩ := ih fun v hv => h v (.tail _ hv)
    have hv : v < g.nodes.length := by rw [← hg.wf]; exact h v (.head _)
    exact ⟨g.nodes[v] :: L, by rw [List.map_cons, List.map_cons, hL, List.getElem?_eq_getElem hv]⟩

theorem C59.walk_lt {g : Adj.Graph T Nat} {u e : Nat} {us : List Nat} (hw : Walk g u us e) : ∀ v ∈ us, v < g.adj.length := by
  induction hw with
  | one h => intro v hv; cases List.mem_singleton.1 hv; exact h
  | cons hs _ ih =>
    intro v hv
    rcases List.mem_cons.1 hv with rfl | hv
    · exact hs.lt
    · exact ih v hv

theorem C59.map_inj {L L' : List T} (h : L.map some = L'.map some) : L = L' :=
  List.map_inj_right (fun _ _ h => Option.some.inj h) |>.1 h

/-- C59: what a depth limit does to the paths, on a graph without cycles whose roots are the vertices without predecessors.  The paths are
exactly those that end at a leaf or where the limit is reached.  Each of them is the end of a path without the limit, each path without the
limit is kept up to a missing beginning, and nothing changes if no vertex is too far away. -/
theorem C59_limit {g : Adj.Graph T Nat} (hg : InRange g) (hr : Rooted g) (hc : ∀ u, ¬ ReachP g u u) (d : Nat) :
    ∃ r full, reverseDAG g id g.adj.length d = some r ∧ reverseGraph g = some full ∧ (∀ u, ¬ ReachP r u u) ∧
      (∀ L, Seqs r L ↔ ∃ ps e, Cut g d ps e ∧ (ps ++ [e]).map (g.nodes[·]?) = L.reverse.map some) ∧
      (∀ L, Seqs r L → ∃ L', Seqs full (L' ++ L)) ∧
      (∀ L, Seqs full L → ∃ L₁ L₂, L = L₁ ++ L₂ ∧ L₂ ≠ [] ∧ Seqs r L₂) ∧
      ((∀ n v, Near g n v → Inside g d v) → ∀ L, Seqs r L ↔ Seqs full L) := by
  obtain ⟨r, I, h1, h2⟩ := reverseDAG_ok hg d
  obtain ⟨full, f1, _⟩ := reverseGraph_ok g hg
  have hs := h2.seqs hg hr
  have hf := reverse_seqs hg hr f1
  refine ⟨r, full, h1, f1, h2.acyclic hc, hs, fun L hL => ?_, fun L hL => ?_, fun hn L => ?_⟩
  · obtain ⟨ps, e, ⟨u, hu, hw, _, _⟩, hm⟩ := (hs L).1 hL
    obtain ⟨qs, e', k1, k2⟩ := exists_leaf hg hc hw.lt
    obtain ⟨L', hL'⟩ := C59.map_some hg fun v hv => C59.walk_lt k1 v (.tail _ hv)
    refine ⟨L'.reverse, (hf _).2 ⟨u, hu, ps ++ e :: qs, e', k1.append hw, k2, ?_⟩⟩
    rw [show ps ++ e :: qs = (ps ++ [e]) ++ qs by simp, List.map_append, hm, hL']
    simp
  · obtain ⟨u, hu, us, e, hw, hl, hm⟩ := (hf L).1 hL
    obtain ⟨ps, v, qs, rfl, k2, k3, k4⟩ := cut_walk d hw hl
    obtain ⟨L₁, hL₁⟩ := C59.map_some hg fun w hw' => C59.walk_lt hw w (List.mem_append_right _ (.tail _ hw'))
    obtain ⟨L₂, hL₂⟩ := C59.map_some hg (C59.walk_lt k2)
    have he : L.reverse = L₂ ++ L₁ := by
      apply C59.map_inj
      rw [← hm, show ps ++ v :: qs = (ps ++ [v]) ++ qs by simp, List.map_append, hL₁, hL₂, List.map_append]
    refine ⟨L₁.reverse, L₂.reverse, ?_, ?_, (hs _).2 ⟨ps, v, ⟨u, hu, k2, k3, k4.elim (fun h => .inl ⟨h.1, h.2.1⟩) .inr⟩, ?_⟩⟩
    · rw [← List.reverse_append, ← he, List.reverse_reverse]
    · intro h
      rw [List.reverse_eq_nil_iff] at h
      subst h
      simp at hL₂
    · rw [hL₂, List.reverse_reverse]
  · rw [hs, hf]
    constructor
    · rintro ⟨ps, e, ⟨u, hu, hw, hp, he⟩, hm⟩
      have hne : Inside g d e := by
        obtain ⟨x, y, xs, k1, _⟩ := h2.walk' ps u hw hp (.root hu)
        exact hn _ _ ((h2.all e).1 ⟨x, k1⟩)
      exact ⟨u, hu, _, e, hw, (he.resolve_right fun h => h hne).2, hm⟩
    · rintro ⟨u, hu, us, e, hw, hl, hm⟩
      obtain ⟨ps, v, qs, rfl, k2, k3, k4⟩ := cut_walk d hw hl
      have hne : Inside g d v := by
        obtain ⟨x, y, xs, k1, _⟩ := h2.walk' ps u k2 k3 (.root hu)
        exact hn _ _ ((h2.all v).1 ⟨x, k1⟩)
      obtain ⟨_, hlv, rfl⟩ := k4.resolve_right fun h => h hne
      exact ⟨ps, v, ⟨u, hu, k2, k3, .inl ⟨hne, hlv⟩⟩, hm⟩

/-! ## Minimisation -/

/-- C59: minimising keeps the labels of the paths from the roots to the leaves, adds no vertices and no cycles. -/
theorem C59_minimize [DecidableEq T] {g : Adj.Graph T Nat} (hg : InRange g) : ∃ k g', (∀ f, k ≤ f → minimize f g = some g') ∧ InRange g' ∧
    (∀ L, Seqs g' L ↔ Seqs g L) ∧ g'.nodes.length ≤ g.nodes.length ∧ (∀ l ∈ g'.nodes, l ∈ g.nodes) ∧
    ((∀ u, ¬ ReachP g u u) → ∀ u, ¬ ReachP g' u u) := by
  obtain ⟨k, g', R, h1, h2, h3⟩ := minimize_bis hg
  refine ⟨k, g', h1, h2.range, h2.seqs, h3, fun l hl => ?_, h2.acyclic hg⟩
  obtain ⟨x, hx, rfl⟩ := List.getElem_of_mem hl
  obtain ⟨v, hv⟩ := h2.onto x (by rw [h2.range.wf]; exact hx)
  have := h2.lab v x hv
  rw [List.getElem?_eq_getElem hx] at this
  exact List.mem_of_getElem? this.symm

/-! ## `pathsDagToAll` with all options -/

/-- The graph that the loop over the facts leaves. -/
structure C59.Base (g : Adj.Graph (List N) Nat) : Prop where
  range : InRange g
  rooted : Rooted g
  acyclic : ∀ u, ¬ ReachP g u u
  label : ∀ l ∈ g.nodes, l ≠ []

theorem C59.checked {g : Adj.Graph T Nat} (hg : InRange g) (hc : ∀ u, ¬ ReachP g u u) : checked g = some g := by
  obtain ⟨b, hb⟩ := assertIsDAG_total g hg (Nat.lt_succ_self _)
  have := assertIsDAG_ok g hb
  unfold Dag.checked
  rw [hb, Option.bind_some]
  cases b with
  | true => rfl
  | false =>
    rw [if_neg (by nofun)] at this
    obtain ⟨_, _, c, _, hc'⟩ := this
    exact absurd hc' (hc c)

section
variable {V : Type} [DecidableEq V] [DecidableEq N] {lk : Links V N} {f : Filter V} {w k : Nat} {inst : N} {vs : List V}

theorem C59.base {st : St V N} (h : query lk f w k inst vs = some st) :
    C59.Base st.dag ∧ (∃ full, pathsDagToAll lk f w k inst vs = some full ∧ reverseGraph st.dag = some full) ∧
      ∀ v, vs = [v] → st.dag.roots = [0] := by
  obtain ⟨R, hq, _⟩ := query_ok (Params.trivial lk f) h
  have hg := C53.inRange hq
  obtain ⟨full, h1, h2, _⟩ := reverseGraph_ok st.dag hg
  have hfull : pathsDagToAll lk f w k inst vs = some full := by
    unfold pathsDagToAll
    rw [h, Option.bind_some, C53_acyclic.1 st h]
    exact h1
  obtain ⟨hs, _⟩ := C54_suitable hfull
  refine ⟨⟨hg, fun u hu => C53.rootIff hq hu, ?_, fun l hl => hs.label l (h2 ▸ hl)⟩, ⟨full, hfull, h1⟩, ?_⟩
  · rintro u ⟨t, ht, hr⟩
    exact acc_no_cycle (C53.accAll hq u) ⟨t, ht, hr⟩
  · rintro v rfl
    have h1' : queryOne lk f w k inst .init v = some st := by
      obtain ⟨s, h3, h4⟩ := Option.bind_eq_some_iff.1 (show (queryOne lk f w k inst .init v).bind some = some st from h)
      cases h4; exact h3
    obtain ⟨hq', _⟩ := queryOne_ok (Params.trivial lk f) (QInv.init inst) h1'
    rw [hq'.roots]; simp [St.init, Adj.empty]

/-- Specification: the options leave the paths as they are, or take beginnings away. -/
def C59.Keeps (cfg : Config) (g full : Adj.Graph T Nat) : Prop :=
  (∀ L, Seqs g L → ∃ L', Seqs full (L' ++ L)) ∧ (∀ L, Seqs full L → ∃ L₁ L₂, L = L₁ ++ L₂ ∧ L₂ ≠ [] ∧ Seqs g L₂) ∧
    (cfg.depth = none → ∀ L, Seqs g L ↔ Seqs full L)

theorem C59.one {g : Adj.Graph (List N) Nat} (h : C59.Base g) {full : Adj.Graph (List N) Nat} (hf : reverseGraph g = some full)
    (depth : Option Nat) : ∃ r, depth.elim (reverseGraph g) (reverseDAG g id g.adj.length) = some r ∧ C54.Suitable r ∧ (∀ m, C59.Keeps ⟨depth, m⟩ r full) ∧
      (g.roots = [0] → ∃ e, Leaf r e ∧ ∀ e', Leaf r e' → e' = e) := by
  have hg := h.range
  cases depth with
  | some d =>
    obtain ⟨r, I, h1, h2⟩ := reverseDAG_ok hg d
    obtain ⟨r', full', k1, k2, k3, _, k5, k6, _⟩ := C59_limit hg h.rooted h.acyclic d
    rw [h1] at k1; cases k1
    rw [hf] at k2; cases k2
    refine ⟨r, h1, ⟨h2.range, fun l hl => ?_, k3⟩, fun m => ⟨k5, k6, (by nofun)⟩, fun h0 => ?_⟩
    · obtain ⟨x, hx, rfl⟩ := List.getElem_of_mem hl
      obtain ⟨v, hv⟩ := h2.onto x (by rw [h2.wf]; exact hx)
      have := h2.lab v x hv
      rw [List.getElem?_eq_getElem hx] at this
      exact h.label _ (List.mem_of_getElem? this.symm)
    · obtain ⟨e, he⟩ := (h2.all 0).2 (.root (h0 ▸ .head _))
      refine ⟨e, (h2.leaf hg h.rooted e).2 ⟨0, h0 ▸ .head _, he⟩, fun e' he' => ?_⟩
      obtain ⟨u, hu, hi⟩ := (h2.leaf hg h.rooted e').1 he'
      rw [h0] at hu
      cases List.mem_singleton.1 hu
      rw [he] at hi; exact (Option.some.inj hi).symm
  | none =>
    obtain ⟨r, h1, h2, h3, _, h5⟩ := reverseGraph_ok g hg
    rw [hf] at h1; cases h1
    have hs := succ_reversed hg hf
    refine ⟨full, hf, ⟨⟨by rw [h3, h2]; exact hg.wf, fun t u ht => ?_, fun x hx => ?_⟩, fun l hl => h.label l (h2 ▸ hl), ?_⟩,
      fun m => ⟨fun L hL => ⟨[], hL⟩, fun L hL => ⟨[], L, rfl, ?_, hL⟩, fun _ _ => .rfl⟩, fun h0 => ⟨0, ?_, fun e he => ?_⟩⟩
    · rw [h3]; exact ((hs t u).1 ht).lt
    · rw [h5, List.mem_filter, List.mem_range] at hx
      rw [h3]; exact hx.1
    · rintro u ⟨t, ht, hr⟩
      have : ∀ a b, Reach full a b → Reach g b a := by
        intro a b hab
        induction hab with
        | refl => exact .refl _
        | step h1 _ ih => exact ih.trans (.step ((hs _ _).1 h1) (.refl _))
      exact h.acyclic u ((this t u hr).snoc ((hs u t).1 ht))
    · rintro rfl
      obtain ⟨_, _, us, e, hw, _, hm⟩ := hL
      cases hw <;> cases hm
    · have h00 : (0 : Nat) ∈ g.roots := h0 ▸ .head _
      rw [leaf_iff, h3]
      exact ⟨hg.roots 0 h00, fun t ht => (h.rooted 0 (hg.roots 0 h00)).1 h00 t ((hs 0 t).1 ht)⟩
    · rw [leaf_iff, h3] at he
      have := (h.rooted e he.1).2 fun t ht => he.2 t ((hs e t).2 ht)
      rw [h0] at this
      exact List.mem_singleton.1 this

/-- C59: with every combination of the options, `pathsDagToAll` returns a graph for every query whose loop ends: no access is out of
bounds and no fatal error is reported.  The graph has no cycles, edges out of it or empty labels, and for one fact exactly one leaf; its
paths are those without the options, or their ends if there is a depth limit. -/
theorem C59_total {st : St V N} (h : query lk f w k inst vs = some st) (cfg : Config) : ∃ k' g full,
    (∀ f', k' ≤ f' → pathsDag cfg lk f w k f' inst vs = some g) ∧ pathsDagToAll lk f w k inst vs = some full ∧ C54.Suitable g ∧
    C59.Keeps cfg g full ∧ ∀ v, vs = [v] → ∃ e, Leaf g e ∧ ∀ e', Leaf g e' → e' = e := by
  obtain ⟨hb, ⟨full, h1, h2⟩, h3⟩ := C59.base h
  obtain ⟨r, k1, k2, k3, k4⟩ := C59.one hb h2 cfg.depth
  obtain ⟨dep, m⟩ := cfg
  have hfin : ∀ f', pathsDag ⟨dep, m⟩ lk f w k f' inst vs = if m then (minimize f' r).bind Dag.checked else some r := by
    intro f'
    unfold pathsDag finish
    rw [h, Option.bind_some, C59.checked hb.range hb.acyclic, Option.bind_some]
    cases dep with
    | none =>
      have k1 : reverseGraph st.dag = some r := k1
      dsimp only; rw [k1, Option.bind_some]
    | some d =>
      have k1 : reverseDAG st.dag id st.dag.adj.length d = some r := k1
      dsimp only; rw [k1, Option.bind_some]
  cases m with
  | false => exact ⟨0, r, full, fun f' _ => hfin f', h1, k2, k3 _, fun v hv => k4 (h3 v hv)⟩
  | true =>
    obtain ⟨n, g', R, m1, m2, m3⟩ := minimize_bis k2.range
    have hac := m2.acyclic k2.range k2.acyclic
    refine ⟨n, g', full, fun f' hf' => ?_, h1, ⟨m2.range, fun l hl => ?_, hac⟩, ⟨fun L hL => ?_, fun L hL => ?_, fun hd L => ?_⟩,
      fun v hv => ?_⟩
    · rw [hfin, if_pos rfl, m1 f' hf', Option.bind_some]
      exact C59.checked m2.range hac
    · obtain ⟨x, hx, rfl⟩ := List.getElem_of_mem hl
      obtain ⟨v, hv⟩ := m2.onto x (by rw [m2.range.wf]; exact hx)
      have := m2.lab v x hv
      rw [List.getElem?_eq_getElem hx] at this
      exact k2.label _ (List.mem_of_getElem? this.symm)
    · exact (k3 true).1 L ((m2.seqs L).1 hL)
    · obtain ⟨L₁, L₂, e1, e2, e3⟩ := (k3 true).2.1 L hL
      exact ⟨L₁, L₂, e1, e2, (m2.seqs _).2 e3⟩
    · exact (m2.seqs L).trans ((k3 true).2.2 hd L)
    · obtain ⟨e, he, hu⟩ := k4 (h3 v hv)
      have hex : ∃ L, Seqs full L := by
        have h0 : (0 : Nat) ∈ st.dag.roots := h3 v hv ▸ .head _
        obtain ⟨qs, e', q1, q2⟩ := exists_leaf hb.range hb.acyclic (hb.range.roots 0 h0)
        obtain ⟨L, hL⟩ := C59.map_some hb.range (C59.walk_lt q1)
        exact ⟨L.reverse, (reverse_seqs hb.range hb.rooted h2 _).2 ⟨0, h0, _, e', q1, q2, by rw [hL, List.reverse_reverse]⟩⟩
      obtain ⟨L, hL⟩ := hex
      obtain ⟨_, L₂, _, _, hL₂⟩ := (k3 true).2.1 L hL
      obtain ⟨_, _, _, x, _, hx, _⟩ := (m2.seqs L₂).2 hL₂
      have hR : ∀ y, Leaf g' y → R e y := by
        intro y hy
        obtain ⟨u, hu'⟩ := m2.onto y (leaf_iff.1 hy).1
        rw [← hu u ((m2.leaf hu').2 hy)]
        exact hu'
      exact ⟨x, hx, fun y hy => m2.fn e y x (hR y hy) (hR x hx)⟩

/-! ## The reported paths -/

theorem C59.flat {g : Adj.Graph (List N) Nat} {us : List Nat} {L : List (List N)} (h : us.map (g.nodes[·]?) = L.map some) :
    labelsFwd g us = L.flatMap List.reverse := by
  unfold labelsFwd
  induction us generalizing L with
  | nil => cases L with
    | nil => rfl
    | cons => cases h
  | cons u us ih => cases L with
    | nil => cases h
    | cons l L =>
      rw [List.map_cons, List.map_cons] at h
      injection h with h1 h2
      rw [List.flatMap_cons, List.flatMap_cons, ih h2, h1]; rfl

/-- The statements on the paths of a graph. -/
theorem C59.stmts {g : Adj.Graph (List N) Nat} (hg : InRange g) (p : List N) :
    (∃ r ∈ g.roots, ∃ us e, Walk g r us e ∧ Leaf g e ∧ labelsFwd g us = p) ↔ ∃ L, Seqs g L ∧ L.flatMap List.reverse = p := by
  constructor
  · rintro ⟨r, hr, us, e, hw, hl, rfl⟩
    obtain ⟨L, hL⟩ := C59.map_some hg (C59.walk_lt hw)
    exact ⟨L, ⟨r, hr, us, e, hw, hl, hL⟩, (C59.flat hL).symm⟩
  · rintro ⟨L, ⟨r, hr, us, e, hw, hl, hm⟩, rfl⟩
    exact ⟨r, hr, us, e, hw, hl, C59.flat hm⟩

theorem C59.pairs_suffix (l l' : List N) : ∃ pre, pairs (l ++ l') = pre ++ pairs l' := by
  induction l with
  | nil => exact ⟨[], rfl⟩
  | cons a l ih =>
    obtain ⟨pre, h⟩ := ih
    cases hl : l ++ l' with
    | nil =>
      obtain ⟨rfl, rfl⟩ := List.append_eq_nil_iff.1 hl
      exact ⟨[], rfl⟩
    | cons b m =>
      rw [hl] at h
      refine ⟨(a, b) :: pre, ?_⟩
      rw [List.cons_append, hl, pairs_cons, h]; rfl

/-- C59 with C53 and C54: the paths that are reported for a fact of the exploded supergraph with every combination of the options.  They
are ends of ways back from the queried node, or the queried statement alone.  Every way back that matches calls and returns and is
satisfiable is reported up to a missing beginning, if the supergraph has no cycles, the tracing filter never ends a path early and the
threshold is not too small.  Without a depth limit nothing is missing. -/
theorem C59_query_partial {v : V} {st : St V N} (hq : query lk f w k inst [v] = some st) (cfg : Config)
    {z : Z3 C} {holds : M → C → Prop} (hs : z.Sound holds) (hf : z.SeesFalse) (con : Constr N C) {p : Prog N}
    (hp : ∀ n, p.isCall n = true → p.isExit n = false) {addr : N → Nat} (ha : ∀ a b, addr a = addr b → a = b) (add : Option C) :
    ∃ k' g, (∀ f', k' ≤ f' → pathsDag cfg lk f w k f' inst [v] = some g) ∧
    ∃ B, ∀ maxPaths, ∃ k0, ∀ k, k0 ≤ k → ∃ ps, pathsTo z con p addr add maxPaths k inst g = some ps ∧ (ps.map (·.1)).Nodup ∧
      (∀ e ∈ ps, (∃ pre, (cfg.depth = none → pre = []) ∧
          (pre ++ e.1 = [inst] ∨ ∃ q, (q = v ∨ q ∈ lk.nbrs v) ∧ ∃ ls, Trail lk f q ls ∧ pre ++ e.1 = (inst :: ls).reverse)) ∧
        Matched p (e.1 ++ [inst]) ∧ z.check e.2.2 ≠ .unsat ∧
        ∀ m, holds m e.2.1 ↔ (∀ a, add = some a → holds m a) ∧ Feasible con holds m (e.1 ++ [inst])) ∧
      (B < maxPaths → ∀ rank : V → Nat, (∀ v q, lk.Next v q → rank q < rank v) → (∀ v q, f.reachedEnd v q = false) →
        ∀ q, (q = v ∨ q ∈ lk.nbrs v) → ∀ ls, Trail lk f q ls → Matched p ((inst :: ls).reverse ++ [inst]) →
        (∃ m, (∀ a, add = some a → holds m a) ∧ Feasible con holds m ((inst :: ls).reverse ++ [inst])) →
        ∃ pre e, (cfg.depth = none → pre = []) ∧ pre ++ e = (inst :: ls).reverse ∧ e ≠ [] ∧ e ∈ ps.map (·.1)) := by
  obtain ⟨k', g, full, h1, h2, h3, ⟨h4, h5, h6⟩, h7⟩ := C59_total hq cfg
  obtain ⟨hsf, hlf⟩ := C54_suitable h2
  obtain ⟨leaf, hl1, hl2⟩ := h7 v rfl
  obtain ⟨leaf', hl'⟩ := findLeaf_ok.2 ⟨leaf, hl1⟩
  cases hl2 _ (findLeaf_ok.1 _ hl')
  refine ⟨k', g, h1, ?_⟩
  obtain ⟨B, h⟩ := C54_paths hs hf con hp ha add inst h3 hl'
  refine ⟨B, fun maxPaths => ?_⟩
  obtain ⟨k0, h⟩ := h maxPaths
  refine ⟨k0, fun k hk => ?_⟩
  obtain ⟨ps, p1, p2, p3, p4⟩ := h k hk
  refine ⟨ps, p1, p2, fun e he => ?_, ?_⟩
  · obtain ⟨⟨r, hr, us, hw, hlab⟩, a2, a3, a4⟩ := p3 e he
    refine ⟨?_, a2, a3, fun m => (a4 m).1⟩
    obtain ⟨L, hL, hLe⟩ := (C59.stmts h3.range e.1).1 ⟨r, hr, us, _, hw, hl1, hlab.symm⟩
    have key : ∃ pre, (cfg.depth = none → pre = []) ∧ ∃ L', Seqs full L' ∧ L'.flatMap List.reverse = pre ++ e.1 := by
      cases hd : cfg.depth with
      | none => exact ⟨[], fun _ => rfl, L, (h6 hd L).1 hL, hLe⟩
      | some d =>
        obtain ⟨L', hL'⟩ := h4 L hL
        exact ⟨L'.flatMap List.reverse, (by nofun), L' ++ L, hL', by rw [List.flatMap_append, hLe]⟩
    obtain ⟨pre, k1, L', k2, k3⟩ := key
    obtain ⟨r', hr', us', e', hw', hle', hlab'⟩ := (C59.stmts hsf.range _).2 ⟨L', k2, k3⟩
    refine ⟨pre, k1, ?_⟩
    rw [← hlab']
    rcases C53_sound h2 hr' hw' hle' with ⟨_, b⟩ | ⟨v', hv, q, hq, ls, b1, b2⟩
    · exact .inl b
    · cases List.mem_singleton.1 hv
      exact .inr ⟨q, hq, ls, b1, b2⟩
  · rintro hB rank hrank hre q hq ls ht hM ⟨m, hm1, hm2⟩
    obtain ⟨r, us, e, hr, hw, hle, hlab⟩ := C53_complete_partial h2 rank hrank hre (.head _) hq ht
    obtain ⟨L, hL, hLe⟩ := (C59.stmts hsf.range _).1 ⟨r, hr, us, e, hw, hle, hlab⟩
    have key : ∃ pre L₂, (cfg.depth = none → pre = []) ∧ pre ++ L₂.flatMap List.reverse = (inst :: ls).reverse ∧ Seqs g L₂ := by
      cases hd : cfg.depth with
      | none => exact ⟨[], L, fun _ => rfl, hLe, (h6 hd L).2 hL⟩
      | some d =>
        obtain ⟨L₁, L₂, e1, _, e3⟩ := h5 L hL
        refine ⟨L₁.flatMap List.reverse, L₂, (by nofun), ?_, e3⟩
        rw [← List.flatMap_append, ← e1, hLe]
    obtain ⟨pre, L₂, k1, k2, k3⟩ := key
    obtain ⟨r', hr', us', e', hw', hle', hlab'⟩ := (C59.stmts h3.range _).2 ⟨L₂, k3, rfl⟩
    cases hl2 e' hle'
    refine ⟨pre, L₂.flatMap List.reverse, k1, k2, ?_, ?_⟩
    · rw [← hlab']
      intro h0
      unfold labelsFwd at h0
      rw [List.flatMap_eq_nil_iff] at h0
      have hlt := hw'.lt
      obtain ⟨qs, rfl⟩ := hw'.last
      have := h0 leaf (by simp)
      have hlt' : leaf < g.nodes.length := by rw [← h3.range.wf]; exact hlt
      rw [List.getElem?_eq_getElem hlt', Option.getD_some, List.reverse_eq_nil_iff] at this
      exact h3.label _ (List.getElem_mem hlt') this
    · obtain ⟨pre', hpre⟩ := C59.pairs_suffix pre (L₂.flatMap List.reverse ++ [inst])
      rw [← List.append_assoc, k2] at hpre
      rw [← hlab'] at hpre ⊢
      refine p4 hB r' hr' us' hw' ?_ ⟨m, hm1, fun q hq => hm2 q (by rw [hpre]; exact List.mem_append_right _ hq)⟩
      intro a c mid r post hl hc hr hm
      exact hM (pre' ++ a) c mid r post (by rw [hpre, hl]; simp) hc hr hm

end
/-! ## Cases -/

/-- A short way and a long way from 5 to 8. -/
def C59.ways : Adj.Graph Nat Nat := ⟨[5, 6, 7, 8], [[1, 3], [2], [3], []], [0]⟩

theorem C59.ways_range : InRange C59.ways := by
  refine ⟨rfl, ?_, by decide⟩
  rintro t u ⟨es, he, hm⟩
  have : es ∈ [[1, 3], [2], [3], ([] : List Nat)] := List.mem_of_getElem? he
  clear he
  revert u; revert es; decide

theorem C59.ways_lt {t u : Nat} (h : Succ C59.ways t u) : t < u := by
  obtain ⟨es, he, hm⟩ := h
  match t, he with
  | 0, he => cases he; revert u; decide
  | 1, he => cases he; revert u; decide
  | 2, he => cases he; revert u; decide
  | 3, he => cases he; cases hm

theorem C59.ways_acyclic (u : Nat) : ¬ ReachP C59.ways u u := by
  have hle : ∀ a b, Reach C59.ways a b → a ≤ b := by
    intro a b h
    induction h with
    | refl => exact Nat.le_refl _
    | step h _ ih => have := C59.ways_lt h; omega
  rintro ⟨t, ht, hr⟩
  have := C59.ways_lt ht
  have := hle t u hr
  omega

theorem C59.ways_rooted : Rooted C59.ways := by
  intro u hu
  have hu : u < 4 := hu
  match u with
  | 0 => exact ⟨fun _ t ht => absurd (C59.ways_lt ht) (by omega), fun _ => .head _⟩
  | 1 => exact ⟨fun h => absurd h (by decide), fun h => absurd ⟨_, rfl, by decide⟩ (h 0)⟩
  | 2 => exact ⟨fun h => absurd h (by decide), fun h => absurd ⟨_, rfl, by decide⟩ (h 1)⟩
  | 3 => exact ⟨fun h => absurd h (by decide), fun h => absurd ⟨_, rfl, by decide⟩ (h 0)⟩

/-- With the limit 1 the long way is cut behind 6, the short one is complete. -/
example : ∃ r full, reverseDAG C59.ways id 4 1 = some r ∧ reverseGraph C59.ways = some full ∧ r = ⟨[5, 6, 8], [[], [0], [0]], [1, 2]⟩ ∧
    Seqs r [8, 5] ∧ Seqs r [6, 5] ∧ (∃ L', Seqs full (L' ++ [6, 5])) ∧ ∃ L₁ L₂, [8, 7, 6, 5] = L₁ ++ L₂ ∧ L₂ ≠ [] ∧ Seqs r L₂ := by
  obtain ⟨r, full, h1, h2, _, _, h5, h6, _⟩ := C59_limit C59.ways_range C59.ways_rooted C59.ways_acyclic 1
  have hr : r = ⟨[5, 6, 8], [[], [0], [0]], [1, 2]⟩ := Option.some.inj (h1.symm.trans (by decide))
  have hf : full = ⟨[5, 6, 7, 8], [[], [0], [1], [0, 2]], [3]⟩ := Option.some.inj (h2.symm.trans (by decide))
  have hs : Seqs r [6, 5] := by
    subst hr
    exact ⟨1, .head _, [1, 0], 0, .cons ⟨_, rfl, by decide⟩ (.one (by decide)), rfl, rfl⟩
  refine ⟨r, full, h1, h2, hr, ?_, hs, h5 _ hs, h6 _ ?_⟩
  · subst hr
    exact ⟨2, .tail _ (.head _), [2, 0], 0, .cons ⟨_, rfl, by decide⟩ (.one (by decide)), rfl, rfl⟩
  · subst hf
    exact ⟨3, .head _, [3, 2, 1, 0], 0, .cons ⟨_, rfl, by decide⟩ (.cons ⟨_, rfl, by decide⟩ (.cons ⟨_, rfl, by decide⟩
      (.one (by decide)))), rfl, rfl⟩

/-- The limit 3 changes nothing. -/
example : ∃ r full, reverseDAG C59.ways id 4 3 = some r ∧ reverseGraph C59.ways = some full ∧ ∀ L, Seqs r L ↔ Seqs full L := by
  obtain ⟨r, full, h1, h2, _, _, _, _, h7⟩ := C59_limit C59.ways_range C59.ways_rooted C59.ways_acyclic 3
  refine ⟨r, full, h1, h2, h7 fun n v hn => ?_⟩
  have hv : v < 4 := hn.lt C59.ways_range
  have h0 : Near C59.ways 0 0 := .root (.head _)
  match v with
  | 0 => exact ⟨0, by omega, h0⟩
  | 1 => exact ⟨1, by omega, h0.step ⟨_, rfl, by decide⟩⟩
  | 2 => exact ⟨2, by omega, (h0.step ⟨_, rfl, by decide⟩).step (v := 1) ⟨_, rfl, by decide⟩⟩
  | 3 => exact ⟨1, by omega, h0.step ⟨_, rfl, by decide⟩⟩

/-- Vertices are merged, and the paths stay. -/
example : ∃ g' : Adj.Graph Nat Nat, minimize 9 ⟨[7, 8, 8, 9], [[1, 2], [3], [3], []], [0]⟩ = some g' ∧ g'.nodes = [7, 8, 9] ∧ Seqs g' [7, 8, 9] :=
  ⟨⟨[7, 8, 9], [[1], [2], []], [0]⟩, by decide +kernel, rfl, 0, .head _, [0, 1, 2], 2,
    .cons ⟨_, rfl, by decide⟩ (.cons ⟨_, rfl, by decide⟩ (.one (by decide))), rfl, rfl⟩

/-- The query `C53.diamond` with the options by default and with a limit. -/
example : pathsDag .default C53.diamond .default 9 9 9 15 [4] = some ⟨[[12, 11, 10], [13, 11, 10], [14], [15]], [[2], [2], [3], []], [0, 1]⟩ ∧
    pathsDag ⟨some 1, true⟩ C53.diamond .default 9 9 9 15 [4] = some ⟨[[14], [15]], [[1], []], [0]⟩ := by decide +kernel

/-- With the options by default, `[10, 11, 13, 14, 15]` is reported; with the limit 1, an end of it. -/
example (depth : Option Nat) : ∃ k' g, (∀ f', k' ≤ f' → pathsDag ⟨depth, true⟩ C53.diamond .default 9 9 f' 15 [4] = some g) ∧
    ∃ B, ∀ maxPaths, B < maxPaths → ∃ k0, ∀ k, k0 ≤ k → ∃ ps,
    pathsTo C54.z (fun _ _ => none) C54.plain id none maxPaths k 15 g = some ps ∧
      ∃ pre e, (depth = none → pre = []) ∧ pre ++ e = [10, 11, 13, 14, 15] ∧ e ≠ [] ∧ e ∈ ps.map (·.1) := by
  obtain ⟨st, hst⟩ : ∃ st, query C53.diamond .default 9 9 15 [4] = some st := ⟨_, rfl⟩
  obtain ⟨k', g, hg, B, h⟩ := C59_query_partial hst ⟨depth, true⟩ C54.z_sound C54.z_false (fun _ _ => none) (p := C54.plain)
    (fun _ h => by cases h) (addr := id) (fun _ _ h => h) none
  refine ⟨k', g, hg, B, fun maxPaths hB => ?_⟩
  obtain ⟨k0, h⟩ := h maxPaths
  refine ⟨k0, fun k hk => ?_⟩
  obtain ⟨ps, h1, _, _, h2⟩ := h k hk
  refine ⟨ps, h1, h2 hB id ?_ (fun _ _ => rfl) 4 (.inl rfl) _ C53.diamond_trail ((matched_iff _ _).2 (by decide))
    ⟨true, (fun a ha => by cases ha), (fun q _ c hc => by cases hc)⟩⟩
  rintro v q ⟨p, hp, hq⟩
  match v, hp with
  | 1, hp => cases hp; rcases hq with rfl | hq; decide; cases hq
  | 2, hp => cases hp; rcases hq with rfl | hq; decide; cases hq
  | 3, hp => cases hp; rcases hq with rfl | hq; decide; revert q; decide
  | 4, hp => cases hp; rcases hq with rfl | hq; decide; revert q; decide

/-! ## Where the claims fail -/

/-- No vertex is more than one edge away from the first. -/
def C59.near : Adj.Graph Nat Nat := ⟨[5, 6, 7, 8], [[1, 2, 3], [2], [3], []], [0]⟩

/-- C59, false in general: the limit does not bound the paths, only how far away from the queried statement their vertices are on the
shortest way. -/
theorem C59_length_false : ∃ r, reverseDAG C59.near id 4 2 = some r ∧ Seqs r [8, 7, 6, 5] :=
  ⟨⟨[5, 6, 7, 8], [[], [0], [0, 1], [0, 2]], [3]⟩, by decide, 3, by decide, [3, 2, 1, 0], 0,
    .cons ⟨_, rfl, by decide⟩ (.cons ⟨_, rfl, by decide⟩ (.cons ⟨_, rfl, by decide⟩ (.one (by decide)))), rfl, rfl⟩

end Phasar.PathFilter
