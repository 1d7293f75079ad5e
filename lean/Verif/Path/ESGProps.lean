import Verif.Path.ESGLemmas
/-!
# C52: the recorded exploded supergraph

The graph that the path-aware solver records, for all sequences of reported edges that start from seeds.  Which links of the recorded
graph stand for reported edges, which reported edges have a link, and where the recording goes wrong.
-/
namespace Phasar.ESG
set_option linter.unusedSectionVars false

variable {N D : Type} [DecidableEq N] [DecidableEq D] {env : Env N D} {seeds : N × D → Prop} {cs : List (Call N D)} {g : Graph N D}

/-- C52: recording never reads outside the vectors, and all indices in the graph are in range. -/
theorem C52_total (hc : Causal seeds cs) : ∃ g, record env .empty cs = some g ∧ g.Bounded := by
  obtain ⟨g, L, hg, hi, _⟩ := record_inv (env := env) hc
  exact ⟨g, hg, hi.bnd⟩

theorem C52.inv (hc : Causal seeds cs) (hg : record env .empty cs = some g) : ∃ L, Inv g L ∧ LogOK env seeds cs L := by
  obtain ⟨g', L, hg', h⟩ := record_inv (env := env) hc
  rw [hg] at hg'; cases hg'
  exact ⟨L, h⟩

/-- C52: the target of every reported edge has a node; every pair with a node is a seed or the target of a reported edge. -/
theorem C52_registered (hc : Causal seeds cs) (hg : record env .empty cs = some g) :
    (∀ e, Reports cs e → g.getNode e.dst.1 e.dst.2 ≠ none) ∧
    ∀ n d, g.getNode n d ≠ none → seeds (n, d) ∨ ∃ e, Reports cs e ∧ e.dst = (n, d) := by
  obtain ⟨L, hi, hl⟩ := C52.inv hc hg
  constructor
  · rintro e ⟨c, hc', he⟩ hn
    obtain ⟨d, hd, rfl⟩ := List.mem_map.1 he
    obtain ⟨e', he', hee, _⟩ := hl.to c hc' d hd
    obtain ⟨v, hv⟩ := hi.tgt e' he'
    rw [hee] at hv
    rw [Graph.getNode, hv] at hn; cases hn
  · intro n d h
    cases hm : g.map (n, d) with
    | none => exact absurd hm h
    | some v =>
      rcases hi.key _ v hm with ⟨e, he, hd⟩ | ⟨e, he, hn, hs⟩
      · obtain ⟨c, hc', d', hd', hee, _⟩ := hl.of e he
        exact .inr ⟨e.edge, ⟨c, hc', List.mem_map.2 ⟨d', hd', hee.symm⟩⟩, hd⟩
      · exact .inl (hs ▸ hl.seed e he hn)

/-- C52, for programs in which no edge leads back to a seed: the node of a pair carries the fact of the pair, and so do all its
alternatives. -/
theorem C52_value_partial (hc : Causal seeds cs) (hs : ∀ e, Reports cs e → ¬ seeds e.dst) (hg : record env .empty cs = some g)
    {n : N} {d : D} {v j : Nat} {nd : Node N D} (hv : g.getNode n d = some v) (hn : ¬ seeds (n, d)) (ha : g.Alt v j)
    (hj : g.nodes[j]? = some nd) : nd.value = d := by
  obtain ⟨L, hi, hl⟩ := C52.inv hc hg
  have hrep : ∀ e ∈ L, Reports cs e.edge := by
    intro e he
    obtain ⟨c, hc', d', hd', hee, _⟩ := hl.of e he
    exact ⟨c, hc', List.mem_map.2 ⟨d', hd', hee.symm⟩⟩
  obtain ⟨v1, v2⟩ := hi.val fun e he e' he' hn' hd => hs e'.edge (hrep e' he') (hd ▸ hl.seed e he hn')
  have hns : ∀ e ∈ L, e.predId = none → e.edge.src ≠ (n, d) := fun e he hn' hsrc => hn (hsrc ▸ hl.seed e he hn')
  rcases ha with rfl | ⟨ndv, hndv, hj'⟩
  · exact v2 (n, d) _ _ hv hj hns
  · rw [v1 _ _ _ _ hndv hj' hj]
    exact v2 (n, d) _ _ hv hndv hns

/-- C52: every link of the recorded graph stands for a reported edge.  A node with a predecessor was made for an edge that starts at
the node's statement and at the predecessor, and the node is an alternative for the target of that edge.  (Several pairs can share a
node; for which of them the edge was reported is lost, see `C52_merged_spurious_false`.) -/
theorem C52_links_sound_partial (hc : Causal seeds cs) (hg : record env .empty cs = some g) {i p : Nat} {nd : Node N D}
    (hi : g.nodes[i]? = some nd) (hp : nd.pred = some p) :
    ∃ e, Flows env cs e ∧ e.src.1 = nd.source ∧ g.getNode e.src.1 e.src.2 = some p ∧
      ∃ v, g.getNode e.dst.1 e.dst.2 = some v ∧ g.Alt v i := by
  obtain ⟨L, hI, hl⟩ := C52.inv hc hg
  obtain ⟨e, he, hsrc, hv, hp', _⟩ := hI.just i nd hi
  obtain ⟨hsk, hpe⟩ := hp' p hp
  obtain ⟨c, hc', d, hd, hee, hs⟩ := hl.of e he
  refine ⟨e.edge, ⟨c, hc', List.mem_map.2 ⟨d, hd, hee.symm⟩, ?_⟩, hsrc.symm, hI.src e he p hpe, hv⟩
  rintro ⟨h1, h2, h3⟩
  rw [hee] at h3
  have h3 : d = env.zero := h3
  rw [hsk] at hs
  simp [Call.maySkip, h1, h2, h3] at hs

/-- C52: a node without a predecessor was made for an edge from a seed or for the flow of zero along a call. -/
theorem C52_ends_partial (hc : Causal seeds cs) (hg : record env .empty cs = some g) {i : Nat} {nd : Node N D}
    (hi : g.nodes[i]? = some nd) (hp : nd.pred = none) :
    ∃ e, Reports cs e ∧ e.src.1 = nd.source ∧ (seeds e.src ∨ (e.src.2 = env.zero ∧ e.dst.2 = env.zero)) ∧
      ∃ v, g.getNode e.dst.1 e.dst.2 = some v ∧ g.Alt v i := by
  obtain ⟨L, hI, hl⟩ := C52.inv hc hg
  obtain ⟨e, he, hsrc, hv, _, hn⟩ := hI.just i nd hi
  obtain ⟨c, hc', d, hd, hee, hs⟩ := hl.of e he
  refine ⟨e.edge, ⟨c, hc', List.mem_map.2 ⟨d, hd, hee.symm⟩⟩, hsrc.symm, ?_, hv⟩
  rcases hn hp with h | h
  · rw [h] at hs
    have hs := hs.symm
    simp only [Call.maySkip, Bool.and_eq_true, decide_eq_true_eq] at hs
    rw [hee]
    exact .inr ⟨hs.1.2, hs.2.trans hs.1.2⟩
  · exact .inl (hl.seed e he h)

/-- C52: every reported edge that matters for paths and does not start at a seed is represented: its two ends share a node, or the
node of the source is the predecessor of an alternative for the target. -/
theorem C52_links_complete_partial (hc : Causal seeds cs) (hg : record env .empty cs = some g) {e : Edge N D}
    (he : Flows env cs e) (hs : ¬ seeds e.src) :
    ∃ p v, g.getNode e.src.1 e.src.2 = some p ∧ g.getNode e.dst.1 e.dst.2 = some v ∧ (v = p ∨ g.Back v p) := by
  obtain ⟨L, hI, hl⟩ := C52.inv hc hg
  obtain ⟨c, hc', he, hns⟩ := he
  obtain ⟨d, hd, rfl⟩ := List.mem_map.1 he
  obtain ⟨r, hr, hre, hsk⟩ := hl.to c hc' d hd
  have hsk' : r.skipped = false := by
    rw [hsk, Bool.eq_false_iff]
    intro h
    simp only [Call.maySkip, Bool.and_eq_true, decide_eq_true_eq] at h
    exact hns ⟨h.1.1, h.1.2, h.2.trans h.1.2⟩
  cases hp : r.predId with
  | none => exact absurd (by have := hl.seed r hr hp; rwa [hre] at this) hs
  | some p =>
    obtain ⟨v, hv, h⟩ := hI.comp r hr p hsk' hp
    have hsrc := hI.src r hr p hp
    rw [hre] at hv hsrc
    exact ⟨p, v, hsrc, hv, h⟩

/-- C52: every path along reported edges that starts at no seed is a way back in the recorded graph. -/
theorem C52_path_partial (hc : Causal seeds cs) (hg : record env .empty cs = some g) {k k' : N × D}
    (hp : Path (fun e => Flows env cs e ∧ ¬ seeds e.src) k k') {v : Nat} (hv : g.getNode k'.1 k'.2 = some v) :
    ∃ p, g.getNode k.1 k.2 = some p ∧ g.Chain v p := by
  induction hp generalizing v with
  | refl => exact ⟨v, hv, .refl v⟩
  | step _ he ih =>
    obtain ⟨p, w, h1, h2, h3⟩ := C52_links_complete_partial hc hg he.1 he.2
    have h2 := Option.some.inj (hv.symm.trans h2)
    subst h2
    obtain ⟨q, hq, hch⟩ := ih h1
    refine ⟨q, hq, ?_⟩
    rcases h3 with rfl | h3
    · exact hch
    · exact .step h3 hch

/-- C52: `getNumNeighbors` returns the number of neighbours exactly if there is at most one. -/
theorem C52_numNeighbors_false {i : Nat} {nd : Node N D} (hi : g.nodes[i]? = some nd) :
    ∃ b, g.getNumNeighbors i = some b ∧ (b.toNat = nd.nbrs.length ↔ nd.nbrs.length ≤ 1) := by
  refine ⟨decide (nd.nbrs.length ≠ 0), by simp [Graph.getNumNeighbors, hi], ?_⟩
  by_cases h : nd.nbrs.length = 0
  · simp [h]
  · simp [h, Bool.toNat]; omega

/-! ## Examples -/

/-- A check of `Causal`. -/
def C52.okCausal (seeds : List (Nat × Nat)) : List (Nat × Nat) → List (Call Nat Nat) → Bool
  | _, [] => true
  | known, c :: cs => (decide ((c.curr, c.currNode) ∈ seeds) || decide ((c.curr, c.currNode) ∈ known)) &&
      (!decide ((c.curr, c.currNode) ∈ seeds) || !decide ((c.curr, c.currNode) ∈ c.succNodes.map fun d => (c.succ, d))) &&
      C52.okCausal seeds (known ++ c.succNodes.map fun d => (c.succ, d)) cs

theorem C52.causal_aux {seeds : List (Nat × Nat)} : ∀ (cs : List (Call Nat Nat)) (known : List (Nat × Nat)),
    C52.okCausal seeds known cs = true →
    (∀ pre c post, cs = pre ++ c :: post → (c.curr, c.currNode) ∈ seeds ∨ (c.curr, c.currNode) ∈ known ∨
      ∃ e, Reports pre e ∧ e.dst = (c.curr, c.currNode)) ∧ ∀ e, Reports cs e → e.src ∈ seeds → e.dst ≠ e.src := by
  intro cs
  induction cs with
  | nil =>
    intro known _
    refine ⟨fun pre c post h => ?_, ?_⟩
    · cases pre <;> cases h
    · rintro e ⟨c, hc, _⟩; cases hc
  | cons c cs ih =>
    intro known h
    simp only [C52.okCausal, Bool.and_eq_true, Bool.or_eq_true, decide_eq_true_eq, Bool.not_eq_true', decide_eq_false_iff_not] at h
    obtain ⟨⟨h1, h2⟩, h3⟩ := h
    obtain ⟨i1, i2⟩ := ih _ h3
    constructor
    · intro pre c' post hcs
      cases pre with
      | nil =>
        cases hcs
        rcases h1 with h | h
        · exact .inl h
        · exact .inr (.inl h)
      | cons a pre =>
        cases hcs
        rcases i1 pre c' post rfl with h | h | ⟨e, ⟨c2, hc2, he⟩, hd⟩
        · exact .inl h
        · rcases List.mem_append.1 h with h | h
          · exact .inr (.inl h)
          · obtain ⟨d, hd, heq⟩ := List.mem_map.1 h
            exact .inr (.inr ⟨⟨(c.curr, c.currNode), (c.succ, d)⟩, ⟨c, .head _, List.mem_map.2 ⟨d, hd, rfl⟩⟩, heq⟩)
        · exact .inr (.inr ⟨e, ⟨c2, .tail _ hc2, he⟩, hd⟩)
    · rintro e ⟨c', hc', he⟩ hs hd
      rcases List.mem_cons.1 hc' with rfl | hc'
      · obtain ⟨d, hd', rfl⟩ := List.mem_map.1 he
        rcases h2 with h2 | h2
        · exact h2 hs
        · exact h2 (List.mem_map.2 ⟨d, hd', hd⟩)
      · exact i2 e ⟨c', hc', he⟩ hs hd

theorem C52.causal {seeds : List (Nat × Nat)} {cs : List (Call Nat Nat)} (h : C52.okCausal seeds [] cs = true) :
    Causal (· ∈ seeds) cs := by
  obtain ⟨h1, h2⟩ := C52.causal_aux cs [] h
  refine ⟨fun pre c post hcs => ?_, h2⟩
  rcases h1 pre c post hcs with h | h | h
  · exact .inl h
  · cases h
  · exact .inr h

/-- Is the edge reported and relevant for paths? -/
def C52.okFlows (env : Env Nat Nat) (cs : List (Call Nat Nat)) (e : Edge Nat Nat) : Bool :=
  cs.any fun c => decide (e ∈ c.edges) && !(decide (c.kind = .callToRet) && decide (c.currNode = env.zero) && decide (e.dst.2 = env.zero))

theorem C52.flows {env : Env Nat Nat} {cs : List (Call Nat Nat)} {e : Edge Nat Nat} (h : C52.okFlows env cs e = true) :
    Flows env cs e := by
  obtain ⟨c, hc, h⟩ := List.any_eq_true.1 h
  simp only [Bool.and_eq_true, decide_eq_true_eq, Bool.not_eq_true', Bool.and_eq_false_iff, decide_eq_false_iff_not] at h
  refine ⟨c, hc, h.1, fun ⟨a, b, c⟩ => ?_⟩
  rcases h.2 with (h | h) | h
  · exact h a
  · exact h b
  · exact h c

/-- No edge of the calls satisfies `q`. -/
theorem C52.noReports {cs : List (Call Nat Nat)} {q : Edge Nat Nat → Bool}
    (h : (cs.flatMap Call.edges).all (fun e => !q e) = true) {e : Edge Nat Nat} (he : Reports cs e) : q e = false := by
  obtain ⟨c, hc, he⟩ := he
  have := List.all_eq_true.1 h e (List.mem_flatMap.2 ⟨c, hc, he⟩)
  simpa using this

/-- The nodes recorded for the calls, and the nodes of some pairs. -/
def C52.run (env : Env Nat Nat) (cs : List (Call Nat Nat)) (ks : List (Nat × Nat)) : Option (List (Node Nat Nat) × List (Option Nat)) :=
  (record env .empty cs).map fun g => (g.nodes, ks.map g.map)

theorem C52.run_some {env : Env Nat Nat} {cs : List (Call Nat Nat)} {ks : List (Nat × Nat)} {ns : List (Node Nat Nat)}
    {vs : List (Option Nat)} (h : C52.run env cs ks = some (ns, vs)) :
    ∃ g, record env .empty cs = some g ∧ g.nodes = ns ∧ ks.map g.map = vs := by
  obtain ⟨g, hg, he⟩ := Option.map_eq_some_iff.1 h
  simp only [Prod.mk.injEq] at he
  exact ⟨g, hg, he⟩

/-- The statements 0, 1 in one block, then a branch to 2 and 3, which meet at 4; statement 0 generates fact 1. -/
def C52.exEnv : Env Nat Nat := ⟨fun n => n / 2 * 2 - (n / 3), 0⟩
def C52.ex : List (Call Nat Nat) := [⟨0, 0, 1, [0, 1], .normal⟩, ⟨1, 0, 2, [0], .normal⟩, ⟨1, 0, 3, [0], .normal⟩,
  ⟨1, 1, 2, [1], .normal⟩, ⟨1, 1, 3, [1], .normal⟩, ⟨2, 0, 4, [0], .normal⟩, ⟨3, 0, 4, [0], .normal⟩, ⟨2, 1, 4, [1], .normal⟩,
  ⟨3, 1, 4, [1], .normal⟩]

def C52.exNodes : List (Node Nat Nat) := [⟨0, 0, none, []⟩, ⟨1, 0, none, []⟩, ⟨0, 1, some 0, []⟩, ⟨0, 1, some 0, []⟩,
  ⟨1, 1, some 1, []⟩, ⟨1, 1, some 1, []⟩, ⟨0, 2, some 2, [7]⟩, ⟨0, 3, some 3, []⟩, ⟨1, 2, some 4, [9]⟩, ⟨1, 3, some 5, []⟩]

theorem C52.ex_causal : Causal (· ∈ [(0, 0)]) C52.ex := C52.causal (by decide)

/-- All hypotheses hold of this example, and its graph is not trivial: fact 1 at statement 4 has two alternatives. -/
example : ∃ g, record C52.exEnv .empty C52.ex = some g ∧ g.Bounded ∧ g.getNode 4 1 ≠ none ∧
    (∀ v j nd, g.getNode 4 1 = some v → g.Alt v j → g.nodes[j]? = some nd → nd.value = 1) ∧
    (∃ v, g.getNode 4 1 = some v ∧ ∃ p, g.getNode 1 1 = some p ∧ g.Chain v p) ∧
    ∃ v w, g.getNode 4 1 = some v ∧ v ≠ w ∧ g.Alt v w := by
  obtain ⟨g, hg, hb⟩ := C52_total (env := C52.exEnv) C52.ex_causal
  have h41 : g.getNode 4 1 ≠ none :=
    (C52_registered C52.ex_causal hg).1 ⟨(2, 1), (4, 1)⟩ ⟨⟨2, 1, 4, [1], .normal⟩, by decide, by decide⟩
  obtain ⟨v, hv⟩ := Option.ne_none_iff_exists'.1 h41
  refine ⟨g, hg, hb, h41, ?_, ⟨v, hv, ?_⟩, ?_⟩
  · intro v j nd hv ha hj
    refine C52_value_partial C52.ex_causal (fun e he hs => ?_) hg hv (by decide) ha hj
    have := C52.noReports (q := fun e => decide (e.dst ∈ [(0, 0)])) (cs := C52.ex) (by decide) he
    simp at this hs
    exact this hs
  · exact C52_path_partial C52.ex_causal hg (k := (1, 1)) (k' := (4, 1))
      (.step (.step (.refl _) ⟨C52.flows (e := ⟨(1, 1), (2, 1)⟩) (by decide), by decide⟩)
        ⟨C52.flows (e := ⟨(2, 1), (4, 1)⟩) (by decide), by decide⟩) hv
  · obtain ⟨g', hg', hn, hm⟩ := C52.run_some (env := C52.exEnv) (cs := C52.ex) (ks := [(4, 1)]) (ns := C52.exNodes) (vs := [some 8])
      (by decide)
    rw [hg] at hg'; cases hg'
    refine ⟨8, 9, (List.cons.inj hm).1, by decide, .inr ⟨⟨1, 2, some 4, [9]⟩, ?_, .head _⟩⟩
    rw [hn]; rfl

/-- In the same graph, node 8 is an alternative for fact 1 at statement 4, node 0 starts a path. -/
example : ∃ g, record C52.exEnv .empty C52.ex = some g ∧ (∃ e, Flows C52.exEnv C52.ex e ∧ e.src.1 = 2) ∧
    ∃ e, Reports C52.ex e ∧ e.src.1 = 0 := by
  obtain ⟨g, hg, hn, _⟩ := C52.run_some (env := C52.exEnv) (cs := C52.ex) (ks := [(4, 1)]) (ns := C52.exNodes) (vs := [some 8])
    (by decide)
  obtain ⟨e, he, hs, _⟩ := C52_links_sound_partial C52.ex_causal hg (i := 8) (nd := ⟨1, 2, some 4, [9]⟩) (by rw [hn]; rfl) rfl
  obtain ⟨e', he', hs', _⟩ := C52_ends_partial C52.ex_causal hg (i := 0) (nd := ⟨0, 0, none, []⟩) (by rw [hn]; rfl) rfl
  exact ⟨g, hg, ⟨e, he, hs⟩, e', he', hs'⟩

/-! ## Where the recorded graph is wrong -/

/-- All statements in one block. -/
def C52.oneBlock : Env Nat Nat := ⟨fun _ => 0, 0⟩
/-- The statements from 5 on are another function. -/
def C52.twoFuns : Env Nat Nat := ⟨fun n => n / 5, 0⟩
/-- The entry block has only the branch 0, the loop consists of 1 and 2. -/
def C52.loopEnv : Env Nat Nat := ⟨fun n => if n = 0 then 0 else 1, 0⟩
def C52.loop : List (Call Nat Nat) := [⟨0, 0, 1, [0], .normal⟩, ⟨1, 0, 2, [0], .normal⟩, ⟨2, 0, 1, [0], .normal⟩, ⟨2, 0, 3, [0], .normal⟩]

/-- C52, false in general: the edge from a seed can be lost.  A node for an edge from a seed has no predecessor; the next edge that
reaches it, here the back edge of a loop, overwrites its statement and its predecessor instead of adding an alternative.  In the
resulting graph every node has a predecessor: no way back ever reaches the seed. -/
theorem C52_seed_lost_false : Causal (· ∈ [(0, 0)]) C52.loop ∧ Flows C52.loopEnv C52.loop ⟨(0, 0), (1, 0)⟩ ∧
    ∃ g, record C52.loopEnv .empty C52.loop = some g ∧ (∀ nd ∈ g.nodes, nd.source ≠ 0 ∧ nd.pred ≠ none ∧ nd.nbrs = []) ∧
      g.getNode 3 0 ≠ none := by
  refine ⟨C52.causal (by decide), C52.flows (by decide), ?_⟩
  obtain ⟨g, hg, hn, hm⟩ := C52.run_some (env := C52.loopEnv) (cs := C52.loop) (ks := [(3, 0)])
    (ns := [⟨0, 2, some 1, []⟩, ⟨0, 1, some 0, []⟩, ⟨0, 2, some 1, []⟩]) (vs := [some 2]) (by decide)
  refine ⟨g, hg, by rw [hn]; decide, ?_⟩
  rw [Graph.getNode, (List.cons.inj hm).1]; nofun

/-- Statement 1 generates the facts 1 and 2; statement 2 keeps fact 1 and makes it from fact 2. -/
def C52.merged : List (Call Nat Nat) := [⟨0, 0, 1, [0], .normal⟩, ⟨1, 0, 2, [0, 1, 2], .normal⟩, ⟨2, 1, 3, [1], .normal⟩,
  ⟨2, 2, 3, [1, 2], .normal⟩]

/-- C52, false in general: pairs of one block that share a node also share the alternatives added later.  The graph has an alternative
for fact 1 at statement 2 that comes from statement 2 itself, but no edge from statement 2 leads there. -/
theorem C52_merged_spurious_false : Causal (· ∈ [(0, 0)]) C52.merged ∧
    (∃ g v j nd, record C52.oneBlock .empty C52.merged = some g ∧ g.getNode 2 1 = some v ∧ g.Alt v j ∧ g.nodes[j]? = some nd ∧
      nd.source = 2) ∧ ∀ e, Reports C52.merged e → e.src.1 = 2 → e.dst ≠ (2, 1) := by
  refine ⟨C52.causal (by decide), ?_, fun e he h1 h2 => ?_⟩
  · obtain ⟨g, hg, hn, hm⟩ := C52.run_some (env := C52.oneBlock) (cs := C52.merged) (ks := [(2, 1)])
      (ns := [⟨0, 0, none, []⟩, ⟨0, 1, some 0, []⟩, ⟨1, 1, some 0, [4]⟩, ⟨2, 1, some 0, []⟩, ⟨1, 2, some 3, []⟩]) (vs := [some 2])
      (by decide)
    exact ⟨g, 2, 4, ⟨1, 2, some 3, []⟩, hg, (List.cons.inj hm).1, .inr ⟨⟨1, 1, some 0, [4]⟩, by rw [hn]; rfl, .head _⟩,
      by rw [hn]; rfl, rfl⟩
  · have := C52.noReports (q := fun e => decide (e.src.1 = 2 ∧ e.dst = (2, 1))) (cs := C52.merged) (by decide) he
    simp [h1, h2] at this

/-- Fact 1 is generated at 1, passed to the callee (5, 6) at the call 2, and also along the call to 3. -/
def C52.around : List (Call Nat Nat) := [⟨0, 0, 1, [0], .normal⟩, ⟨1, 0, 2, [0, 1], .normal⟩, ⟨2, 1, 5, [1], .call⟩,
  ⟨2, 1, 3, [1], .callToRet⟩, ⟨5, 1, 6, [1], .normal⟩, ⟨6, 1, 3, [1], .ret⟩]

/-- C52, false in general: the graph can have a cycle although the reported edges have none.  The fact that is passed along the call
shares the node before the call; the same fact coming back from the callee then becomes an alternative before the call. -/
theorem C52_cycle_false : Causal (· ∈ [(0, 0)]) C52.around ∧
    (∃ g v p, record C52.twoFuns .empty C52.around = some g ∧ g.getNode 2 1 = some v ∧ g.Back v p ∧ g.Chain p v) ∧
    ∃ rank : Nat × Nat → Nat, ∀ e, Reports C52.around e → rank e.src < rank e.dst := by
  refine ⟨C52.causal (by decide), ?_, fun k => if k.1 = 3 then 7 else k.1, fun e he => ?_⟩
  · obtain ⟨g, hg, hn, hm⟩ := C52.run_some (env := C52.twoFuns) (cs := C52.around) (ks := [(2, 1)])
      (ns := [⟨0, 0, none, []⟩, ⟨0, 1, some 0, []⟩, ⟨1, 1, some 0, [5]⟩, ⟨1, 2, some 2, []⟩, ⟨1, 5, some 3, []⟩, ⟨1, 6, some 4, []⟩])
      (vs := [some 2]) (by decide)
    refine ⟨g, 2, 4, hg, (List.cons.inj hm).1,
      ⟨5, ⟨1, 6, some 4, []⟩, .inr ⟨⟨1, 1, some 0, [5]⟩, by rw [hn]; rfl, .head _⟩, by rw [hn]; rfl, rfl⟩,
      .step (p := 3) ⟨4, ⟨1, 5, some 3, []⟩, .inl rfl, by rw [hn]; rfl, rfl⟩
        (.step (p := 2) ⟨3, ⟨1, 2, some 2, []⟩, .inl rfl, by rw [hn]; rfl, rfl⟩ (.refl _))⟩
  · have := C52.noReports (q := fun e => decide (¬ (if e.src.1 = 3 then 7 else e.src.1) < (if e.dst.1 = 3 then 7 else e.dst.1)))
      (cs := C52.around) (by decide) he
    simpa using this

/-- The calls 2 and 3 of one block pass fact 1 to the same callee. -/
def C52.twice : List (Call Nat Nat) := [⟨0, 0, 1, [0], .normal⟩, ⟨1, 0, 2, [0, 1], .normal⟩, ⟨2, 1, 5, [1], .call⟩,
  ⟨2, 1, 3, [1], .callToRet⟩, ⟨3, 1, 5, [1], .call⟩]

/-- C52, false in general: of two calls in one block that pass the same fact to the same function, only the first appears.  The fact
has the same node before both calls, so the second edge looks like the first. -/
theorem C52_two_calls_false : Causal (· ∈ [(0, 0)]) C52.twice ∧ Flows C52.twoFuns C52.twice ⟨(3, 1), (5, 1)⟩ ∧
    ∃ g, record C52.twoFuns .empty C52.twice = some g ∧ ∀ nd ∈ g.nodes, nd.source ≠ 3 := by
  refine ⟨C52.causal (by decide), C52.flows (by decide), ?_⟩
  obtain ⟨g, hg, hn, hm⟩ := C52.run_some (env := C52.twoFuns) (cs := C52.twice) (ks := [])
    (ns := [⟨0, 0, none, []⟩, ⟨0, 1, some 0, []⟩, ⟨1, 1, some 0, []⟩, ⟨1, 2, some 2, []⟩]) (vs := []) (by decide)
  exact ⟨g, hg, by rw [hn]; decide⟩

/-- The seed generates fact 1; a later call 2 leads back to the seed (recursion). -/
def C52.recursive : List (Call Nat Nat) := [⟨0, 0, 1, [0, 1], .normal⟩, ⟨1, 0, 2, [0], .normal⟩, ⟨2, 0, 0, [0], .call⟩]

/-- C52, false in general: an edge into a seed is attached to the wrong fact.  The seed shares the node made last for its edges, here
that of fact 1 at statement 1, and that pair now seems to come from statement 2. -/
theorem C52_seed_value_false : Causal (· ∈ [(0, 0)]) C52.recursive ∧
    (∃ g v nd, record C52.oneBlock .empty C52.recursive = some g ∧ g.getNode 0 0 = some v ∧ g.getNode 1 1 = some v ∧
      g.nodes[v]? = some nd ∧ nd.value = 1 ∧ nd.source = 2) ∧ ∀ e, Reports C52.recursive e → e.src.1 = 2 → e.dst ≠ (1, 1) := by
  refine ⟨C52.causal (by decide), ?_, fun e he h1 h2 => ?_⟩
  · obtain ⟨g, hg, hn, hm⟩ := C52.run_some (env := C52.oneBlock) (cs := C52.recursive) (ks := [(0, 0), (1, 1)])
      (ns := [⟨0, 0, none, []⟩, ⟨1, 2, some 2, []⟩, ⟨0, 1, some 0, []⟩]) (vs := [some 1, some 1]) (by decide)
    exact ⟨g, 1, ⟨1, 2, some 2, []⟩, hg, (List.cons.inj hm).1, (List.cons.inj (List.cons.inj hm).2).1, by rw [hn]; rfl, rfl, rfl⟩
  · have := C52.noReports (q := fun e => decide (e.src.1 = 2 ∧ e.dst = (1, 1))) (cs := C52.recursive) (by decide) he
    simp [h1, h2] at this

/-- Two seeds with the same successor. -/
def C52.seeds2 : List (Call Nat Nat) := [⟨0, 0, 1, [0], .normal⟩, ⟨9, 0, 1, [0], .normal⟩]

/-- C52, false in general: a seed whose successor is known already gets no node of its own, and its edge replaces the edge of the first
seed. -/
theorem C52_seed_unregistered_false : Causal (· ∈ [(0, 0), (9, 0)]) C52.seeds2 ∧
    ∃ g, record C52.oneBlock .empty C52.seeds2 = some g ∧ g.getNode 9 0 = none ∧ ∀ nd ∈ g.nodes, nd.source ≠ 0 := by
  refine ⟨C52.causal (by decide), ?_⟩
  obtain ⟨g, hg, hn, hm⟩ := C52.run_some (env := C52.oneBlock) (cs := C52.seeds2) (ks := [(9, 0)])
    (ns := [⟨0, 9, none, []⟩]) (vs := [none]) (by decide)
  exact ⟨g, hg, (List.cons.inj hm).1, by rw [hn]; decide⟩

/-- C52, false in general: the assertion of `saveEdge` can fail.  If the seed is a call and the callee gets no fact, not even zero, then
the flow of zero along the call finds no node for the seed. -/
theorem C52_assert_false : ∃ c₁ c₂ : Call Nat Nat, Causal (· ∈ [(0, 0)]) [c₁, c₂] ∧
    ∃ g, record C52.twoFuns .empty [c₁] = some g ∧ ∃ d ∈ c₂.succNodes,
      assertion (g.getNode c₂.curr c₂.currNode) c₂.currNode (c₂.maySkip C52.twoFuns) d = false := by
  refine ⟨⟨0, 0, 5, [], .call⟩, ⟨0, 0, 1, [0], .callToRet⟩, C52.causal (by decide), .empty, rfl, 0, .head _, by decide⟩

/-- `getNumNeighbors` on a node with two neighbours. -/
example : ∃ b, (⟨[⟨1, 0, none, [1, 2]⟩], fun _ => none⟩ : Graph Nat Nat).getNumNeighbors 0 = some b ∧ ¬ b.toNat = 2 := by
  obtain ⟨b, hb, h⟩ := C52_numNeighbors_false (g := (⟨[⟨1, 0, none, [1, 2]⟩], fun _ => none⟩ : Graph Nat Nat)) (i := 0)
    (nd := ⟨1, 0, none, [1, 2]⟩) rfl
  exact ⟨b, hb, fun hb' => absurd (h.1 hb') (by decide)⟩

end Phasar.ESG
