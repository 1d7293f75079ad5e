import Verif.Path.ESG
/-!
# Lemmas about the recorded exploded supergraph
-/
namespace Phasar.ESG
set_option linter.unusedSectionVars false

variable {N D : Type} [DecidableEq N] [DecidableEq D]

/-- A reported edge with the node of its source when it was reported, and whether it was skipped. -/
structure Rec (N D : Type) where
  predId : Option Nat
  edge : Edge N D
  skipped : Bool

def Call.recs (env : Env N D) (predId : Option Nat) (c : Call N D) : List (Rec N D) :=
  c.succNodes.map fun d => ⟨predId, ⟨(c.curr, c.currNode), (c.succ, d)⟩, c.maySkip env && decide (d = c.currNode)⟩

/-- The state `g'` after recording the edge `e` in state `g`. -/
structure StepOK (g g' : Graph N D) (e : Rec N D) : Prop where
  bnd : g'.Bounded
  ext : ∀ (i : Nat) nd, g.nodes[i]? = some nd → ∃ nd', g'.nodes[i]? = some nd' ∧ nd'.value = nd.value ∧
    (∀ p, nd.pred = some p → nd'.pred = some p ∧ nd'.source = nd.source) ∧ ∀ j ∈ nd.nbrs, j ∈ nd'.nbrs
  map : ∀ k i, g.map k = some i → (e.predId = none → k ≠ e.edge.src) → g'.map k = some i
  dst : ∃ v, g'.map e.edge.dst = some v
  comp : ∀ p, e.skipped = false → e.predId = some p → ∃ v, g'.map e.edge.dst = some v ∧
    (v = p ∨ ∃ j nd, g'.Alt v j ∧ g'.nodes[j]? = some nd ∧ nd.pred = some p)
  just : ∀ (i : Nat) nd', g'.nodes[i]? = some nd' →
    (∃ nd, g.nodes[i]? = some nd ∧ nd.source = nd'.source ∧ nd.pred = nd'.pred) ∨
    (nd'.source = e.edge.src.1 ∧ (∃ v, g'.map e.edge.dst = some v ∧ g'.Alt v i) ∧
      (∀ p, nd'.pred = some p → e.skipped = false ∧ e.predId = some p) ∧ (nd'.pred = none → e.skipped = true ∨ e.predId = none))
  val : ∀ (i : Nat) nd', g'.nodes[i]? = some nd' → (∃ nd, g.nodes[i]? = some nd) ∨ nd'.nbrs = []
  nbr : ∀ (i : Nat) nd' j, g'.nodes[i]? = some nd' → j ∈ nd'.nbrs → (∃ nd, g.nodes[i]? = some nd ∧ j ∈ nd.nbrs) ∨
    (g.map e.edge.dst = some i ∧ ∃ nd, g'.nodes[j]? = some nd ∧ nd.value = e.edge.dst.2)
  key : ∀ k i, g'.map k = some i → g.map k = some i ∨ (e.predId = none ∧ k = e.edge.src) ∨
    (k = e.edge.dst ∧ ∃ nd, g'.nodes[i]? = some nd ∧ nd.value = e.edge.dst.2)

theorem Graph.Bounded.register {g : Graph N D} (h : g.Bounded) {k : N × D} {i : Nat} (hi : i < g.nodes.length) :
    (g.register k i).Bounded := by
  refine ⟨?_, h.pred, h.nbrs⟩
  intro k' j hj
  simp only [Graph.register] at hj
  split at hj
  · cases hj; exact hi
  · exact h.map _ _ hj

theorem makeNode_len (g : Graph N D) (p : Option Nat) (c : N) (dc d : D) :
    (makeNode g p c dc d).1.nodes = g.nodes ++ [⟨d, c, p, []⟩] ∧ (makeNode g p c dc d).2 = g.nodes.length := by
  unfold makeNode
  dsimp only
  split <;> exact ⟨rfl, rfl⟩

theorem makeNode_map {g : Graph N D} {p : Option Nat} {c : N} {dc d : D} {k : N × D} {i : Nat} (h : g.map k = some i)
    (hk : p = none → k ≠ (c, dc)) : (makeNode g p c dc d).1.map k = some i := by
  unfold makeNode
  dsimp only
  split
  · simp only [Graph.register]
    rw [if_neg (hk ‹_›)]
    exact h
  · exact h

theorem makeNode_map_cases {g : Graph N D} {p : Option Nat} {c : N} {dc d : D} {k : N × D} {i : Nat}
    (h : (makeNode g p c dc d).1.map k = some i) : (p = none ∧ k = (c, dc) ∧ i = g.nodes.length) ∨ g.map k = some i := by
  unfold makeNode at h
  dsimp only at h
  split at h
  · simp only [Graph.register] at h
    split at h
    · exact .inl ⟨‹_›, ‹_›, (by cases h; rfl)⟩
    · exact .inr h
  · exact .inr h

theorem makeNode_bounded {g : Graph N D} (hb : g.Bounded) {p : Option Nat} (hp : ∀ q, p = some q → q < g.nodes.length)
    {c : N} {dc d : D} : (makeNode g p c dc d).1.Bounded := by
  obtain ⟨hl, _⟩ := makeNode_len g p c dc d
  refine ⟨?_, ?_, ?_⟩
  · intro k i hi
    rw [hl]
    rcases makeNode_map_cases hi with ⟨_, _, rfl⟩ | hi
    · simp
    · have := hb.map _ _ hi; simp; omega
  · intro i nd q hi hq
    rw [hl] at hi ⊢
    rw [List.getElem?_append] at hi
    split at hi
    · have := hb.pred _ _ _ hi hq; simp; omega
    · have hm := List.mem_of_getElem? hi
      simp at hm
      subst hm
      have := hp _ hq; simp; omega
  · intro i nd j hi hj
    rw [hl] at hi ⊢
    rw [List.getElem?_append] at hi
    split at hi
    · have := hb.nbrs _ _ _ hi hj; simp; omega
    · have hm := List.mem_of_getElem? hi
      simp at hm
      subst hm
      simp at hj

theorem StepOK.same {g : Graph N D} {e : Rec N D} (hb : g.Bounded) {v : Nat} (hd : g.map e.edge.dst = some v)
    (hc : ∀ p, e.skipped = false → e.predId = some p → v = p ∨ ∃ j nd, g.Alt v j ∧ g.nodes[j]? = some nd ∧ nd.pred = some p) :
    StepOK g g e where
  bnd := hb
  ext := fun _ nd h => ⟨nd, h, rfl, fun _ hp => ⟨hp, rfl⟩, fun _ hj => hj⟩
  map := fun _ _ h _ => h
  dst := ⟨v, hd⟩
  comp := fun p hs hp => ⟨v, hd, hc p hs hp⟩
  just := fun _ nd h => .inl ⟨nd, h, rfl, rfl⟩
  val := fun _ nd h => .inl ⟨nd, h⟩
  nbr := fun _ nd _ h hj => .inl ⟨nd, h, hj⟩
  key := fun _ _ h => .inl h

/-- The new node is registered for the target. -/
theorem StepOK.fresh {g : Graph N D} {e : Rec N D} (hb : g.Bounded) (hp : ∀ q, e.predId = some q → q < g.nodes.length)
    (hd : g.map e.edge.dst = none) (pr : Option Nat) (hpr : pr = if e.skipped then none else e.predId)
    {g' : Graph N D} (hn : g'.nodes = g.nodes ++ [⟨e.edge.dst.2, e.edge.src.1, pr, []⟩])
    (hm : g'.map = ((makeNode g e.predId e.edge.src.1 e.edge.src.2 e.edge.dst.2).1.register e.edge.dst g.nodes.length).map) :
    StepOK g g' e := by
  have hmd : g'.map e.edge.dst = some g.nodes.length := by rw [hm]; simp [Graph.register]
  have hnew : g'.nodes[g.nodes.length]? = some ⟨e.edge.dst.2, e.edge.src.1, pr, []⟩ := by rw [hn]; simp
  have hold : ∀ (i : Nat) nd, g.nodes[i]? = some nd → g'.nodes[i]? = some nd := by
    intro i nd h
    rw [hn, List.getElem?_append_left (List.getElem?_eq_some_iff.1 h).1]; exact h
  have hcases : ∀ (i : Nat) nd, g'.nodes[i]? = some nd → g.nodes[i]? = some nd ∨ (i = g.nodes.length ∧ nd = ⟨e.edge.dst.2, e.edge.src.1, pr, []⟩) := by
    intro i nd h
    rw [hn, List.getElem?_append] at h
    split at h
    · exact .inl h
    · have : i - g.nodes.length = 0 := by
        have := (List.getElem?_eq_some_iff.1 h).1; simp at this; omega
      rw [this] at h; simp at h
      exact .inr ⟨by omega, h.symm⟩
  have hprb : ∀ q, pr = some q → q < g.nodes.length := by
    intro q hq; rw [hpr] at hq; split at hq
    · cases hq
    · exact hp _ hq
  have hlen : g'.nodes.length = g.nodes.length + 1 := by rw [hn]; simp
  refine ⟨⟨?_, ?_, ?_⟩, ?_, ?_, ⟨_, hmd⟩, ?_, ?_, ?_, ?_, ?_⟩
  · intro k i hi
    rw [hm] at hi
    simp only [Graph.register] at hi
    split at hi
    · cases hi; omega
    · rcases makeNode_map_cases hi with ⟨_, _, rfl⟩ | hi
      · omega
      · have := hb.map _ _ hi; omega
  · intro i nd q hi hq
    rcases hcases i nd hi with h | ⟨_, rfl⟩
    · have := hb.pred _ _ _ h hq; omega
    · have := hprb _ hq; omega
  · intro i nd j hi hj
    rcases hcases i nd hi with h | ⟨_, rfl⟩
    · have := hb.nbrs _ _ _ h hj; omega
    · cases hj
  · intro i nd h
    exact ⟨nd, hold i nd h, rfl, fun _ hp => ⟨hp, rfl⟩, fun _ hj => hj⟩
  · intro k i h hk
    rw [hm]
    simp only [Graph.register]
    rw [if_neg (fun e => by rw [e, hd] at h; cases h)]
    exact makeNode_map h hk
  · intro p hs hpe
    refine ⟨_, hmd, .inr ⟨_, _, .inl rfl, hnew, ?_⟩⟩
    rw [hpr, hs]; exact hpe
  · intro i nd h
    rcases hcases i nd h with h | ⟨rfl, rfl⟩
    · exact .inl ⟨nd, h, rfl, rfl⟩
    · refine .inr ⟨rfl, ⟨_, hmd, .inl rfl⟩, ?_, ?_⟩
      · intro p hp'
        change pr = some p at hp'
        rw [hpr] at hp'
        cases hs : e.skipped
        · rw [hs] at hp'; exact ⟨rfl, hp'⟩
        · rw [hs] at hp'; cases hp'
      · intro hp'
        change pr = none at hp'
        rw [hpr] at hp'
        cases hs : e.skipped
        · rw [hs] at hp'; exact .inr hp'
        · exact .inl rfl
  · intro i nd h
    rcases hcases i nd h with h | ⟨rfl, rfl⟩
    · exact .inl ⟨nd, h⟩
    · exact .inr rfl
  · intro i nd j h hj
    rcases hcases i nd h with h | ⟨rfl, rfl⟩
    · exact .inl ⟨nd, h, hj⟩
    · cases hj
  · intro k i hi
    rw [hm] at hi
    simp only [Graph.register] at hi
    split at hi
    · cases hi; exact .inr (.inr ⟨‹_›, _, hnew, rfl⟩)
    · rcases makeNode_map_cases hi with ⟨h1, h2, _⟩ | hi
      · exact .inr (.inl ⟨h1, h2⟩)
      · exact .inl hi

theorem StepOK.ident {g : Graph N D} {e : Rec N D} (hb : g.Bounded) {p : Nat} (hp : p < g.nodes.length) (hpe : e.predId = some p)
    (hd : g.map e.edge.dst = none) {nd : Node N D} (hnd : g.nodes[p]? = some nd) (hval : nd.value = e.edge.dst.2) :
    StepOK g (g.register e.edge.dst p) e where
  bnd := hb.register hp
  ext := fun _ nd h => ⟨nd, h, rfl, fun _ hp => ⟨hp, rfl⟩, fun _ hj => hj⟩
  map := by
    intro k i h _
    simp only [Graph.register]
    rw [if_neg (fun e => by rw [e, hd] at h; cases h)]
    exact h
  dst := ⟨p, by simp [Graph.register]⟩
  comp := fun q _ hq => ⟨p, by simp [Graph.register], .inl (Option.some.inj (hpe.symm.trans hq))⟩
  just := fun _ nd h => .inl ⟨nd, h, rfl, rfl⟩
  val := fun _ nd h => .inl ⟨nd, h⟩
  nbr := fun _ nd _ h hj => .inl ⟨nd, h, hj⟩
  key := by
    intro k i h
    simp only [Graph.register] at h
    split at h
    · cases h; exact .inr (.inr ⟨‹_›, nd, hnd, hval⟩)
    · exact .inl h

theorem StepOK.setPred {g : Graph N D} {e : Rec N D} (hb : g.Bounded) (hp : ∀ q, e.predId = some q → q < g.nodes.length)
    (hs : e.skipped = false) {v : Nat} (hd : g.map e.edge.dst = some v) {nd : Node N D} (hv : g.nodes[v]? = some nd) (hn : nd.pred = none) :
    StepOK g { g with nodes := g.nodes.set v { nd with pred := e.predId, source := e.edge.src.1 } } e := by
  have hlt := (List.getElem?_eq_some_iff.1 hv).1
  have hget : ∀ i, (g.nodes.set v { nd with pred := e.predId, source := e.edge.src.1 })[i]? =
      if v = i then some { nd with pred := e.predId, source := e.edge.src.1 } else g.nodes[i]? := by
    intro i
    rw [List.getElem?_set]
    split
    · rename_i h; subst h; simp
    · rfl
  refine ⟨⟨?_, ?_, ?_⟩, ?_, ?_, ⟨_, hd⟩, ?_, ?_, ?_, ?_, fun _ _ h => .inl h⟩
  · intro k i hi; simpa using hb.map _ _ hi
  · intro i nd' q hi hq
    simp only [List.length_set]
    rw [hget] at hi
    split at hi
    · cases hi; exact hp _ hq
    · exact hb.pred _ _ _ hi hq
  · intro i nd' j hi hj
    simp only [List.length_set]
    rw [hget] at hi
    split at hi
    · cases hi; exact hb.nbrs _ _ _ hv hj
    · exact hb.nbrs _ _ _ hi hj
  · intro i nd' h
    simp only [hget]
    by_cases hvi : v = i
    · subst hvi
      rw [hv] at h; cases h
      rw [if_pos rfl]
      exact ⟨_, rfl, rfl, (fun p hp' => by rw [hn] at hp'; cases hp'), fun _ hj => hj⟩
    · rw [if_neg hvi]
      exact ⟨nd', h, rfl, fun _ hp => ⟨hp, rfl⟩, fun _ hj => hj⟩
  · intro k i h _; exact h
  · intro p _ hpe
    refine ⟨v, hd, .inr ⟨v, { nd with pred := e.predId, source := e.edge.src.1 }, .inl rfl, ?_, hpe⟩⟩
    simp only [hget, if_pos]
  · intro i nd' h
    simp only [hget] at h
    split at h
    · rename_i hvi
      cases h; subst hvi
      refine .inr ⟨rfl, ⟨v, hd, .inl rfl⟩, fun p hp' => ⟨hs, hp'⟩, fun hp' => .inr hp'⟩
    · exact .inl ⟨nd', h, rfl, rfl⟩
  · intro i nd' h
    simp only [hget] at h
    split at h
    · rename_i hvi; subst hvi; exact .inl ⟨nd, hv⟩
    · exact .inl ⟨nd', h⟩
  · intro i nd' j h hj
    simp only [hget] at h
    split at h
    · rename_i hvi; subst hvi; cases h; exact .inl ⟨nd, hv, hj⟩
    · exact .inl ⟨nd', h, hj⟩

theorem StepOK.neighbor {g : Graph N D} {e : Rec N D} (hb : g.Bounded) (hp : ∀ q, e.predId = some q → q < g.nodes.length)
    (hs : e.skipped = false) {v : Nat} (hd : g.map e.edge.dst = some v) (hsrc : e.predId = none → e.edge.dst ≠ e.edge.src)
    {nd : Node N D} (hv : g.nodes[v]? = some nd) {g' : Graph N D}
    (hn : g'.nodes = (g.nodes ++ [(⟨e.edge.dst.2, e.edge.src.1, e.predId, []⟩ : Node N D)]).set v { nd with nbrs := nd.nbrs ++ [g.nodes.length] })
    (hm : g'.map = (makeNode g e.predId e.edge.src.1 e.edge.src.2 e.edge.dst.2).1.map) : StepOK g g' e := by
  have hlt := (List.getElem?_eq_some_iff.1 hv).1
  have hget : ∀ i, g'.nodes[i]? = if v = i then some { nd with nbrs := nd.nbrs ++ [g.nodes.length] }
      else if i = g.nodes.length then some ⟨e.edge.dst.2, e.edge.src.1, e.predId, []⟩ else g.nodes[i]? := by
    intro i
    rw [hn, List.getElem?_set]
    split
    · rename_i h; subst h; simp; omega
    · rw [List.getElem?_append]
      split
      · rw [if_neg (by omega)]
      · split
        · subst i; simp
        · rw [List.getElem?_eq_none (by simp; omega), List.getElem?_eq_none (by omega)]
  have hlen : g'.nodes.length = g.nodes.length + 1 := by rw [hn]; simp
  have hmd : g'.map e.edge.dst = some v := by rw [hm]; exact makeNode_map hd hsrc
  have hvn : g'.nodes[v]? = some { nd with nbrs := nd.nbrs ++ [g.nodes.length] } := by rw [hget, if_pos rfl]
  have hwn : g'.nodes[g.nodes.length]? = some ⟨e.edge.dst.2, e.edge.src.1, e.predId, []⟩ := by
    rw [hget, if_neg (by omega), if_pos rfl]
  have halt : g'.Alt v g.nodes.length := .inr ⟨_, hvn, by simp⟩
  refine ⟨⟨?_, ?_, ?_⟩, ?_, ?_, ⟨_, hmd⟩, ?_, ?_, ?_, ?_, ?_⟩
  · intro k i hi
    rw [hm] at hi
    rcases makeNode_map_cases hi with ⟨_, _, rfl⟩ | hi
    · omega
    · have := hb.map _ _ hi; omega
  · intro i nd' q hi hq
    rw [hget] at hi
    split at hi
    · cases hi; have := hb.pred _ _ _ hv hq; omega
    · split at hi
      · cases hi; have := hp _ hq; omega
      · have := hb.pred _ _ _ hi hq; omega
  · intro i nd' j hi hj
    rw [hget] at hi
    split at hi
    · cases hi
      rcases List.mem_append.1 hj with hj | hj
      · have := hb.nbrs _ _ _ hv hj; omega
      · simp at hj; omega
    · split at hi
      · cases hi; cases hj
      · have := hb.nbrs _ _ _ hi hj; omega
  · intro i nd' h
    rw [hget]
    by_cases hvi : v = i
    · subst hvi
      rw [hv] at h; cases h
      rw [if_pos rfl]
      exact ⟨_, rfl, rfl, fun p hp' => ⟨hp', rfl⟩, fun _ hj => List.mem_append_left _ hj⟩
    · rw [if_neg hvi, if_neg (fun hi => by have := (List.getElem?_eq_some_iff.1 h).1; omega)]
      exact ⟨nd', h, rfl, fun _ hp => ⟨hp, rfl⟩, fun _ hj => hj⟩
  · intro k i h hk; rw [hm]; exact makeNode_map h hk
  · intro p _ hpe
    exact ⟨v, hmd, .inr ⟨_, _, halt, hwn, hpe⟩⟩
  · intro i nd' h
    rw [hget] at h
    split at h
    · rename_i hvi
      cases h; subst hvi
      exact .inl ⟨nd, hv, rfl, rfl⟩
    · split at h
      · rename_i hi
        cases h; subst hi
        exact .inr ⟨rfl, ⟨v, hmd, halt⟩, fun p hp' => ⟨hs, hp'⟩, fun hp' => .inr hp'⟩
      · exact .inl ⟨nd', h, rfl, rfl⟩
  · intro i nd' h
    rw [hget] at h
    split at h
    · rename_i hvi; subst hvi; exact .inl ⟨nd, hv⟩
    · split at h
      · cases h; exact .inr rfl
      · exact .inl ⟨nd', h⟩
  · intro i nd' j h hj
    rw [hget] at h
    split at h
    · rename_i hvi
      subst hvi; cases h
      rcases List.mem_append.1 hj with hj | hj
      · exact .inl ⟨nd, hv, hj⟩
      · rw [List.mem_singleton.1 hj]
        exact .inr ⟨hd, _, hwn, rfl⟩
    · split at h
      · cases h; cases hj
      · exact .inl ⟨nd', h, hj⟩
  · intro k i hi
    rw [hm] at hi
    rcases makeNode_map_cases hi with ⟨h1, h2, _⟩ | hi
    · exact .inr (.inl ⟨h1, h2⟩)
    · exact .inl hi

/-- The neighbours of a node inside the graph can be read. -/
theorem mapM_predOf {g : Graph N D} {l : List Nat} (h : ∀ j ∈ l, j < g.nodes.length) :
    ∃ qs, l.mapM g.predOf = some qs ∧ ∀ q, q ∈ qs ↔ ∃ j ∈ l, g.predOf j = some q := by
  induction l with
  | nil => exact ⟨[], rfl, by simp⟩
  | cons a l ih =>
    obtain ⟨qs, h1, h2⟩ := ih fun j hj => h j (.tail _ hj)
    have ha : ∃ q, g.predOf a = some q := by
      unfold Graph.predOf
      rw [List.getElem?_eq_getElem (h a (.head _))]
      exact ⟨_, rfl⟩
    obtain ⟨q, hq⟩ := ha
    refine ⟨q :: qs, by simp [List.mapM_cons, hq, h1], ?_⟩
    intro q'
    simp only [List.mem_cons, h2]
    constructor
    · rintro (rfl | ⟨j, hj, h⟩)
      · exact ⟨a, .inl rfl, hq⟩
      · exact ⟨j, .inr hj, h⟩
    · rintro ⟨j, rfl | hj, h'⟩
      · rw [hq] at h'; exact .inl (Option.some.inj h').symm
      · exact .inr ⟨j, hj, h'⟩

/-- One call of `saveEdge` succeeds and does what `StepOK` says. -/
theorem saveEdge_ok (env : Env N D) {predId : Option Nat} {curr : N} {currNode : D} {succ : N} {maySkip : Bool} {g : Graph N D}
    (succNode : D) (hb : g.Bounded) (hp : ∀ q, predId = some q → q < g.nodes.length)
    (hsrc : predId = none → (succ, succNode) ≠ (curr, currNode)) :
    ∃ g', saveEdge env predId curr currNode succ maySkip g succNode = some g' ∧
      StepOK g g' ⟨predId, ⟨(curr, currNode), (succ, succNode)⟩, maySkip && decide (succNode = currNode)⟩ := by
  unfold saveEdge
  obtain ⟨hl, hr⟩ := makeNode_len g predId curr currNode succNode
  split
  · rename_i hsk
    have hsk' : (maySkip && decide (succNode = currNode)) = true := by simp [hsk]
    cases hd : g.map (succ, succNode) with
    | some v => exact ⟨g, rfl, .same hb hd (fun p hs _ => by rw [hsk'] at hs; cases hs)⟩
    | none =>
      dsimp only
      refine ⟨_, rfl, .fresh hb hp hd none ?_ ?_ ?_⟩
      · rw [hsk']; rfl
      · dsimp only [Graph.register]
        rw [hl, hr, List.set_append_right _ _ (Nat.le_refl _)]; simp
      · dsimp only [Graph.register]
        rw [hr]
  · rename_i hsk
    have hsk' : (maySkip && decide (succNode = currNode)) = false := by
      rw [Bool.eq_false_iff]; intro h; apply hsk; simpa using h
    have hid : ∃ b, identityEdge env g predId succ succNode = some b := by
      unfold identityEdge
      cases predId with
      | none => exact ⟨_, rfl⟩
      | some p => dsimp only; rw [List.getElem?_eq_getElem (hp p rfl)]; exact ⟨_, rfl⟩
    obtain ⟨b, hid⟩ := hid
    rw [hid, Option.bind_some]
    cases hd : g.map (succ, succNode) with
    | none =>
      dsimp only
      split
      · rename_i p
        unfold identityEdge at hid
        obtain ⟨nd, hnd, hv⟩ := Option.map_eq_some_iff.1 hid
        simp only [Bool.and_eq_true, decide_eq_true_eq] at hv
        exact ⟨_, rfl, StepOK.ident (e := ⟨_, ⟨_, (succ, succNode)⟩, _⟩) hb (hp _ rfl) rfl hd hnd hv.1.1⟩
      · refine ⟨_, rfl, .fresh hb hp hd predId ?_ ?_ ?_⟩
        · rw [hsk']; rfl
        · exact hl
        · rw [hr]
    | some v =>
      dsimp only
      split
      · rename_i h
        exact ⟨g, rfl, .same hb hd fun p _ hpe => .inl (Option.some.inj (h.2.symm.trans hpe))⟩
      · unfold connect
        have hv : g.nodes[v]? = some _ := List.getElem?_eq_getElem (hb.map _ _ hd)
        rw [hv, Option.bind_some]
        cases hn : (g.nodes[v]'(hb.map _ _ hd)).pred with
        | none => exact ⟨_, rfl, StepOK.setPred (e := ⟨predId, ⟨(curr, currNode), (succ, succNode)⟩, _⟩) hb hp hsk' hd hv hn⟩
        | some q =>
          dsimp only
          obtain ⟨qs, h1, h2⟩ := mapM_predOf (g := g) (l := (g.nodes[v]'(hb.map _ _ hd)).nbrs) fun j hj => hb.nbrs _ _ _ hv hj
          rw [h1, Option.map_some]
          split
          · refine ⟨_, rfl, .neighbor hb hp hsk' hd hsrc hv ?_ ?_⟩
            · dsimp only
              rw [hl, hr, hn]
            · dsimp only
          · rename_i hno
            refine ⟨g, rfl, .same hb hd fun p _ hpe => ?_⟩
            change predId = some p at hpe
            rw [hpe] at hno
            by_cases hq : some q = some p
            · exact .inr ⟨v, _, .inl rfl, hv, hn.trans hq⟩
            · have hm : some p ∈ qs := Classical.byContradiction fun h => hno ⟨hq, h⟩
              obtain ⟨j, hj, hpj⟩ := (h2 _).1 hm
              unfold Graph.predOf at hpj
              obtain ⟨ndj, hndj, hpj⟩ := Option.map_eq_some_iff.1 hpj
              exact .inr ⟨j, ndj, .inr ⟨_, hv, hj⟩, hndj, hpj⟩

/-! ## Invariant of the recording -/

/-- Invariant after the edges `L`. -/
structure Inv (g : Graph N D) (L : List (Rec N D)) : Prop where
  bnd : g.Bounded
  tgt : ∀ e ∈ L, ∃ v, g.map e.edge.dst = some v
  src : ∀ e ∈ L, ∀ p, e.predId = some p → g.map e.edge.src = some p
  just : ∀ (i : Nat) nd, g.nodes[i]? = some nd → ∃ e ∈ L, nd.source = e.edge.src.1 ∧ (∃ v, g.map e.edge.dst = some v ∧ g.Alt v i) ∧
    (∀ p, nd.pred = some p → e.skipped = false ∧ e.predId = some p) ∧ (nd.pred = none → e.skipped = true ∨ e.predId = none)
  comp : ∀ e ∈ L, ∀ p, e.skipped = false → e.predId = some p → ∃ v, g.map e.edge.dst = some v ∧ (v = p ∨ g.Back v p)
  key : ∀ k i, g.map k = some i → (∃ e ∈ L, e.edge.dst = k) ∨ ∃ e ∈ L, e.predId = none ∧ e.edge.src = k
  val : (∀ e ∈ L, ∀ e' ∈ L, e.predId = none → e'.edge.dst ≠ e.edge.src) →
    (∀ (i : Nat) nd j ndj, g.nodes[i]? = some nd → j ∈ nd.nbrs → g.nodes[j]? = some ndj → ndj.value = nd.value) ∧
    ∀ k i nd, g.map k = some i → g.nodes[i]? = some nd → (∀ e ∈ L, e.predId = none → e.edge.src ≠ k) → nd.value = k.2

theorem Inv.empty : Inv (Graph.empty : Graph N D) [] := by
  have hn : ∀ (i : Nat) nd, (Graph.empty : Graph N D).nodes[i]? ≠ some nd := fun i nd h => by simp [Graph.empty] at h
  have hm : ∀ k i, (Graph.empty : Graph N D).map k ≠ some i := fun k i h => by cases h
  exact ⟨⟨fun k i h => absurd h (hm k i), fun i nd _ h => absurd h (hn i nd), fun i nd _ h => absurd h (hn i nd)⟩,
    (fun _ h => by cases h), (fun _ h => by cases h), fun i nd h => absurd h (hn i nd), (fun _ h => by cases h),
    fun k i h => absurd h (hm k i), fun _ => ⟨fun i nd _ _ h => absurd h (hn i nd), fun k i _ h => absurd h (hm k i)⟩⟩

theorem StepOK.alt {g g' : Graph N D} {e : Rec N D} (h : StepOK g g' e) {v j : Nat} (ha : g.Alt v j) : g'.Alt v j := by
  rcases ha with rfl | ⟨nd, hv, hj⟩
  · exact .inl rfl
  · obtain ⟨nd', hv', _, _, hn⟩ := h.ext v nd hv
    exact .inr ⟨nd', hv', hn j hj⟩

theorem StepOK.back {g g' : Graph N D} {e : Rec N D} (h : StepOK g g' e) {v p : Nat} (ha : g.Back v p) : g'.Back v p := by
  obtain ⟨j, nd, ha, hj, hp⟩ := ha
  obtain ⟨nd', hj', _, hp', _⟩ := h.ext j nd hj
  exact ⟨j, nd', h.alt ha, hj', (hp' p hp).1⟩

theorem Inv.step {g g' : Graph N D} {L : List (Rec N D)} {e : Rec N D} (hi : Inv g L) (hs : StepOK g g' e)
    (h1 : ∀ p, e.predId = some p → g.map e.edge.src = some p)
    (h2 : e.predId = none → ∀ e' ∈ L, e'.edge.src = e.edge.src → e'.predId = none)
    (h3 : e.predId = none → ∀ e' ∈ L, e'.edge.dst ≠ e.edge.src) : Inv g' (L ++ [e]) := by
  have hdst : ∀ e' ∈ L, ∀ v, g.map e'.edge.dst = some v → g'.map e'.edge.dst = some v :=
    fun e' he v hv => hs.map _ _ hv fun hn => h3 hn e' he
  refine ⟨hs.bnd, ?_, ?_, ?_, ?_, ?_, ?_⟩
  · intro e' he
    rcases List.mem_append.1 he with he | he
    · obtain ⟨v, hv⟩ := hi.tgt e' he
      exact ⟨v, hdst e' he v hv⟩
    · rw [List.mem_singleton.1 he]; exact hs.dst
  · intro e' he p hp
    rcases List.mem_append.1 he with he | he
    · refine hs.map _ _ (hi.src e' he p hp) fun hn hc => ?_
      rw [h2 hn e' he hc] at hp; cases hp
    · rw [List.mem_singleton.1 he] at hp ⊢
      exact hs.map _ _ (h1 p hp) fun hn => by rw [hn] at hp; cases hp
  · intro i nd' hn
    rcases hs.just i nd' hn with ⟨nd, hnd, hsrc, hpr⟩ | ⟨ha, hb, hc, hd⟩
    · obtain ⟨e', he, ha, ⟨v, hv, hb⟩, hc, hd⟩ := hi.just i nd hnd
      rw [hsrc] at ha
      rw [hpr] at hc hd
      exact ⟨e', List.mem_append_left _ he, ha, ⟨v, hdst e' he v hv, hs.alt hb⟩, hc, hd⟩
    · exact ⟨e, by simp, ha, hb, hc, hd⟩
  · intro e' he p hsk hp
    rcases List.mem_append.1 he with he | he
    · obtain ⟨v, hv, h⟩ := hi.comp e' he p hsk hp
      refine ⟨v, hdst e' he v hv, ?_⟩
      rcases h with h | h
      · exact .inl h
      · exact .inr (hs.back h)
    · rw [List.mem_singleton.1 he] at hsk hp ⊢
      exact hs.comp p hsk hp
  · intro k i hk
    rcases hs.key k i hk with h | ⟨ha, hb⟩ | ⟨ha, _⟩
    · rcases hi.key k i h with ⟨e', he, h⟩ | ⟨e', he, h⟩
      · exact .inl ⟨e', List.mem_append_left _ he, h⟩
      · exact .inr ⟨e', List.mem_append_left _ he, h⟩
    · exact .inr ⟨e, by simp, ha, hb.symm⟩
    · exact .inl ⟨e, by simp, ha.symm⟩
  · intro hf
    have hfL : ∀ e ∈ L, ∀ e' ∈ L, e.predId = none → e'.edge.dst ≠ e.edge.src :=
      fun a ha b hb => hf a (List.mem_append_left _ ha) b (List.mem_append_left _ hb)
    obtain ⟨v1, v2⟩ := hi.val hfL
    have old : ∀ i nd', g'.nodes[i]? = some nd' → i < g.nodes.length → ∃ nd, g.nodes[i]? = some nd ∧ nd.value = nd'.value := by
      intro i nd' hn hlt
      obtain ⟨nd'', h, hv, _⟩ := hs.ext i _ (List.getElem?_eq_getElem hlt)
      rw [hn] at h; cases h
      exact ⟨_, List.getElem?_eq_getElem hlt, hv.symm⟩
    refine ⟨?_, ?_⟩
    · intro i nd' j ndj hn hj hnj
      rcases hs.nbr i nd' j hn hj with ⟨nd, h, hj⟩ | ⟨hd, nd, h, hv⟩
      · obtain ⟨nd2, h2, hv2⟩ := old i nd' hn (List.getElem?_eq_some_iff.1 h).1
        rw [h] at h2; cases h2
        obtain ⟨ndj2, hj2, hvj⟩ := old j ndj hnj (hi.bnd.nbrs _ _ _ h hj)
        rw [← hvj, ← hv2]
        exact v1 _ _ _ _ h hj hj2
      · rw [hnj] at h; cases h
        obtain ⟨nd2, h2, hv2⟩ := old i nd' hn (hi.bnd.map _ _ hd)
        rw [hv, ← hv2]
        exact (v2 _ _ _ hd h2 fun e' he hn => (hf e' (List.mem_append_left _ he) e (by simp) hn).symm).symm
    · intro k i nd' hk hn hseed
      rcases hs.key k i hk with h | ⟨ha, hb⟩ | ⟨rfl, nd, h, hv⟩
      · obtain ⟨nd2, h2, hv2⟩ := old i nd' hn (hi.bnd.map _ _ h)
        rw [← hv2]
        exact v2 _ _ _ h h2 fun e' he hn => hseed e' (List.mem_append_left _ he) hn
      · exact absurd hb.symm (hseed e (by simp) ha)
      · rw [hn] at h; cases h; exact hv

/-- One call of `saveEdges`. -/
theorem Inv.call {env : Env N D} {c : Call N D} {predId : Option Nat} (ds : List D) :
    ∀ {g : Graph N D} {L : List (Rec N D)}, Inv g L → (∀ p, predId = some p → g.map (c.curr, c.currNode) = some p) →
    (predId = none → ∀ e ∈ L, e.edge.src = (c.curr, c.currNode) → e.predId = none) →
    (predId = none → ∀ e ∈ L, e.edge.dst ≠ (c.curr, c.currNode)) →
    (predId = none → ∀ d ∈ ds, (c.succ, d) ≠ (c.curr, c.currNode)) →
    ∃ g', ds.foldlM (saveEdge env predId c.curr c.currNode c.succ (c.maySkip env)) g = some g' ∧
      Inv g' (L ++ ds.map fun d => ⟨predId, ⟨(c.curr, c.currNode), (c.succ, d)⟩, c.maySkip env && decide (d = c.currNode)⟩) := by
  induction ds with
  | nil => intro g L hi _ _ _ _; exact ⟨g, rfl, by simpa using hi⟩
  | cons d ds ih =>
    intro g L hi h1 h2 h3 h4
    obtain ⟨g1, hg1, hs⟩ := saveEdge_ok env (curr := c.curr) (currNode := c.currNode) (maySkip := c.maySkip env) d hi.bnd
      (fun q hq => hi.bnd.map _ _ (h1 q hq)) (fun hn => h4 hn d (.head _))
    have hi1 := hi.step hs h1 h2 h3
    obtain ⟨g', hg', hi'⟩ := ih hi1 (fun p hp => hs.map _ _ (h1 p hp) fun hn => by rw [hp] at hn; cases hn)
      (fun hn e he hsrc => by
        rcases List.mem_append.1 he with he | he
        · exact h2 hn e he hsrc
        · rw [List.mem_singleton.1 he]; exact hn)
      (fun hn e he => by
        rcases List.mem_append.1 he with he | he
        · exact h3 hn e he
        · rw [List.mem_singleton.1 he]; exact h4 hn d (.head _))
      (fun hn d' hd => h4 hn d' (.tail _ hd))
    refine ⟨g', ?_, ?_⟩
    · rw [List.foldlM_cons, hg1]; exact hg'
    · simpa using hi'

/-- How the recorded edges relate to the calls. -/
structure LogOK (env : Env N D) (seeds : N × D → Prop) (cs : List (Call N D)) (L : List (Rec N D)) : Prop where
  to : ∀ c ∈ cs, ∀ d ∈ c.succNodes, ∃ e ∈ L, e.edge = ⟨(c.curr, c.currNode), (c.succ, d)⟩ ∧
    e.skipped = (c.maySkip env && decide (d = c.currNode))
  of : ∀ e ∈ L, ∃ c ∈ cs, ∃ d ∈ c.succNodes, e.edge = ⟨(c.curr, c.currNode), (c.succ, d)⟩ ∧
    e.skipped = (c.maySkip env && decide (d = c.currNode))
  seed : ∀ e ∈ L, e.predId = none → seeds e.edge.src

theorem record_ok (env : Env N D) {seeds : N × D → Prop} : ∀ (todo done : List (Call N D)) (g : Graph N D) (L : List (Rec N D)),
    Causal seeds (done ++ todo) → Inv g L → LogOK env seeds done L →
    ∃ g' L', record env g todo = some g' ∧ Inv g' L' ∧ LogOK env seeds (done ++ todo) L' := by
  intro todo
  induction todo with
  | nil => intro done g L _ hi hl; exact ⟨g, L, rfl, hi, by simpa using hl⟩
  | cons c todo ih =>
    intro done g L hc hi hl
    have hseed : g.map (c.curr, c.currNode) = none → seeds (c.curr, c.currNode) := by
      intro hn
      rcases hc.order done c todo rfl with h | ⟨e, ⟨c', hc', he⟩, hd⟩
      · exact h
      · obtain ⟨d, hd', rfl⟩ := List.mem_map.1 he
        obtain ⟨e', he', hee, _⟩ := hl.to c' hc' d hd'
        obtain ⟨v, hv⟩ := hi.tgt e' he'
        rw [hee] at hv
        have hd : (c'.succ, d) = (c.curr, c.currNode) := hd
        rw [hd, hn] at hv; cases hv
    obtain ⟨g1, hg1, hi1⟩ := hi.call (env := env) (c := c) (predId := g.map (c.curr, c.currNode)) c.succNodes (fun p hp => hp)
      (fun hn e he hs => by
        cases hp : e.predId with
        | none => rfl
        | some p => have := hi.src e he p hp; rw [hs, hn] at this; cases this)
      (fun hn e he hd => by
        obtain ⟨v, hv⟩ := hi.tgt e he
        rw [hd, hn] at hv; cases hv)
      (fun hn d hd => hc.noLoop ⟨(c.curr, c.currNode), (c.succ, d)⟩
        ⟨c, by simp, List.mem_map.2 ⟨d, hd, rfl⟩⟩ (hseed hn))
    have hl1 : LogOK env seeds (done ++ [c]) (L ++ c.succNodes.map fun d =>
        ⟨g.map (c.curr, c.currNode), ⟨(c.curr, c.currNode), (c.succ, d)⟩, c.maySkip env && decide (d = c.currNode)⟩) := by
      refine ⟨?_, ?_, ?_⟩
      · intro c' hc' d hd
        rcases List.mem_append.1 hc' with hc' | hc'
        · obtain ⟨e, he, h⟩ := hl.to c' hc' d hd
          exact ⟨e, List.mem_append_left _ he, h⟩
        · rw [List.mem_singleton.1 hc'] at hd ⊢
          exact ⟨_, List.mem_append_right _ (List.mem_map.2 ⟨d, hd, rfl⟩), rfl, rfl⟩
      · intro e he
        rcases List.mem_append.1 he with he | he
        · obtain ⟨c', hc', h⟩ := hl.of e he
          exact ⟨c', List.mem_append_left _ hc', h⟩
        · obtain ⟨d, hd, rfl⟩ := List.mem_map.1 he
          exact ⟨c, by simp, d, hd, rfl, rfl⟩
      · intro e he hn
        rcases List.mem_append.1 he with he | he
        · exact hl.seed e he hn
        · obtain ⟨d, hd, rfl⟩ := List.mem_map.1 he
          exact hseed hn
    obtain ⟨g', L', hg', hi', hl'⟩ := ih (done ++ [c]) g1 _ (by simpa using hc) hi1 hl1
    refine ⟨g', L', ?_, hi', by simpa using hl'⟩
    unfold record at hg' ⊢
    rw [List.foldlM_cons]
    unfold saveEdges
    rw [hg1]
    exact hg'

theorem record_inv {env : Env N D} {seeds : N × D → Prop} {cs : List (Call N D)} (hc : Causal seeds cs) :
    ∃ g L, record env .empty cs = some g ∧ Inv g L ∧ LogOK env seeds cs L :=
  record_ok env cs [] .empty [] hc Inv.empty ⟨(fun _ h => by cases h), (fun _ h => by cases h), (fun _ h => by cases h)⟩

end Phasar.ESG
