import Verif.Path.Dag
/-!
# Lemmas about the extraction of paths
-/
namespace Phasar.Dag
set_option linter.unusedSectionVars false

variable {V N : Type} [DecidableEq V] {lk : Links V N} {f : Filter V}

/-! ## The loop -/

/-- What the loop says about the ways back. -/
def StopEnds (lk : Links V N) (f : Filter V) : Stop V → Prop
  | .ended isErr => isErr = false
  | .at prev _ _ _ => f.Ends lk prev

def StopNext (lk : Links V N) (f : Filter V) : Stop V → V → Prop
  | .ended _, _ => False
  | .at prev _ _ _, q => lk.Next prev q ∧ f.Passes prev q

/-- The shape of the data in a stop. -/
def StopWf (lk : Links V N) (f : Filter V) : Stop V → Prop
  | .ended _ => True
  | .at prev x isEnd isErr => lk.pred prev = some x ∧ isEnd = f.reachedEnd prev (some x) ∧
      isErr = (!f.reachedEnd prev (some x) && f.erroneous prev (some x))

theorem walk_wf : ∀ {w : Nat} {v : V} {ls : List N} {stop : Stop V}, walk lk f w v = some (ls, stop) → StopWf lk f stop := by
  intro w
  induction w with
  | zero => intro v ls stop h; cases h
  | succ k ih =>
    intro v ls stop h
    simp only [walk] at h
    cases hp : lk.pred v with
    | none => rw [hp] at h; cases h; trivial
    | some x =>
      rw [hp] at h
      dsimp only at h
      split at h
      · cases h
        exact ⟨hp, rfl, rfl⟩
      · obtain ⟨r, hr, he⟩ := Option.map_eq_some_iff.1 h
        cases he
        exact ih hr

theorem walk_ne_nil : ∀ {w : Nat} {v : V} {ls : List N} {stop : Stop V}, walk lk f w v = some (ls, stop) → ls ≠ [] := by
  intro w v ls stop h
  cases w with
  | zero => cases h
  | succ k =>
    simp only [walk] at h
    cases hp : lk.pred v with
    | none => rw [hp] at h; cases h; nofun
    | some x =>
      rw [hp] at h
      dsimp only at h
      split at h
      · cases h; nofun
      · obtain ⟨r, hr, he⟩ := Option.map_eq_some_iff.1 h
        cases he; nofun

/-- The ways back from `v` are: along the loop, then an end or a next node. -/
theorem walk_trail : ∀ {w : Nat} {v : V} {ls : List N} {stop : Stop V}, walk lk f w v = some (ls, stop) →
    ∀ l, Trail lk f v l ↔ (StopEnds lk f stop ∧ l = ls) ∨ ∃ q l', StopNext lk f stop q ∧ Trail lk f q l' ∧ l = ls ++ l' := by
  intro w
  induction w with
  | zero => intro v ls stop h; cases h
  | succ k ih =>
    intro v ls stop h l
    simp only [walk] at h
    cases hp : lk.pred v with
    | none =>
      rw [hp] at h; cases h
      constructor
      · intro ht
        cases ht with
        | last he =>
          refine .inl ⟨?_, rfl⟩
          rw [Filter.Ends, hp] at he
          show (!f.reachedEnd v none && f.erroneous v none) = false
          rcases he with he | he <;> simp [he]
        | step hn _ _ => obtain ⟨p, hp', _⟩ := hn; rw [hp] at hp'; cases hp'
      · rintro (⟨he, rfl⟩ | ⟨q, l', hq, _⟩)
        · refine .last ?_
          rw [Filter.Ends, hp]
          have he : (!f.reachedEnd v none && f.erroneous v none) = false := he
          cases h1 : f.reachedEnd v none
          · right; simpa [h1] using he
          · exact .inl rfl
        · exact hq.elim
    | some x =>
      rw [hp] at h
      dsimp only at h
      split at h
      · cases h
        constructor
        · intro ht
          cases ht with
          | last he => exact .inl ⟨he, rfl⟩
          | step hn hf ht => exact .inr ⟨_, _, ⟨hn, hf⟩, ht, rfl⟩
        · rintro (⟨he, rfl⟩ | ⟨q, l', hq, ht, rfl⟩)
          · exact .last he
          · exact .step hq.1 hq.2 ht
      · rename_i hc
        simp only [Bool.or_eq_true, not_or, Bool.not_eq_true, Bool.not_eq_false', List.isEmpty_iff] at hc
        obtain ⟨⟨hc1, hc2⟩, hc3⟩ := hc
        rw [hc1] at hc2
        have hc2 : f.erroneous v (some x) = false := by simpa using hc2
        obtain ⟨r, hr, he⟩ := Option.map_eq_some_iff.1 h
        cases he
        have key : ∀ l, Trail lk f v l ↔ ∃ l', Trail lk f x l' ∧ l = lk.src v :: l' := by
          intro l
          constructor
          · intro ht
            cases ht with
            | last he =>
              rw [Filter.Ends, hp] at he
              dsimp only at he
              rw [hc1, hc3] at he
              rcases he with he | ⟨q, hq, _⟩
              · cases he
              · cases hq
            | step hn _ ht =>
              obtain ⟨p, hp', hq⟩ := hn
              rw [hp] at hp'; cases hp'
              rw [hc3] at hq
              rcases hq with rfl | hq
              · exact ⟨_, ht, rfl⟩
              · cases hq
          · rintro ⟨l', ht, rfl⟩
            exact .step ⟨x, hp, .inl rfl⟩ ⟨hc1, hc2⟩ ht
        rw [key]
        constructor
        · rintro ⟨l', ht, rfl⟩
          rcases (ih hr l').1 ht with ⟨h1, rfl⟩ | ⟨q, l'', hq, ht', rfl⟩
          · exact .inl ⟨h1, rfl⟩
          · exact .inr ⟨q, l'', hq, ht', rfl⟩
        · rintro (⟨h1, rfl⟩ | ⟨q, l'', hq, ht', rfl⟩)
          · exact ⟨_, (ih hr _).2 (.inl ⟨h1, rfl⟩), rfl⟩
          · exact ⟨_, (ih hr _).2 (.inr ⟨q, l'', hq, ht', rfl⟩), rfl⟩

/-! ## Finished vertices -/

/-- The vertex `r` is finished and stands for the node `v`; the nodes it has no edge to are `dead`. -/
inductive OK (lk : Links V N) (f : Filter V) (dead : V → Prop) (d : Adj.Graph (List N) Nat) (P : List Nat) : V → Nat → Prop
  | mk {v r w ls stop es} (tgt : Nat → V → Prop) : walk lk f w v = some (ls, stop) → d.nodes[r]? = some ls → d.adj[r]? = some es →
      r ∉ P → (es = [] → StopEnds lk f stop) → (∀ e ∈ es, ∃ q, tgt e q) → (∀ e q, tgt e q → e ∈ es ∧ StopNext lk f stop q) →
      (∀ q, StopNext lk f stop q → dead q ∨ ∃ e ∈ es, tgt e q) → (∀ e q, tgt e q → OK lk f dead d P q e) → OK lk f dead d P v r

variable {dead : V → Prop} {anc : V → V → Prop}

theorem OK.mono {d d' : Adj.Graph (List N) Nat} {P P' : List Nat} (hn : ∀ r, r ∉ P → r < d.adj.length → d'.nodes[r]? = d.nodes[r]? ∧ d'.adj[r]? = d.adj[r]?)
    (hP : ∀ r, r ∉ P → r < d.adj.length → r ∉ P') {v : V} {r : Nat} (h : OK lk f dead d P v r) : OK lk f dead d' P' v r := by
  induction h with
  | mk tgt h1 h2 h3 h4 h5 h6 h7 h8 _ ih =>
    have hlt := (List.getElem?_eq_some_iff.1 h3).1
    exact .mk tgt h1 ((hn _ h4 hlt).1 ▸ h2) ((hn _ h4 hlt).2 ▸ h3) (hP _ h4 hlt) h5 h6 h7 h8 ih

theorem OK.notin {d : Adj.Graph (List N) Nat} {P : List Nat} {v : V} {r : Nat} (h : OK lk f dead d P v r) : r ∉ P := by
  cases h; assumption

theorem OK.lt {d : Adj.Graph (List N) Nat} {P : List Nat} {v : V} {r : Nat} (h : OK lk f dead d P v r) : r < d.adj.length := by
  cases h with
  | mk _ _ _ h => exact (List.getElem?_eq_some_iff.1 h).1

/-! ## The invariant -/

/-- The conditions on `dead` and `anc` under which the extraction is analysed. -/
structure Params (lk : Links V N) (f : Filter V) (dead : V → Prop) (anc : V → V → Prop) : Prop where
  err : ∀ {w v ls stop}, walk lk f w v = some (ls, stop) → ¬ StopEnds lk f stop → (∀ q, StopNext lk f stop q → dead q) → dead v
  self : ∀ {w v ls stop q}, walk lk f w v = some (ls, stop) → StopNext lk f stop q → anc v q
  trans : ∀ {u w v ls stop q}, walk lk f w v = some (ls, stop) → StopNext lk f stop q → anc u v → anc u q
  loop : ∀ q, anc q q → dead q

/-- The state between calls. -/
structure Inv (lk : Links V N) (f : Filter V) (dead : V → Prop) (st : St V N) : Prop where
  wf : st.dag.adj.length = st.dag.nodes.length
  path : ∀ r ∈ st.path, r < st.dag.adj.length
  ok : ∀ v r, st.cache v = some (some r) → r ∈ st.path ∨ OK lk f dead st.dag st.path v r
  dead : ∀ v, st.cache v = some none → dead v
  tgt : ∀ t u, Succ st.dag t u → ∃ q, st.cache q = some (some u)

/-- The vertices on the path stand for ancestors of `v`. -/
def Anc (anc : V → V → Prop) (st : St V N) (v : V) : Prop := ∀ u r, st.cache u = some (some r) → r ∈ st.path → anc u v

/-- A visited node that leads nowhere. -/
def Closed (lk : Links V N) (f : Filter V) (st : St V N) (u : V) : Prop :=
  ∃ w ls stop, walk lk f w u = some (ls, stop) ∧ ¬ StopEnds lk f stop ∧ ∀ q, StopNext lk f stop q → st.cache q ≠ none

/-- What a call leaves as it is. -/
structure Frame (st st' : St V N) : Prop where
  path : st'.path = st.path
  nodes : st.dag.nodes <+: st'.dag.nodes
  adj : st.dag.adj <+: st'.dag.adj
  roots : st'.dag.roots = st.dag.roots
  cache : ∀ u x, st.cache u = some x → st'.cache u = some x

theorem Frame.refl (st : St V N) : Frame st st := ⟨rfl, List.prefix_refl _, List.prefix_refl _, rfl, fun _ _ h => h⟩

theorem Frame.trans {a b c : St V N} (h : Frame a b) (h' : Frame b c) : Frame a c :=
  ⟨h'.path.trans h.path, h.nodes.trans h'.nodes, h.adj.trans h'.adj, h'.roots.trans h.roots, fun u x hx => h'.cache u x (h.cache u x hx)⟩

theorem Frame.nodes_eq {st st' : St V N} (h : Frame st st') {r : Nat} (hr : r < st.dag.nodes.length) :
    st'.dag.nodes[r]? = st.dag.nodes[r]? := by
  obtain ⟨t, ht⟩ := h.nodes
  rw [← ht, List.getElem?_append_left hr]

theorem Frame.adj_eq {st st' : St V N} (h : Frame st st') {r : Nat} (hr : r < st.dag.adj.length) :
    st'.dag.adj[r]? = st.dag.adj[r]? := by
  obtain ⟨t, ht⟩ := h.adj
  rw [← ht, List.getElem?_append_left hr]

theorem Frame.len {st st' : St V N} (h : Frame st st') : st.dag.adj.length ≤ st'.dag.adj.length := h.adj.length_le

/-- What a call of `pathsToImplLA` does. -/
structure Post (lk : Links V N) (f : Filter V) (dead : V → Prop) (v : V) (st st' : St V N) (r : Option Nat) : Prop where
  frame : Frame st st'
  inv : Inv lk f dead st'
  cached : st'.cache v = some r
  old : st.cache v ≠ none → st' = st
  new : st.cache v = none → ∀ e, r = some e → st.dag.adj.length ≤ e
  back : r = none → st'.dag = st.dag
  own : ∀ u e, st'.cache u = some (some e) → e < st.dag.adj.length → st.cache u = some (some e)
  shut : r = none → ∀ u, st.cache u = none → st'.cache u ≠ none → st'.cache u = some none ∧ Closed lk f st' u
  linked : ∀ u, st.dag.adj.length ≤ u → u < st'.dag.adj.length → r = some u ∨ ∃ t, st.dag.adj.length ≤ t ∧ Succ st'.dag t u

/-- `pathsToImplLA` at one depth of the recursion. -/
def RecOK (lk : Links V N) (f : Filter V) (dead : V → Prop) (anc : V → V → Prop) (rec : V → St V N → Option (St V N × Option Nat)) : Prop :=
  ∀ v st st' r, rec v st = some (st', r) → Inv lk f dead st → Anc anc st v → Post lk f dead v st st' r

end Phasar.Dag
