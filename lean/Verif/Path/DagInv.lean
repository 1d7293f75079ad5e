import Verif.Path.DagLemmas
/-!
# The invariant of the extraction of paths
-/
namespace Phasar.Dag
set_option linter.unusedSectionVars false

variable {V N : Type} [DecidableEq V] {lk : Links V N} {f : Filter V} {dead : V → Prop} {anc : V → V → Prop}

theorem prefix_set {A : Type} {l l' : List A} {i : Nat} {x : A} (h : l <+: l') (hi : l.length ≤ i) : l <+: l'.set i x := by
  obtain ⟨t, rfl⟩ := h
  rw [List.set_append_right _ _ hi]
  exact List.prefix_append _ _

theorem prefix_dropLast {A : Type} {l l' : List A} (h : l <+: l') (hl : l'.length = l.length + 1) : l'.dropLast = l := by
  obtain ⟨t, rfl⟩ := h
  rw [List.length_append] at hl
  match t, hl with
  | [x], _ => simp
  | [], hl => simp at hl
  | _ :: _ :: _, hl => simp at hl

theorem addEdge_some {T : Type} {d d' : Adj.Graph T Nat} {v u : Nat} (h : Adj.addEdge d v u = some d') :
    ∃ es, d.adj[v]? = some es ∧ d' = { d with adj := d.adj.set v (es ++ [u]) } := by
  unfold Adj.addEdge at h
  split at h
  · cases h; exact ⟨_, ‹_›, rfl⟩
  · cases h

theorem dedup_some {T : Type} {d d' : Adj.Graph T Nat} {v : Nat} (h : Adj.dedupOutEdges natLt d v = some d') :
    ∃ es es', d.adj[v]? = some es ∧ d' = { d with adj := d.adj.set v es' } ∧ ∀ e, e ∈ es' ↔ e ∈ es := by
  unfold Adj.dedupOutEdges at h
  split at h
  · cases h
    refine ⟨_, _, ‹_›, rfl, fun e => ?_⟩
    rw [Adj.mem_unique, (Adj.sort_perm _ _).mem_iff]
  · cases h

theorem Inv.setAdj {st : St V N} (h : Inv lk f dead st) {ret : Nat} (hr : ret ∈ st.path) (es : List Nat)
    (hes : ∀ e ∈ es, ∃ q, st.cache q = some (some e)) :
    Inv lk f dead { st with dag := { st.dag with adj := st.dag.adj.set ret es } } := by
  refine ⟨by simp [h.wf], fun r hr' => by simpa using h.path r hr', fun v r hv => ?_, h.dead, ?_⟩
  rotate_left
  · rintro t u ⟨ts, hts, hu⟩
    dsimp only at hts
    by_cases htr : ret = t
    · subst htr
      rw [List.getElem?_set_self (h.path _ hr)] at hts
      cases hts
      exact hes u hu
    · rw [List.getElem?_set_ne htr] at hts
      exact h.tgt t u ⟨ts, hts, hu⟩
  rcases h.ok v r hv with h1 | h1
  · exact .inl h1
  · right
    refine OK.mono (d := st.dag) (P := st.path) (d' := { st.dag with adj := st.dag.adj.set ret es }) (P' := st.path)
      (fun r hr' _ => ⟨rfl, ?_⟩) (fun _ h _ => h) h1
    rw [List.getElem?_set_ne]
    rintro rfl; exact hr' hr

theorem Closed.mono {st st' : St V N} (h : ∀ u x, st.cache u = some x → st'.cache u = some x) {u : V} (hc : Closed lk f st u) :
    Closed lk f st' u := by
  obtain ⟨w, ls, stop, h1, h2, h3⟩ := hc
  refine ⟨w, ls, stop, h1, h2, fun q hq hn => h3 q hq ?_⟩
  cases hx : st.cache q with
  | none => rfl
  | some x => rw [h q x hx] at hn; cases hn

/-- The state while the vertex `ret` for `v` is being made. -/
structure J (lk : Links V N) (f : Filter V) (dead : V → Prop) (st₀ : St V N) (v : V) (ret : Nat) (ls : List N) (stop : Stop V)
    (es : List Nat) (st : St V N) : Prop where
  path : st.path = st₀.path ++ [ret]
  inv : Inv lk f dead st
  node : st.dag.nodes[ret]? = some ls
  adj : st.dag.adj[ret]? = some es
  fnodes : st₀.dag.nodes <+: st.dag.nodes
  fadj : st₀.dag.adj <+: st.dag.adj
  roots : st.dag.roots = st₀.dag.roots
  cache : ∀ u x, st₀.cache u = some x → st.cache u = some x
  self : st.cache v = some (some ret)
  own : ∀ u e, st.cache u = some (some e) → e ≤ ret → st₀.cache u = some (some e) ∨ u = v
  edges : ∀ e ∈ es, e ∉ st.path ∧ ∃ q, StopNext lk f stop q ∧ st.cache q = some (some e)
  empty : es = [] → st.dag.adj.length = ret + 1 ∧
    ∀ u, u ≠ v → st₀.cache u = none → st.cache u ≠ none → st.cache u = some none ∧ Closed lk f st u
  linked : ∀ u, ret < u → u < st.dag.adj.length → ∃ t, ret ≤ t ∧ Succ st.dag t u

/-- The next node `q` is dealt with. -/
def Done (st : St V N) (es : List Nat) (q : V) : Prop :=
  ∃ x, st.cache q = some x ∧ ∀ e, x = some e → e ∈ es ∨ e ∈ st.path

theorem J.ret {st₀ st : St V N} {v : V} {ret : Nat} {ls : List N} {stop : Stop V} {es : List Nat}
    (h : J lk f dead st₀ v ret ls stop es st) : ret ∈ st.path := by rw [h.path]; simp

theorem J.le {st₀ st : St V N} {v : V} {ret : Nat} {ls : List N} {stop : Stop V} {es : List Nat}
    (h : J lk f dead st₀ v ret ls stop es st) (hr : st₀.dag.adj.length = ret) (hi : Inv lk f dead st₀) {e : Nat} (he : e ∈ st.path) :
    e ≤ ret := by
  rw [h.path] at he
  rcases List.mem_append.1 he with he | he
  · have := hi.path e he; omega
  · have : e = ret := by simpa using he
    omega

theorem traverse_ok (hp : Params lk f dead anc) {rec : V → St V N → Option (St V N × Option Nat)} (hrec : RecOK lk f dead anc rec)
    {st₀ st st' : St V N} {v q : V} {ret w : Nat} {ls : List N} {stop : Stop V} {es : List Nat} (hr : st₀.dag.adj.length = ret)
    (hi₀ : Inv lk f dead st₀) (ha : Anc anc st₀ v) (hw : walk lk f w v = some (ls, stop)) (hj : J lk f dead st₀ v ret ls stop es st)
    (hq : StopNext lk f stop q) (h : traverse rec ret st q = some st') :
    ∃ es', J lk f dead st₀ v ret ls stop es' st' ∧ (∀ e ∈ es, e ∈ es') ∧ Done st' es' q ∧
      ∀ u x, st.cache u = some x → st'.cache u = some x := by
  obtain ⟨⟨st₁, r⟩, h1, h⟩ := Option.bind_eq_some_iff.1 h
  have hanc : Anc anc st q := by
    intro u e hu he
    rcases hj.own u e hu (hj.le hr hi₀ he) with h0 | rfl
    · rw [hj.path] at he
      rcases List.mem_append.1 he with he | he
      · exact hp.trans hw hq (ha u e h0 he)
      · exfalso
        have he : e = ret := by simpa using he
        subst he
        have hlt : e < st₀.dag.adj.length := by
          rcases hi₀.ok u e h0 with h | h
          · exact hi₀.path e h
          · exact h.lt
        omega
    · exact hp.self hw hq
  have post := hrec q st st₁ r h1 hj.inv hanc
  have hret : ret < st.dag.adj.length := (List.getElem?_eq_some_iff.1 hj.adj).1
  have hret' : ret < st.dag.nodes.length := hj.inv.wf ▸ hret
  have hown : ∀ u e, st₁.cache u = some (some e) → e ≤ ret → st₀.cache u = some (some e) ∨ u = v := by
    intro u e hu he
    exact hj.own u e (post.own u e hu (by omega)) he
  have hedges : ∀ e ∈ es, e ∉ st₁.path ∧ ∃ q, StopNext lk f stop q ∧ st₁.cache q = some (some e) := by
    intro e he
    obtain ⟨h1, q', h2, h3⟩ := hj.edges e he
    rw [post.frame.path]
    exact ⟨h1, q', h2, post.frame.cache _ _ h3⟩
  dsimp only at h
  cases r with
  | none =>
    cases h
    have hd := post.back rfl
    refine ⟨es, ⟨post.frame.path.trans hj.path, post.inv, hd ▸ hj.node, hd ▸ hj.adj, hd ▸ hj.fnodes, hd ▸ hj.fadj, hd ▸ hj.roots,
      fun u x hu => post.frame.cache _ _ (hj.cache u x hu), post.frame.cache _ _ hj.self, hown, hedges, ?_, hd ▸ hj.linked⟩,
      fun _ h => h, ⟨none, post.cached, by nofun⟩, post.frame.cache⟩
    intro hes
    obtain ⟨e1, e2⟩ := hj.empty hes
    refine ⟨hd ▸ e1, fun u hu hu0 hu1 => ?_⟩
    cases hc : st.cache u with
    | none => exact post.shut rfl u hc hu1
    | some x =>
      obtain ⟨e3, e4⟩ := e2 u hu hu0 (by rw [hc]; nofun)
      exact ⟨post.frame.cache _ _ e3, e4.mono post.frame.cache⟩
  | some e =>
    dsimp only at h
    split at h
    · rename_i he
      have hst := (Option.some.inj h).symm
      subst hst
      have hold : st' = st := by
        by_cases hc : st.cache q = none
        · have h2 := post.new hc e rfl
          rw [post.frame.path] at he
          have := hj.inv.path e he
          omega
        · exact post.old hc
      subst hold
      exact ⟨es, hj, fun _ h => h, ⟨some e, post.cached, fun e' h => .inr (by cases h; exact he)⟩, fun _ _ h => h⟩
    · rename_i he
      obtain ⟨d, hd, heq⟩ := Option.map_eq_some_iff.1 h
      obtain ⟨es', ha', rfl⟩ := addEdge_some hd
      have hadj1 : st₁.dag.adj[ret]? = some es := (post.frame.adj_eq hret).trans hj.adj
      rw [hadj1] at ha'; cases ha'
      subst heq
      have hr1 : ret < st₁.dag.adj.length := Nat.lt_of_lt_of_le hret post.frame.len
      have hpath1 : st₁.path = st₀.path ++ [ret] := post.frame.path.trans hj.path
      have hsucc : ∀ t u, Succ st.dag t u → Succ { st₁.dag with adj := st₁.dag.adj.set ret (es ++ [e]) } t u := by
        rintro t u ⟨ts, ht, hu⟩
        have htl := (List.getElem?_eq_some_iff.1 ht).1
        by_cases htr : t = ret
        · subst htr
          rw [hj.adj] at ht; cases ht
          exact ⟨es ++ [e], by simp [List.getElem?_set_self hr1], List.mem_append_left _ hu⟩
        · exact ⟨ts, by dsimp only; rw [List.getElem?_set_ne (by omega), post.frame.adj_eq htl, ht], hu⟩
      refine ⟨es ++ [e], ⟨hpath1, post.inv.setAdj (by rw [hpath1]; simp) _ ?_, ?_, by simp [List.getElem?_set_self hr1], ?_, ?_, ?_,
        fun u x hu => post.frame.cache _ _ (hj.cache u x hu), post.frame.cache _ _ hj.self, hown, ?_, ?_, ?_⟩,
        fun _ h => List.mem_append_left _ h, ⟨some e, post.cached, fun e' h => .inl (by cases h; simp)⟩, post.frame.cache⟩
      · intro e' he'
        rcases List.mem_append.1 he' with h | h
        · obtain ⟨_, q', _, h2⟩ := hedges e' h
          exact ⟨q', h2⟩
        · have h : e' = e := by simpa using h
          subst h
          exact ⟨q, post.cached⟩
      · exact (post.frame.nodes_eq hret').trans hj.node
      · exact hj.fnodes.trans post.frame.nodes
      · exact prefix_set (hj.fadj.trans post.frame.adj) (by omega)
      · exact post.frame.roots.trans hj.roots
      · intro e' he'
        rcases List.mem_append.1 he' with h | h
        · exact hedges e' h
        · have h : e' = e := by simpa using h
          subst h
          exact ⟨he, q, hq, post.cached⟩
      · intro h; simp at h
      · intro u h1 h2
        rw [List.length_set] at h2
        by_cases hu : u < st.dag.adj.length
        · obtain ⟨t, ht, hs⟩ := hj.linked u h1 hu
          exact ⟨t, ht, hsucc t u hs⟩
        · rcases post.linked u (by omega) h2 with h | ⟨t, ht, ts, hts, hm⟩
          · cases h
            exact ⟨ret, Nat.le_refl _, es ++ [e], by simp [List.getElem?_set_self hr1], by simp⟩
          · exact ⟨t, by omega, ts, by dsimp only; rw [List.getElem?_set_ne (by omega), hts], hm⟩

theorem Done.mono {st st' : St V N} {es es' : List Nat} {q : V} (h : Done st es q) (hc : ∀ u x, st.cache u = some x → st'.cache u = some x)
    (he : ∀ e ∈ es, e ∈ es') (hp : st'.path = st.path) : Done st' es' q := by
  obtain ⟨x, hx, h⟩ := h
  refine ⟨x, hc q x hx, fun e hxe => ?_⟩
  rcases h e hxe with h | h
  · exact .inl (he e h)
  · exact .inr (hp ▸ h)

/-- The loop over the neighbours. -/
theorem nbrs_ok (hp : Params lk f dead anc) {rec : V → St V N → Option (St V N × Option Nat)} (hrec : RecOK lk f dead anc rec)
    {st₀ : St V N} {v prev x : V} {ret w : Nat} {ls : List N} {b₁ b₂ : Bool} (hr : st₀.dag.adj.length = ret)
    (hi₀ : Inv lk f dead st₀) (ha : Anc anc st₀ v) (hw : walk lk f w v = some (ls, .at prev x b₁ b₂)) :
    ∀ (qs : List V) (st st' : St V N) (b b' : Bool) (es : List Nat), (∀ q ∈ qs, q ∈ lk.nbrs x) →
      J lk f dead st₀ v ret ls (.at prev x b₁ b₂) es st → qs.foldlM (traverseNbr f rec ret prev) (st, b) = some (st', b') →
      ∃ es', J lk f dead st₀ v ret ls (.at prev x b₁ b₂) es' st' ∧ (∀ e ∈ es, e ∈ es') ∧
        (∀ q ∈ qs, f.Passes prev q → Done st' es' q) ∧ (∀ u x, st.cache u = some x → st'.cache u = some x) ∧
        (b' = true ↔ b = true ∨ ∃ q ∈ qs, f.reachedEnd prev (some q) = true ∧ f.erroneous prev (some q) = false) := by
  intro qs
  induction qs with
  | nil =>
    intro st st' b b' es _ hj h
    cases h
    exact ⟨es, hj, fun _ h => h, by nofun, fun _ _ h => h, by simp⟩
  | cons q qs ih =>
    intro st st' b b' es hqs hj h
    rw [List.foldlM_cons] at h
    obtain ⟨⟨st₁, b₁'⟩, h1, h2⟩ := Option.bind_eq_some_iff.1 h
    have hqs' : ∀ q ∈ qs, q ∈ lk.nbrs x := fun q hq => hqs q (.tail _ hq)
    unfold traverseNbr at h1
    split at h1
    · rename_i hc
      cases h1
      obtain ⟨es', g1, g2, g3, g4, g5⟩ := ih st st' b b' es hqs' hj h2
      refine ⟨es', g1, g2, fun q' hq' hpass => ?_, g4, ?_⟩
      · rcases List.mem_cons.1 hq' with rfl | hq'
        · rw [hpass.2] at hc; cases hc
        · exact g3 q' hq' hpass
      · rw [g5]; simp [hc]
    · rename_i hc
      split at h1
      · rename_i hc2
        cases h1
        obtain ⟨es', g1, g2, g3, g4, g5⟩ := ih st st' true b' es hqs' hj h2
        refine ⟨es', g1, g2, fun q' hq' hpass => ?_, g4, ?_⟩
        · rcases List.mem_cons.1 hq' with rfl | hq'
          · rw [hpass.1] at hc2; cases hc2
          · exact g3 q' hq' hpass
        · rw [g5]; simp [hc, hc2]
      · rename_i hc2
        obtain ⟨s, hs, he⟩ := Option.map_eq_some_iff.1 h1
        cases he
        have hpq : f.Passes prev q := ⟨by simpa using hc2, by simpa using hc⟩
        have hwf := walk_wf hw
        obtain ⟨es₁, k1, k2, k3, k4⟩ := traverse_ok hp hrec hr hi₀ ha hw hj (q := q)
          ⟨⟨x, hwf.1, .inr (hqs q (.head _))⟩, hpq⟩ hs
        obtain ⟨es', g1, g2, g3, g4, g5⟩ := ih st₁ st' b b' es₁ hqs' k1 h2
        refine ⟨es', g1, fun e he => g2 e (k2 e he), fun q' hq' hpass => ?_, fun u x hu => g4 u x (k4 u x hu), ?_⟩
        · rcases List.mem_cons.1 hq' with rfl | hq'
          · exact k3.mono g4 g2 (g1.path.trans k1.path.symm)
          · exact g3 q' hq' hpass
        · rw [g5]; simp [hc2]

/-- A node of `Done` without an edge is dead. -/
theorem Done.isDead (hp : Params lk f dead anc) {st₀ st : St V N} {v q : V} {ret w : Nat} {ls : List N} {stop : Stop V} {es : List Nat}
    (hr : st₀.dag.adj.length = ret) (hi₀ : Inv lk f dead st₀) (ha : Anc anc st₀ v) (hw : walk lk f w v = some (ls, stop))
    (hj : J lk f dead st₀ v ret ls stop es st) (hq : StopNext lk f stop q) (hd : Done st es q) :
    dead q ∨ ∃ e ∈ es, st.cache q = some (some e) := by
  obtain ⟨x, hx, h⟩ := hd
  cases x with
  | none => exact .inl (hj.inv.dead q hx)
  | some e =>
    rcases h e rfl with he | he
    · exact .inr ⟨e, he, hx⟩
    · left
      rcases hj.own q e hx (hj.le hr hi₀ he) with h0 | rfl
      · rw [hj.path] at he
        rcases List.mem_append.1 he with he | he
        · exact hp.loop q (hp.trans hw hq (ha q e h0 he))
        · exfalso
          have he : e = ret := by simpa using he
          subst he
          have hlt : e < st₀.dag.adj.length := by
            rcases hi₀.ok q e h0 with h | h
            · exact hi₀.path e h
            · exact h.lt
          omega
      · exact hp.loop q (hp.self hw hq)

theorem J.dedup {st₀ st : St V N} {v : V} {ret : Nat} {ls : List N} {stop : Stop V} {es es' : List Nat}
    (h : J lk f dead st₀ v ret ls stop es st) (hr : st₀.dag.adj.length = ret) (he : ∀ e, e ∈ es' ↔ e ∈ es) :
    J lk f dead st₀ v ret ls stop es' { st with dag := { st.dag with adj := st.dag.adj.set ret es' } } := by
  have hret : ret < st.dag.adj.length := (List.getElem?_eq_some_iff.1 h.adj).1
  refine ⟨h.path, h.inv.setAdj h.ret _ (fun e hm => ?_), h.node, by simp [List.getElem?_set_self hret], h.fnodes, prefix_set h.fadj (by omega), h.roots,
    h.cache, h.self, h.own, fun e hm => h.edges e ((he e).1 hm), fun hn => ?_, fun u h1 h2 => ?_⟩
  · obtain ⟨_, q', _, h2⟩ := h.edges e ((he e).1 hm)
    exact ⟨q', h2⟩
  · have hn' : es = [] := by
      cases es with
      | nil => rfl
      | cons a as => have := (he a).2 (.head _); rw [hn] at this; cases this
    obtain ⟨e1, e2⟩ := h.empty hn'
    exact ⟨by simpa using e1, e2⟩
  · rw [List.length_set] at h2
    obtain ⟨t, ht, ts, hts, hm⟩ := h.linked u h1 h2
    refine ⟨t, ht, ?_⟩
    by_cases htr : t = ret
    · subst htr
      rw [h.adj] at hts; cases hts
      exact ⟨es', by simp [List.getElem?_set_self hret], (he u).2 hm⟩
    · exact ⟨ts, by dsimp only; rw [List.getElem?_set_ne (by omega), hts], hm⟩

theorem finish_valid (hp : Params lk f dead anc) {st₀ st : St V N} {v : V} {ret w : Nat} {ls : List N} {stop : Stop V} {es : List Nat}
    (hr : st₀.dag.adj.length = ret) (hi₀ : Inv lk f dead st₀) (ha : Anc anc st₀ v) (hv : st₀.cache v = none)
    (hw : walk lk f w v = some (ls, stop)) (hj : J lk f dead st₀ v ret ls stop es st) (he : es = [] → StopEnds lk f stop)
    (hd : ∀ q, StopNext lk f stop q → Done st es q) :
    Post lk f dead v st₀ { st with path := st.path.dropLast } (some ret) := by
  have hpath : st.path.dropLast = st₀.path := by rw [hj.path]; simp
  have hnotin : ret ∉ st₀.path := fun h => by have := hi₀.path ret h; omega
  have hmono : ∀ u r, OK lk f dead st.dag st.path u r → OK lk f dead st.dag st.path.dropLast u r := fun u r h =>
    h.mono (fun _ _ _ => ⟨rfl, rfl⟩) (fun r h _ h' => h (List.dropLast_subset _ h'))
  have hokv : OK lk f dead st.dag st.path.dropLast v ret := by
    refine .mk (fun e q => e ∈ es ∧ StopNext lk f stop q ∧ st.cache q = some (some e)) hw hj.node hj.adj (hpath ▸ hnotin) he ?_ ?_ ?_ ?_
    · intro e hm
      obtain ⟨_, q, h1, h2⟩ := hj.edges e hm
      exact ⟨q, hm, h1, h2⟩
    · exact fun e q h => ⟨h.1, h.2.1⟩
    · intro q hq
      rcases (hd q hq).isDead hp hr hi₀ ha hw hj hq with h | ⟨e, h1, h2⟩
      · exact .inl h
      · exact .inr ⟨e, h1, h1, hq, h2⟩
    · rintro e q ⟨h1, h2, h3⟩
      rcases hj.inv.ok q e h3 with h | h
      · exact absurd h (hj.edges e h1).1
      · exact hmono q e h
  refine ⟨⟨hpath, hj.fnodes, hj.fadj, hj.roots, hj.cache⟩, ⟨hj.inv.wf, fun r hr' => hj.inv.path r (List.dropLast_subset _ hr'), ?_, hj.inv.dead,
    hj.inv.tgt⟩,
    hj.self, fun h => absurd hv h, fun _ e h => ?_, (fun h => by cases h), ?_, (fun h => by cases h), ?_⟩
  · intro u r hu
    rcases hj.inv.ok u r hu with h | h
    · rcases hj.own u r hu (hj.le hr hi₀ h) with h0 | rfl
      · rcases hi₀.ok u r h0 with h1 | h1
        · exact .inl (by rw [hpath]; exact h1)
        · right
          refine h1.mono (d' := st.dag) (P' := st.path.dropLast) (fun r' _ hlt => ?_) (fun r' h' _ => by rw [hpath]; exact h')
          obtain ⟨t, ht⟩ := hj.fnodes
          obtain ⟨t', ht'⟩ := hj.fadj
          rw [← ht, ← ht', List.getElem?_append_left (hi₀.wf ▸ hlt), List.getElem?_append_left hlt]
          exact ⟨rfl, rfl⟩
      · have hu' : st.cache u = some (some r) := hu
        rw [hj.self] at hu'; cases hu'
        exact .inr hokv
    · exact .inr (hmono u r h)
  · cases h; omega
  · intro u e hu he'
    rcases hj.own u e hu (by omega) with h0 | rfl
    · exact h0
    · have hu' : st.cache u = some (some e) := hu
      rw [hj.self] at hu'; cases hu'
      omega
  · intro u h1 h2
    by_cases hu : u = ret
    · exact .inl (by rw [hu])
    · obtain ⟨t, ht, hs⟩ := hj.linked u (by omega) h2
      exact .inr ⟨t, by omega, hs⟩

theorem finish_invalid (hp : Params lk f dead anc) {st₀ st : St V N} {v : V} {ret w : Nat} {ls : List N} {stop : Stop V}
    (hr : st₀.dag.adj.length = ret) (hi₀ : Inv lk f dead st₀) (ha : Anc anc st₀ v) (hv : st₀.cache v = none)
    (hw : walk lk f w v = some (ls, stop)) (hj : J lk f dead st₀ v ret ls stop [] st) (he : ¬ StopEnds lk f stop)
    (hd : ∀ q, StopNext lk f stop q → Done st [] q) :
    Post lk f dead v st₀ (discard (St.put { st with path := st.path.dropLast } v none) ret) none := by
  have hpath : st.path.dropLast = st₀.path := by rw [hj.path]; simp
  have hnotin : ret ∉ st₀.path := fun h => by have := hi₀.path ret h; omega
  obtain ⟨hlen, hshut⟩ := hj.empty rfl
  have hdag : discard (St.put { st with path := st.path.dropLast } v none) ret =
      St.put { st₀ with cache := st.cache } v none := by
    have hpop : Adj.pop st.dag ret = (st₀.dag, true) := by
      have h1 := prefix_dropLast hj.fnodes (by rw [← hj.inv.wf, ← hi₀.wf]; omega)
      have h2 := prefix_dropLast hj.fadj (by omega)
      have h3 := hj.roots
      simp only [Adj.pop, hlen, if_true, h1, h2, h3]
    simp [discard, St.put, hpath, hnotin, hpop]
  rw [hdag]
  have hcache : ∀ u, (St.put { st₀ with cache := st.cache } v none).cache u = if u = v then some none else st.cache u := fun u => rfl
  have hold : ∀ u x, st₀.cache u = some x → (St.put { st₀ with cache := st.cache } v none).cache u = some x := by
    intro u x hu
    have : u ≠ v := by rintro rfl; rw [hv] at hu; cases hu
    rw [hcache, if_neg this]
    exact hj.cache u x hu
  refine ⟨⟨rfl, List.prefix_refl _, List.prefix_refl _, rfl, hold⟩, ⟨hi₀.wf, hi₀.path, ?_, ?_, fun t u h => ?_⟩, ?_, fun h => absurd hv h,
    (fun _ e h => by cases h), fun _ => rfl, ?_, fun _ u h1 h2 => ?_, fun u h1 h2 => ?_⟩
  · intro u r hu
    rw [hcache] at hu
    split at hu
    · cases hu
    · rename_i hne
      cases h0 : st₀.cache u with
      | none => rw [(hshut u hne h0 (by rw [hu]; nofun)).1] at hu; cases hu
      | some x =>
        rw [hj.cache u x h0] at hu; cases hu
        exact hi₀.ok u r h0
  · intro u hu
    rw [hcache] at hu
    split at hu
    · rename_i hq; subst hq
      refine hp.err hw he fun q hq => ?_
      rcases (hd q hq).isDead hp hr hi₀ ha hw hj hq with h | ⟨e, h1, _⟩
      · exact h
      · cases h1
    · exact hj.inv.dead u hu
  · obtain ⟨q, hq⟩ := hi₀.tgt t u h
    exact ⟨q, hold q _ hq⟩
  · rw [hcache, if_pos rfl]
  · intro u e hu he'
    rw [hcache] at hu
    split at hu
    · cases hu
    · rename_i hne
      cases h0 : st₀.cache u with
      | none => rw [(hshut u hne h0 (by rw [hu]; nofun)).1] at hu; cases hu
      | some x => rw [hj.cache u x h0] at hu; rw [hu]
  · have hne : ∀ q, st.cache q ≠ none → (St.put { st₀ with cache := st.cache } v none).cache q ≠ none := by
      intro q hq
      rw [hcache]
      split
      · nofun
      · exact hq
    by_cases huv : u = v
    · subst huv
      refine ⟨by rw [hcache, if_pos rfl], w, ls, stop, hw, he, fun q hq => hne q ?_⟩
      obtain ⟨x, hx, _⟩ := hd q hq
      rw [hx]; nofun
    · rw [hcache, if_neg huv] at h2
      obtain ⟨h3, w', ls', stop', h4, h5, h6⟩ := hshut u huv h1 h2
      exact ⟨by rw [hcache, if_neg huv]; exact h3, w', ls', stop', h4, h5, fun q hq => hne q (h6 q hq)⟩
  · have h2 : u < st₀.dag.adj.length := h2
    omega

theorem J.init {st : St V N} {v : V} (hi : Inv lk f dead st) (hv : st.cache v = none) (ls : List N) (stop : Stop V) :
    J lk f dead st v st.dag.nodes.length ls stop []
      { St.put { st with dag := (Adj.addNode st.dag ls).1 } v (some st.dag.nodes.length) with path := st.path ++ [st.dag.nodes.length] } := by
  have hlen := hi.wf
  have hc : ∀ u, (St.put { st with dag := (Adj.addNode st.dag ls).1 } v (some st.dag.nodes.length)).cache u =
    if u = v then some (some st.dag.nodes.length) else st.cache u := fun u => rfl
  refine ⟨rfl, ⟨?_, ?_, ?_, ?_, ?_⟩, ?_, ?_, List.prefix_append _ _, List.prefix_append _ _, rfl, ?_, by rw [hc, if_pos rfl], ?_, by nofun,
    fun _ => ⟨?_, ?_⟩, ?_⟩
  · simp [St.put, Adj.addNode, hlen]
  · intro r hr
    have : r < (st.dag.adj ++ [[]]).length := by
      rw [List.length_append]
      rcases List.mem_append.1 hr with h | h
      · have := hi.path r h; omega
      · have : r = st.dag.nodes.length := by simpa using h
        simp; omega
    exact this
  · intro u r hu
    have hu := hu
    rw [hc] at hu
    split at hu
    · cases hu; left; simp
    · rcases hi.ok u r hu with h | h
      · exact .inl (List.mem_append_left _ h)
      · refine .inr (OK.mono (d := st.dag) (P := st.path) (fun r' _ hlt => ?_) (fun r' h' hlt hm => ?_) h)
        · exact ⟨List.getElem?_append_left (hlen ▸ hlt), List.getElem?_append_left hlt⟩
        · rcases List.mem_append.1 hm with hm | hm
          · exact h' hm
          · have : r' = st.dag.nodes.length := by simpa using hm
            omega
  · intro u hu
    have hu := hu
    rw [hc] at hu
    split at hu
    · cases hu
    · exact hi.dead u hu
  · rintro t u ⟨ts, hts, hu⟩
    have hts : (st.dag.adj ++ [[]])[t]? = some ts := hts
    rcases Nat.lt_or_ge t st.dag.adj.length with hlt | hge
    · rw [List.getElem?_append_left hlt] at hts
      obtain ⟨q, hq⟩ := hi.tgt t u ⟨ts, hts, hu⟩
      refine ⟨q, ?_⟩
      rw [hc, if_neg]
      · exact hq
      · rintro rfl; rw [hv] at hq; cases hq
    · rw [List.getElem?_append_right hge] at hts
      cases ht : t - st.dag.adj.length with
      | zero => rw [ht] at hts; cases hts; cases hu
      | succ n => rw [ht] at hts; simp at hts
  · show (st.dag.nodes ++ [ls])[st.dag.nodes.length]? = some ls
    simp
  · show (st.dag.adj ++ [[]])[st.dag.nodes.length]? = some []
    rw [← hlen]; simp
  · intro u x hu
    rw [hc, if_neg]
    · exact hu
    · rintro rfl; rw [hv] at hu; cases hu
  · intro u e hu he
    have hu := hu
    rw [hc] at hu
    split at hu
    · rename_i h; exact .inr h
    · exact .inl hu
  · show (st.dag.adj ++ [[]]).length = _
    simp [hlen]
  · intro u huv h0 hu
    rw [hc, if_neg huv] at hu
    exact absurd h0 hu
  · intro u h1 h2
    have h2 : u < (st.dag.adj ++ [[]]).length := h2
    rw [List.length_append] at h2
    simp at h2; omega

/-- Every call of `pathsToImplLA` does what `Post` says. -/
theorem la_ok (hp : Params lk f dead anc) (w : Nat) : ∀ k, RecOK lk f dead anc (la lk f w k) := by
  intro k
  induction k with
  | zero => intro v st st' r h; cases h
  | succ k ih =>
    intro v st st' r h hi ha
    unfold la at h
    cases hv : st.cache v with
    | some x =>
      rw [hv] at h; cases h
      refine ⟨.refl _, hi, hv, fun _ => rfl, fun h => ?_, fun _ => rfl, fun _ _ h _ => h, fun _ u h1 h2 => absurd h1 h2, fun u h1 h2 => ?_⟩
      · rw [hv] at h; cases h
      · omega
    | none =>
      rw [hv] at h
      dsimp only at h
      obtain ⟨⟨ls, stop⟩, hw, h⟩ := Option.bind_eq_some_iff.1 h
      obtain ⟨⟨s, ok⟩, hvis, h⟩ := Option.map_eq_some_iff.1 h
      have hj := J.init (lk := lk) (f := f) (dead := dead) hi hv ls stop
      have hr : st.dag.adj.length = st.dag.nodes.length := hi.wf
      have hnotin : st.dag.nodes.length ∉ st.path := fun h => by have := hi.path _ h; omega
      have hwf := walk_wf hw
      cases stop with
      | ended isErr =>
        cases hvis
        cases isErr with
        | false =>
          cases h
          have := finish_valid hp hr hi ha hv hw hj (fun _ => rfl) (fun q hq => hq.elim)
          rw [List.dropLast_concat] at this
          exact this
        | true =>
          cases h
          have := finish_invalid hp hr hi ha hv hw hj (fun h => by cases h) (fun q hq => hq.elim)
          rw [List.dropLast_concat] at this
          exact this
      | «at» prev x isEnd isErr =>
        obtain ⟨hwf1, hwf2, hwf3⟩ := hwf
        unfold visit at hvis
        dsimp only at hvis
        rw [if_neg (by exact hnotin)] at hvis
        obtain ⟨s₁, h1, hvis⟩ := Option.bind_eq_some_iff.1 hvis
        obtain ⟨⟨s₂, b⟩, h2, hvis⟩ := Option.bind_eq_some_iff.1 hvis
        obtain ⟨d, h3, hvis⟩ := Option.bind_eq_some_iff.1 hvis
        obtain ⟨n, h4, heq⟩ := Option.map_eq_some_iff.1 hvis
        obtain ⟨es₁, j1, d1⟩ : ∃ es₁, J lk f dead st v st.dag.nodes.length ls (.at prev x isEnd isErr) es₁ s₁ ∧
            (f.Passes prev x → Done s₁ es₁ x) := by
          split at h1
          · rename_i hc
            simp only [Bool.and_eq_true, Bool.not_eq_true'] at hc
            rw [hc.1] at hwf2
            rw [hc.2, ← hwf2] at hwf3
            obtain ⟨es₁, j1, _, d1, _⟩ := traverse_ok hp ih hr hi ha hw hj (q := x)
              ⟨⟨x, hwf1, .inl rfl⟩, hwf2.symm, by simpa using hwf3.symm⟩ h1
            exact ⟨es₁, j1, fun _ => d1⟩
          · rename_i hc
            cases h1
            refine ⟨[], hj, fun hpx => absurd ?_ hc⟩
            rw [hwf3, hwf2, hpx.1, hpx.2]; rfl
        obtain ⟨es₂, j2, g2, g3, g4, g5⟩ := nbrs_ok hp ih hr hi ha hw _ _ _ _ _ _ (fun _ h => h) j1 h2
        obtain ⟨es, es', he1, rfl, he2⟩ := dedup_some h3
        cases (show some es₂ = some es from j2.adj.symm.trans he1)
        have j3 := j2.dedup hr he2
        have hdone : ∀ q, StopNext lk f (.at prev x isEnd isErr) q →
            Done { s₂ with dag := { s₂.dag with adj := s₂.dag.adj.set st.dag.nodes.length es' } } es' q := by
          rintro q ⟨⟨x', hx', hq⟩, hpass⟩
          rw [hwf1] at hx'; cases hx'
          have : Done s₂ es₂ q := by
            rcases hq with rfl | hq
            · exact (d1 hpass).mono g4 g2 (j2.path.trans j1.path.symm)
            · exact g3 q hq hpass
          exact this.mono (fun _ _ h => h) (fun e h => (he2 e).2 h) rfl
        have hn : n = es'.length := by
          have h5 : (s₂.dag.adj.set st.dag.nodes.length es')[st.dag.nodes.length]? = some es' := j3.adj
          have h4 : ((s₂.dag.adj.set st.dag.nodes.length es')[st.dag.nodes.length]?).map List.length = some n := h4
          rw [h5] at h4
          exact (Option.some.inj h4).symm
        have hb : b = true ↔ StopEnds lk f (.at prev x isEnd isErr) := by
          rw [g5, hwf2]
          show _ ↔ f.Ends lk prev
          rw [Filter.Ends, hwf1]
        cases heq
        dsimp only at h
        split at h
        · rename_i hok
          cases h
          refine finish_valid hp hr hi ha hv hw j3 (fun hes => ?_) hdone
          subst hes
          rw [hn] at hok
          exact hb.1 (by simpa using hok)
        · rename_i hok
          cases h
          simp only [hn, Bool.or_eq_true, not_or, decide_eq_true_eq, ne_eq, Decidable.not_not, List.length_eq_zero_iff] at hok
          obtain ⟨hok1, rfl⟩ := hok
          exact finish_invalid hp hr hi ha hv hw j3 (fun h => hok1 (hb.2 h)) hdone

end Phasar.Dag
