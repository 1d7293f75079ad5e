import Verif.Path.DagInv
/-!
# The invariant of a whole query
-/
namespace Phasar.Dag
set_option linter.unusedSectionVars false

variable {V N : Type} [DecidableEq V] {lk : Links V N} {f : Filter V} {dead : V → Prop} {anc : V → V → Prop}

theorem OK.setAdj {d : Adj.Graph (List N) Nat} {P : List Nat} {ret : Nat} (hret : ∀ t, ¬ Succ d t ret) (es : List Nat) {v : V} {r : Nat}
    (h : OK lk f dead d P v r) (hr : r ≠ ret) : OK lk f dead { d with adj := d.adj.set ret es } P v r := by
  induction h with
  | mk tgt h1 h2 h3 h4 h5 h6 h7 h8 _ ih =>
    refine .mk tgt h1 h2 (by dsimp only; rw [List.getElem?_set_ne (fun h => hr h.symm), h3]) h4 h5 h6 h7 h8 fun e q ht => ih e q ht ?_
    rintro rfl
    exact hret _ ⟨_, h3, (h7 _ _ ht).1⟩

theorem OK.congr {d d' : Adj.Graph (List N) Nat} {P : List Nat} {v : V} {r : Nat} (h : OK lk f dead d P v r) (h1 : d'.nodes = d.nodes)
    (h2 : d'.adj = d.adj) : OK lk f dead d' P v r :=
  OK.mono (d := d) (P := P) (fun r _ _ => by rw [h1, h2]; exact ⟨rfl, rfl⟩) (fun _ h _ => h) h

theorem Inv.setFresh {st : St V N} (h : Inv lk f dead st) {ret : Nat} (hlt : ret < st.dag.adj.length)
    (hf : ∀ u, st.cache u ≠ some (some ret)) (es : List Nat) (hes : ∀ e ∈ es, ∃ q, st.cache q = some (some e)) :
    Inv lk f dead { st with dag := { st.dag with adj := st.dag.adj.set ret es } } := by
  refine ⟨by simp [h.wf], fun r hr' => by simpa using h.path r hr', fun v r hv => ?_, h.dead, ?_⟩
  · rcases h.ok v r hv with h1 | h1
    · exact .inl h1
    · refine .inr (h1.setAdj (fun t ht => ?_) es ?_)
      · obtain ⟨q, hq⟩ := h.tgt t ret ht
        exact hf q hq
      · rintro rfl
        exact hf v hv
  · rintro t u ⟨ts, hts, hu⟩
    dsimp only at hts
    by_cases htr : ret = t
    · subst htr
      rw [List.getElem?_set_self hlt] at hts
      cases hts
      exact hes u hu
    · rw [List.getElem?_set_ne htr] at hts
      exact h.tgt t u ⟨ts, hts, hu⟩

/-- The state while the edges of a root are being made. -/
structure K (lk : Links V N) (f : Filter V) (dead : V → Prop) (inst : N) (st₀ : St V N) (ret : Nat) (qs : List V) (es : List Nat)
    (st : St V N) : Prop where
  path : st.path = []
  inv : Inv lk f dead st
  node : st.dag.nodes[ret]? = some [inst]
  adj : st.dag.adj[ret]? = some es
  fnodes : st₀.dag.nodes <+: st.dag.nodes
  fadj : st₀.dag.adj <+: st.dag.adj
  roots : st.dag.roots = st₀.dag.roots
  cache : ∀ u x, st₀.cache u = some x → st.cache u = some x
  own : ∀ u e, st.cache u = some (some e) → e ≤ ret → st₀.cache u = some (some e)
  edges : ∀ e ∈ es, ∃ q ∈ qs, st.cache q = some (some e)
  done : ∀ q ∈ qs, st.cache q = some none ∨ ∃ e ∈ es, st.cache q = some (some e)
  empty : es = [] → st.dag.adj.length = ret + 1 ∧
    ∀ u, st₀.cache u = none → st.cache u ≠ none → st.cache u = some none ∧ Closed lk f st u
  linked : ∀ u, ret < u → u < st.dag.adj.length → ∃ t, ret ≤ t ∧ Succ st.dag t u

theorem link_ok (hp : Params lk f dead anc) {inst : N} {w k : Nat} {st₀ st st' : St V N} {q : V} {ret : Nat} {qs : List V} {es : List Nat}
    (hr : st₀.dag.adj.length = ret) (hi₀ : Inv lk f dead st₀) (hk : K lk f dead inst st₀ ret qs es st)
    (h : link (la lk f w k) ret st q = some st') :
    ∃ es', K lk f dead inst st₀ ret (qs ++ [q]) es' st' ∧ (∀ e ∈ es, e ∈ es') := by
  obtain ⟨⟨st₁, r⟩, h1, h⟩ := Option.bind_eq_some_iff.1 h
  have post := la_ok hp w k q st st₁ r h1 hk.inv (fun u e _ he => by rw [hk.path] at he; cases he)
  have hret : ret < st.dag.adj.length := (List.getElem?_eq_some_iff.1 hk.adj).1
  have hret' : ret < st.dag.nodes.length := hk.inv.wf ▸ hret
  have hown : ∀ u e, st₁.cache u = some (some e) → e ≤ ret → st₀.cache u = some (some e) :=
    fun u e hu he => hk.own u e (post.own u e hu (by omega)) he
  have hedges : ∀ e ∈ es, ∃ q' ∈ qs ++ [q], st₁.cache q' = some (some e) := by
    intro e he
    obtain ⟨q', h2, h3⟩ := hk.edges e he
    exact ⟨q', List.mem_append_left _ h2, post.frame.cache _ _ h3⟩
  have hdone : ∀ q' ∈ qs, st₁.cache q' = some none ∨ ∃ e ∈ es, st₁.cache q' = some (some e) := by
    intro q' hq'
    rcases hk.done q' hq' with h | ⟨e, he, h⟩
    · exact .inl (post.frame.cache _ _ h)
    · exact .inr ⟨e, he, post.frame.cache _ _ h⟩
  have hpath1 : st₁.path = [] := post.frame.path.trans hk.path
  dsimp only at h
  cases r with
  | none =>
    cases h
    have hd := post.back rfl
    refine ⟨es, ⟨hpath1, post.inv, hd ▸ hk.node, hd ▸ hk.adj, hd ▸ hk.fnodes, hd ▸ hk.fadj, hd ▸ hk.roots,
      fun u x hu => post.frame.cache _ _ (hk.cache u x hu), hown, hedges, ?_, ?_, hd ▸ hk.linked⟩, fun _ h => h⟩
    · intro q' hq'
      rcases List.mem_append.1 hq' with h | h
      · exact hdone q' h
      · have h : q' = q := by simpa using h
        subst h; exact .inl post.cached
    · intro hes
      obtain ⟨e1, e2⟩ := hk.empty hes
      refine ⟨hd ▸ e1, fun u hu0 hu1 => ?_⟩
      cases hc : st.cache u with
      | none => exact post.shut rfl u hc hu1
      | some x =>
        obtain ⟨e3, e4⟩ := e2 u hu0 (by rw [hc]; nofun)
        exact ⟨post.frame.cache _ _ e3, e4.mono post.frame.cache⟩
  | some e =>
    dsimp only at h
    obtain ⟨d, hd, heq⟩ := Option.map_eq_some_iff.1 h
    obtain ⟨es', ha', rfl⟩ := addEdge_some hd
    have hadj1 : st₁.dag.adj[ret]? = some es := (post.frame.adj_eq hret).trans hk.adj
    rw [hadj1] at ha'; cases ha'
    subst heq
    have hr1 : ret < st₁.dag.adj.length := Nat.lt_of_lt_of_le hret post.frame.len
    have hsucc : ∀ t u, Succ st.dag t u → Succ { st₁.dag with adj := st₁.dag.adj.set ret (es ++ [e]) } t u := by
      rintro t u ⟨ts, ht, hu⟩
      have htl := (List.getElem?_eq_some_iff.1 ht).1
      by_cases htr : t = ret
      · subst htr
        rw [hk.adj] at ht; cases ht
        exact ⟨es ++ [e], by simp [List.getElem?_set_self hr1], List.mem_append_left _ hu⟩
      · exact ⟨ts, by dsimp only; rw [List.getElem?_set_ne (by omega), post.frame.adj_eq htl, ht], hu⟩
    have hedges' : ∀ e' ∈ es ++ [e], ∃ q' ∈ qs ++ [q], st₁.cache q' = some (some e') := by
      intro e' he'
      rcases List.mem_append.1 he' with h | h
      · exact hedges e' h
      · have h : e' = e := by simpa using h
        subst h
        exact ⟨q, by simp, post.cached⟩
    have hfresh : ∀ u, st₁.cache u ≠ some (some ret) := by
      intro u hu
      have h0 := hown u ret hu (Nat.le_refl _)
      rcases hi₀.ok u ret h0 with h | h
      · have := hi₀.path _ h; omega
      · have := h.lt; omega
    refine ⟨es ++ [e], ⟨hpath1, post.inv.setFresh hr1 hfresh _ (fun e' he' => ?_), ?_, by simp [List.getElem?_set_self hr1], ?_, ?_, ?_,
      fun u x hu => post.frame.cache _ _ (hk.cache u x hu), hown, hedges', ?_, ?_, ?_⟩, fun _ h => List.mem_append_left _ h⟩
    · obtain ⟨q', _, h⟩ := hedges' e' he'
      exact ⟨q', h⟩
    · exact (post.frame.nodes_eq hret').trans hk.node
    · exact hk.fnodes.trans post.frame.nodes
    · exact prefix_set (hk.fadj.trans post.frame.adj) (by omega)
    · exact post.frame.roots.trans hk.roots
    · intro q' hq'
      rcases List.mem_append.1 hq' with h | h
      · rcases hdone q' h with h | ⟨e', h1, h2⟩
        · exact .inl h
        · exact .inr ⟨e', List.mem_append_left _ h1, h2⟩
      · have h : q' = q := by simpa using h
        subst h
        exact .inr ⟨e, by simp, post.cached⟩
    · intro h; simp at h
    · intro u h1 h2
      rw [List.length_set] at h2
      by_cases hu : u < st.dag.adj.length
      · obtain ⟨t, ht, hs⟩ := hk.linked u h1 hu
        exact ⟨t, ht, hsucc t u hs⟩
      · rcases post.linked u (by omega) h2 with h | ⟨t, ht, ts, hts, hm⟩
        · cases h
          exact ⟨ret, Nat.le_refl _, es ++ [e], by simp [List.getElem?_set_self hr1], by simp⟩
        · exact ⟨t, by omega, ts, by dsimp only; rw [List.getElem?_set_ne (by omega), hts], hm⟩

theorem links_ok (hp : Params lk f dead anc) {inst : N} {w k : Nat} {st₀ : St V N} {ret : Nat} (hr : st₀.dag.adj.length = ret)
    (hi₀ : Inv lk f dead st₀) : ∀ (l qs : List V) (es : List Nat) (st st' : St V N), K lk f dead inst st₀ ret qs es st →
      l.foldlM (link (la lk f w k) ret) st = some st' → ∃ es', K lk f dead inst st₀ ret (qs ++ l) es' st' := by
  intro l
  induction l with
  | nil => intro qs es st st' hk h; cases h; exact ⟨es, by simpa using hk⟩
  | cons q l ih =>
    intro qs es st st' hk h
    rw [List.foldlM_cons] at h
    obtain ⟨s, h1, h2⟩ := Option.bind_eq_some_iff.1 h
    obtain ⟨es₁, hk₁, _⟩ := link_ok hp hr hi₀ hk h1
    obtain ⟨es', hk'⟩ := ih _ _ _ _ hk₁ h2
    exact ⟨es', by simpa using hk'⟩

/-- The state after some facts: `R` are the roots with their nodes. -/
structure QInv (lk : Links V N) (f : Filter V) (dead : V → Prop) (inst : N) (st : St V N) (R : List (Nat × V)) : Prop where
  path : st.path = []
  inv : Inv lk f dead st
  roots : st.dag.roots = R.map (·.1)
  root : ∀ r v, (r, v) ∈ R → ∃ es, st.dag.nodes[r]? = some [inst] ∧ st.dag.adj[r]? = some es ∧
    (∀ e ∈ es, ∃ q, q ∈ lk.nbrs v ++ [v] ∧ st.cache q = some (some e)) ∧
    ∀ q ∈ lk.nbrs v ++ [v], st.cache q = some none ∨ ∃ e ∈ es, st.cache q = some (some e)
  fresh : ∀ r ∈ st.dag.roots, ∀ u, st.cache u ≠ some (some r)
  linked : ∀ u, u < st.dag.adj.length → u ∈ st.dag.roots ∨ ∃ t, Succ st.dag t u

theorem K.init {inst : N} {st : St V N} {R : List (Nat × V)} (hq : QInv lk f dead inst st R) :
    K lk f dead inst st st.dag.adj.length [] [] { st with dag := (Adj.addNode st.dag [inst]).1 } := by
  have hlen : st.dag.adj.length = st.dag.nodes.length := hq.inv.wf
  refine ⟨hq.path, ⟨?_, fun r hr => ?_, fun u r hu => ?_, hq.inv.dead, ?_⟩, ?_, ?_, List.prefix_append _ _, List.prefix_append _ _, rfl,
    fun _ _ h => h, fun u e hu _ => hu, by nofun, by nofun, fun _ => ⟨?_, fun u h1 h2 => absurd h1 h2⟩, fun u h1 h2 => ?_⟩
  · simp [Adj.addNode, hlen]
  · rw [show _ = [] from hq.path] at hr; cases hr
  · rcases hq.inv.ok u r hu with h | h
    · exact .inl h
    · refine .inr (OK.mono (d := st.dag) (P := st.path) (fun r' _ hlt => ?_) (fun r' h' _ => h') h)
      exact ⟨List.getElem?_append_left (hlen ▸ hlt), List.getElem?_append_left hlt⟩
  · rintro t u ⟨ts, hts, hu⟩
    have hts : (st.dag.adj ++ [[]])[t]? = some ts := hts
    rcases Nat.lt_or_ge t st.dag.adj.length with hlt | hge
    · rw [List.getElem?_append_left hlt] at hts
      exact hq.inv.tgt t u ⟨ts, hts, hu⟩
    · rw [List.getElem?_append_right hge] at hts
      cases ht : t - st.dag.adj.length with
      | zero => rw [ht] at hts; cases hts; cases hu
      | succ n => rw [ht] at hts; simp at hts
  · show (st.dag.nodes ++ [[inst]])[st.dag.adj.length]? = _
    rw [hlen]; simp
  · show (st.dag.adj ++ [[]])[st.dag.adj.length]? = _
    simp
  · show (st.dag.adj ++ [[]]).length = _
    simp
  · have h2 : u < (st.dag.adj ++ [[]]).length := h2
    simp at h2; omega

theorem queryOne_ok (hp : Params lk f dead anc) {inst : N} {w k : Nat} {st st' : St V N} {R : List (Nat × V)} {v : V}
    (hq : QInv lk f dead inst st R) (h : queryOne lk f w k inst st v = some st') :
    QInv lk f dead inst st' (R ++ [(st.dag.adj.length, v)]) ∧
      (st'.dag.adj[st.dag.adj.length]? = some [] → ∀ u, st.cache u = none → st'.cache u ≠ none →
        st'.cache u = some none ∧ Closed lk f st' u) := by
  obtain ⟨⟨s, r⟩, h1, h2⟩ := Option.bind_eq_some_iff.1 h
  unfold pathsToImpl at h1
  obtain ⟨s₁, h3, h1⟩ := Option.bind_eq_some_iff.1 h1
  obtain ⟨d, h4, he⟩ := Option.map_eq_some_iff.1 h1
  cases he
  obtain ⟨d', h5, rfl⟩ := Option.map_eq_some_iff.1 h2
  have hlen : st.dag.adj.length = st.dag.nodes.length := hq.inv.wf
  have hlt0 : ∀ u e, st.cache u = some (some e) → e < st.dag.adj.length := by
    intro u e hu
    rcases hq.inv.ok u e hu with h | h
    · exact hq.inv.path e h
    · exact h.lt
  have hk0 := K.init hq
  have hret : (Adj.addNode st.dag [inst]).2 = st.dag.adj.length := hlen.symm
  rw [hret] at h3 h4
  obtain ⟨es, hk⟩ := links_ok hp rfl hq.inv _ _ _ _ _ hk0 h3
  rw [List.nil_append] at hk
  obtain ⟨es₁, es', ha, rfl, hes'⟩ := dedup_some h4
  rw [hk.adj] at ha; cases ha
  unfold Adj.addRoot at h5
  split at h5
  · cases h5
    dsimp only
    have hr1 : st.dag.adj.length < s₁.dag.adj.length := (List.getElem?_eq_some_iff.1 hk.adj).1
    have hfresh : ∀ u, s₁.cache u ≠ some (some st.dag.adj.length) := by
      intro u hu
      have h0 := hk.own u _ hu (Nat.le_refl _)
      have := hlt0 u _ h0; omega
    have hinv := hk.inv.setFresh hr1 hfresh es' (fun e he => by
      obtain ⟨q, _, h⟩ := hk.edges e ((hes' e).1 he); exact ⟨q, h⟩)
    have hself : (s₁.dag.adj.set st.dag.adj.length es')[st.dag.adj.length]? = some es' := List.getElem?_set_self hr1
    refine ⟨⟨hk.path, ⟨hinv.wf, hinv.path, ?_, hinv.dead, hinv.tgt⟩, ?_, ?_, ?_, ?_⟩, ?_⟩
    · intro u r hu
      rcases hinv.ok u r hu with h | h
      · exact .inl h
      · exact .inr (h.congr rfl rfl)
    · show s₁.dag.roots ++ [_] = _
      rw [hk.roots, hq.roots, hret]; simp
    · intro r v' hm
      rcases List.mem_append.1 hm with hm | hm
      · obtain ⟨es₀, g1, g2, g3, g4⟩ := hq.root r v' hm
        have hrl := (List.getElem?_eq_some_iff.1 g2).1
        refine ⟨es₀, ?_, ?_, ?_, ?_⟩
        · obtain ⟨t, ht⟩ := hk.fnodes
          show s₁.dag.nodes[r]? = _
          rw [← ht, List.getElem?_append_left (hlen ▸ hrl), g1]
        · obtain ⟨t, ht⟩ := hk.fadj
          show (s₁.dag.adj.set st.dag.adj.length es')[r]? = _
          rw [List.getElem?_set_ne (by omega), ← ht, List.getElem?_append_left hrl, g2]
        · intro e he
          obtain ⟨q, h1, h2⟩ := g3 e he
          exact ⟨q, h1, hk.cache _ _ h2⟩
        · intro q hq'
          rcases g4 q hq' with h | ⟨e, h1, h2⟩
          · exact .inl (hk.cache _ _ h)
          · exact .inr ⟨e, h1, hk.cache _ _ h2⟩
      · have hm : r = st.dag.adj.length ∧ v' = v := by simpa using hm
        obtain ⟨rfl, rfl⟩ := hm
        refine ⟨es', hk.node, hself, fun e he => ?_, fun q hq' => ?_⟩
        · obtain ⟨q, h1, h2⟩ := hk.edges e ((hes' e).1 he)
          exact ⟨q, h1, h2⟩
        · rcases hk.done q hq' with h | ⟨e, h1, h2⟩
          · exact .inl h
          · exact .inr ⟨e, (hes' e).2 h1, h2⟩
    · intro r hr u hu
      have hr : r ∈ s₁.dag.roots ++ [(Adj.addNode st.dag [inst]).2] := hr
      rw [hret] at hr
      rcases List.mem_append.1 hr with hr | hr
      · rw [hk.roots] at hr
        have hrl : r < st.dag.adj.length := by
          rw [hq.roots] at hr
          obtain ⟨⟨r', v'⟩, hm, rfl⟩ := List.mem_map.1 hr
          obtain ⟨es₀, _, g2, _⟩ := hq.root _ _ hm
          exact (List.getElem?_eq_some_iff.1 g2).1
        exact hq.fresh r hr u (hk.own u r hu (by omega))
      · have : r = st.dag.adj.length := by simpa using hr
        subst this
        exact hfresh u hu
    · intro u hu
      have hu : u < (s₁.dag.adj.set st.dag.adj.length es').length := hu
      rw [List.length_set] at hu
      show u ∈ s₁.dag.roots ++ [(Adj.addNode st.dag [inst]).2] ∨ _
      rw [hret, hk.roots]
      have hsucc : ∀ t u, Succ s₁.dag t u → ∃ ts, (s₁.dag.adj.set st.dag.adj.length es')[t]? = some ts ∧ u ∈ ts := by
        rintro t u ⟨ts, hts, hm⟩
        by_cases htr : t = st.dag.adj.length
        · subst htr
          rw [hk.adj] at hts; cases hts
          exact ⟨es', hself, (hes' u).2 hm⟩
        · exact ⟨ts, by rw [List.getElem?_set_ne (by omega), hts], hm⟩
      rcases Nat.lt_trichotomy u st.dag.adj.length with h | h | h
      · rcases hq.linked u h with h | ⟨t, ts, hts, hm⟩
        · exact .inl (List.mem_append_left _ h)
        · have htl := (List.getElem?_eq_some_iff.1 hts).1
          obtain ⟨l, hl⟩ := hk.fadj
          obtain ⟨ts', h1, h2⟩ := hsucc t u ⟨ts, by rw [← hl, List.getElem?_append_left htl, hts], hm⟩
          exact .inr ⟨t, ts', h1, h2⟩
      · subst h; left; simp
      · obtain ⟨t, _, hs⟩ := hk.linked u h hu
        obtain ⟨ts', h1, h2⟩ := hsucc t u hs
        exact .inr ⟨t, ts', h1, h2⟩
    · intro he u hu1 hu2
      have he : (s₁.dag.adj.set st.dag.adj.length es')[st.dag.adj.length]? = some [] := he
      rw [hself] at he
      cases he
      have hn : es = [] := by
        cases es with
        | nil => rfl
        | cons a as => have hm := (hes' a).2 (.head _); cases hm
      exact (hk.empty hn).2 u hu1 hu2
  · cases h5

theorem QInv.init (inst : N) : QInv lk f dead inst (.init : St V N) [] := by
  refine ⟨rfl, ⟨rfl, by nofun, by nofun, by nofun, ?_⟩, rfl, by nofun, by nofun, fun u hu => ?_⟩
  · rintro t u ⟨ts, hts, _⟩
    have hts : ([] : List (List Nat))[t]? = some ts := hts
    simp at hts
  · have hu : u < ([] : List (List Nat)).length := hu
    simp at hu

theorem query_aux (hp : Params lk f dead anc) {inst : N} {w k : Nat} : ∀ (vs : List V) (st st' : St V N) (R : List (Nat × V)),
    QInv lk f dead inst st R → vs.foldlM (queryOne lk f w k inst) st = some st' →
    ∃ R', QInv lk f dead inst st' R' ∧ R'.map (·.2) = R.map (·.2) ++ vs := by
  intro vs
  induction vs with
  | nil => intro st st' R hq h; cases h; exact ⟨R, hq, by simp⟩
  | cons v vs ih =>
    intro st st' R hq h
    rw [List.foldlM_cons] at h
    obtain ⟨s, h1, h2⟩ := Option.bind_eq_some_iff.1 h
    obtain ⟨R', h3, h4⟩ := ih _ _ _ (queryOne_ok hp hq h1).1 h2
    exact ⟨R', h3, by rw [h4]; simp⟩

/-- The graph of a query. -/
theorem query_ok (hp : Params lk f dead anc) {inst : N} {w k : Nat} {vs : List V} {st : St V N} (h : query lk f w k inst vs = some st) :
    ∃ R, QInv lk f dead inst st R ∧ R.map (·.2) = vs := by
  obtain ⟨R, h1, h2⟩ := query_aux hp vs _ _ _ (QInv.init inst) h
  exact ⟨R, h1, by simpa using h2⟩

end Phasar.Dag
