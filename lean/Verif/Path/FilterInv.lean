import Verif.Path.FilterLemmas
/-!
# The invariant of the removal of edges
-/
namespace Phasar.PathFilter
open Phasar Dag
set_option linter.unusedSectionVars false

variable {N C M : Type} [DecidableEq N] (z : Z3 C) (holds : M → C → Prop) (con : Constr N C) (add : Option C)
  (g : Adj.Graph (List N) Nat) (leaf : Nat)

/-- The parts of the state that keep their shape. -/
structure Base (st : FSt N C) : Prop where
  nodes : st.g.nodes = g.nodes
  adj : st.g.adj.length = g.adj.length
  nc : st.nc.length = g.adj.length

/-- The edges to `es` passed their checks with the constraints `ys`. -/
structure Kept (l : List N) (x : C) (st : FSt N C) (es : List Nat) (ys : List C) : Prop where
  len : ys.length = es.length
  ok : ∀ (i t : Nat) (y : C), es[i]? = some t → ys[i]? = some y → t ∈ st.vis ∧ ∃ c l', st.nc[t]? = some c ∧ st.g.nodes[t]? = some l' ∧
    across z con c l l' = some y ∧ z.check (add.toList ++ [x, y]) ≠ .unsat

/-- The constraint stored for a vertex. -/
def stored (v : Nat) (x : C) : List C → C
  | [] => if v = leaf then x else z.ff
  | y :: ys => z.simplify (z.and x (ys.foldl z.or y))

/-- What holds of a vertex that has been finished. -/
structure Fin' (st : FSt N C) (u : Nat) : Prop where
  adj : ∃ es, st.g.adj[u]? = some es
  sub : ∀ t, Succ st.g u t → Succ g u t
  gone : ∀ t, Succ g u t → ¬ Succ st.g u t → ∀ l, g.nodes[u]? = some l → ∀ m, (∀ a, add = some a → holds m a) →
    ¬ (Feasible con holds m l.reverse ∧ EdgeSat con holds g leaf m l t)
  nc : ∃ c, st.nc[u]? = some c ∧ ∀ m, (∀ a, add = some a → holds m a) → (holds m c ↔ PathSat con holds g leaf m u)
  vis : ∀ t, Succ g u t → t ∈ st.vis
  dead : st.g.adj[u]? = some [] → u ≠ leaf → st.nc[u]? = some z.ff
  alive : z.SeesFalse → ∀ t, Succ st.g u t → t = leaf ∨ st.g.adj[t]? ≠ some []
  settled : ∃ l es ys, st.g.nodes[u]? = some l ∧ st.g.adj[u]? = some es ∧ Kept z con add l (inner z con l) st es ys ∧
    st.nc[u]? = some (stored z leaf u (inner z con l) ys)

/-- Every visited vertex is finished or in progress, every other one is unchanged. -/
structure Inv (I : Nat → Prop) (st : FSt N C) : Prop where
  base : Base g st
  fin : ∀ u, u ∈ st.vis → ¬ I u → Fin' z holds con add g leaf st u
  old : ∀ u, u ∉ st.vis → st.g.adj[u]? = g.adj[u]?
  closed : ∀ u, u ∈ st.vis → ¬ I u → ∀ t, Succ g u t → ¬ I t

/-- What processing a vertex leaves alone. -/
structure Frame (st st' : FSt N C) : Prop where
  vis : ∀ u, u ∈ st.vis → u ∈ st'.vis
  adj : ∀ u, u ∈ st.vis → st'.g.adj[u]? = st.g.adj[u]?
  nc : ∀ u, u ∈ st.vis → st'.nc[u]? = st.nc[u]?
  roots : st'.g.roots = st.g.roots

variable {z holds con add g leaf}

theorem Frame.refl (st : FSt N C) : Frame st st := ⟨fun _ h => h, fun _ _ => rfl, fun _ _ => rfl, rfl⟩

theorem Frame.trans {a b c : FSt N C} (h : Frame a b) (h' : Frame b c) : Frame a c :=
  ⟨fun u hu => h'.vis u (h.vis u hu), fun u hu => (h'.adj u (h.vis u hu)).trans (h.adj u hu),
    fun u hu => (h'.nc u (h.vis u hu)).trans (h.nc u hu), h'.roots.trans h.roots⟩

theorem Kept.frame {l : List N} {x : C} {st st' : FSt N C} {es : List Nat} {ys : List C} (h : Kept z con add l x st es ys)
    (hn : st'.g.nodes = st.g.nodes) (hv : ∀ t ∈ es, t ∈ st.vis → t ∈ st'.vis ∧ st'.nc[t]? = st.nc[t]?) : Kept z con add l x st' es ys := by
  refine ⟨h.len, fun i t y h1 h2 => ?_⟩
  obtain ⟨a1, c, l', a2, a3, a4⟩ := h.ok i t y h1 h2
  obtain ⟨b1, b2⟩ := hv t (List.mem_of_getElem? h1) a1
  exact ⟨b1, c, l', b2.trans a2, by rw [hn]; exact a3, a4⟩

theorem Kept.snoc {l : List N} {x : C} {st : FSt N C} {es : List Nat} {ys : List C} (h : Kept z con add l x st es ys) {t : Nat} {y c : C}
    {l' : List N} (ht : t ∈ st.vis) (hc : st.nc[t]? = some c) (hl : st.g.nodes[t]? = some l') (hy : across z con c l l' = some y)
    (hk : z.check (add.toList ++ [x, y]) ≠ .unsat) : Kept z con add l x st (es ++ [t]) (ys ++ [y]) := by
  refine ⟨by simp [h.len], fun i t' y' h1 h2 => ?_⟩
  by_cases hi : i < es.length
  · rw [List.getElem?_append_left hi] at h1
    rw [List.getElem?_append_left (by rw [h.len]; exact hi)] at h2
    exact h.ok i t' y' h1 h2
  · rw [List.getElem?_append_right (by omega)] at h1
    rw [List.getElem?_append_right (by rw [h.len]; omega), h.len] at h2
    obtain ⟨h3, h4⟩ := List.getElem?_eq_some_iff.1 h1
    simp at h3
    have h0 : i - es.length = 0 := by omega
    rw [h0] at h1 h2
    cases h1; cases h2
    exact ⟨ht, c, l', hc, hl, hy, hk⟩

theorem Fin'.frame {st st' : FSt N C} {u : Nat} (h : Fin' z holds con add g leaf st u) (hu : st'.g.adj[u]? = st.g.adj[u]?)
    (hn : st'.nc[u]? = st.nc[u]?) (hv : ∀ t, t ∈ st.vis → t ∈ st'.vis) (hno : st'.g.nodes = st.g.nodes)
    (hnt : ∀ t, Succ st.g u t → st'.nc[t]? = st.nc[t]?)
    (ha : z.SeesFalse → ∀ t, Succ st.g u t → st'.g.adj[t]? = some [] → st.g.adj[t]? = some [] ∨ t = leaf) :
    Fin' z holds con add g leaf st' u := by
  have hs : ∀ t, Succ st'.g u t ↔ Succ st.g u t := fun t => by simp only [Succ, hu]
  refine ⟨hu ▸ h.adj, fun t ht => h.sub t ((hs t).1 ht), fun t ht hnt => h.gone t ht (fun h' => hnt ((hs t).2 h')), hn ▸ h.nc,
    fun t ht => hv t (h.vis t ht), fun hd hl => hn ▸ h.dead (hu ▸ hd) hl, fun hf t ht => ?_, ?_⟩
  rotate_left
  · obtain ⟨l, es, ys, h1, h2, h3, h4⟩ := h.settled
    exact ⟨l, es, ys, by rw [hno]; exact h1, by rw [hu]; exact h2, h3.frame hno fun t ht hv' => ⟨hv t hv', hnt t ⟨es, h2, ht⟩⟩,
      hn.trans h4⟩
  have ht := (hs t).1 ht
  rcases h.alive hf t ht with h1 | h1
  · exact .inl h1
  · by_cases hd : st'.g.adj[t]? = some []
    · rcases ha hf t ht hd with h2 | h2
      · exact absurd h2 h1
      · exact .inl h2
    · exact .inr hd

/-- The state while the edges of `v` are visited: `i` is the position, `ys` the constraints collected. -/
structure Loop (v : Nat) (l : List N) (x : C) (I : Nat → Prop) (i n : Nat) (ys : List C) (st : FSt N C) : Prop where
  inv : Inv z holds con add g leaf (fun u => I u ∨ u = v) st
  vis : v ∈ st.vis
  edges : ∃ es, st.g.adj[v]? = some es ∧ i + n = es.length ∧ (∀ t ∈ es, Succ g v t) ∧
    (∀ t, Succ g v t → t ∈ es ∨ (t ∈ st.vis ∧ ∀ m, (∀ a, add = some a → holds m a) → ¬ (holds m x ∧ EdgeSat con holds g leaf m l t))) ∧
    (∀ t ∈ es.take i, t ∈ st.vis ∧ (z.SeesFalse → t = leaf ∨ st.g.adj[t]? ≠ some [])) ∧
    Kept z con add l x st (es.take i) ys ∧
    ∀ m, (∀ a, add = some a → holds m a) → ((∃ y ∈ ys, holds m y) ↔ ∃ t ∈ es.take i, EdgeSat con holds g leaf m l t)

theorem edgeRound_ok (hs : z.Sound holds) (hg : InRange g) (hne : ∀ l ∈ g.nodes, l ≠ []) {rec : Nat → FSt N C → Option (FSt N C × C)}
    {v : Nat} {l : List N} {x : C} {I : Nat → Prop} (hv : g.nodes[v]? = some l) (hacc : Acc (fun t v => Succ g v t) v)
    (hI : ∀ i, I i → ReachP g i v ∧ Acc (fun t v => Succ g v t) i)
    (hrec : ∀ t, Succ g v t → ∀ st : FSt N C, Inv z holds con add g leaf (fun u => I u ∨ u = v) st → t ∉ st.vis →
      ∃ st' c, rec t st = some (st', c) ∧ Inv z holds con add g leaf (fun u => I u ∨ u = v) st' ∧ t ∈ st'.vis ∧ Frame st st' ∧
        ∀ u ∈ st'.vis, u ∈ st.vis ∨ ∃ w, Succ g w u)
    {i n : Nat} {ys : List C} {st : FSt N C} (h : Loop (z := z) (holds := holds) (con := con) (add := add) (g := g) (leaf := leaf) v l x I i (n + 1) ys st) :
    ∃ st' i' ys', edgeRound z con add rec v l x (st, i, ys) = some (st', i', ys') ∧
      Loop (z := z) (holds := holds) (con := con) (add := add) (g := g) (leaf := leaf) v l x I i' n ys' st' ∧
      (∀ u, u ∈ st.vis → u ≠ v → u ∈ st'.vis ∧ st'.g.adj[u]? = st.g.adj[u]? ∧ st'.nc[u]? = st.nc[u]?) ∧ st'.g.roots = st.g.roots ∧
      ∀ u ∈ st'.vis, u ∈ st.vis ∨ ∃ w, Succ g w u := by
  obtain ⟨hinv, hvis, es, he, hlen, hsub, hgone, hdone, hkept, hys⟩ := h
  have hi : i < es.length := by omega
  have hus : Succ g v es[i] := hsub _ (List.getElem_mem hi)
  -- the state behind the recursive call
  obtain ⟨st1, h1, hinv1, hu1, hfr, hnew⟩ : ∃ st1, (if es[i] ∈ st.vis then some st else (rec es[i] st).map (·.1)) = some st1 ∧
      Inv z holds con add g leaf (fun u => I u ∨ u = v) st1 ∧ es[i] ∈ st1.vis ∧ Frame st st1 ∧
      ∀ u ∈ st1.vis, u ∈ st.vis ∨ ∃ w, Succ g w u := by
    by_cases hu : es[i] ∈ st.vis
    · exact ⟨st, by rw [if_pos hu], hinv, hu, .refl _, fun u hu => .inl hu⟩
    · obtain ⟨st', c, h1, h2, h3, h4, h5⟩ := hrec _ hus st hinv hu
      exact ⟨st', by rw [if_neg hu, h1]; rfl, h2, h3, h4, h5⟩
  have hnI : ¬ (I es[i] ∨ es[i] = v) := by
    rintro (hu | hu)
    · obtain ⟨⟨w, hw, hr⟩, ha⟩ := hI _ hu
      exact acc_no_cycle ha ⟨w, hw, hr.trans (.step hus (.refl _))⟩
    · exact acc_no_cycle hacc ⟨_, hus, hu ▸ .refl _⟩
  have hfin := hinv1.fin _ hu1 hnI
  obtain ⟨c, hc, hcs⟩ := hfin.nc
  have hul : es[i] < g.nodes.length := by have := hg.succ _ _ hus; rw [hg.wf] at this; exact this
  have hl' : st1.g.nodes[es[i]]? = some g.nodes[es[i]] := by rw [hinv1.base.nodes]; exact List.getElem?_eq_getElem hul
  obtain ⟨y, hy, hyc, hyh⟩ := across_some (con := con) hs (y := c) (hne l (List.mem_of_getElem? hv)) (hne _ (List.getElem_mem hul))
  have hye : ∀ m, (∀ a, add = some a → holds m a) → (holds m y ↔ EdgeSat con holds g leaf m l es[i]) := by
    intro m hm
    rw [hyh, hcs m hm]
    unfold EdgeSat
    constructor
    · rintro ⟨h1, h2⟩
      refine ⟨fun a b l' hl' => ?_, h2⟩
      rw [List.getElem?_eq_getElem hul] at hl'; cases hl'
      exact h1 a b
    · rintro ⟨h1, h2⟩
      exact ⟨fun a b => h1 a b _ (List.getElem?_eq_getElem hul), h2⟩
  have hround : edgeRound z con add rec v l x (st, i, ys) =
      if z.check (add.toList ++ [x, y]) = .unsat then (Adj.removeEdge st1.g v i).map fun g => ({ st1 with g := g }, i, ys)
      else some (st1, i + 1, ys ++ [y]) := by
    unfold edgeRound
    simp only [he, Option.bind_some, List.getElem?_eq_getElem hi, h1, hc, hl', hy]
  have he1 : st1.g.adj[v]? = some es := (hfr.adj v hvis).trans he
  have hkept1 : Kept z con add l x st1 (es.take i) ys :=
    hkept.frame (hinv1.base.nodes.trans hinv.base.nodes.symm) fun t _ ht => ⟨hfr.vis t ht, hfr.nc t ht⟩
  by_cases hch : z.check (add.toList ++ [x, y]) = .unsat
  · -- the edge is removed
    obtain ⟨es', hes'⟩ := swapPop_some hi
    obtain ⟨a, u, b, hab, hal, hsp⟩ := swapPop_split hes'
    have huu : es[i] = u := by subst hab; subst hal; simp
    rw [huu] at hus hu1 hye hfin hc hnI
    have hmem : ∀ t, t ∈ es' → t ∈ es := by
      intro t ht
      rcases hsp with ⟨rfl, rfl⟩ | ⟨b', w, rfl, rfl⟩
      · rw [hab]; simp [ht]
      · rw [hab]; simp at ht ⊢; grind
    have hmem' : ∀ t, t ∈ es → t ∈ es' ∨ t = u := by
      intro t ht
      rw [hab] at ht
      rcases hsp with ⟨rfl, rfl⟩ | ⟨b', w, rfl, rfl⟩
      · simpa using ht
      · simp at ht ⊢; grind
    have htake : es'.take i = es.take i := by
      rcases hsp with ⟨rfl, rfl⟩ | ⟨b', w, rfl, rfl⟩ <;> subst hal <;> rw [hab] <;> simp
    have hlen' : es'.length + 1 = es.length := by
      rcases hsp with ⟨rfl, rfl⟩ | ⟨b', w, rfl, rfl⟩ <;> rw [hab] <;> simp <;> omega
    have hvl : v < st1.g.adj.length := (List.getElem?_eq_some_iff.1 he1).1
    refine ⟨{ st1 with g := { st1.g with adj := st1.g.adj.set v es' } }, i, ys, ?_, ⟨⟨⟨hinv1.base.nodes, ?_, hinv1.base.nc⟩, ?_, ?_, hinv1.closed⟩, hfr.vis v hvis, es', ?_, by omega, ?_, ?_, ?_, ?_, ?_⟩, ?_, hfr.roots, hnew⟩
    · rw [hround, if_pos hch]
      unfold Adj.removeEdge
      rw [he1]; simp [hes']
    · simp [hinv1.base.adj]
    · intro w hw hwI
      have hwv : v ≠ w := fun e => hwI (.inr e.symm)
      have hfw := hinv1.fin w hw hwI
      refine hfw.frame (List.getElem?_set_ne hwv) rfl (fun _ h => h) rfl (fun _ _ => rfl) (fun _ t ht hd => ?_)
      -- a finished vertex has no edge to `v`, since `v` is in progress
      by_cases htv : t = v
      · exfalso
        subst htv
        exact hinv1.closed w hw hwI t (hfw.sub t ht) (.inr rfl)
      · exact .inl (by rw [← hd]; exact (List.getElem?_set_ne (Ne.symm htv)).symm)
    · intro w hw
      have hwv : v ≠ w := fun e => hw (e ▸ hfr.vis v hvis)
      dsimp only
      rw [List.getElem?_set_ne hwv]
      exact hinv1.old w hw
    · exact List.getElem?_set_self hvl
    · exact fun t ht => hsub t (hmem t ht)
    · intro t ht
      rcases hgone t ht with h2 | h2
      · rcases hmem' t h2 with h3 | rfl
        · exact .inl h3
        · refine .inr ⟨hu1, fun m hm hf => hs.check _ hch m fun d hd => ?_⟩
          rcases List.mem_append.1 hd with hd | hd
          · exact hm d (by simpa using hd)
          · rcases List.mem_cons.1 hd with rfl | hd
            · exact hf.1
            · cases List.mem_singleton.1 hd
              exact (hye m hm).2 hf.2
      · exact .inr ⟨hfr.vis t h2.1, h2.2⟩
    · intro t ht
      rw [htake] at ht
      have h2 := hdone t ht
      refine ⟨hfr.vis t h2.1, fun hf => ?_⟩
      have htv : v ≠ t := fun e => acc_no_cycle hacc ⟨t, hsub t (List.mem_of_mem_take ht), e ▸ .refl _⟩
      dsimp only
      rw [List.getElem?_set_ne htv, hfr.adj t h2.1]
      exact h2.2 hf
    · rw [htake]; exact hkept1.frame rfl fun _ _ ht => ⟨ht, rfl⟩
    · intro m hm
      rw [htake]; exact hys m hm
    · intro w hw hwv
      refine ⟨hfr.vis w hw, ?_, hfr.nc w hw⟩
      dsimp only
      rw [List.getElem?_set_ne (Ne.symm hwv), hfr.adj w hw]
  · -- the edge stays
    refine ⟨st1, i + 1, ys ++ [y], by rw [hround, if_neg hch], ⟨hinv1, hfr.vis v hvis, es, he1, by omega, hsub, ?_, ?_, ?_, ?_⟩,
      fun w hw _ => ⟨hfr.vis w hw, hfr.adj w hw, hfr.nc w hw⟩, hfr.roots, hnew⟩
    · intro t ht
      rcases hgone t ht with h2 | h2
      · exact .inl h2
      · exact .inr ⟨hfr.vis t h2.1, h2.2⟩
    · intro t ht
      rw [List.take_succ_eq_append_getElem hi] at ht
      rcases List.mem_append.1 ht with ht | ht
      · have h2 := hdone t ht
        exact ⟨hfr.vis t h2.1, fun hf => by rw [hfr.adj t h2.1]; exact h2.2 hf⟩
      · cases List.mem_singleton.1 ht
        refine ⟨hu1, fun hf => ?_⟩
        by_cases hle : es[i] = leaf
        · exact .inl hle
        · refine .inr fun hd => hch (hf _ ⟨y, by simp, ?_⟩)
          have h2 := hfin.dead hd hle
          rw [hc] at h2; cases h2
          exact hyc
    · rw [List.take_succ_eq_append_getElem hi]
      exact hkept1.snoc hu1 hc hl' hy hch
    · intro m hm
      rw [List.take_succ_eq_append_getElem hi]
      constructor
      · rintro ⟨y', hy', hh⟩
        rcases List.mem_append.1 hy' with hy' | hy'
        · obtain ⟨t, ht, hh⟩ := (hys m hm).1 ⟨y', hy', hh⟩
          exact ⟨t, List.mem_append_left _ ht, hh⟩
        · cases List.mem_singleton.1 hy'
          exact ⟨es[i], List.mem_append_right _ (List.mem_singleton.2 rfl), (hye m hm).1 hh⟩
      · rintro ⟨t, ht, hh⟩
        rcases List.mem_append.1 ht with ht | ht
        · obtain ⟨y', hy', hh⟩ := (hys m hm).2 ⟨t, ht, hh⟩
          exact ⟨y', List.mem_append_left _ hy', hh⟩
        · cases List.mem_singleton.1 ht
          exact ⟨y, by simp, (hye m hm).2 hh⟩

theorem edgeLoop_ok (hs : z.Sound holds) (hg : InRange g) (hne : ∀ l ∈ g.nodes, l ≠ []) {rec : Nat → FSt N C → Option (FSt N C × C)}
    {v : Nat} {l : List N} {x : C} {I : Nat → Prop} (hv : g.nodes[v]? = some l) (hacc : Acc (fun t v => Succ g v t) v)
    (hI : ∀ i, I i → ReachP g i v ∧ Acc (fun t v => Succ g v t) i)
    (hrec : ∀ t, Succ g v t → ∀ st : FSt N C, Inv z holds con add g leaf (fun u => I u ∨ u = v) st → t ∉ st.vis →
      ∃ st' c, rec t st = some (st', c) ∧ Inv z holds con add g leaf (fun u => I u ∨ u = v) st' ∧ t ∈ st'.vis ∧ Frame st st' ∧
        ∀ u ∈ st'.vis, u ∈ st.vis ∨ ∃ w, Succ g w u) :
    ∀ (n i : Nat) (ys : List C) (st : FSt N C),
      Loop (z := z) (holds := holds) (con := con) (add := add) (g := g) (leaf := leaf) v l x I i n ys st →
    ∃ st' i' ys', edgeLoop z con add rec v l x n (st, i, ys) = some (st', i', ys') ∧
      Loop (z := z) (holds := holds) (con := con) (add := add) (g := g) (leaf := leaf) v l x I i' 0 ys' st' ∧
      (∀ u, u ∈ st.vis → u ≠ v → u ∈ st'.vis ∧ st'.g.adj[u]? = st.g.adj[u]? ∧ st'.nc[u]? = st.nc[u]?) ∧ st'.g.roots = st.g.roots ∧
      ∀ u ∈ st'.vis, u ∈ st.vis ∨ ∃ w, Succ g w u := by
  intro n
  induction n with
  | zero => intro i ys st h; exact ⟨st, i, ys, rfl, h, fun u hu _ => ⟨hu, rfl, rfl⟩, rfl, fun u hu => .inl hu⟩
  | succ n ih =>
    intro i ys st h
    obtain ⟨st1, i1, ys1, h1, h2, h3, h4, h5⟩ := edgeRound_ok hs hg hne hv hacc hI hrec h
    obtain ⟨st2, i2, ys2, k1, k2, k3, k4, k5⟩ := ih i1 ys1 st1 h2
    refine ⟨st2, i2, ys2, ?_, k2, fun u hu hv => ?_, k4.trans h4, fun u hu => ?_⟩
    · show (edgeRound z con add rec v l x (st, i, ys)).bind _ = _
      rw [h1]; exact k1
    · obtain ⟨a1, a2, a3⟩ := h3 u hu hv
      obtain ⟨b1, b2, b3⟩ := k3 u a1 hv
      exact ⟨b1, b2.trans a2, b3.trans a3⟩
    · rcases k5 u hu with h | h
      · exact h5 u h
      · exact .inr h

/-- A bound for all elements of a list. -/
theorem bound_all {P : Nat → Nat → Prop} (hP : ∀ t a b, P t a → a ≤ b → P t b) : ∀ l : List Nat, (∀ t ∈ l, ∃ k, P t k) → ∃ k, ∀ t ∈ l, P t k := by
  intro l
  induction l with
  | nil => intro _; exact ⟨0, fun _ h => by cases h⟩
  | cons a l ih =>
    intro h
    obtain ⟨k1, h1⟩ := h a (.head _)
    obtain ⟨k2, h2⟩ := ih fun t ht => h t (.tail _ ht)
    refine ⟨max k1 k2, fun t ht => ?_⟩
    rcases List.mem_cons.1 ht with rfl | ht
    · exact hP _ _ _ h1 (Nat.le_max_left ..)
    · exact hP _ _ _ (h2 t ht) (Nat.le_max_right ..)

theorem filterAt_ok (hs : z.Sound holds) (hg : InRange g) (hne : ∀ l ∈ g.nodes, l ≠ []) (hlf : Leaf g leaf) {v : Nat}
    (hacc : Acc (fun t v => Succ g v t) v) : v < g.adj.length → ∃ k0, ∀ k, k0 ≤ k → ∀ (I : Nat → Prop) (st : FSt N C),
      (∀ i, I i → ReachP g i v ∧ Acc (fun t v => Succ g v t) i) → Inv z holds con add g leaf I st → v ∉ st.vis →
      ∃ st' c, filterAt z con add leaf k v st = some (st', c) ∧ Inv z holds con add g leaf I st' ∧ v ∈ st'.vis ∧ Frame st st' ∧
        (∀ u ∈ st'.vis, u ∈ st.vis ∨ u = v ∨ ∃ w, Succ g w u) ∧ st'.nc[v]? = some c := by
  induction hacc with
  | intro v hacc ih =>
    intro hvl
    have hacc' : Acc (fun t v => Succ g v t) v := .intro v hacc
    have hes : g.adj[v]? = some g.adj[v] := List.getElem?_eq_getElem hvl
    obtain ⟨k1, hk1⟩ := bound_all (P := fun t k0 => ∀ k, k0 ≤ k → ∀ (I : Nat → Prop) (st : FSt N C),
      (∀ i, I i → ReachP g i t ∧ Acc (fun t v => Succ g v t) i) → Inv z holds con add g leaf I st → t ∉ st.vis →
      ∃ st' c, filterAt z con add leaf k t st = some (st', c) ∧ Inv z holds con add g leaf I st' ∧ t ∈ st'.vis ∧ Frame st st' ∧
        (∀ u ∈ st'.vis, u ∈ st.vis ∨ u = t ∨ ∃ w, Succ g w u) ∧ st'.nc[t]? = some c)
      (fun t a b h hab k hk => h k (Nat.le_trans hab hk)) g.adj[v] (fun t ht => ih t ⟨_, hes, ht⟩ (hg.succ v t ⟨_, hes, ht⟩))
    refine ⟨k1 + 1, fun k hk I st hI hinv hvis => ?_⟩
    obtain ⟨k, rfl⟩ : ∃ k', k = k' + 1 := ⟨k - 1, by omega⟩
    have hnl : v < g.nodes.length := by rw [← hg.wf]; exact hvl
    have hl : g.nodes[v]? = some g.nodes[v] := List.getElem?_eq_getElem hnl
    have hrec : ∀ t, Succ g v t → ∀ st : FSt N C, Inv z holds con add g leaf (fun u => I u ∨ u = v) st → t ∉ st.vis →
        ∃ st' c, filterAt z con add leaf k t st = some (st', c) ∧ Inv z holds con add g leaf (fun u => I u ∨ u = v) st' ∧ t ∈ st'.vis ∧
          Frame st st' ∧ ∀ u ∈ st'.vis, u ∈ st.vis ∨ ∃ w, Succ g w u := by
      intro t ht st hi hn
      obtain ⟨es, h1, h2⟩ := ht
      rw [hes] at h1; cases h1
      have hI' : ∀ i, I i ∨ i = v → ReachP g i t ∧ Acc (fun t v => Succ g v t) i := by
        intro i hi
        rcases hi with hi | rfl
        · obtain ⟨⟨w, hw, hr⟩, ha⟩ := hI i hi
          exact ⟨⟨w, hw, hr.trans (.step ⟨_, hes, h2⟩ (.refl _))⟩, ha⟩
        · exact ⟨⟨t, ⟨_, hes, h2⟩, .refl _⟩, hacc'⟩
      obtain ⟨st', c, a1, a2, a3, a4, a5, _⟩ := hk1 t h2 k (by omega) (fun u => I u ∨ u = v) st hI' hi hn
      refine ⟨st', c, a1, a2, a3, a4, fun u hu => ?_⟩
      rcases a5 u hu with h | rfl | h
      · exact .inl h
      · exact .inr ⟨v, _, hes, h2⟩
      · exact .inr h
    have hloop : Loop (z := z) (holds := holds) (con := con) (add := add) (g := g) (leaf := leaf) v g.nodes[v] (inner z con g.nodes[v]) I 0
        g.adj[v].length [] { st with vis := v :: st.vis } := by
      have hold := hinv.old v hvis
      refine ⟨⟨⟨hinv.base.nodes, hinv.base.adj, hinv.base.nc⟩, ?_, ?_, ?_⟩, List.mem_cons_self, g.adj[v], hold.trans hes, by simp, ?_, ?_, ?_, ⟨rfl, fun i t y h => by simp at h⟩, ?_⟩
      · intro u hu huI
        rcases List.mem_cons.1 hu with rfl | hu
        · exact absurd (.inr rfl) huI
        · exact (hinv.fin u hu fun h => huI (.inl h)).frame rfl rfl (fun t ht => .tail _ ht) rfl (fun _ _ => rfl) (fun _ t _ h => .inl h)
      · intro u hu
        exact hinv.old u fun h => hu (.tail _ h)
      · intro u hu huI t ht
        rcases List.mem_cons.1 hu with rfl | hu'
        · exact absurd (.inr rfl) huI
        · have hnI : ¬ I u := fun h => huI (.inl h)
          intro h
          rcases h with h | h
          · exact hinv.closed u hu' hnI t ht h
          · exact hvis (h ▸ (hinv.fin u hu' hnI).vis t ht)
      · intro t ht; exact ⟨_, hes, ht⟩
      · rintro t ⟨es, h1, h2⟩
        rw [hes] at h1; cases h1; exact .inl h2
      · intro t ht; simp at ht
      · intro m _; simp
    obtain ⟨st1, i1, ys1, h1, ⟨hinv1, hv1, es1, he1, hlen1, hsub1, hgone1, hdone1, hkept1, hys1⟩, h3, h4, h5⟩ :=
      edgeLoop_ok hs hg hne hl hacc' hI hrec _ _ _ _ hloop
    have htk : es1.take i1 = es1 := List.take_of_length_le (by omega)
    rw [htk] at hdone1 hys1 hkept1
    have hyl1 := hkept1.len
    have hnv : v < st1.nc.length := by rw [hinv1.base.nc]; exact hvl
    have hsucc1 : ∀ t, Succ st1.g v t ↔ t ∈ es1 := by
      intro t
      constructor
      · rintro ⟨es, a1, a2⟩
        rw [he1] at a1; cases a1; exact a2
      · intro h; exact ⟨_, he1, h⟩
    -- it remains to see that the constraint stored is right
    obtain ⟨c, hc, hcs, hcd, hst⟩ : ∃ c, filterAt z con add leaf (k + 1) v st = some ({ st1 with nc := st1.nc.set v c }, c) ∧
        (∀ m, (∀ a, add = some a → holds m a) → (holds m c ↔ PathSat con holds g leaf m v)) ∧ (es1 = [] → v ≠ leaf → c = z.ff) ∧
        c = stored z leaf v (inner z con g.nodes[v]) ys1 := by
      have hfa : filterAt z con add leaf (k + 1) v st =
          (edgeLoop z con add (filterAt z con add leaf k) v g.nodes[v] (inner z con g.nodes[v]) g.adj[v].length
            ({ st with vis := v :: st.vis }, 0, [])).bind fun s =>
          (s.1.g.adj[v]?).bind fun es' =>
            if es' = [] then
              let c := if v = leaf then inner z con g.nodes[v] else z.ff
              some ({ s.1 with nc := s.1.nc.set v c }, c)
            else
              match s.2.2 with
              | [] => none
              | y :: ys =>
                let c := z.simplify (z.and (inner z con g.nodes[v]) (ys.foldl z.or y))
                some ({ s.1 with nc := s.1.nc.set v c }, c) := by
        rw [filterAt, hinv.base.nodes, hl, hinv.old v hvis, hes]
        simp only [Option.bind_some]
        rw [if_neg (hne _ (List.getElem_mem hnl))]
        rfl
      rw [h1] at hfa
      simp only [Option.bind_some, he1] at hfa
      by_cases hnil : es1 = []
      · refine ⟨_, by rw [hfa, if_pos hnil], ?_, fun _ hvl => by rw [if_neg hvl], by
          have : ys1 = [] := List.length_eq_zero_iff.1 (by rw [hyl1, hnil]; rfl)
          rw [this]; rfl⟩
        intro m hm
        by_cases hle : v = leaf
        · subst hle
          rw [if_pos rfl, holds_inner hs, pathSat_leaf hlf hl]
        · rw [if_neg hle, pathSat_step hg hne hl hle]
          refine ⟨fun h => absurd h (hs.ff m), ?_⟩
          rintro ⟨a1, t, a2, a3⟩
          rcases hgone1 t a2 with h | h
          · rw [hnil] at h; cases h
          · exact absurd ⟨(holds_inner hs _).2 a1, a3⟩ (h.2 m hm)
      · cases hys : ys1 with
        | nil => exact absurd (List.length_eq_zero_iff.1 (by rw [hys] at hyl1; simpa using hyl1.symm)) hnil
        | cons y ys =>
          refine ⟨z.simplify (z.and (inner z con g.nodes[v]) (ys.foldl z.or y)), by rw [hfa, if_neg hnil]; simp only [hys], ?_,
            fun h => absurd h hnil, rfl⟩
          intro m hm
          have hle : v ≠ leaf := by
            rintro rfl
            cases es1 with
            | nil => exact hnil rfl
            | cons t _ =>
              obtain ⟨es, a1, a2⟩ := hsub1 t (.head _)
              have hlf : g.adj[v]? = some [] := hlf
              rw [hlf] at a1; cases a1; cases a2
          rw [hs.simplify, hs.and, holds_inner hs, holds_or hs, ← hys, hys1 m hm, pathSat_step hg hne hl hle]
          constructor
          · rintro ⟨a1, t, a2, a3⟩
            exact ⟨a1, t, hsub1 t a2, a3⟩
          · rintro ⟨a1, t, a2, a3⟩
            refine ⟨a1, t, ?_, a3⟩
            rcases hgone1 t a2 with h | h
            · exact h
            · exact absurd ⟨(holds_inner hs _).2 a1, a3⟩ (h.2 m hm)
    have hnc : ∀ u, u ≠ v → (st1.nc.set v c)[u]? = st1.nc[u]? := fun u hu => List.getElem?_set_ne (Ne.symm hu)
    have hncv : (st1.nc.set v c)[v]? = some c := List.getElem?_set_self hnv
    refine ⟨_, c, hc, ⟨⟨hinv1.base.nodes, hinv1.base.adj, by simp [hinv1.base.nc]⟩, ?_, hinv1.old, ?_⟩, hv1, ⟨?_, ?_, ?_, h4⟩, ?_, hncv⟩
    · intro u hu huI
      by_cases huv : u = v
      · subst huv
        refine ⟨⟨es1, he1⟩, fun t ht => hsub1 t ((hsucc1 t).1 ht), ?_, ⟨c, hncv, hcs⟩, ?_, ?_, ?_,
          ⟨g.nodes[u], es1, ys1, by rw [← hl, ← hinv1.base.nodes], he1, hkept1.frame rfl fun t ht hv => ⟨hv, hnc t fun e => ?_⟩,
            by rw [hncv, hst]⟩⟩
        · intro t ht hnt l' hl' m hm hf
          rw [hl] at hl'; cases hl'
          rcases hgone1 t ht with h | h
          · exact hnt ((hsucc1 t).2 h)
          · exact h.2 m hm ⟨(holds_inner hs _).2 hf.1, hf.2⟩
        · intro t ht
          rcases hgone1 t ht with h | h
          · exact (hdone1 t h).1
          · exact h.1
        · intro hd hle
          have he1 : st1.g.adj[u]? = some es1 := he1
          have hd : st1.g.adj[u]? = some [] := hd
          rw [he1] at hd; cases hd
          rw [hncv, hcd rfl hle]
        · intro hf t ht
          exact (hdone1 t ((hsucc1 t).1 ht)).2 hf
        · subst e; exact acc_no_cycle hacc' ⟨t, hsub1 t ht, .refl _⟩
      · have hfu := hinv1.fin u hu fun h => h.elim huI huv
        refine hfu.frame rfl (hnc u huv) (fun _ h => h) rfl (fun t ht => hnc t fun e => ?_) (fun _ t _ h => .inl h)
        exact hinv1.closed u hu (fun h => h.elim huI huv) t (hfu.sub t ht) (.inr e)
    · intro u hu huI t ht hIt
      by_cases huv : u = v
      · subst huv
        obtain ⟨⟨w, hw, hr⟩, ha⟩ := hI t hIt
        exact acc_no_cycle ha ⟨w, hw, hr.trans (.step ht (.refl _))⟩
      · exact hinv1.closed u hu (fun h => h.elim huI huv) t ht (.inl hIt)
    · intro u hu
      exact (h3 u (.tail _ hu) fun e => hvis (e ▸ hu)).1
    · intro u hu
      exact (h3 u (.tail _ hu) fun e => hvis (e ▸ hu)).2.1
    · intro u hu
      have huv : u ≠ v := fun e => hvis (e ▸ hu)
      exact (hnc u huv).trans (h3 u (.tail _ hu) huv).2.2
    · intro u hu
      rcases h5 u hu with h | h
      · rcases List.mem_cons.1 h with rfl | h
        · exact .inr (.inl rfl)
        · exact .inl h
      · exact .inr (.inr h)

/-- Filtering a finished vertex again changes nothing. -/
theorem filterAt_again (hne : ∀ l ∈ g.nodes, l ≠ []) {I : Nat → Prop} {v : Nat} {st : FSt N C} (hi : Inv z holds con add g leaf I st)
    (hv : v ∈ st.vis) (hvI : ¬ I v) (k : Nat) : ∃ c, filterAt z con add leaf (k + 1) v st = some ({ st with vis := v :: st.vis }, c) ∧ st.nc[v]? = some c := by
  obtain ⟨l, es, ys, h1, h2, h3, h4⟩ := (hi.fin v hv hvI).settled
  have hl : l ≠ [] := hne l (by rw [hi.base.nodes] at h1; exact List.mem_of_getElem? h1)
  have hset : ∀ c, st.nc[v]? = some c → st.nc.set v c = st.nc := by
    intro c hc
    apply List.ext_getElem?
    intro i
    rw [List.getElem?_set]
    split
    · rename_i e; subst e; rw [if_pos (List.getElem?_eq_some_iff.1 hc).1, hc]
    · rfl
  -- the loop advances over every edge
  have hloop : ∀ n i, i + n = es.length → edgeLoop z con add (filterAt z con add leaf k) v l (inner z con l) n
      ({ st with vis := v :: st.vis }, i, ys.take i) = some ({ st with vis := v :: st.vis }, es.length, ys) := by
    intro n
    induction n with
    | zero =>
      intro i hin
      have : i = es.length := by omega
      subst this
      rw [edgeLoop, List.take_of_length_le (by rw [h3.len]; exact Nat.le_refl _)]
    | succ n ih =>
      intro i hin
      have hie : i < es.length := by omega
      have hiy : i < ys.length := by rw [h3.len]; exact hie
      obtain ⟨a1, c, l', a2, a3, a4, a5⟩ := h3.ok i _ _ (List.getElem?_eq_getElem hie) (List.getElem?_eq_getElem hiy)
      have : edgeRound z con add (filterAt z con add leaf k) v l (inner z con l) ({ st with vis := v :: st.vis }, i, ys.take i) =
          some ({ st with vis := v :: st.vis }, i + 1, ys.take (i + 1)) := by
        unfold edgeRound
        simp only [h2, Option.bind_some, List.getElem?_eq_getElem hie]
        rw [if_pos (List.mem_cons_of_mem _ a1)]
        simp only [Option.bind_some, a2, a3, a4]
        rw [if_neg a5, List.take_succ_eq_append_getElem hiy]
      show (edgeRound z con add _ v l _ _).bind _ = _
      rw [this]; exact ih (i + 1) (by omega)
  have h5 := hloop es.length 0 (by omega)
  rw [List.take_zero] at h5
  refine ⟨_, ?_, h4⟩
  rw [filterAt]
  simp only [h1, h2, Option.bind_some]
  rw [if_neg hl, h5]
  simp only [Option.bind_some, h2]
  have hs := hset _ h4
  by_cases hnil : es = []
  · have hy : ys = [] := List.length_eq_zero_iff.1 (by rw [h3.len, hnil]; rfl)
    rw [if_pos hnil]
    rw [hy] at hs ⊢
    unfold stored at hs ⊢
    rw [hs]
  · rw [if_neg hnil]
    cases ys with
    | nil => exact absurd (List.length_eq_zero_iff.1 (by rw [← h3.len]; rfl)) hnil
    | cons y ys =>
      unfold stored at hs ⊢
      simp only [hs]

end Phasar.PathFilter
