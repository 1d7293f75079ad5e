import Verif.Path.FilterInv
/-!
# The removal of edges as a whole
-/
namespace Phasar.PathFilter
open Phasar Dag
set_option linter.unusedSectionVars false

variable {N C M : Type} [DecidableEq N] {z : Z3 C} {holds : M → C → Prop} {con : Constr N C} {add : Option C}
  {g : Adj.Graph (List N) Nat} {leaf : Nat}

/-- The state of the loop over the roots; `D` are the roots visited. -/
structure RLoop (z : Z3 C) (holds : M → C → Prop) (con : Constr N C) (add : Option C) (g : Adj.Graph (List N) Nat) (leaf : Nat)
    (i n : Nat) (ret : C) (st : FSt N C) (D : List Nat) : Prop where
  inv : Inv z holds con add g leaf (fun _ => False) st
  len : i + n = st.g.roots.length
  all : ∀ r ∈ g.roots, r ∈ D ∨ r ∈ st.g.roots.drop i
  rest : ∀ r ∈ st.g.roots.drop i, r ∈ g.roots
  old : ∀ r ∈ D, r ∈ g.roots ∧ r ∈ st.vis
  keep : ∀ r ∈ st.g.roots.take i, r ∈ D ∧ (r = leaf ∨ st.g.adj[r]? ≠ some [])
  gone : ∀ r ∈ D, r ∈ st.g.roots.take i ∨ (r ≠ leaf ∧ st.g.adj[r]? = some [])
  ret : ∀ m, (∀ a, add = some a → holds m a) → (holds m ret ↔ ∃ r ∈ D, PathSat con holds g leaf m r)

theorem rootRound_ok (hs : z.Sound holds) {k : Nat}
    (hrec : ∀ r ∈ g.roots, ∀ st : FSt N C, Inv z holds con add g leaf (fun _ => False) st →
      ∃ st' c, filterAt z con add leaf k r st = some (st', c) ∧ Inv z holds con add g leaf (fun _ => False) st' ∧ r ∈ st'.vis ∧
        Frame st st' ∧ st'.nc[r]? = some c)
    {i n : Nat} {ret : C} {st : FSt N C} {D : List Nat} (h : RLoop z holds con add g leaf i (n + 1) ret st D) :
    ∃ st' i' ret' D', rootRound z con add leaf k (st, i, ret) = some (st', i', ret') ∧ RLoop z holds con add g leaf i' n ret' st' D' := by
  have hi : i < st.g.roots.length := by have := h.len; omega
  have hdrop := List.drop_eq_getElem_cons hi
  have hrm : st.g.roots[i] ∈ st.g.roots.drop i := by rw [hdrop]; exact List.mem_cons_self
  have hrg := h.rest _ hrm
  obtain ⟨st1, c, h1, hinv1, hr1, hfr, hnc⟩ := hrec _ hrg st h.inv
  have hfin := hinv1.fin _ hr1 id
  obtain ⟨c', hc', hcs⟩ := hfin.nc
  rw [hnc] at hc'; cases hc'
  obtain ⟨es, hes⟩ := hfin.adj
  have hround : rootRound z con add leaf k (st, i, ret) =
      if st.g.roots[i] ≠ leaf ∧ es = [] then (Adj.removeRoot st1.g i).map fun g => ({ st1 with g := g }, i, z.or ret c)
      else some (st1, i + 1, z.or ret c) := by
    unfold rootRound
    simp only [List.getElem?_eq_getElem hi, Option.bind_some, h1, hes]
  have hret : ∀ m, (∀ a, add = some a → holds m a) →
      (holds m (z.or ret c) ↔ ∃ r ∈ st.g.roots[i] :: D, PathSat con holds g leaf m r) := by
    intro m hm
    rw [hs.or, h.ret m hm, hcs m hm]
    simp [or_comm]
  have hold' : ∀ r ∈ st.g.roots[i] :: D, r ∈ g.roots ∧ r ∈ st1.vis := by
    intro r hr
    rcases List.mem_cons.1 hr with rfl | hr
    · exact ⟨hrg, hr1⟩
    · exact ⟨(h.old r hr).1, hfr.vis r (h.old r hr).2⟩
  by_cases hc : st.g.roots[i] ≠ leaf ∧ es = []
  · -- the root is removed
    obtain ⟨rs', hrs'⟩ := swapPop_some hi
    obtain ⟨a, u, b, hab, hal, hsp⟩ := swapPop_split hrs'
    have huu : st.g.roots[i] = u := by simp [hab, ← hal]
    have htake : rs'.take i = st.g.roots.take i := by
      rcases hsp with ⟨rfl, rfl⟩ | ⟨b', w, rfl, rfl⟩ <;> subst hal <;> rw [hab] <;> simp
    have hlen' : rs'.length + 1 = st.g.roots.length := by
      rcases hsp with ⟨rfl, rfl⟩ | ⟨b', w, rfl, rfl⟩ <;> rw [hab] <;> simp <;> omega
    have hd' : (st.g.roots.drop (i + 1)).Perm (rs'.drop i) := by
      have : st.g.roots.drop (i + 1) = b := by rw [hab, ← hal]; simp
      rw [this]
      rcases hsp with ⟨rfl, rfl⟩ | ⟨b', w, rfl, rfl⟩
      · subst hal; simp
      · subst hal; simp
    refine ⟨{ st1 with g := { st1.g with roots := rs' } }, i, z.or ret c, st.g.roots[i] :: D, ?_,
      ⟨⟨⟨hinv1.base.nodes, hinv1.base.adj, hinv1.base.nc⟩, ?_, hinv1.old, hinv1.closed⟩, ?_, ?_, ?_, hold', ?_, ?_, hret⟩⟩
    · rw [hround, if_pos hc]
      unfold Adj.removeRoot
      rw [hfr.roots, hrs']; rfl
    · intro u hu hI
      exact (hinv1.fin u hu hI).frame rfl rfl (fun _ h => h) rfl (fun _ _ => rfl) (fun _ t _ h => .inl h)
    · have := h.len; dsimp only; omega
    · intro r hr
      rcases h.all r hr with h2 | h2
      · exact .inl (.tail _ h2)
      · rw [hdrop] at h2
        rcases List.mem_cons.1 h2 with rfl | h2
        · exact .inl (.head _)
        · exact .inr (hd'.mem_iff.1 h2)
    · intro r hr
      have hr := hd'.mem_iff.2 hr
      exact h.rest r (by rw [hdrop]; exact .tail _ hr)
    · intro r hr
      dsimp only at hr ⊢
      rw [htake] at hr
      have h2 := h.keep r hr
      exact ⟨.tail _ h2.1, by rw [hfr.adj r (h.old r h2.1).2]; exact h2.2⟩
    · intro r hr
      dsimp only
      rw [htake]
      rcases List.mem_cons.1 hr with rfl | hr
      · exact .inr ⟨hc.1, by rw [hes, hc.2]⟩
      · rw [hfr.adj r (h.old r hr).2]; exact h.gone r hr
  · -- the root stays
    refine ⟨st1, i + 1, z.or ret c, st.g.roots[i] :: D, by rw [hround, if_neg hc],
      ⟨hinv1, ?_, ?_, ?_, hold', ?_, ?_, hret⟩⟩
    · rw [hfr.roots]; have := h.len; omega
    · intro r hr
      rw [hfr.roots]
      rcases h.all r hr with h2 | h2
      · exact .inl (.tail _ h2)
      · rw [hdrop] at h2
        rcases List.mem_cons.1 h2 with rfl | h2
        · exact .inl (.head _)
        · exact .inr h2
    · intro r hr
      rw [hfr.roots] at hr
      exact h.rest r (by rw [hdrop]; exact .tail _ hr)
    · intro r hr
      rw [hfr.roots, List.take_succ_eq_append_getElem hi] at hr
      rcases List.mem_append.1 hr with hr | hr
      · have h2 := h.keep r hr
        exact ⟨.tail _ h2.1, by rw [hfr.adj r (h.old r h2.1).2]; exact h2.2⟩
      · cases List.mem_singleton.1 hr
        refine ⟨.head _, ?_⟩
        by_cases hle : st.g.roots[i] = leaf
        · exact .inl hle
        · exact .inr fun hd => hc ⟨hle, by rw [hes] at hd; exact Option.some.inj hd⟩
    · intro r hr
      rw [hfr.roots, List.take_succ_eq_append_getElem hi]
      rcases List.mem_cons.1 hr with rfl | hr
      · exact .inl (List.mem_append_right _ (List.mem_singleton.2 rfl))
      · rw [hfr.adj r (h.old r hr).2]
        rcases h.gone r hr with h2 | h2
        · exact .inl (List.mem_append_left _ h2)
        · exact .inr h2

theorem rootLoop_ok (hs : z.Sound holds) {k : Nat}
    (hrec : ∀ r ∈ g.roots, ∀ st : FSt N C, Inv z holds con add g leaf (fun _ => False) st →
      ∃ st' c, filterAt z con add leaf k r st = some (st', c) ∧ Inv z holds con add g leaf (fun _ => False) st' ∧ r ∈ st'.vis ∧
        Frame st st' ∧ st'.nc[r]? = some c) :
    ∀ (n i : Nat) (ret : C) (st : FSt N C) (D : List Nat), RLoop z holds con add g leaf i n ret st D →
    ∃ st' i' ret' D', rootLoop z con add leaf k n (st, i, ret) = some (st', i', ret') ∧ RLoop z holds con add g leaf i' 0 ret' st' D' := by
  intro n
  induction n with
  | zero => intro i ret st D h; exact ⟨st, i, ret, D, rfl, h⟩
  | succ n ih =>
    intro i ret st D h
    obtain ⟨st1, i1, r1, D1, h1, h2⟩ := rootRound_ok hs hrec h
    obtain ⟨st2, i2, r2, D2, h3, h4⟩ := ih i1 r1 st1 D1 h2
    refine ⟨st2, i2, r2, D2, ?_, h4⟩
    show (rootRound z con add leaf k (st, i, ret)).bind _ = _
    rw [h1]; exact h3

theorem filterOut_ok (hs : z.Sound holds) (hg : InRange g) (hne : ∀ l ∈ g.nodes, l ≠ []) (hlf : Leaf g leaf)
    (hacc : ∀ r ∈ g.roots, Acc (fun t v => Succ g v t) r) :
    ∃ k0, ∀ k, k0 ≤ k → ∃ g' c, filterOut z con add leaf k g = some (g', c) ∧ g'.nodes = g.nodes ∧ g'.adj.length = g.adj.length ∧
      (∀ v t, Succ g' v t → Succ g v t) ∧ (∀ r ∈ g'.roots, r ∈ g.roots) ∧
      (∀ m, (∀ a, add = some a → holds m a) → (holds m c ↔ ∃ r ∈ g.roots, PathSat con holds g leaf m r)) ∧
      (∀ m, (∀ a, add = some a → holds m a) → ∀ r ∈ g.roots, ∀ us, Walk g r us leaf → Feasible con holds m (labelsFwd g us) →
        r ∈ g'.roots ∧ Walk g' r us leaf) ∧
      (z.SeesFalse → ∀ r ∈ g'.roots, ∀ u, Reach g' r u → u = leaf ∨ g'.adj[u]? ≠ some []) := by
  obtain ⟨k0, hk0⟩ := bound_all (P := fun t k0 => ∀ k, k0 ≤ k → ∀ (I : Nat → Prop) (st : FSt N C),
      (∀ i, I i → ReachP g i t ∧ Acc (fun t v => Succ g v t) i) → Inv z holds con add g leaf I st → t ∉ st.vis →
      ∃ st' c, filterAt z con add leaf k t st = some (st', c) ∧ Inv z holds con add g leaf I st' ∧ t ∈ st'.vis ∧ Frame st st' ∧
        (∀ u ∈ st'.vis, u ∈ st.vis ∨ u = t ∨ ∃ w, Succ g w u) ∧ st'.nc[t]? = some c)
      (fun t a b h hab k hk => h k (Nat.le_trans hab hk)) g.roots (fun t ht => filterAt_ok hs hg hne hlf (hacc t ht) (hg.roots t ht))
  refine ⟨k0 + 1, fun k hk => ?_⟩
  obtain ⟨k, rfl⟩ : ∃ k', k = k' + 1 := ⟨k - 1, by omega⟩
  obtain ⟨st, i, ret, D, h1, h⟩ := rootLoop_ok (z := z) (holds := holds) (con := con) (add := add) (leaf := leaf) hs (k := k + 1)
    (fun r hr st hi => by
      by_cases hn : r ∈ st.vis
      · obtain ⟨c, a1, a2⟩ := filterAt_again hne hi hn id k
        refine ⟨_, c, a1, ⟨⟨hi.base.nodes, hi.base.adj, hi.base.nc⟩, fun u hu hI => ?_, fun u hu => hi.old u fun h => hu (.tail _ h),
          fun u hu hI t ht h => h⟩, .head _, ⟨fun u hu => .tail _ hu, fun _ _ => rfl, fun _ _ => rfl, rfl⟩, a2⟩
        have hu : u ∈ st.vis := by
          rcases List.mem_cons.1 hu with rfl | hu
          · exact hn
          · exact hu
        exact (hi.fin u hu id).frame rfl rfl (fun t ht => .tail _ ht) rfl (fun _ _ => rfl) (fun _ t _ h => .inl h)
      · obtain ⟨st', c, a1, a2, a3, a4, _, a5⟩ := hk0 r hr (k + 1) (by omega) (fun _ => False) st (fun _ h => h.elim) hi hn
        exact ⟨st', c, a1, a2, a3, a4, a5⟩) g.roots.length 0 z.ff
    ⟨g, [], List.replicate g.adj.length z.tt⟩ []
    ⟨⟨⟨rfl, rfl, by simp⟩, fun u hu => by simp at hu, fun _ _ => rfl, fun u hu => by simp at hu⟩, by simp, fun r hr => .inr (by simpa using hr),
      fun r hr => by simpa using hr, fun r hr => by simp at hr,
      fun r hr => by simp at hr, fun r hr => by simp at hr, fun m hm => by simp [hs.ff m]⟩
  have htk : st.g.roots.take i = st.g.roots := List.take_of_length_le (by have := h.len; omega)
  have hdr : st.g.roots.drop i = [] := List.drop_eq_nil_of_le (by have := h.len; omega)
  have hD : ∀ r, r ∈ g.roots ↔ r ∈ D := by
    intro r
    refine ⟨fun hr => ?_, fun hr => (h.old r hr).1⟩
    rcases h.all r hr with h2 | h2
    · exact h2
    · rw [hdr] at h2; cases h2
  have hsub : ∀ v t, Succ st.g v t → Succ g v t := by
    intro v t ht
    by_cases hv : v ∈ st.vis
    · exact (h.inv.fin v hv id).sub t ht
    · unfold Succ at ht; rw [h.inv.old v hv] at ht; exact ht
  refine ⟨st.g, z.simplify ret, by unfold filterOut; rw [h1]; rfl, h.inv.base.nodes, h.inv.base.adj, hsub, ?_, ?_, ?_, ?_⟩
  · intro r hr
    rw [← htk] at hr
    exact (hD r).2 (h.keep r hr).1
  · intro m hm
    rw [hs.simplify, h.ret m hm]
    simp only [hD]
  · intro m hm r hr us hw hf
    -- walks that are satisfied stay
    have key : ∀ v us, v ∈ st.vis → Walk g v us leaf → Feasible con holds m (labelsFwd g us) → Walk st.g v us leaf := by
      intro v us hv hw
      have : ∀ e, e = leaf → Walk g v us e → Feasible con holds m (labelsFwd g us) → Walk st.g v us leaf := by
        intro e he hw
        induction hw with
        | one hlt => intro _; subst he; exact .one (by rw [h.inv.base.adj]; exact hlt)
        | @cons v t us e hst hw' ih =>
          intro hf
          subst he
          have hfin := h.inv.fin v hv id
          have hvl : v < g.nodes.length := by
            rw [← hg.wf]
            obtain ⟨es, h2, _⟩ := hst
            exact (List.getElem?_eq_some_iff.1 h2).1
          have htl := hg.succ v t hst
          rw [hg.wf] at htl
          have hvn := List.getElem?_eq_getElem hvl
          obtain ⟨f1, f2, f3⟩ := (feasible_step hne hvn (List.getElem?_eq_getElem htl) hw').1 hf
          have hs' : Succ st.g v t := by
            apply Classical.byContradiction
            intro hn
            refine hfin.gone t hst hn _ hvn m hm ⟨f1, fun a b l' hl' => ?_, us, hw', f3⟩
            rw [List.getElem?_eq_getElem htl] at hl'; cases hl'
            exact f2 a b
          exact .cons hs' (ih (hfin.vis t hst) hw' rfl f3)
      exact this leaf rfl hw
    have hrD := (hD r).1 hr
    have hw' := key r us (h.old r hrD).2 hw hf
    refine ⟨?_, hw'⟩
    rcases h.gone r hrD with h2 | ⟨h2, h3⟩
    · rw [htk] at h2; exact h2
    · cases hw' with
      | one => exact absurd rfl h2
      | cons hst _ =>
        obtain ⟨es, h4, h5⟩ := hst
        rw [h3] at h4; cases h4; cases h5
  · intro hf r hr u hru
    have hr' := hr
    rw [← htk] at hr'
    have hv : r ∈ st.vis := (h.old r (h.keep r hr').1).2
    have hal := (h.keep r hr').2
    clear hr hr'
    induction hru with
    | refl => exact hal
    | @step v t u hst _ ih =>
      exact ih ((h.inv.fin v hv id).vis t (hsub v t hst)) ((h.inv.fin v hv id).alive hf t hst)

/-! ## More fuel does not change the result -/

theorem edgeRound_mono {rec rec' : Nat → FSt N C → Option (FSt N C × C)} (h : ∀ u st r, rec u st = some r → rec' u st = some r)
    {v : Nat} {l : List N} {x : C} {s r : FSt N C × Nat × List C} (hr : edgeRound z con add rec v l x s = some r) :
    edgeRound z con add rec' v l x s = some r := by
  unfold edgeRound at hr ⊢
  obtain ⟨es, h1, hr⟩ := Option.bind_eq_some_iff.1 hr
  obtain ⟨u, h2, hr⟩ := Option.bind_eq_some_iff.1 hr
  obtain ⟨st, h3, hr⟩ := Option.bind_eq_some_iff.1 hr
  rw [h1, Option.bind_some, h2, Option.bind_some]
  refine Option.bind_eq_some_iff.2 ⟨st, ?_, hr⟩
  split at h3
  · rename_i hu; rw [if_pos hu]; exact h3
  · rename_i hu
    rw [if_neg hu]
    obtain ⟨q, h4, h5⟩ := Option.map_eq_some_iff.1 h3
    rw [h _ _ _ h4]; exact congrArg some h5

theorem edgeLoop_mono {rec rec' : Nat → FSt N C → Option (FSt N C × C)} (h : ∀ u st r, rec u st = some r → rec' u st = some r)
    {v : Nat} {l : List N} {x : C} : ∀ (n : Nat) {s r : FSt N C × Nat × List C}, edgeLoop z con add rec v l x n s = some r →
    edgeLoop z con add rec' v l x n s = some r := by
  intro n
  induction n with
  | zero => intro s r hr; exact hr
  | succ n ih =>
    intro s r hr
    obtain ⟨s', h1, h2⟩ := Option.bind_eq_some_iff.1 hr
    exact Option.bind_eq_some_iff.2 ⟨s', edgeRound_mono h h1, ih h2⟩

theorem filterAt_mono : ∀ (k : Nat) {v : Nat} {st : FSt N C} {r : FSt N C × C}, filterAt z con add leaf k v st = some r →
    filterAt z con add leaf (k + 1) v st = some r := by
  intro k
  induction k with
  | zero => intro v st r h; cases h
  | succ k ih =>
    intro v st r h
    rw [filterAt] at h ⊢
    obtain ⟨l, h1, h⟩ := Option.bind_eq_some_iff.1 h
    obtain ⟨es, h2, h⟩ := Option.bind_eq_some_iff.1 h
    refine Option.bind_eq_some_iff.2 ⟨l, h1, Option.bind_eq_some_iff.2 ⟨es, h2, ?_⟩⟩
    split at h
    · cases h
    · rename_i hl
      rw [if_neg hl]
      obtain ⟨s, h3, h⟩ := Option.bind_eq_some_iff.1 h
      exact Option.bind_eq_some_iff.2 ⟨s, edgeLoop_mono (fun u st r h => ih h) _ h3, h⟩

theorem rootLoop_mono {k : Nat} : ∀ (n : Nat) {s r : FSt N C × Nat × C}, rootLoop z con add leaf k n s = some r →
    rootLoop z con add leaf (k + 1) n s = some r := by
  intro n
  induction n with
  | zero => intro s r hr; exact hr
  | succ n ih =>
    intro s r hr
    obtain ⟨s', h1, h2⟩ := Option.bind_eq_some_iff.1 hr
    refine Option.bind_eq_some_iff.2 ⟨s', ?_, ih h2⟩
    unfold rootRound at h1 ⊢
    obtain ⟨x, h3, h1⟩ := Option.bind_eq_some_iff.1 h1
    obtain ⟨q, h4, h1⟩ := Option.bind_eq_some_iff.1 h1
    exact Option.bind_eq_some_iff.2 ⟨x, h3, Option.bind_eq_some_iff.2 ⟨q, filterAt_mono k h4, h1⟩⟩

theorem filterOut_mono {k k' : Nat} (hk : k ≤ k') {r : Adj.Graph (List N) Nat × C} (h : filterOut z con add leaf k g = some r) :
    filterOut z con add leaf k' g = some r := by
  induction hk with
  | refl => exact h
  | step _ ih =>
    obtain ⟨s, h1, h2⟩ := Option.map_eq_some_iff.1 ih
    exact Option.map_eq_some_iff.2 ⟨s, rootLoop_mono _ h1, h2⟩

end Phasar.PathFilter
