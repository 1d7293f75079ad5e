import Verif.Path.RevDagLemmas
/-!
# The paths through the graph that `reverseDAG` returns
-/
namespace Phasar.Dag
open Phasar

variable {T : Type}

/-- Specification: the roots are the vertices without predecessors. -/
def Rooted (g : Adj.Graph T Nat) : Prop := ∀ u, u < g.adj.length → (u ∈ g.roots ↔ ∀ t, ¬ Succ g t u)

theorem Near.lt {g : Adj.Graph T Nat} (hg : InRange g) {n v : Nat} (h : Near g n v) : v < g.adj.length := by
  cases h with
  | root h => exact hg.roots _ h
  | step _ hs => exact hg.succ _ _ hs

theorem Succ.lt {g : Adj.Graph T Nat} {v t : Nat} (h : Succ g v t) : v < g.adj.length :=
  let ⟨_, h1, _⟩ := h
  (List.getElem?_eq_some_iff.1 h1).1

theorem RGraph.range {g r : Adj.Graph T Nat} {d : Nat} {I : Nat → Option Nat} (h : RGraph g d r I) : InRange r :=
  ⟨h.wf, fun t u hs => let ⟨_, _, _, _, hu⟩ := (h.edge t u).1 hs; h.lt _ _ hu,
    fun x hx => let ⟨_, _, hv⟩ := (h.root x).1 hx; h.lt _ _ hv⟩

theorem RGraph.reach {g r : Adj.Graph T Nat} {d : Nat} {I : Nat → Option Nat} (h : RGraph g d r I) {x y : Nat} (hr : Reach r x y) :
    ∀ v u, I v = some x → I u = some y → Reach g u v := by
  induction hr with
  | refl x => intro v u hv hu; cases h.inj v u x hv hu; exact .refl _
  | @step x t y hs _ ih =>
    intro v u hv hu
    obtain ⟨a, b, ⟨_, hab⟩, hb, ha⟩ := (h.edge x t).1 hs
    cases h.inj v b x hv hb
    exact (ih a u ha hu).trans (.step hab (.refl _))

theorem RGraph.acyclic {g r : Adj.Graph T Nat} {d : Nat} {I : Nat → Option Nat} (h : RGraph g d r I) (hc : ∀ u, ¬ ReachP g u u) :
    ∀ x, ¬ ReachP r x x := by
  rintro x ⟨t, hs, hr⟩
  obtain ⟨a, b, ⟨_, hab⟩, hb, ha⟩ := (h.edge x t).1 hs
  exact hc b ((h.reach hr a b ha hb).snoc hab)

theorem RGraph.leaf {g r : Adj.Graph T Nat} {d : Nat} {I : Nat → Option Nat} (h : RGraph g d r I) (hg : InRange g) (hr : Rooted g) (y : Nat) :
    Leaf r y ↔ ∃ u ∈ g.roots, I u = some y := by
  rw [leaf_iff]
  constructor
  · rintro ⟨h1, h2⟩
    obtain ⟨u, hu⟩ := h.onto y h1
    have hn := (h.all u).1 ⟨y, hu⟩
    cases hn with
    | root hr => exact ⟨u, hr, hu⟩
    | @step n v _ hv hs =>
      exfalso
      have hi : Inside g (n + 1) v := ⟨n, Nat.lt_succ_self _, hv⟩
      obtain ⟨x, hx⟩ := (h.all v).2 hi.near
      exact h2 x ((h.edge y x).2 ⟨v, u, ⟨hi, hs⟩, hu, hx⟩)
  · rintro ⟨u, hu, hy⟩
    refine ⟨h.lt u y hy, fun t ht => ?_⟩
    obtain ⟨a, b, ⟨_, hab⟩, hb, _⟩ := (h.edge y t).1 ht
    cases h.inj u b y hy hb
    exact (hr u (hg.roots u hu)).1 hu a hab

theorem RGraph.walk {g r : Adj.Graph T Nat} {d : Nat} {I : Nat → Option Nat} (h : RGraph g d r I) (hg : InRange g) {x y : Nat}
    {xs : List Nat} (hw : Walk r x xs y) : ∃ v u ps, I v = some x ∧ I u = some y ∧ Walk g u (ps ++ [v]) v ∧ (∀ a ∈ ps, Inside g d a) ∧
      xs.map (r.nodes[·]?) = (ps ++ [v]).reverse.map (g.nodes[·]?) := by
  induction hw with
  | @one x hx =>
    obtain ⟨v, hv⟩ := h.onto x hx
    exact ⟨v, v, [], hv, hv, .one (((h.all v).1 ⟨x, hv⟩).lt hg), (by nofun), by simp [h.lab v x hv]⟩
  | @cons x t xs y hs _ ih =>
    obtain ⟨v, u, ps, h1, h2, h3, h4, h5⟩ := ih
    obtain ⟨a, b, ⟨hi, hab⟩, hb, ha⟩ := (h.edge x t).1 hs
    cases h.inj v a t h1 ha
    refine ⟨b, u, ps ++ [v], hb, h2, h3.snoc hab (hg.succ _ _ hab), fun a ha => ?_, ?_⟩
    · rcases List.mem_append.1 ha with ha | ha
      · exact h4 a ha
      · cases List.mem_singleton.1 ha; exact hi
    · rw [List.map_cons, h5]; simp [h.lab b x hb]

theorem RGraph.walk' {g r : Adj.Graph T Nat} {d : Nat} {I : Nat → Option Nat} (h : RGraph g d r I) {v : Nat} :
    ∀ (ps : List Nat) (u : Nat), Walk g u (ps ++ [v]) v → (∀ a ∈ ps, Inside g d a) → Near g d u →
      ∃ x y xs, I v = some x ∧ I u = some y ∧ Walk r x xs y ∧ xs.map (r.nodes[·]?) = (ps ++ [v]).reverse.map (g.nodes[·]?) := by
  intro ps
  induction ps with
  | nil =>
    intro u hw _ hn
    obtain ⟨y, hy⟩ := (h.all u).2 hn
    have : u = v := by
      rw [List.nil_append] at hw
      cases hw with
      | one => rfl
      | cons _ h => cases h
    subst this
    exact ⟨y, y, [y], hy, hy, .one (h.lt u y hy), by simp [h.lab u y hy]⟩
  | cons a ps ih =>
    intro u hw hp hn
    rw [List.cons_append] at hw
    generalize hq : ps ++ [v] = qs at hw
    cases hw with
    | one => simp at hq
    | @cons _ t _ _ hs hw' =>
      subst hq
      have hi := hp a (.head _)
      obtain ⟨x, y, xs, h1, h2, h3, h4⟩ := ih t hw' (fun b hb => hp b (.tail _ hb)) (hi.step hs)
      obtain ⟨z, hz⟩ := (h.all a).2 hn
      refine ⟨x, z, xs ++ [z], h1, hz, h3.snoc ((h.edge y z).2 ⟨a, t, ⟨hi, hs⟩, h2, hz⟩) (h.lt a z hz), ?_⟩
      rw [List.map_append, h4]
      simp [h.lab a z hz]

/-- Specification: a path from a root that stops at a leaf or where the limit is reached. -/
def Cut (g : Adj.Graph T Nat) (d : Nat) (ps : List Nat) (e : Nat) : Prop :=
  ∃ u ∈ g.roots, Walk g u (ps ++ [e]) e ∧ (∀ a ∈ ps, Inside g d a) ∧ ((Inside g d e ∧ Leaf g e) ∨ ¬ Inside g d e)

theorem RGraph.seqs {g r : Adj.Graph T Nat} {d : Nat} {I : Nat → Option Nat} (h : RGraph g d r I) (hg : InRange g) (hr : Rooted g)
    (L : List T) : Seqs r L ↔ ∃ ps e, Cut g d ps e ∧ (ps ++ [e]).map (g.nodes[·]?) = L.reverse.map some := by
  unfold Seqs
  constructor
  · rintro ⟨x, hx, xs, y, hw, hl, hm⟩
    obtain ⟨v, u, ps, h1, h2, h3, h4, h5⟩ := h.walk hg hw
    obtain ⟨v', hv', hxv⟩ := (h.root x).1 hx
    cases h.inj v v' x h1 hxv
    obtain ⟨u', hu', hyu⟩ := (h.leaf hg hr y).1 hl
    cases h.inj u u' y h2 hyu
    refine ⟨ps, v, ⟨u, hu', h3, h4, hv'.elim .inl fun h => .inr h.2⟩, ?_⟩
    rw [hm, List.map_reverse] at h5
    rw [List.map_reverse, h5, List.reverse_reverse]
  · rintro ⟨ps, e, ⟨u, hu, hw, hp, he⟩, hm⟩
    obtain ⟨x, y, xs, h1, h2, h3, h4⟩ := h.walk' ps u hw hp (.root hu)
    have hn := (h.all e).1 ⟨x, h1⟩
    refine ⟨x, (h.root x).2 ⟨e, he.elim .inl fun h => .inr ⟨hn, h⟩, h1⟩, xs, y, h3, (h.leaf hg hr y).2 ⟨u, hu, h2⟩, ?_⟩
    rw [h4, List.map_reverse, hm]; simp

theorem Walk.last {g : Adj.Graph T Nat} {u e : Nat} {us : List Nat} (h : Walk g u us e) : ∃ ps, us = ps ++ [e] := by
  induction h with
  | one => exact ⟨[], rfl⟩
  | cons _ _ ih => obtain ⟨ps, rfl⟩ := ih; exact ⟨_ :: ps, rfl⟩

theorem Walk.append {g : Adj.Graph T Nat} {u v e : Nat} {ps qs : List Nat} (h : Walk g v qs e) : Walk g u (ps ++ [v]) v →
    Walk g u (ps ++ qs) e := by
  induction ps generalizing u with
  | nil =>
    intro hw
    rw [List.nil_append] at hw
    have : u = v := by
      cases hw with
      | one => rfl
      | cons _ h => cases h
    subst this; exact h
  | cons a ps ih =>
    intro hw
    rw [List.cons_append] at hw
    generalize hq : ps ++ [v] = rs at hw
    cases hw with
    | one => simp at hq
    | cons hs hw' => subst hq; exact .cons hs (ih hw')

/-- A way to a leaf from everywhere. -/
theorem exists_leaf {g : Adj.Graph T Nat} (hg : InRange g) (hc : ∀ u, ¬ ReachP g u u) {v : Nat} (hv : v < g.adj.length) :
    ∃ qs e, Walk g v (v :: qs) e ∧ Leaf g e := by
  have hacc := acc_of_acyclic hg hc hv
  induction hacc with
  | intro v _ ih =>
    by_cases hl : Leaf g v
    · exact ⟨[], v, .one hv, hl⟩
    · have : ∃ t, Succ g v t := Classical.byContradiction fun hn => hl (leaf_iff.2 ⟨hv, fun t ht => hn ⟨t, ht⟩⟩)
      obtain ⟨t, ht⟩ := this
      obtain ⟨qs, e, h1, h2⟩ := ih t ht (hg.succ _ _ ht)
      exact ⟨t :: qs, e, .cons ht h1, h2⟩

/-- Where the limit cuts a path. -/
theorem cut_walk {g : Adj.Graph T Nat} (d : Nat) {u e : Nat} {us : List Nat} (hw : Walk g u us e) (hl : Leaf g e) :
    ∃ ps v qs, us = ps ++ v :: qs ∧ Walk g u (ps ++ [v]) v ∧ (∀ a ∈ ps, Inside g d a) ∧
      ((Inside g d v ∧ Leaf g v ∧ qs = []) ∨ ¬ Inside g d v) := by
  induction hw with
  | @one v hv =>
    by_cases hi : Inside g d v
    · exact ⟨[], v, [], rfl, .one hv, (by nofun), .inl ⟨hi, hl, rfl⟩⟩
    · exact ⟨[], v, [], rfl, .one hv, (by nofun), .inr hi⟩
  | @cons v t us e hs _ ih =>
    by_cases hi : Inside g d v
    · obtain ⟨ps, w, qs, h1, h2, h3, h4⟩ := ih hl
      refine ⟨v :: ps, w, qs, by rw [h1]; rfl, .cons hs h2, fun a ha => ?_, h4⟩
      rcases List.mem_cons.1 ha with rfl | ha
      · exact hi
      · exact h3 a ha
    · exact ⟨[], v, us, rfl, .one hs.lt, (by nofun), .inr hi⟩

/-- The paths through the reversed graph. -/
theorem reverse_seqs {g r : Adj.Graph T Nat} (hg : InRange g) (hr : Rooted g) (h : reverseGraph g = some r) (L : List T) :
    Seqs r L ↔ ∃ u ∈ g.roots, ∃ us e, Walk g u us e ∧ Leaf g e ∧ us.map (g.nodes[·]?) = L.reverse.map some := by
  obtain ⟨r', h1, h2, h3, _, h5⟩ := reverseGraph_ok g hg
  rw [h] at h1; cases h1
  have hs := succ_reversed hg h
  have hroot : ∀ x, x ∈ r.roots ↔ Leaf g x := by
    intro x
    rw [h5, List.mem_filter, List.mem_range, decide_eq_true_eq]
    exact ⟨fun h => h.2, fun h => ⟨(List.getElem?_eq_some_iff.1 h).1, h⟩⟩
  have hleaf : ∀ x, Leaf r x ↔ x ∈ g.roots := by
    intro x
    rw [leaf_iff, h3]
    constructor
    · rintro ⟨g1, g2⟩
      exact (hr x g1).2 fun t ht => g2 t ((hs x t).2 ht)
    · intro hx
      exact ⟨hg.roots x hx, fun t ht => (hr x (hg.roots x hx)).1 hx t ((hs x t).1 ht)⟩
  unfold Seqs
  rw [h2]
  constructor
  · rintro ⟨x, hx, us, e, hw, hl, hm⟩
    refine ⟨e, (hleaf e).1 hl, us.reverse, x, hw.reverse h3.symm fun t i h => (hs i t).1 h, (hroot x).1 hx, ?_⟩
    rw [List.map_reverse, hm]; simp
  · rintro ⟨u, hu, us, e, hw, hl, hm⟩
    refine ⟨e, (hroot e).2 hl, us.reverse, u, hw.reverse h3 fun t i h => (hs t i).2 h, (hleaf u).2 hu, ?_⟩
    rw [List.map_reverse, hm]; simp

end Phasar.Dag
