import Verif.Path.RevDag
import Verif.Path.DagGraph
import Verif.Path.FilterInv
import Verif.Util.DFAMinLemmas
/-!
# Minimised graphs simulate and are simulated
-/
namespace Phasar.DFAMin
open Phasar.Adj
set_option linter.unusedSectionVars false

variable {T W : Type} [DecidableEq T] [DecidableEq W]

/-- Every new vertex stands for a vertex that is handled or in the work list. -/
def Onto (cls : List Nat) (s : CS T W) : Prop :=
  ∀ x, x < s.ret.nodes.length → ∃ v, (v ∈ s.wl ∨ s.handled[v]? = some true) ∧ img cls s.e2v v = some x

theorem vertexFor_keep {g : G T W} {cls : List Nat} {s s' : CS T W} {v x : Nat} {new : Bool}
    (h : vertexFor g cls s v = some (s', x, new)) : s'.wl = s.wl ∧ s'.handled = s.handled ∧
      (∀ u y, img cls s.e2v u = some y → img cls s'.e2v u = some y) ∧ img cls s'.e2v v = some x ∧
      ∀ y, y < s'.ret.nodes.length → y < s.ret.nodes.length ∨ y = x := by
  unfold vertexFor at h
  split at h
  · cases h
  · rename_i c hc
    split at h
    · cases h
    · rename_i y hy
      cases h
      exact ⟨rfl, rfl, fun _ _ h => h, by unfold img; rw [hc]; simp [hy], fun _ h => .inl h⟩
    · rename_i hy
      obtain ⟨a, _, h2⟩ := Option.map_eq_some_iff.1 h
      cases h2
      refine ⟨rfl, rfl, fun u z hz => ?_, ?_, fun z hz => ?_⟩
      · show img cls (s.e2v.set c _) u = some z
        rw [img_set hy]
        split
        · rename_i hu
          unfold img at hz
          rw [hu] at hz
          simp [hy] at hz
        · exact hz
      · show img cls (s.e2v.set c _) v = _
        rw [img_set hy, if_pos hc]
      · simp only [Adj.addNode, List.length_append, List.length_singleton] at hz
        show _ ∨ z = s.ret.nodes.length
        omega

theorem addRoots_onto {g : G T W} {cls : List Nat} : ∀ (todo : List Nat) {s s' : CS T W}, addRoots g cls todo s = some s' → Onto cls s →
    Onto cls s' := by
  intro todo
  induction todo with
  | nil => intro s s' h ho; cases h; exact ho
  | cons r rs ih =>
    intro s s' h ho
    rw [addRoots] at h
    obtain ⟨⟨s1, x, new⟩, h1, h⟩ := Option.bind_eq_some_iff.1 h
    obtain ⟨ret, h2, h⟩ := Option.bind_eq_some_iff.1 h
    obtain ⟨k1, k2, k3, k4, k5⟩ := vertexFor_keep h1
    dsimp only at h h2
    refine ih h fun y hy => ?_
    dsimp only at hy ⊢
    have hn : ret.nodes = s1.ret.nodes := by
      split at h2
      · unfold addRoot at h2; split at h2
        · cases h2; rfl
        · cases h2
      · cases h2; rfl
    rw [hn] at hy
    rcases k5 y hy with hy | rfl
    · obtain ⟨v, hv, hv'⟩ := ho y hy
      refine ⟨v, ?_, k3 v y hv'⟩
      rw [k1, k2]
      rcases hv with hv | hv
      · exact .inl (.tail _ hv)
      · exact .inr hv
    · exact ⟨r, .inl (.head _), k4⟩

theorem edges_onto {g : G T W} {cls : List Nat} {nw : Nat} : ∀ (todo : List (Nat × W)) {s s' : CS T W},
    edges g cls nw todo s = some s' → Onto cls s → Onto cls s' := by
  intro todo
  induction todo with
  | nil => intro s s' h ho; cases h; exact ho
  | cons e es ih =>
    intro s s' h ho
    rw [edges] at h
    obtain ⟨⟨s1, x, new⟩, h1, h⟩ := Option.bind_eq_some_iff.1 h
    obtain ⟨k1, k2, k3, k4, k5⟩ := vertexFor_keep h1
    dsimp only at h
    split at h
    · cases h
    · rename_i b hb
      obtain ⟨ret, h2, h⟩ := Option.bind_eq_some_iff.1 h
      refine ih h fun y hy => ?_
      dsimp only at hy ⊢
      have hn : ret.nodes = s1.ret.nodes := by
        unfold addEdge at h2
        split at h2
        · cases h2; rfl
        · cases h2
      rw [hn] at hy
      rcases k5 y hy with hy | rfl
      · obtain ⟨v, hv, hv'⟩ := ho y hy
        refine ⟨v, ?_, k3 v y hv'⟩
        rw [k2]
        rcases hv with hv | hv
        · refine .inl ?_
          rw [k1]
          split
          · exact hv
          · exact .tail _ hv
        · exact .inr hv
      · refine ⟨e.1, ?_, k4⟩
        cases b with
        | true => exact .inr hb
        | false => exact .inl (.head _)

theorem round_onto {g : G T W} {cls : List Nat} {v : Nat} {rest : List Nat} {s s' : CS T W} (hw : s.wl = v :: rest)
    (h : round g cls v { s with wl := rest } = some s') (ho : Onto cls s) : Onto cls s' := by
  unfold round at h
  split at h
  · cases h
  · split at h
    · rename_i nw es _ _
      split at h
      · rename_i hlt
        refine edges_onto _ h fun y hy => ?_
        obtain ⟨u, hu, hu'⟩ := ho y hy
        refine ⟨u, ?_, hu'⟩
        dsimp only at hlt ⊢
        by_cases huv : u = v
        · subst huv
          exact .inr (List.getElem?_set_self hlt)
        · rw [List.getElem?_set_ne (Ne.symm huv)]
          rcases hu with hu | hu
          · rw [hw] at hu
            rcases List.mem_cons.1 hu with h | h
            · exact absurd h huv
            · exact .inl h
          · exact .inr hu
      · cases h
    · cases h

theorem loop_onto {g : G T W} {cls : List Nat} : ∀ (f : Nat) {s s' : CS T W}, loop g cls f s = some s' → Onto cls s → Onto cls s' := by
  intro f
  induction f with
  | zero =>
    intro s s' h ho
    unfold loop at h
    split at h
    · cases h; exact ho
    · cases h
  | succ f ih =>
    intro s s' h ho
    unfold loop at h
    split at h
    · cases h; exact ho
    · rename_i v rest hw
      obtain ⟨s1, h1, h2⟩ := Option.bind_eq_some_iff.1 h
      exact ih h2 (round_onto hw h1 ho)

/-- A relation between the vertices of a graph and of the one made for it. -/
structure WBis (g g' : G T W) (R : Nat → Nat → Prop) : Prop where
  lt : ∀ v x, R v x → v < g.adj.length
  lab : ∀ v x, R v x → node g' x = node g v
  forth : ∀ v x t w, R v x → HasEdge g v t w → ∃ y, HasEdge g' x y w ∧ R t y
  back : ∀ v x y w, R v x → HasEdge g' x y w → ∃ t, HasEdge g v t w ∧ R t y
  roots : ∀ r, r ∈ g.roots → ∃ x, x ∈ g'.roots ∧ R r x
  roots' : ∀ x, x ∈ g'.roots → ∃ r, r ∈ g.roots ∧ R r x
  onto : ∀ x, x < g'.nodes.length → ∃ v, R v x
  fn : ∀ v x y, R v x → R v y → x = y

theorem create_bis {g : G T W} (hg : GWf g) {cls : List Nat} {nc : Nat} (hc : ClsI g cls nc) (lt : Nat × W → Nat × W → Bool) :
    ∃ k g' R, (∀ f, k ≤ f → createEquivalentGraphFrom lt f g (cls, nc) = some g') ∧ WBis g g' R ∧
      g'.nodes.length ≤ nc ∧ g'.adj.length = g'.nodes.length ∧
      ∀ x y w, HasEdge g' x y w → y < g'.adj.length := by
  have himg : ∀ v x, img cls (List.replicate nc none) v ≠ some x := by
    intro v x h
    unfold img at h
    cases hq : cls[v]? with
    | none => rw [hq] at h; cases h
    | some c =>
      rw [hq] at h
      simp [List.getElem?_replicate] at h
      split at h <;> cases h
  have hcnt : ∀ n, cnt (List.replicate n (none : Option Nat)) = 0 := by
    intro n; simp [cnt]
  have hnh : ∀ v : Nat, (List.replicate (size g) false)[v]? ≠ some true := by
    intro v h
    rw [List.getElem?_replicate] at h
    split at h <;> cases h
  have i0 : CI g cls nc [] (fun _ _ _ => False)
      ⟨Adj.empty, List.replicate nc none, List.replicate (size g) false, []⟩ := by
    refine ⟨rfl, by simp, by simp, fun u v x h => (himg _ _ h).elim, fun v x h => (himg _ _ h).elim, (hcnt nc).symm, ?_, ?_, ?_, ?_, ?_⟩
    · rintro x y w ⟨es, h, _⟩
      simp [Adj.empty] at h
    · intro x
      constructor
      · intro h; simp [Adj.empty] at h
      · rintro ⟨r, h, _⟩; cases h
    · intro v h
      rcases h with h | h
      · cases h
      · exact (hnh v h).elim
    · intro r h; cases h
    · intro v t w h; exact (hnh v h).elim
  obtain ⟨s, h1, i1⟩ := addRoots_spec hg hc g.roots i0 hnh (fun v x h => (himg v x h).elim) hg.2.1
  rw [List.nil_append] at i1
  obtain ⟨k, s', h2, i2, h3⟩ := loop_spec hg hc (unh s.handled) s.wl.length i1 rfl rfl
  obtain ⟨g', h4, e1, e2, e3, e4⟩ := dedupAll_spec lt (List.range (size s'.ret)) s'.ret (by intro v hv; exact List.mem_range.1 hv)
  have ho : Onto cls s' := loop_onto k (h2 k (Nat.le_refl _)) (addRoots_onto g.roots h1 (fun x hx => by simp [Adj.empty] at hx))
  have hdone : ∀ v, v ∈ s'.wl ∨ s'.handled[v]? = some true → s'.handled[v]? = some true := by
    intro v h
    rcases h with h | h
    · rw [h3] at h; cases h
    · exact h
  refine ⟨k, g', fun v x => s'.handled[v]? = some true ∧ img cls s'.e2v v = some x, ?_, ⟨?_, ?_, ?_, ?_, ?_, ?_, ?_,
    fun v x y h h' => Option.some.inj (h.2.symm.trans h'.2)⟩, ?_, ?_, ?_⟩
  · intro f hf
    simp only [createEquivalentGraphFrom, h1, Option.bind_some, h2 f hf, h4]
  · intro v x h
    exact (i2.dom v (.inr h.1)).1
  · intro v x h
    show g'.nodes[x]? = _
    rw [e1]; exact (i2.lab v x h.2).2
  · rintro v x t w ⟨q1, q2⟩ he
    rcases i2.comp v t w q1 he with h | ⟨h5, x', y, h6, h7, h8⟩
    · exact h.elim
    · rw [q2] at h6; cases h6
      exact ⟨y, (e4 _ _ _).2 h8, hdone t h5, h7⟩
  · rintro v x y w ⟨q1, q2⟩ he
    obtain ⟨u, t, ⟨es, h5, h5'⟩, h6, h7⟩ := i2.sound x y w ((e4 _ _ _).1 he)
    have hcls := i2.inj u v x h6 q2
    obtain ⟨fs, f, h8, h9, h10, h11⟩ := (hc.bis u v (by rw [← hc.len]; exact img_lt h6) (by rw [← hc.len]; exact img_lt q2) hcls).2
      es h5 (t, w) h5'
    have hf : HasEdge g v f.1 w := ⟨fs, h8, by have : w = f.2 := h10; rw [this]; exact h9⟩
    refine ⟨f.1, hf, ?_, ?_⟩
    · rcases i2.comp v f.1 w q1 hf with h | ⟨h, _⟩
      · exact h.elim
      · exact hdone _ h
    · rw [← h7]
      unfold img
      have h11 : cls[t]? = cls[f.1]? := h11
      rw [h11]
  · intro r hr
    have hh := hdone r (i2.rdom r hr)
    obtain ⟨_, x, hx⟩ := i2.dom r (.inr hh)
    exact ⟨x, by rw [e2]; exact (i2.roots x).2 ⟨r, hr, hx⟩, hh, hx⟩
  · intro x hx
    rw [e2, i2.roots] at hx
    obtain ⟨r, hr, hx⟩ := hx
    exact ⟨r, hr, hdone r (i2.rdom r hr), hx⟩
  · intro x hx
    rw [e1] at hx
    obtain ⟨v, h5, h6⟩ := ho x hx
    exact ⟨v, hdone v h5, h6⟩
  · rw [e1, i2.cnt]
    have := cnt_le s'.e2v
    rw [i2.e2v] at this
    exact this
  · rw [e3, e1]; exact i2.wf
  · intro x y w h
    obtain ⟨_, t, _, _, h5⟩ := i2.sound x y w ((e4 _ _ _).1 h)
    rw [e3, i2.wf]; exact (i2.lab t y h5).1

end Phasar.DFAMin

namespace Phasar.Dag
open Phasar
set_option linter.unusedSectionVars false

variable {T : Type}

/-- Two graphs that simulate each other. -/
structure Bis (g g' : Adj.Graph T Nat) (R : Nat → Nat → Prop) : Prop where
  range : InRange g'
  lt : ∀ v x, R v x → v < g.adj.length ∧ x < g'.adj.length
  lab : ∀ v x, R v x → g'.nodes[x]? = g.nodes[v]?
  forth : ∀ v x t, R v x → Succ g v t → ∃ y, Succ g' x y ∧ R t y
  back : ∀ v x y, R v x → Succ g' x y → ∃ t, Succ g v t ∧ R t y
  roots : ∀ r, r ∈ g.roots → ∃ x, x ∈ g'.roots ∧ R r x
  roots' : ∀ x, x ∈ g'.roots → ∃ r, r ∈ g.roots ∧ R r x
  onto : ∀ x, x < g'.adj.length → ∃ v, R v x
  fn : ∀ v x y, R v x → R v y → x = y

theorem weighted_wf {g : Adj.Graph T Nat} (hg : InRange g) : DFAMin.GWf (weighted g) := by
  refine ⟨by simp [weighted, hg.wf], fun r hr => by simpa [weighted] using hg.roots r hr, ?_⟩
  intro es hes e he
  simp only [weighted, List.mem_map, List.length_map] at hes ⊢
  obtain ⟨fs, h1, rfl⟩ := hes
  obtain ⟨t, h2, rfl⟩ := List.mem_map.1 he
  obtain ⟨i, hi, rfl⟩ := List.getElem_of_mem h1
  exact hg.succ i t ⟨_, List.getElem?_eq_getElem hi, h2⟩

theorem weighted_edge {g : Adj.Graph T Nat} {v t : Nat} {w : Unit} : DFAMin.HasEdge (weighted g) v t w ↔ Succ g v t := by
  unfold DFAMin.HasEdge Succ weighted
  simp only [List.getElem?_map, Option.map_eq_some_iff]
  constructor
  · rintro ⟨es, ⟨fs, h1, rfl⟩, h2⟩
    obtain ⟨t', h3, h4⟩ := List.mem_map.1 h2
    cases h4
    exact ⟨fs, h1, h3⟩
  · rintro ⟨es, h1, h2⟩
    exact ⟨_, ⟨es, h1, rfl⟩, List.mem_map.2 ⟨t, h2, rfl⟩⟩

theorem plain_edge {g : DFAMin.G T Unit} {v t : Nat} : Succ (plain g) v t ↔ DFAMin.HasEdge g v t () := by
  unfold DFAMin.HasEdge Succ plain
  simp only [List.getElem?_map, Option.map_eq_some_iff]
  constructor
  · rintro ⟨es, ⟨fs, h1, rfl⟩, h2⟩
    obtain ⟨⟨t', u⟩, h3, h4⟩ := List.mem_map.1 h2
    cases h4
    exact ⟨fs, h1, h3⟩
  · rintro ⟨es, h1, h2⟩
    exact ⟨_, ⟨es, h1, rfl⟩, List.mem_map.2 ⟨(t, ()), h2, rfl⟩⟩

/-- Minimisation ends, and the graph and its result simulate each other. -/
theorem minimize_bis [DecidableEq T] {g : Adj.Graph T Nat} (hg : InRange g) : ∃ k g' R, (∀ f, k ≤ f → minimize f g = some g') ∧
    Bis g g' R ∧ g'.nodes.length ≤ g.nodes.length := by
  have hw := weighted_wf hg
  obtain ⟨eq, h1, h2⟩ := DFAMin.minimizeGraph_spec hw
  obtain ⟨k, g', R, h3, h4, h5, h6, h7⟩ := DFAMin.create_bis hw h2 (fun a b => decide (a.1 < b.1))
  have hlen : (plain g').adj.length = g'.adj.length := by simp [plain]
  have hx : ∀ v x, R v x → x < g'.adj.length := by
    intro v x h
    have := h4.lab v x h
    have hv := h4.lt v x h
    have hv : v < (weighted g).nodes.length := by rw [← hw.1]; exact hv
    rw [h6]
    have h8 : g'.nodes[x]? = some (weighted g).nodes[v] := this.trans (List.getElem?_eq_getElem hv)
    exact (List.getElem?_eq_some_iff.1 h8).1
  refine ⟨k, plain g', R, ?_, ⟨⟨?_, ?_, ?_⟩, ?_, h4.lab, ?_, ?_, h4.roots, h4.roots', ?_, h4.fn⟩, ?_⟩
  · intro f hf
    unfold minimize
    rw [h1, Option.bind_some]
    have := h3 f hf
    rw [this]; rfl
  · rw [hlen, h6]; rfl
  · intro t u h
    rw [hlen]
    exact h7 t u () (plain_edge.1 h)
  · intro r hr
    obtain ⟨v, _, h⟩ := h4.roots' r hr
    rw [hlen]; exact hx v r h
  · intro v x h
    have := h4.lt v x h
    exact ⟨by simpa [weighted] using this, by rw [hlen]; exact hx v x h⟩
  · intro v x t h hs
    obtain ⟨y, h8, h9⟩ := h4.forth v x t () h (weighted_edge.2 hs)
    exact ⟨y, plain_edge.2 h8, h9⟩
  · intro v x y h hs
    obtain ⟨t, h8, h9⟩ := h4.back v x y () h (plain_edge.1 hs)
    exact ⟨t, weighted_edge.1 h8, h9⟩
  · intro x hx'
    exact h4.onto x (by rw [hlen, h6] at hx'; exact hx')
  · have := h2.num
    have h8 : (plain g').nodes.length = g'.nodes.length := rfl
    have h9 : Adj.size (weighted g) = g.nodes.length := by simp [Adj.size, weighted, hg.wf]
    omega

theorem leaf_iff {g : Adj.Graph T Nat} {v : Nat} : Leaf g v ↔ v < g.adj.length ∧ ∀ t, ¬ Succ g v t := by
  unfold Leaf Succ
  constructor
  · intro h
    refine ⟨(List.getElem?_eq_some_iff.1 h).1, ?_⟩
    rintro t ⟨es, h1, h2⟩
    rw [h] at h1; cases h1; cases h2
  · rintro ⟨h1, h2⟩
    rw [List.getElem?_eq_getElem h1]
    cases hx : g.adj[v] with
    | nil => rfl
    | cons t es => exact absurd ⟨_, List.getElem?_eq_getElem h1, by rw [hx]; exact .head _⟩ (h2 t)

theorem Bis.leaf {g g' : Adj.Graph T Nat} {R : Nat → Nat → Prop} (h : Bis g g' R) {v x : Nat} (hR : R v x) : Leaf g v ↔ Leaf g' x := by
  rw [leaf_iff, leaf_iff]
  have hl := h.lt v x hR
  constructor
  · rintro ⟨_, h1⟩
    refine ⟨hl.2, fun y hy => ?_⟩
    obtain ⟨t, h2, _⟩ := h.back v x y hR hy
    exact h1 t h2
  · rintro ⟨_, h1⟩
    refine ⟨hl.1, fun t ht => ?_⟩
    obtain ⟨y, h2, _⟩ := h.forth v x t hR ht
    exact h1 y h2

theorem Bis.walk {g g' : Adj.Graph T Nat} {R : Nat → Nat → Prop} (h : Bis g g' R) {v e : Nat} {us : List Nat} (hw : Walk g v us e) :
    ∀ x, R v x → ∃ xs y, Walk g' x xs y ∧ R e y ∧ xs.map (g'.nodes[·]?) = us.map (g.nodes[·]?) := by
  induction hw with
  | @one v hlt =>
    intro x hx
    exact ⟨[x], x, .one (h.lt _ _ hx).2, hx, by simp [h.lab _ _ hx]⟩
  | @cons v t us e hs _ ih =>
    intro x hx
    obtain ⟨y, h1, h2⟩ := h.forth v x t hx hs
    obtain ⟨xs, z, h3, h4, h5⟩ := ih y h2
    exact ⟨x :: xs, z, .cons h1 h3, h4, by simp [h.lab _ _ hx, h5]⟩

theorem Bis.walk' {g g' : Adj.Graph T Nat} {R : Nat → Nat → Prop} (h : Bis g g' R) {x y : Nat} {xs : List Nat} (hw : Walk g' x xs y) :
    ∀ v, R v x → ∃ us e, Walk g v us e ∧ R e y ∧ xs.map (g'.nodes[·]?) = us.map (g.nodes[·]?) := by
  induction hw with
  | @one x hlt =>
    intro v hx
    exact ⟨[v], v, .one (h.lt _ _ hx).1, hx, by simp [h.lab _ _ hx]⟩
  | @cons x y xs z hs _ ih =>
    intro v hx
    obtain ⟨t, h1, h2⟩ := h.back v x y hx hs
    obtain ⟨us, e, h3, h4, h5⟩ := ih t h2
    exact ⟨v :: us, e, .cons h1 h3, h4, by simp [h.lab _ _ hx, h5]⟩

theorem Bis.seqs {g g' : Adj.Graph T Nat} {R : Nat → Nat → Prop} (h : Bis g g' R) (L : List T) : Seqs g' L ↔ Seqs g L := by
  unfold Seqs
  constructor
  · rintro ⟨x, hx, xs, y, hw, hl, hm⟩
    obtain ⟨r, hr, hR⟩ := h.roots' x hx
    obtain ⟨us, e, h1, h2, h3⟩ := h.walk' hw r hR
    exact ⟨r, hr, us, e, h1, (h.leaf h2).2 hl, h3.symm.trans hm⟩
  · rintro ⟨r, hr, us, e, hw, hl, hm⟩
    obtain ⟨x, hx, hR⟩ := h.roots r hr
    obtain ⟨xs, y, h1, h2, h3⟩ := h.walk hw x hR
    exact ⟨x, hx, xs, y, h1, (h.leaf h2).1 hl, h3.trans hm⟩

theorem Bis.acc {g g' : Adj.Graph T Nat} {R : Nat → Nat → Prop} (h : Bis g g' R) {v : Nat} (ha : Acc (fun t v => Succ g v t) v) :
    ∀ x, R v x → Acc (fun t v => Succ g' v t) x := by
  induction ha with
  | intro v _ ih =>
    intro x hx
    refine .intro x fun y hy => ?_
    obtain ⟨t, h1, h2⟩ := h.back v x y hx hy
    exact ih t h1 y h2

/-- In a finite graph without cycles every way ends. -/
theorem acc_of_acyclic {g : Adj.Graph T Nat} (hg : InRange g) (hc : ∀ u, ¬ ReachP g u u) {v : Nat} (hv : v < g.adj.length) :
    Acc (fun t v => Succ g v t) v := by
  have hg' : InRange { g with roots := [v] } := ⟨hg.wf, hg.succ, fun r hr => by cases List.mem_singleton.1 hr; exact hv⟩
  obtain ⟨b, hb⟩ := assertIsDAG_total { g with roots := [v] } hg' (Nat.lt_succ_self _)
  have := assertIsDAG_ok _ hb
  have hr : ∀ a b, Reach { g with roots := [v] } a b → Reach g a b := by
    intro a b h
    induction h with
    | refl => exact .refl _
    | step h _ ih => exact .step h ih
  cases b with
  | true => rw [if_pos rfl] at this; exact this v (.head _)
  | false =>
    rw [if_neg (by nofun)] at this
    obtain ⟨_, _, c, _, ⟨t, h1, h2⟩⟩ := this
    exact absurd ⟨t, h1, hr _ _ h2⟩ (hc c)

theorem Bis.acyclic {g g' : Adj.Graph T Nat} {R : Nat → Nat → Prop} (h : Bis g g' R) (hg : InRange g) (hc : ∀ u, ¬ ReachP g u u) :
    ∀ x, ¬ ReachP g' x x := by
  intro x hx
  have hlt : x < g'.adj.length := by
    obtain ⟨t, ⟨es, h1, _⟩, _⟩ := hx
    exact (List.getElem?_eq_some_iff.1 h1).1
  obtain ⟨v, hv⟩ := h.onto x hlt
  exact acc_no_cycle (h.acc (acc_of_acyclic hg hc (h.lt v x hv).1) x hv) hx

end Phasar.Dag
