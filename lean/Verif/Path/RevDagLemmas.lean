import Verif.Path.Minimize
import Verif.Path.DagInv
import Verif.Path.DagTotal
/-!
# What `reverseDAG` returns
-/
namespace Phasar.Dag
open Phasar

variable {T : Type}

/-! ## Distance from the roots -/

theorem Near.mono {g : Adj.Graph T Nat} {n v : Nat} (h : Near g n v) : ∀ m, n ≤ m → Near g m v := by
  induction h with
  | root h => intro m _; exact .root h
  | step _ hs ih =>
    intro m hm
    obtain ⟨k, rfl⟩ : ∃ k, m = k + 1 := ⟨m - 1, by omega⟩
    exact .step (ih k (by omega)) hs

theorem inside_succ {g : Adj.Graph T Nat} {n v : Nat} : Inside g (n + 1) v ↔ Near g n v :=
  ⟨fun ⟨m, h1, h2⟩ => h2.mono n (by omega), fun h => ⟨n, by omega, h⟩⟩

theorem Inside.near {g : Adj.Graph T Nat} {n v : Nat} (h : Inside g n v) : Near g n v :=
  let ⟨_, h1, h2⟩ := h
  h2.mono _ (Nat.le_of_lt h1)

theorem Inside.step {g : Adj.Graph T Nat} {n v t : Nat} (h : Inside g n v) (hs : Succ g v t) : Near g n t := by
  obtain ⟨m, h1, h2⟩ := h
  exact (Near.step h2 hs).mono n h1

theorem near_succ {g : Adj.Graph T Nat} {n v : Nat} :
    Near g (n + 1) v ↔ Near g n v ∨ ∃ a, (Near g n a ∧ ¬ Inside g n a) ∧ Succ g a v := by
  constructor
  · intro h
    cases h with
    | root h => exact .inl (.root h)
    | @step _ a _ h hs =>
      by_cases hi : Inside g n a
      · exact .inl (hi.step hs)
      · exact .inr ⟨a, ⟨h, hi⟩, hs⟩
  · rintro (h | ⟨a, ⟨h, _⟩, hs⟩)
    · exact h.mono _ (by omega)
    · exact .step h hs

/-! ## The state of the loop -/

/-- The vertex made for `v`. -/
def RSt.im (s : RSt T) (v : Nat) : Option Nat := (s.cache[v]?).join

/-- Between two steps: `K` was known before this level, `Q` has vertices, `P` has edges, `F` are roots. -/
structure RInv (g : Adj.Graph T Nat) (K Q : Nat → Prop) (P : Nat → Nat → Prop) (F : Nat → Prop) (s : RSt T) : Prop where
  len : s.cache.length = g.adj.length
  wf : s.ret.adj.length = s.ret.nodes.length
  cap : s.ins.length ≤ DFAMin.cnt s.cache
  lt : ∀ v x, s.im v = some x → x < s.ret.adj.length
  inj : ∀ u v x, s.im u = some x → s.im v = some x → u = v
  lab : ∀ v x, s.im v = some x → s.ret.nodes[x]? = g.nodes[v]?
  onto : ∀ x, x < s.ret.adj.length → ∃ v, s.im v = some x
  edge : ∀ x y, Succ s.ret x y ↔ ∃ a b, P a b ∧ s.im b = some x ∧ s.im a = some y
  root : ∀ x, x ∈ s.ret.roots ↔ ∃ v, F v ∧ s.im v = some x
  all : ∀ v, (∃ x, s.im v = some x) ↔ Q v
  pdom : ∀ a b, P a b → Q a ∧ Q b
  fdom : ∀ v, F v → Q v
  kq : ∀ v, K v → Q v
  ins : ∀ v x, (v, x) ∈ s.ins ↔ s.im v = some x ∧ ¬ K v

theorem RInv.congr {g : Adj.Graph T Nat} {K Q : Nat → Prop} {P : Nat → Nat → Prop} {F : Nat → Prop} {s : RSt T}
    {K' Q' : Nat → Prop} {P' : Nat → Nat → Prop} {F' : Nat → Prop} (h : RInv g K Q P F s)
    (hK : ∀ v, K v ↔ K' v) (hQ : ∀ v, Q v ↔ Q' v) (hP : ∀ a b, P a b ↔ P' a b) (hF : ∀ v, F v ↔ F' v) : RInv g K' Q' P' F' s := by
  have e1 : K = K' := funext fun v => propext (hK v)
  have e2 : Q = Q' := funext fun v => propext (hQ v)
  have e3 : P = P' := funext fun a => funext fun b => propext (hP a b)
  have e4 : F = F' := funext fun v => propext (hF v)
  subst e1; subst e2; subst e3; subst e4; exact h

theorem succ_addNode {g : Adj.Graph T Nat} {a : T} {x y : Nat} : Succ (Adj.addNode g a).1 x y ↔ Succ g x y := by
  unfold Succ Adj.addNode
  dsimp only
  constructor
  · rintro ⟨es, h1, h2⟩
    rw [List.getElem?_append] at h1
    split at h1
    · exact ⟨es, h1, h2⟩
    · obtain ⟨_, h⟩ := List.getElem?_eq_some_iff.1 h1
      simp at h; subst h; cases h2
  · rintro ⟨es, h1, h2⟩
    exact ⟨es, by rw [List.getElem?_append_left (List.getElem?_eq_some_iff.1 h1).1]; exact h1, h2⟩

theorem succ_addEdge {g g' : Adj.Graph T Nat} {v u : Nat} (h : Adj.addEdge g v u = some g') (x y : Nat) :
    Succ g' x y ↔ Succ g x y ∨ (x = v ∧ y = u) := by
  obtain ⟨es, h1, rfl⟩ := addEdge_some h
  unfold Succ
  dsimp only
  have hlt := (List.getElem?_eq_some_iff.1 h1).1
  by_cases hx : x = v
  · subst hx
    rw [List.getElem?_set_self hlt]
    constructor
    · rintro ⟨_, h2, h3⟩
      cases h2
      rcases List.mem_append.1 h3 with h | h
      · exact .inl ⟨_, h1, h⟩
      · exact .inr ⟨rfl, List.mem_singleton.1 h⟩
    · rintro (⟨_, h2, h3⟩ | ⟨_, rfl⟩)
      · rw [h1] at h2; cases h2
        exact ⟨_, rfl, List.mem_append_left _ h3⟩
      · exact ⟨_, rfl, List.mem_append_right _ (.head _)⟩
  · rw [List.getElem?_set_ne (fun h => hx h.symm)]
    constructor
    · exact .inl
    · rintro (h | ⟨h, _⟩)
      · exact h
      · exact absurd h hx

theorem vertexFor_ok {g : Adj.Graph T Nat} (hg : InRange g) {K Q : Nat → Prop} {P : Nat → Nat → Prop} {F : Nat → Prop} {s : RSt T}
    (h : RInv g K Q P F s) {v : Nat} (hv : v < g.adj.length) :
    ∃ s' x, s.vertexFor g id v = some (s', x) ∧ s'.im v = some x ∧ RInv g K (fun u => Q u ∨ u = v) P F s' ∧
      ∀ u y, s.im u = some y → s'.im u = some y := by
  have hc : v < s.cache.length := by rw [h.len]; exact hv
  unfold RSt.vertexFor
  rw [id, List.getElem?_eq_getElem hc, Option.bind_some]
  cases hx : s.cache[v] with
  | some x =>
    have him : s.im v = some x := by unfold RSt.im; rw [List.getElem?_eq_getElem hc, hx]; rfl
    refine ⟨s, x, rfl, him, h.congr (fun _ => .rfl) (fun u => ?_) (fun _ _ => .rfl) (fun _ => .rfl), fun _ _ h => h⟩
    exact ⟨.inl, fun hu => hu.elim (fun h => h) fun hu => hu ▸ (h.all v).1 ⟨x, him⟩⟩
  | none =>
    have hnone : s.cache[v]? = some none := by rw [List.getElem?_eq_getElem hc, hx]
    have hvn : v < g.nodes.length := by rw [← hg.wf]; exact hv
    have hnode : Adj.node g v = some g.nodes[v] := List.getElem?_eq_getElem hvn
    have hcnt := DFAMin.cnt_set s.ret.nodes.length hnone
    have hle : DFAMin.cnt (s.cache.set v (some s.ret.nodes.length)) ≤ s.cache.length := by
      have := DFAMin.cnt_le (s.cache.set v (some s.ret.nodes.length)); simpa using this
    have hcap := h.cap
    dsimp only
    rw [hnode, Option.bind_some, if_pos (by omega)]
    have e2 : (Adj.addNode s.ret g.nodes[v]).2 = s.ret.nodes.length := by
      unfold Adj.addNode; rfl
    have hme : s.im v = none := by unfold RSt.im; rw [hnone]; rfl
    refine ⟨_, _, rfl, ?_⟩
    rw [e2]
    have himv : ∀ u, RSt.im ⟨(Adj.addNode s.ret g.nodes[v]).1, s.cache.set v (some s.ret.nodes.length),
        s.ins ++ [(v, s.ret.nodes.length)]⟩ u = if u = v then some s.ret.nodes.length else s.im u := by
      intro u
      unfold RSt.im
      dsimp only
      by_cases hu : u = v
      · subst hu; rw [if_pos rfl, List.getElem?_set_self hc]; rfl
      · rw [if_neg hu, List.getElem?_set_ne (fun h => hu h.symm)]
    have hkeep : ∀ u y, s.im u = some y → u ≠ v := by
      rintro u y hy rfl; rw [hme] at hy; cases hy
    have hnq : ¬ Q v := fun hq => by obtain ⟨x, hx⟩ := (h.all v).2 hq; rw [hme] at hx; cases hx
    have hne : ∀ u, Q u → u ≠ v := fun u hu e => hnq (e ▸ hu)
    have hnew : ∀ u, s.im u ≠ some s.ret.nodes.length := fun u hu => by
      have := h.lt u _ hu; rw [h.wf] at this; omega
    refine ⟨by rw [himv, if_pos rfl], ⟨by simpa using h.len, by simp [Adj.addNode, h.wf], ?_, ?_, ?_, ?_, ?_, ?_, ?_, ?_, ?_, ?_, ?_, ?_⟩, ?_⟩
    · simp only [List.length_append, List.length_singleton]; omega
    · intro u x hu
      rw [himv] at hu
      simp only [Adj.addNode, List.length_append, List.length_singleton]
      split at hu
      · cases hu; rw [h.wf]; omega
      · have := h.lt u x hu; omega
    · intro u w x hu hw
      rw [himv] at hu hw
      split at hu <;> split at hw
      · simp_all
      · cases hu; exact absurd hw (hnew w)
      · cases hw; exact absurd hu (hnew u)
      · exact h.inj u w x hu hw
    · intro u x hu
      rw [himv] at hu
      simp only [Adj.addNode]
      split at hu
      · rename_i e; cases hu; subst e; simp [hvn]
      · have := h.lt u x hu
        rw [List.getElem?_append_left (by rw [← h.wf]; exact this)]
        exact h.lab u x hu
    · intro x hx
      simp only [Adj.addNode, List.length_append, List.length_singleton] at hx
      by_cases hx' : x = s.ret.nodes.length
      · exact ⟨v, by rw [himv, if_pos rfl, hx']⟩
      · obtain ⟨u, hu⟩ := h.onto x (by rw [h.wf] at hx ⊢; omega)
        exact ⟨u, by rw [himv, if_neg (hkeep u x hu)]; exact hu⟩
    · intro x y
      rw [succ_addNode, h.edge]
      constructor
      · rintro ⟨a, b, hp, hb, ha⟩
        exact ⟨a, b, hp, by rw [himv, if_neg (hkeep b x hb)]; exact hb, by rw [himv, if_neg (hkeep a y ha)]; exact ha⟩
      · rintro ⟨a, b, hp, hb, ha⟩
        rw [himv, if_neg (hne _ (h.pdom a b hp).2)] at hb
        rw [himv, if_neg (hne _ (h.pdom a b hp).1)] at ha
        exact ⟨a, b, hp, hb, ha⟩
    · intro x
      show x ∈ s.ret.roots ↔ _
      rw [h.root]
      constructor
      · rintro ⟨u, hu, hx⟩
        exact ⟨u, hu, by rw [himv, if_neg (hkeep u x hx)]; exact hx⟩
      · rintro ⟨u, hu, hx⟩
        rw [himv, if_neg (hne u (h.fdom u hu))] at hx
        exact ⟨u, hu, hx⟩
    · intro u
      rw [himv]
      split
      · rename_i e; exact ⟨fun _ => .inr e, fun _ => ⟨_, rfl⟩⟩
      · rename_i e; rw [h.all]; exact ⟨.inl, fun hu => hu.resolve_right e⟩
    · exact fun a b hp => ⟨.inl (h.pdom a b hp).1, .inl (h.pdom a b hp).2⟩
    · exact fun u hu => .inl (h.fdom u hu)
    · exact fun u hu => .inl (h.kq u hu)
    · intro u x
      rw [himv, List.mem_append, List.mem_singleton, h.ins]
      split
      · rename_i e; subst e
        constructor
        · rintro (⟨h1, _⟩ | h1)
          · rw [hme] at h1; cases h1
          · cases h1; exact ⟨rfl, fun hk => hnq (h.kq _ hk)⟩
        · rintro ⟨h1, _⟩; cases h1; exact .inr rfl
      · rename_i e
        constructor
        · rintro (h1 | h1)
          · exact h1
          · cases h1; exact absurd rfl e
        · exact .inl
    · intro u y hy
      rw [himv, if_neg (hkeep u y hy)]; exact hy

theorem edge_ok {g : Adj.Graph T Nat} (hg : InRange g) {K Q : Nat → Prop} {P : Nat → Nat → Prop} {F : Nat → Prop} {s : RSt T}
    (h : RInv g K Q P F s) {a c rev : Nat} (ha : s.im a = some rev) (hc : c < g.adj.length) :
    ∃ s', RSt.edge g id rev s c = some s' ∧
      RInv g K (fun u => Q u ∨ u = c) (fun u w => P u w ∨ (u = a ∧ w = c)) F s' ∧
      ∀ u y, s.im u = some y → s'.im u = some y := by
  obtain ⟨s', x, h1, h2, h3, h4⟩ := vertexFor_ok hg h hc
  obtain ⟨r, hr⟩ := addEdge_total rev (h3.lt c x h2)
  refine ⟨{ s' with ret := r }, by unfold RSt.edge; rw [h1, Option.bind_some, hr]; rfl, ?_, h4⟩
  have hra := h4 a rev ha
  obtain ⟨es, he, hr'⟩ := addEdge_some hr
  have hl : r.adj.length = s'.ret.adj.length := by rw [hr']; simp
  have hn : r.nodes = s'.ret.nodes := by rw [hr']
  have hroots : r.roots = s'.ret.roots := by rw [hr']
  refine ⟨h3.len, by show r.adj.length = r.nodes.length; rw [hl, hn]; exact h3.wf, h3.cap, fun v x hx => ?_, h3.inj, fun v x hx => ?_,
    fun x hx => ?_, fun x' y => ?_, fun x => ?_, h3.all, ?_, h3.fdom, h3.kq, h3.ins⟩
  · show x < r.adj.length; rw [hl]; exact h3.lt v x hx
  · show r.nodes[x]? = _; rw [hn]; exact h3.lab v x hx
  · exact h3.onto x (by rw [← hl]; exact hx)
  · show Succ r x' y ↔ _
    rw [succ_addEdge hr, h3.edge]
    constructor
    · rintro (⟨u, w, hp, hb, hu⟩ | ⟨rfl, rfl⟩)
      · exact ⟨u, w, .inl hp, hb, hu⟩
      · exact ⟨a, c, .inr ⟨rfl, rfl⟩, h2, hra⟩
    · rintro ⟨u, w, hp | ⟨rfl, rfl⟩, hb, hu⟩
      · exact .inl ⟨u, w, hp, hb, hu⟩
      · refine .inr ⟨?_, ?_⟩
        · have hb : s'.im w = some x' := hb
          rw [h2] at hb; exact (Option.some.inj hb).symm
        · have hu : s'.im u = some y := hu
          rw [hra] at hu; exact (Option.some.inj hu).symm
  · show x ∈ r.roots ↔ _
    rw [hroots]; exact h3.root x
  · rintro u w (hp | ⟨rfl, rfl⟩)
    · exact h3.pdom u w hp
    · exact ⟨(h3.all u).1 ⟨_, hra⟩, .inr rfl⟩

theorem redges_ok {g : Adj.Graph T Nat} (hg : InRange g) {K : Nat → Prop} {F : Nat → Prop} {a rev : Nat} :
    ∀ (es : List Nat) (Q : Nat → Prop) (P : Nat → Nat → Prop) (s : RSt T), RInv g K Q P F s → s.im a = some rev →
      (∀ c ∈ es, c < g.adj.length) → ∃ s', es.foldlM (RSt.edge g id rev) s = some s' ∧
      RInv g K (fun u => Q u ∨ u ∈ es) (fun u w => P u w ∨ (u = a ∧ w ∈ es)) F s' ∧
      ∀ u y, s.im u = some y → s'.im u = some y := by
  intro es
  induction es with
  | nil =>
    intro Q P s h _ _
    exact ⟨s, rfl, h.congr (fun _ => .rfl) (fun u => by simp) (fun u w => by simp) (fun _ => .rfl), fun _ _ h => h⟩
  | cons c es ih =>
    intro Q P s h ha hes
    obtain ⟨s1, h1, h2, h3⟩ := edge_ok hg h ha (hes c (.head _))
    obtain ⟨s2, g1, g2, g3⟩ := ih _ _ s1 h2 (h3 _ _ ha) fun c hc => hes c (.tail _ hc)
    refine ⟨s2, by rw [List.foldlM_cons, h1]; exact g1, g2.congr (fun _ => .rfl) (fun u => ?_) (fun u w => ?_) (fun _ => .rfl),
      fun u y hy => g3 u y (h3 u y hy)⟩
    · rw [List.mem_cons, or_assoc]
    · rw [List.mem_cons, or_assoc, ← and_or_left]

theorem expand_ok {g : Adj.Graph T Nat} (hg : InRange g) {K Q : Nat → Prop} {P : Nat → Nat → Prop} {F : Nat → Prop} {s : RSt T}
    (h : RInv g K Q P F s) {a rev : Nat} (ha : s.im a = some rev) :
    ∃ s', RSt.expand g id s (a, rev) = some s' ∧
      RInv g K (fun u => Q u ∨ Succ g a u) (fun u w => P u w ∨ (u = a ∧ Succ g a w)) (fun u => F u ∨ (u = a ∧ Leaf g a)) s' ∧
      ∀ u y, s.im u = some y → s'.im u = some y := by
  have hlt : a < g.adj.length := by
    rw [← h.len]
    cases hc : s.cache[a]? with
    | none => unfold RSt.im at ha; rw [hc] at ha; cases ha
    | some _ => exact (List.getElem?_eq_some_iff.1 hc).1
  have hes : g.adj[a]? = some g.adj[a] := List.getElem?_eq_getElem hlt
  have hsucc : ∀ u, Succ g a u ↔ u ∈ g.adj[a] := fun u =>
    ⟨fun ⟨es, h1, h2⟩ => by rw [hes] at h1; cases h1; exact h2, fun h => ⟨_, hes, h⟩⟩
  obtain ⟨s1, h1, h2, h3⟩ := redges_ok hg g.adj[a] Q P s h ha fun c hc => hg.succ a c ((hsucc c).2 hc)
  have h2 : RInv g K (fun u => Q u ∨ Succ g a u) (fun u w => P u w ∨ (u = a ∧ Succ g a w)) F s1 :=
    h2.congr (fun _ => .rfl) (fun u => by rw [hsucc]) (fun u w => by rw [hsucc]) (fun _ => .rfl)
  unfold RSt.expand
  rw [show Adj.outEdges g a = some g.adj[a] from hes, Option.bind_some, h1, Option.bind_some]
  split
  · rename_i hz
    have hz : g.adj[a] = [] := List.length_eq_zero_iff.1 hz
    have hr := h2.lt a rev (h3 _ _ ha)
    have hadd : Adj.addRoot s1.ret rev = some { s1.ret with roots := s1.ret.roots ++ [rev] } := by
      unfold Adj.addRoot; rw [if_pos hr]
    refine ⟨{ s1 with ret := { s1.ret with roots := s1.ret.roots ++ [rev] } }, by rw [hadd]; rfl, ?_, h3⟩
    refine ⟨h2.len, h2.wf, h2.cap, h2.lt, h2.inj, h2.lab, h2.onto, h2.edge, fun x => ?_, h2.all, h2.pdom, ?_, h2.kq, h2.ins⟩
    · show x ∈ s1.ret.roots ++ [rev] ↔ _
      rw [List.mem_append, h2.root, List.mem_singleton]
      constructor
      · rintro (⟨v, hv, hx⟩ | rfl)
        · exact ⟨v, .inl hv, hx⟩
        · exact ⟨a, .inr ⟨rfl, by unfold Leaf; rw [hes, hz]⟩, h3 _ _ ha⟩
      · rintro ⟨v, hv | ⟨rfl, _⟩, hx⟩
        · exact .inl ⟨v, hv, hx⟩
        · have hx : s1.im v = some x := hx
          rw [h3 _ _ ha] at hx; exact .inr (Option.some.inj hx).symm
    · rintro u (hu | ⟨rfl, _⟩)
      · exact h2.fdom u hu
      · exact (h2.all u).1 ⟨_, h3 _ _ ha⟩
  · rename_i hz
    refine ⟨_, rfl, h2.congr (fun _ => .rfl) (fun _ => .rfl) (fun _ _ => .rfl) (fun u => ?_), h3⟩
    refine ⟨.inl, fun hu => hu.resolve_right fun ⟨_, hl⟩ => hz ?_⟩
    unfold Leaf at hl
    rw [hes] at hl
    rw [Option.some.inj hl]; rfl

theorem level_ok {g : Adj.Graph T Nat} (hg : InRange g) {K : Nat → Prop} :
    ∀ (wl : List (Nat × Nat)) (Q : Nat → Prop) (P : Nat → Nat → Prop) (F : Nat → Prop) (s : RSt T), RInv g K Q P F s →
      (∀ p ∈ wl, s.im p.1 = some p.2) → ∃ s', wl.foldlM (RSt.expand g id) s = some s' ∧
      RInv g K (fun u => Q u ∨ ∃ p ∈ wl, Succ g p.1 u) (fun u w => P u w ∨ ((∃ p ∈ wl, u = p.1) ∧ Succ g u w))
        (fun u => F u ∨ ((∃ p ∈ wl, u = p.1) ∧ Leaf g u)) s' := by
  intro wl
  induction wl with
  | nil =>
    intro Q P F s h _
    exact ⟨s, rfl, h.congr (fun _ => .rfl) (fun u => by simp) (fun u w => by simp) (fun _ => by simp)⟩
  | cons p wl ih =>
    intro Q P F s h hwl
    obtain ⟨a, rev⟩ := p
    obtain ⟨s1, h1, h2, h3⟩ := expand_ok hg h (hwl _ (.head _))
    obtain ⟨s2, g1, g2⟩ := ih _ _ _ s1 h2 fun p hp => h3 _ _ (hwl p (.tail _ hp))
    refine ⟨s2, by rw [List.foldlM_cons, h1]; exact g1, g2.congr (fun _ => .rfl) (fun u => ?_) (fun u w => ?_) (fun u => ?_)⟩
    · constructor
      · rintro ((hq | hs) | ⟨p, hp, hs⟩)
        · exact .inl hq
        · exact .inr ⟨_, .head _, hs⟩
        · exact .inr ⟨p, .tail _ hp, hs⟩
      · rintro (hq | ⟨p, hp, hs⟩)
        · exact .inl (.inl hq)
        · rcases List.mem_cons.1 hp with rfl | hp
          · exact .inl (.inr hs)
          · exact .inr ⟨p, hp, hs⟩
    · constructor
      · rintro ((hq | ⟨rfl, hs⟩) | ⟨⟨p, hp, e⟩, hs⟩)
        · exact .inl hq
        · exact .inr ⟨⟨_, .head _, rfl⟩, hs⟩
        · exact .inr ⟨⟨p, .tail _ hp, e⟩, hs⟩
      · rintro (hq | ⟨⟨p, hp, e⟩, hs⟩)
        · exact .inl (.inl hq)
        · rcases List.mem_cons.1 hp with rfl | hp
          · subst e; exact .inl (.inr ⟨rfl, hs⟩)
          · exact .inr ⟨⟨p, hp, e⟩, hs⟩
    · constructor
      · rintro ((hq | ⟨rfl, hs⟩) | ⟨⟨p, hp, e⟩, hs⟩)
        · exact .inl hq
        · exact .inr ⟨⟨_, .head _, rfl⟩, hs⟩
        · exact .inr ⟨⟨p, .tail _ hp, e⟩, hs⟩
      · rintro (hq | ⟨⟨p, hp, e⟩, hs⟩)
        · exact .inl (.inl hq)
        · rcases List.mem_cons.1 hp with rfl | hp
          · subst e; exact .inl (.inr ⟨rfl, hs⟩)
          · exact .inr ⟨⟨p, hp, e⟩, hs⟩

/-- After so many levels. -/
def RLevel (g : Adj.Graph T Nat) (i : Nat) (s : RSt T) : Prop :=
  RInv g (Inside g i) (Near g i) (fun a b => Inside g i a ∧ Succ g a b) (fun v => Inside g i v ∧ Leaf g v) s

theorem RLevel.next {g : Adj.Graph T Nat} (hg : InRange g) {i : Nat} {s : RSt T} (h : RLevel g i s) :
    ∃ s', s.ins.foldlM (RSt.expand g id) { s with ins := [] } = some s' ∧ RLevel g (i + 1) s' := by
  have h' : RInv g (Near g i) (Near g i) (fun a b => Inside g i a ∧ Succ g a b) (fun v => Inside g i v ∧ Leaf g v)
      { s with ins := [] } :=
    ⟨h.len, h.wf, Nat.zero_le _, h.lt, h.inj, h.lab, h.onto, h.edge, h.root, h.all, h.pdom, h.fdom, fun _ h => h,
      fun v x => ⟨(by nofun), fun ⟨h1, h2⟩ => absurd ((h.all v).1 ⟨x, h1⟩) h2⟩⟩
  obtain ⟨s', h1, h2⟩ := level_ok hg s.ins _ _ _ _ h' fun p hp => ((h.ins p.1 p.2).1 hp).1
  have hm : ∀ u, (∃ p ∈ s.ins, u = p.1) ↔ Near g i u ∧ ¬ Inside g i u := by
    intro u
    constructor
    · rintro ⟨p, hp, rfl⟩
      obtain ⟨g1, g2⟩ := (h.ins p.1 p.2).1 hp
      exact ⟨(h.all p.1).1 ⟨p.2, g1⟩, g2⟩
    · rintro ⟨g1, g2⟩
      obtain ⟨x, hx⟩ := (h.all u).2 g1
      exact ⟨(u, x), (h.ins u x).2 ⟨hx, g2⟩, rfl⟩
  have hin : ∀ u, Inside g (i + 1) u ↔ Inside g i u ∨ (Near g i u ∧ ¬ Inside g i u) := by
    intro u
    rw [inside_succ]
    by_cases hu : Inside g i u
    · exact ⟨fun _ => .inl hu, fun _ => hu.near⟩
    · exact ⟨fun h => .inr ⟨h, hu⟩, fun h => h.elim (fun h => absurd h hu) (·.1)⟩
  refine ⟨s', h1, h2.congr (fun u => inside_succ.symm) (fun u => ?_) (fun u w => ?_) (fun u => ?_)⟩
  · rw [near_succ]
    refine or_congr_right ⟨?_, ?_⟩
    · rintro ⟨p, hp, hs⟩
      exact ⟨p.1, (hm p.1).1 ⟨p, hp, rfl⟩, hs⟩
    · rintro ⟨a, ha, hs⟩
      obtain ⟨p, hp, rfl⟩ := (hm a).2 ha
      exact ⟨p, hp, hs⟩
  · rw [hm, hin, or_and_right]
  · rw [hm, hin, or_and_right]

theorem RLevel.stop {g : Adj.Graph T Nat} {i : Nat} {s : RSt T} (h : RLevel g i s) (he : s.ins = []) : RLevel g (i + 1) s := by
  have hno : ∀ u, Near g i u → Inside g i u := by
    intro u hu
    obtain ⟨x, hx⟩ := (h.all u).2 hu
    refine Classical.byContradiction fun hn => ?_
    have := (h.ins u x).2 ⟨hx, hn⟩
    rw [he] at this; cases this
  have hin : ∀ u, Inside g i u ↔ Inside g (i + 1) u := fun u => by
    rw [inside_succ]; exact ⟨Inside.near, hno u⟩
  refine h.congr hin (fun u => ?_) (fun u w => by rw [hin]) (fun u => by rw [hin])
  rw [near_succ]
  exact ⟨.inl, fun h => h.elim (fun h => h) fun ⟨a, ⟨h1, h2⟩, _⟩ => absurd (hno a h1) h2⟩

theorem levels_ok {g : Adj.Graph T Nat} (hg : InRange g) : ∀ (n i : Nat) (s : RSt T), RLevel g i s →
    ∃ s', RSt.levels g id n s.ins s = some (s', s'.ins) ∧ RLevel g (i + n) s' := by
  intro n
  induction n with
  | zero => intro i s h; exact ⟨s, rfl, h⟩
  | succ n ih =>
    intro i s h
    unfold RSt.levels
    split
    · rename_i he
      refine ⟨s, rfl, ?_⟩
      have : ∀ k, RLevel g (i + k) s := by
        intro k
        induction k with
        | zero => exact h
        | succ k ih => exact ih.stop he
      exact this (n + 1)
    · obtain ⟨s1, h1, h2⟩ := h.next hg
      obtain ⟨s2, h3, h4⟩ := ih (i + 1) s1 h2
      exact ⟨s2, by rw [h1]; exact h3, by rw [show i + (n + 1) = i + 1 + n by omega]; exact h4⟩

theorem rroots_ok {g : Adj.Graph T Nat} (hg : InRange g) : ∀ (rs : List Nat) (Q : Nat → Prop) (s : RSt T),
    RInv g (fun _ => False) Q (fun _ _ => False) (fun _ => False) s → (∀ r ∈ rs, r < g.adj.length) →
    ∃ s', rs.foldlM (fun (s : RSt T) r => (s.vertexFor g id r).map (·.1)) s = some s' ∧
      RInv g (fun _ => False) (fun u => Q u ∨ u ∈ rs) (fun _ _ => False) (fun _ => False) s' := by
  intro rs
  induction rs with
  | nil => intro Q s h _; exact ⟨s, rfl, h.congr (fun _ => .rfl) (fun u => by simp) (fun _ _ => .rfl) (fun _ => .rfl)⟩
  | cons r rs ih =>
    intro Q s h hr
    obtain ⟨s1, x, h1, _, h2, _⟩ := vertexFor_ok hg h (hr r (.head _))
    obtain ⟨s2, g1, g2⟩ := ih _ s1 h2 fun r h => hr r (.tail _ h)
    refine ⟨s2, by rw [List.foldlM_cons, h1]; exact g1, g2.congr (fun _ => .rfl) (fun u => ?_) (fun _ _ => .rfl) (fun _ => .rfl)⟩
    rw [List.mem_cons, or_assoc]

theorem addRoots_ok : ∀ (l : List (Nat × Nat)) (r : Adj.Graph T Nat), (∀ p ∈ l, p.2 < r.adj.length) →
    l.foldlM (fun r e => Adj.addRoot r e.2) r = some { r with roots := r.roots ++ l.map (·.2) } := by
  intro l
  induction l with
  | nil => intro r _; simp
  | cons p l ih =>
    intro r h
    have hp : Adj.addRoot r p.2 = some { r with roots := r.roots ++ [p.2] } := by
      unfold Adj.addRoot; rw [if_pos (h p (.head _))]
    rw [List.foldlM_cons, hp]
    refine (ih { r with roots := r.roots ++ [p.2] } fun q hq => h q (.tail _ hq)).trans ?_
    simp

/-- The graph that `reverseDAG` returns: `I v x` relates the vertices of the two. -/
structure RGraph (g : Adj.Graph T Nat) (d : Nat) (r : Adj.Graph T Nat) (I : Nat → Option Nat) : Prop where
  wf : r.adj.length = r.nodes.length
  lt : ∀ v x, I v = some x → x < r.adj.length
  inj : ∀ u v x, I u = some x → I v = some x → u = v
  lab : ∀ v x, I v = some x → r.nodes[x]? = g.nodes[v]?
  onto : ∀ x, x < r.adj.length → ∃ v, I v = some x
  all : ∀ v, (∃ x, I v = some x) ↔ Near g d v
  edge : ∀ x y, Succ r x y ↔ ∃ a b, (Inside g d a ∧ Succ g a b) ∧ I b = some x ∧ I a = some y
  root : ∀ x, x ∈ r.roots ↔ ∃ v, ((Inside g d v ∧ Leaf g v) ∨ (Near g d v ∧ ¬ Inside g d v)) ∧ I v = some x

theorem reverseDAG_ok {g : Adj.Graph T Nat} (hg : InRange g) (d : Nat) :
    ∃ r I, reverseDAG g id g.adj.length d = some r ∧ RGraph g d r I := by
  have h0 : RInv g (fun _ => False) (fun _ => False) (fun _ _ => False) (fun _ => False)
      (⟨Adj.empty, List.replicate g.adj.length none, []⟩ : RSt T) := by
    have him : ∀ v x, RSt.im (⟨Adj.empty, List.replicate g.adj.length none, []⟩ : RSt T) v ≠ some x := by
      intro v x h
      unfold RSt.im at h
      rw [List.getElem?_replicate] at h
      split at h <;> cases h
    refine ⟨by simp, rfl, Nat.zero_le _, fun v x h => absurd h (him v x), fun u v x h => absurd h (him u x),
      fun v x h => absurd h (him v x), (by nofun), fun x y => ⟨?_, ?_⟩, fun x => ⟨(by nofun), (by rintro ⟨_, h, _⟩; cases h)⟩,
      fun v => ⟨fun ⟨x, h⟩ => him v x h, (by nofun)⟩, (by nofun), (by nofun), (by nofun), fun v x => ⟨(by nofun), fun h => absurd h.1 (him v x)⟩⟩
    · rintro ⟨es, h, _⟩; simp [Adj.empty] at h
    · rintro ⟨_, _, h, _⟩; cases h
  obtain ⟨s, h1, h2⟩ := rroots_ok hg g.roots _ _ h0 hg.roots
  have hin0 : ∀ v, ¬ Inside g 0 v := fun v ⟨n, hn, _⟩ => by omega
  have h3 : RLevel g 0 s := h2.congr (fun v => ⟨False.elim, hin0 v⟩)
    (fun v => ⟨fun h => h.elim False.elim .root, fun h => by cases h with | root h => exact .inr h⟩)
    (fun a b => ⟨False.elim, fun h => hin0 a h.1⟩) (fun v => ⟨False.elim, fun h => hin0 v h.1⟩)
  obtain ⟨s', h4, h5⟩ := levels_ok hg d 0 s h3
  rw [Nat.zero_add] at h5
  have h6 := addRoots_ok s'.ins s'.ret fun p hp => h5.lt p.1 p.2 ((h5.ins p.1 p.2).1 hp).1
  refine ⟨_, s'.im, by unfold reverseDAG; rw [h1, Option.bind_some, h4, Option.bind_some]; exact h6, ?_⟩
  refine ⟨h5.wf, h5.lt, h5.inj, h5.lab, h5.onto, h5.all, h5.edge, fun x => ?_⟩
  show x ∈ s'.ret.roots ++ s'.ins.map (·.2) ↔ _
  rw [List.mem_append, h5.root, List.mem_map]
  constructor
  · rintro (⟨v, hv, hx⟩ | ⟨⟨v, y⟩, hp, rfl⟩)
    · exact ⟨v, .inl hv, hx⟩
    · obtain ⟨g1, g2⟩ := (h5.ins v y).1 hp
      exact ⟨v, .inr ⟨(h5.all v).1 ⟨y, g1⟩, g2⟩, g1⟩
  · rintro ⟨v, hv | ⟨_, hv⟩, hx⟩
    · exact .inl ⟨v, hv, hx⟩
    · exact .inr ⟨(v, x), (h5.ins v x).2 ⟨hx, hv⟩, rfl⟩

end Phasar.Dag
