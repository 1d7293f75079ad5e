import Verif.Util.DFAMin
/-!
# Lemmas on `minimizeGraph` and `createEquivalentGraphFrom`
-/
set_option linter.unusedSectionVars false
namespace Phasar.DFAMin
open Phasar.Adj

variable {T W : Type} [DecidableEq T] [DecidableEq W]

/-! ### `minimizeGraph` computes a bisimulation -/

/-- Edges with the same weight and equivalent targets. -/
def ER (eq : List Nat) (e f : Nat × W) : Prop := e.2 = f.2 ∧ eq[e.1]? = eq[f.1]?

/-- `v` can do what `u` can, up to the equivalence. -/
def Sim (g : G T W) (eq : List Nat) (u v : Nat) : Prop :=
  node g u = node g v ∧ ∀ es, outEdges g u = some es → ∀ e, e ∈ es →
    ∃ fs f, outEdges g v = some fs ∧ f ∈ fs ∧ ER eq e f

/-- The invariant of the equivalence. -/
structure EqI (g : G T W) (eq : List Nat) : Prop where
  len : eq.length = size g
  lead : ∀ (v x : Nat), eq[v]? = some x → eq[x]? = some x
  bis : ∀ u v, u < size g → v < size g → eq[u]? = eq[v]? → Sim g eq u v

theorem edgeEquiv_true {eq : List Nat} {a b : Nat × W} (h : edgeEquiv eq a b = some true) : ER eq a b := by
  unfold edgeEquiv at h
  split at h
  · cases h
  · rename_i h1
    refine ⟨Classical.not_not.1 h1, ?_⟩
    split at h
    · rename_i h2; rw [h2]
    · split at h
      · rename_i x y hx hy
        simp at h
        rw [hx, hy, h]
      · cases h

theorem edgeEquiv_some {eq : List Nat} {a b : Nat × W} (ha : a.1 < eq.length) (hb : b.1 < eq.length) :
    ∃ r, edgeEquiv eq a b = some r := by
  unfold edgeEquiv
  rw [List.getElem?_eq_getElem ha, List.getElem?_eq_getElem hb]
  split
  · exact ⟨_, rfl⟩
  · split
    · exact ⟨_, rfl⟩
    · exact ⟨_, rfl⟩

theorem zipEquiv_true {eq : List Nat} : ∀ {ls rs : List (Nat × W)}, zipEquiv eq ls rs = some true →
    ls.length = rs.length → (∀ e, e ∈ ls → ∃ f, f ∈ rs ∧ ER eq e f) ∧ (∀ f, f ∈ rs → ∃ e, e ∈ ls ∧ ER eq e f)
  | [], [], _, _ => ⟨fun _ h => (by cases h), fun _ h => (by cases h)⟩
  | [], _ :: _, _, h => (by simp at h)
  | _ :: _, [], _, h => (by simp at h)
  | a :: as, b :: bs, h, hl => by
    simp only [zipEquiv] at h
    cases he : edgeEquiv eq a b with
    | none => rw [he] at h; cases h
    | some r =>
      rw [he] at h
      cases r with
      | false => cases h
      | true =>
        have h1 := edgeEquiv_true he
        obtain ⟨h2, h3⟩ := zipEquiv_true (ls := as) (rs := bs) h (by simpa using hl)
        constructor
        · intro e hm
          cases hm with
          | head => exact ⟨b, List.mem_cons_self, h1⟩
          | tail _ hm =>
            obtain ⟨f, hf, hr⟩ := h2 e hm
            exact ⟨f, List.mem_cons_of_mem _ hf, hr⟩
        · intro f hm
          cases hm with
          | head => exact ⟨a, List.mem_cons_self, h1⟩
          | tail _ hm =>
            obtain ⟨e, hf, hr⟩ := h3 f hm
            exact ⟨e, List.mem_cons_of_mem _ hf, hr⟩

theorem zipEquiv_some {eq : List Nat} : ∀ {ls rs : List (Nat × W)}, (∀ e, e ∈ ls → e.1 < eq.length) →
    (∀ e, e ∈ rs → e.1 < eq.length) → ∃ r, zipEquiv eq ls rs = some r
  | [], _, _, _ => ⟨_, rfl⟩
  | _ :: _, [], _, _ => ⟨_, rfl⟩
  | a :: as, b :: bs, h1, h2 => by
    obtain ⟨r, hr⟩ := edgeEquiv_some (h1 a List.mem_cons_self) (h2 b List.mem_cons_self)
    simp only [zipEquiv, hr, Option.bind_some]
    split
    · exact zipEquiv_some (fun e h => h1 e (List.mem_cons_of_mem _ h)) (fun e h => h2 e (List.mem_cons_of_mem _ h))
    · exact ⟨_, rfl⟩

theorem outDegree_of {g : G T W} {a : Nat} {es : List (Nat × W)} (h : outEdges g a = some es) :
    outDegree g a = some es.length := by
  unfold outDegree outEdges at *
  rw [h]; rfl

theorem pairEquiv_true {g : G T W} {eq : List Nat} {a b : Nat} (hn : node g a = node g b)
    (hd : outDegree g a = outDegree g b) (h : pairEquiv g eq a b = some true) : Sim g eq a b ∧ Sim g eq b a := by
  unfold pairEquiv at h
  cases hls : outEdges g a with
  | none => rw [hls] at h; cases h
  | some ls =>
    cases hrs : outEdges g b with
    | none => rw [hls, hrs] at h; cases h
    | some rs =>
      rw [outDegree_of hls, outDegree_of hrs] at hd
      have hlen : ls.length = rs.length := Option.some.inj hd
      rw [hls, hrs] at h
      simp only at h
      have key : (∀ e, e ∈ ls → ∃ f, f ∈ rs ∧ ER eq e f) ∧ (∀ f, f ∈ rs → ∃ e, e ∈ ls ∧ ER eq e f) := by
        cases hz : zipEquiv eq ls rs with
        | none => rw [hz] at h; cases h
        | some z =>
          rw [hz] at h
          cases z with
          | true => exact zipEquiv_true hz hlen
          | false =>
            simp only [Option.bind_some, Bool.false_eq_true, if_false] at h
            split at h
            · rename_i l1 l2 r1 r2 rs'
              have : rs' = [] := by
                simp at hlen
                exact hlen
              subst this
              cases he : edgeEquiv eq l1 r2 with
              | none => rw [he] at h; cases h
              | some x =>
                rw [he] at h
                cases x with
                | false => cases h
                | true =>
                  have h1 := edgeEquiv_true he
                  have h2 := edgeEquiv_true (show edgeEquiv eq l2 r1 = some true from h)
                  constructor
                  · intro e he
                    simp at he
                    rcases he with rfl | rfl
                    · exact ⟨r2, by simp, h1⟩
                    · exact ⟨r1, by simp, h2⟩
                  · intro e he
                    simp at he
                    rcases he with rfl | rfl
                    · exact ⟨l2, by simp, h2⟩
                    · exact ⟨l1, by simp, h1⟩
            · cases h
            · cases h
      refine ⟨⟨hn, ?_⟩, ⟨hn.symm, ?_⟩⟩
      · intro es hes e he
        rw [hls] at hes
        cases hes
        obtain ⟨f, hf, hr⟩ := key.1 e he
        exact ⟨rs, f, hrs, hf, hr⟩
      · intro es hes e he
        rw [hrs] at hes
        cases hes
        obtain ⟨f, hf, hr⟩ := key.2 e he
        exact ⟨ls, f, hls, hf, hr.1.symm, hr.2.symm⟩

theorem edges_lt {g : G T W} (hg : GWf g) {a : Nat} {es : List (Nat × W)} (h : outEdges g a = some es) {e : Nat × W}
    (he : e ∈ es) : e.1 < size g := hg.2.2 es (List.mem_of_getElem? h) e he

theorem pairEquiv_some {g : G T W} (hg : GWf g) {eq : List Nat} (hl : eq.length = size g) {a b : Nat}
    (ha : a < size g) (hb : b < size g) (hd : outDegree g a = outDegree g b) : ∃ r, pairEquiv g eq a b = some r := by
  unfold pairEquiv
  have hls : outEdges g a = some g.adj[a] := List.getElem?_eq_getElem ha
  have hrs : outEdges g b = some g.adj[b] := List.getElem?_eq_getElem hb
  rw [outDegree_of hls, outDegree_of hrs] at hd
  have hlen : g.adj[a].length = g.adj[b].length := Option.some.inj hd
  have h1 : ∀ e, e ∈ g.adj[a] → e.1 < eq.length := fun e he => by rw [hl]; exact edges_lt hg hls he
  have h2 : ∀ e, e ∈ g.adj[b] → e.1 < eq.length := fun e he => by rw [hl]; exact edges_lt hg hrs he
  rw [hls, hrs]
  simp only
  generalize g.adj[a] = ls at *
  generalize g.adj[b] = rs at *
  obtain ⟨z, hz⟩ := zipEquiv_some h1 h2
  rw [hz]
  simp only [Option.bind_some]
  split
  · exact ⟨_, rfl⟩
  · split
    · rename_i l1 l2 r1 r2 rs'
      obtain ⟨r, hr⟩ := edgeEquiv_some (h1 l1 (by simp)) (h2 r2 (by simp))
      rw [hr]
      simp only [Option.bind_some]
      split
      · exact edgeEquiv_some (h1 l2 (by simp)) (h2 r1 (by simp))
      · exact ⟨_, rfl⟩
    · rename_i l1 l2 hno
      match rs, hlen, hno with
      | [r1, r2], _, hno => exact (hno r1 r2 [] rfl).elim
      | [], h, _ => simp at h
      | [_], h, _ => simp at h
      | _ :: _ :: _ :: _, h, _ => simp at h
    · exact ⟨_, rfl⟩

theorem Sim.mono {g : G T W} {eq eq' : List Nat} (h : ∀ u v : Nat, eq[u]? = eq[v]? → eq'[u]? = eq'[v]?) {u v : Nat}
    (hs : Sim g eq u v) : Sim g eq' u v := by
  refine ⟨hs.1, fun es hes e he => ?_⟩
  obtain ⟨fs, f, h1, h2, h3⟩ := hs.2 es hes e he
  exact ⟨fs, f, h1, h2, h3.1, h _ _ h3.2⟩

theorem Sim.trans {g : G T W} {eq : List Nat} {u v w : Nat} (h1 : Sim g eq u v) (h2 : Sim g eq v w) : Sim g eq u w := by
  refine ⟨h1.1.trans h2.1, fun es hes e he => ?_⟩
  obtain ⟨fs, f, a1, a2, a3⟩ := h1.2 es hes e he
  obtain ⟨ks, k, b1, b2, b3⟩ := h2.2 fs a1 f a2
  exact ⟨ks, k, b1, b2, a3.1.trans b3.1, a3.2.trans b3.2⟩

theorem join_some {eq : List Nat} {a b : Nat} (ha : a < eq.length) (hb : b < eq.length) : ∃ eq', join eq a b = some eq' := by
  unfold join
  rw [List.getElem?_eq_getElem ha, List.getElem?_eq_getElem hb]
  exact ⟨_, rfl⟩

theorem join_eqI {g : G T W} {eq eq' : List Nat} (hi : EqI g eq) {a b : Nat} (ha : a < size g) (hb : b < size g)
    (h1 : Sim g eq a b) (h2 : Sim g eq b a) (h : join eq a b = some eq') : EqI g eq' := by
  unfold join at h
  have hxa : eq[a]? = some (eq[a]'(by rw [hi.len]; exact ha)) := List.getElem?_eq_getElem _
  have hyb : eq[b]? = some (eq[b]'(by rw [hi.len]; exact hb)) := List.getElem?_eq_getElem _
  generalize eq[a]'(by rw [hi.len]; exact ha) = x at hxa
  generalize eq[b]'(by rw [hi.len]; exact hb) = y at hyb
  rw [hxa, hyb] at h
  cases h
  have hget : ∀ v : Nat, (eq.map (fun z => if z = max x y then min x y else z))[v]? =
      (eq[v]?).map (fun z => if z = max x y then min x y else z) := fun v => List.getElem?_map ..
  have hmono : ∀ u v : Nat, eq[u]? = eq[v]? → (eq.map (fun z => if z = max x y then min x y else z))[u]? =
      (eq.map (fun z => if z = max x y then min x y else z))[v]? := by
    intro u v h; rw [hget, hget, h]
  refine ⟨by simp [hi.len], ?_, ?_⟩
  · intro v z hz
    rw [hget] at hz ⊢
    cases hv : eq[v]? with
    | none => rw [hv] at hz; cases hz
    | some q =>
      rw [hv] at hz
      simp only [Option.map_some, Option.some.injEq] at hz
      have hq := hi.lead v q hv
      by_cases hqm : q = max x y
      · rw [if_pos hqm] at hz
        have hm : eq[z]? = some z := by
          rw [← hz]
          rcases Nat.le_total x y with hle | hle
          · rw [Nat.min_eq_left hle]; exact hi.lead a x hxa
          · rw [Nat.min_eq_right hle]; exact hi.lead b y hyb
        rw [hm]
        simp only [Option.map_some, Option.some.injEq]
        split
        · exact hz
        · rfl
      · rw [if_neg hqm] at hz
        subst hz
        rw [hq]
        simp [hqm]
  · intro u v hu hv huv
    rw [hget, hget] at huv
    have hpu : eq[u]? = some (eq[u]'(by rw [hi.len]; exact hu)) := List.getElem?_eq_getElem _
    have hqv : eq[v]? = some (eq[v]'(by rw [hi.len]; exact hv)) := List.getElem?_eq_getElem _
    generalize eq[u]'(by rw [hi.len]; exact hu) = p at hpu
    generalize eq[v]'(by rw [hi.len]; exact hv) = q at hqv
    rw [hpu, hqv] at huv
    simp only [Option.map_some, Option.some.injEq] at huv
    have cases3 : p = q ∨ (p = x ∧ q = y) ∨ (p = y ∧ q = x) := by
      rcases Nat.le_total x y with hle | hle
      · rw [Nat.max_eq_right hle, Nat.min_eq_left hle] at huv
        split at huv <;> split at huv <;> omega
      · rw [Nat.max_eq_left hle, Nat.min_eq_right hle] at huv
        split at huv <;> split at huv <;> omega
    rcases cases3 with e | ⟨e1, e2⟩ | ⟨e1, e2⟩
    · exact (hi.bis u v hu hv (by rw [hpu, hqv, e])).mono hmono
    · exact (((hi.bis u a hu ha (by rw [hpu, hxa, e1])).trans h1).trans (hi.bis b v hb hv (by rw [hqv, hyb, e2]))).mono hmono
    · exact (((hi.bis u b hu hb (by rw [hpu, hyb, e1])).trans h2).trans (hi.bis a v ha hv (by rw [hqv, hxa, e2]))).mono hmono

/-- The invariant of the work list. -/
def WlI (g : G T W) (wl : List (Nat × Nat)) : Prop :=
  ∀ p, p ∈ wl → p.1 < size g ∧ p.2 < size g ∧ node g p.1 = node g p.2 ∧ outDegree g p.1 = outDegree g p.2

theorem pass_spec {g : G T W} (hg : GWf g) (k : Nat) : ∀ (wl : List (Nat × Nat)) (eq : List Nat) (i : Nat) (ch : Bool),
    wl.length ≤ i + k → WlI g wl → EqI g eq →
    ∃ r, pass g k wl eq i ch = some r ∧ WlI g r.1 ∧ EqI g r.2.1 ∧ r.1.length ≤ wl.length ∧
      (r.2.2 = true → ch = false → r.1.length < wl.length) := by
  induction k with
  | zero =>
    intro wl eq i ch hk hw he
    refine ⟨(wl, eq, ch), ?_, hw, he, Nat.le_refl _, fun h1 h2 => ?_⟩
    · unfold pass
      rw [List.getElem?_eq_none (by omega)]
    · rw [h2] at h1; cases h1
  | succ k ih =>
    intro wl eq i ch hk hw he
    unfold pass
    cases hp : wl[i]? with
    | none =>
      refine ⟨(wl, eq, ch), rfl, hw, he, Nat.le_refl _, fun h1 h2 => ?_⟩
      rw [h2] at h1; cases h1
    | some p =>
      simp only
      obtain ⟨h1, h2, h3, h4⟩ := hw p (List.mem_of_getElem? hp)
      obtain ⟨b, hb⟩ := pairEquiv_some hg he.len h1 h2 h4
      rw [hb]
      simp only [Option.bind_some]
      cases b with
      | false =>
        simp only [Bool.false_eq_true, if_false]
        exact ih wl eq (i + 1) ch (by omega) hw he
      | true =>
        simp only [if_true]
        obtain ⟨s1, s2⟩ := pairEquiv_true h3 h4 hb
        have : ∃ eq', (if p.1 = p.2 then some eq else join eq p.1 p.2) = some eq' ∧ EqI g eq' := by
          split
          · exact ⟨eq, rfl, he⟩
          · obtain ⟨eq', hj⟩ := join_some (eq := eq) (a := p.1) (b := p.2) (by rw [he.len]; exact h1) (by rw [he.len]; exact h2)
            exact ⟨eq', hj, join_eqI he h1 h2 s1 s2 hj⟩
        obtain ⟨eq', hj, he'⟩ := this
        rw [hj]
        simp only [Option.bind_some]
        have hlt : i < wl.length := (List.getElem?_eq_some_iff.1 hp).1
        obtain ⟨wl', hs⟩ := swapPop_isSome hlt
        rw [hs]
        simp only [Option.bind_some]
        obtain ⟨x, _, hperm, _, _⟩ := swapPop_spec hs
        have hlen : wl.length = wl'.length + 1 := by rw [hperm.length_eq]; rfl
        obtain ⟨r, hr, r1, r2, r3, _⟩ := ih wl' eq' i true (by omega)
          (fun q hq => hw q (hperm.mem_iff.2 (List.mem_cons_of_mem _ hq))) he'
        exact ⟨r, hr, r1, r2, by omega, fun _ _ => by omega⟩

theorem passes_spec {g : G T W} (hg : GWf g) (n : Nat) : ∀ (wl : List (Nat × Nat)) (eq : List Nat),
    wl.length < n → WlI g wl → EqI g eq → ∃ eq', passes g n wl eq = some eq' ∧ EqI g eq' := by
  induction n with
  | zero => intro wl eq h; omega
  | succ n ih =>
    intro wl eq hlt hw he
    obtain ⟨r, hr, r1, r2, r3, r4⟩ := pass_spec hg wl.length wl eq 0 false (by omega) hw he
    simp only [passes, hr, Option.bind_some]
    split
    · rename_i hch
      exact ih r.1 r.2.1 (by have := r4 hch rfl; omega) r1 r2
    · exact ⟨_, rfl, r2⟩

theorem pairs_wlI (g : G T W) : WlI g (pairs g) := by
  intro p hp
  unfold pairs at hp
  rw [List.mem_flatMap] at hp
  obtain ⟨a, ha, hp⟩ := hp
  rw [List.mem_map] at hp
  obtain ⟨b, hb, rfl⟩ := hp
  rw [List.mem_filter, List.mem_filter] at hb
  obtain ⟨⟨hb1, _⟩, hb2⟩ := hb
  unfold candidate at hb2
  simp at hb2
  exact ⟨by simpa using ha, by simpa using hb1, hb2.1, hb2.2⟩

theorem range_eqI (g : G T W) : EqI g (List.range (size g)) := by
  refine ⟨by simp, ?_, ?_⟩
  · intro v x h
    have := List.getElem?_eq_some_iff.1 h
    obtain ⟨h1, h2⟩ := this
    simp at h2 h1
    subst h2
    exact h
  · intro u v hu hv h
    rw [List.getElem?_range hu, List.getElem?_range hv] at h
    cases h
    exact ⟨rfl, fun es hes e he => ⟨es, e, hes, he, rfl, rfl⟩⟩

/-! ### `compress` -/

theorem rank_succ (eq : List Nat) (x : Nat) : rank eq (x + 1) = rank eq x + if eq[x]? = some x then 1 else 0 := by
  unfold rank
  rw [List.range_succ, List.filter_append, List.length_append]
  congr 1
  by_cases h : eq[x]? = some x
  · simp [h]
  · simp [h]

theorem rank_mono (eq : List Nat) {x y : Nat} (h : x ≤ y) : rank eq x ≤ rank eq y := by
  induction h with
  | refl => exact Nat.le_refl _
  | step _ ih => rw [rank_succ]; omega

theorem rank_le (eq : List Nat) (x : Nat) : rank eq x ≤ x := by
  induction x with
  | zero => simp [rank]
  | succ x ih => rw [rank_succ]; split <;> omega

theorem rank_lt (eq : List Nat) {x y : Nat} (h : x < y) (hx : eq[x]? = some x) : rank eq x < rank eq y := by
  have h1 := rank_mono eq (show x + 1 ≤ y from h)
  rw [rank_succ, if_pos hx] at h1
  omega

/-- What the compressed classes guarantee. -/
structure ClsI (g : G T W) (cls : List Nat) (nc : Nat) : Prop where
  len : cls.length = size g
  num : nc ≤ size g
  lt : ∀ (v c : Nat), cls[v]? = some c → c < nc
  bis : ∀ u v, u < size g → v < size g → cls[u]? = cls[v]? → Sim g cls u v

theorem compress_clsI {g : G T W} {eq : List Nat} (hi : EqI g eq) : ClsI g (compress eq) (numClasses eq) := by
  have hget : ∀ v : Nat, (compress eq)[v]? = (eq[v]?).map (rank eq) := fun v => List.getElem?_map ..
  have hiff : ∀ u v : Nat, (compress eq)[u]? = (compress eq)[v]? ↔ eq[u]? = eq[v]? := by
    intro u v
    rw [hget, hget]
    constructor
    · intro h
      cases hu : eq[u]? with
      | none =>
        cases hv : eq[v]? with
        | none => rfl
        | some y => rw [hu, hv] at h; cases h
      | some x =>
        cases hv : eq[v]? with
        | none => rw [hu, hv] at h; cases h
        | some y =>
          rw [hu, hv] at h
          simp only [Option.map_some, Option.some.injEq] at h
          have hx := hi.lead u x hu
          have hy := hi.lead v y hv
          rcases Nat.lt_trichotomy x y with q | q | q
          · have := rank_lt eq q hx; omega
          · rw [q]
          · have := rank_lt eq q hy; omega
    · intro h; rw [h]
  refine ⟨by simp [compress, hi.len], ?_, ?_, ?_⟩
  · unfold numClasses
    rw [← hi.len]
    exact rank_le _ _
  · intro v c h
    rw [hget] at h
    cases hv : eq[v]? with
    | none => rw [hv] at h; cases h
    | some x =>
      rw [hv] at h
      cases h
      have hx := hi.lead v x hv
      exact rank_lt eq (List.getElem?_eq_some_iff.1 hx).1 hx
  · intro u v hu hv h
    exact (hi.bis u v hu hv ((hiff u v).1 h)).mono (fun a b h => (hiff a b).2 h)

theorem minimizeGraph_spec {g : G T W} (hg : GWf g) :
    ∃ r, minimizeGraph g = some r ∧ ClsI g r.1 r.2 := by
  obtain ⟨eq, h1, h2⟩ := passes_spec hg ((pairs g).length + 1) (pairs g) (List.range (size g)) (by omega) (pairs_wlI g) (range_eqI g)
  exact ⟨(compress eq, numClasses eq), by simp [minimizeGraph, h1], compress_clsI h2⟩

/-! ### `createEquivalentGraphFrom` -/

/-- The new vertex for the class of `v`, if there is one. -/
def img (cls : List Nat) (e2v : List (Option Nat)) (v : Nat) : Option Nat := (cls[v]?).bind (fun c => (e2v[c]?).join)

/-- The number of classes that have a vertex. -/
def cnt (e2v : List (Option Nat)) : Nat := (e2v.filter Option.isSome).length

/-- The edge is in the graph. -/
def HasEdge (r : G T W) (x y : Nat) (w : W) : Prop := ∃ es, r.adj[x]? = some es ∧ (y, w) ∈ es

/-- The invariant of the construction; `rs` are the roots treated, `pend` the edges still to be treated. -/
structure CI (g : G T W) (cls : List Nat) (nc : Nat) (rs : List Nat) (pend : Nat → Nat → W → Prop) (s : CS T W) : Prop where
  wf : s.ret.adj.length = s.ret.nodes.length
  e2v : s.e2v.length = nc
  hlen : s.handled.length = size g
  inj : ∀ u v x, img cls s.e2v u = some x → img cls s.e2v v = some x → cls[u]? = cls[v]?
  lab : ∀ v x, img cls s.e2v v = some x → x < s.ret.nodes.length ∧ node s.ret x = node g v
  cnt : s.ret.nodes.length = cnt s.e2v
  sound : ∀ x y w, HasEdge s.ret x y w → ∃ v t, HasEdge g v t w ∧ img cls s.e2v v = some x ∧ img cls s.e2v t = some y
  roots : ∀ x, x ∈ s.ret.roots ↔ ∃ r, r ∈ rs ∧ img cls s.e2v r = some x
  dom : ∀ v, v ∈ s.wl ∨ s.handled[v]? = some true → v < size g ∧ ∃ x, img cls s.e2v v = some x
  rdom : ∀ r, r ∈ rs → (r ∈ s.wl ∨ s.handled[r]? = some true) 
  comp : ∀ v t w, s.handled[v]? = some true → HasEdge g v t w → pend v t w ∨
    ((t ∈ s.wl ∨ s.handled[t]? = some true) ∧
      ∃ x y, img cls s.e2v v = some x ∧ img cls s.e2v t = some y ∧ HasEdge s.ret x y w)

theorem cnt_set {l : List (Option Nat)} : ∀ {c : Nat} (x : Nat), l[c]? = some none → cnt (l.set c (some x)) = cnt l + 1 := by
  induction l with
  | nil => intro c x h; simp at h
  | cons a as ih =>
    intro c x h
    cases c with
    | zero =>
      simp at h
      subst h
      simp [cnt]
    | succ c =>
      have := ih x (show as[c]? = some none by simpa using h)
      unfold cnt at this ⊢
      rw [List.set_cons_succ]
      cases a with
      | none => simpa using this
      | some b => simp at this ⊢; exact this

theorem cnt_le (l : List (Option Nat)) : cnt l ≤ l.length := List.length_filter_le _ _

theorem img_set {cls : List Nat} {e2v : List (Option Nat)} {c x : Nat} (hc : e2v[c]? = some none) (v : Nat) :
    img cls (e2v.set c (some x)) v = if cls[v]? = some c then some x else img cls e2v v := by
  unfold img
  have hlt : c < e2v.length := (List.getElem?_eq_some_iff.1 hc).1
  cases hv : cls[v]? with
  | none => simp
  | some d =>
    simp only [Option.bind_some, Option.some.injEq]
    rw [List.getElem?_set]
    by_cases hd : c = d
    · subst hd; simp [hlt]
    · rw [if_neg hd, if_neg (fun e => hd e.symm)]

theorem HasEdge.addNode {r : G T W} {a : T} {x y : Nat} {w : W} :
    HasEdge (addNode r a).1 x y w ↔ HasEdge r x y w := by
  unfold HasEdge
  simp only [Adj.addNode]
  constructor
  · rintro ⟨es, h1, h2⟩
    by_cases hx : x < r.adj.length
    · rw [List.getElem?_append_left hx] at h1
      exact ⟨es, h1, h2⟩
    · rw [List.getElem?_append_right (by omega)] at h1
      cases hq : x - r.adj.length with
      | zero =>
        rw [hq] at h1
        simp at h1
        subst h1
        cases h2
      | succ n => rw [hq] at h1; simp at h1
  · rintro ⟨es, h1, h2⟩
    have hx : x < r.adj.length := (List.getElem?_eq_some_iff.1 h1).1
    exact ⟨es, by rw [List.getElem?_append_left hx]; exact h1, h2⟩

/-- What making a vertex guarantees. -/
structure VF (g : G T W) (cls : List Nat) (s s' : CS T W) (v x : Nat) (new : Bool) : Prop where
  img : img cls s'.e2v v = some x
  keep : ∀ u y, DFAMin.img cls s.e2v u = some y → DFAMin.img cls s'.e2v u = some y
  wl : s'.wl = s.wl
  handled : s'.handled = s.handled
  roots : s'.ret.roots = s.ret.roots
  edge : ∀ a b w, HasEdge s'.ret a b w ↔ HasEdge s.ret a b w
  lt : x < s'.ret.adj.length
  fresh : new = true → ∀ u y, DFAMin.img cls s.e2v u = some y → y ≠ x
  old : new = false → DFAMin.img cls s.e2v v = some x
  only : ∀ u y, DFAMin.img cls s'.e2v u = some y → DFAMin.img cls s.e2v u = some y ∨ y = x

theorem vertexFor_spec {g : G T W} (hg : GWf g) {cls : List Nat} {nc : Nat} (hc : ClsI g cls nc) {rs : List Nat}
    {pend : Nat → Nat → W → Prop} {s : CS T W} (hi : CI g cls nc rs pend s) {v : Nat} (hv : v < size g) :
    ∃ s' x new, vertexFor g cls s v = some (s', x, new) ∧ CI g cls nc rs pend s' ∧ VF g cls s s' v x new := by
  have hcv : cls[v]? = some (cls[v]'(by rw [hc.len]; exact hv)) := List.getElem?_eq_getElem _
  generalize cls[v]'(by rw [hc.len]; exact hv) = c at hcv
  have hclt : c < s.e2v.length := by rw [hi.e2v]; exact hc.lt v c hcv
  have hev : s.e2v[c]? = some s.e2v[c] := List.getElem?_eq_getElem hclt
  unfold vertexFor
  rw [hcv]
  simp only
  rw [hev]
  cases hq : s.e2v[c] with
  | some x =>
    rw [hq] at hev
    have him : img cls s.e2v v = some x := by simp [img, hcv, hev]
    refine ⟨s, x, false, rfl, hi, him, fun _ _ h => h, rfl, rfl, rfl, fun _ _ _ => Iff.rfl, ?_, fun h => (by cases h), fun _ => him,
      fun _ _ h => Or.inl h⟩
    rw [hi.wf]; exact (hi.lab v x him).1
  | none =>
    rw [hq] at hev
    simp only
    have hnd : node g v = some (g.nodes[v]'(by rw [← hg.1]; exact hv)) := List.getElem?_eq_getElem _
    generalize g.nodes[v]'(by rw [← hg.1]; exact hv) = a at hnd
    rw [hnd]
    simp only [Option.map_some]
    have hnone : ∀ u, cls[u]? = some c → img cls s.e2v u = none := by
      intro u hu; simp [img, hu, hev]
    have hset := fun u => img_set (cls := cls) (x := s.ret.nodes.length) hev u
    have hkeep : ∀ u y, img cls s.e2v u = some y → img cls (s.e2v.set c (some s.ret.nodes.length)) u = some y := by
      intro u y h
      rw [hset]
      split
      · rename_i e; rw [hnone u e] at h; cases h
      · exact h
    have hself : img cls (s.e2v.set c (some s.ret.nodes.length)) v = some s.ret.nodes.length := by
      rw [hset, if_pos hcv]
    refine ⟨_, _, true, rfl, ?_, ?_⟩
    · refine ⟨?_, ?_, hi.hlen, ?_, ?_, ?_, ?_, ?_, ?_, hi.rdom, ?_⟩
      · simp [Adj.addNode, hi.wf]
      · simp [hi.e2v]
      · intro u w x h1 h2
        simp only [Adj.addNode] at h1 h2
        rw [hset] at h1 h2
        split at h1 <;> split at h2
        · rename_i e1 e2; rw [e1, e2]
        · cases h1
          have := (hi.lab w _ h2).1
          omega
        · cases h2
          have := (hi.lab u _ h1).1
          omega
        · exact hi.inj u w x h1 h2
      · intro u x h1
        simp only [Adj.addNode] at h1 ⊢
        rw [hset] at h1
        split at h1
        · rename_i e1
          cases h1
          refine ⟨by simp, ?_⟩
          have hu : u < size g := by
            rw [← hc.len]; exact (List.getElem?_eq_some_iff.1 e1).1
          have := (hc.bis u v hu hv (by rw [e1, hcv])).1
          rw [this, hnd]
          simp [node]
        · obtain ⟨l1, l2⟩ := hi.lab u x h1
          refine ⟨by simp; omega, ?_⟩
          rw [← l2]
          simp only [node]
          exact List.getElem?_append_left l1
      · simp only [Adj.addNode]
        rw [cnt_set _ hev, ← hi.cnt]
        simp
      · intro x y w h
        obtain ⟨u, t, h1, h2, h3⟩ := hi.sound x y w (HasEdge.addNode.1 h)
        exact ⟨u, t, h1, hkeep _ _ h2, hkeep _ _ h3⟩
      · intro x
        show x ∈ s.ret.roots ↔ _
        rw [hi.roots]
        constructor
        · rintro ⟨r, h1, h2⟩
          exact ⟨r, h1, hkeep _ _ h2⟩
        · rintro ⟨r, h1, h2⟩
          obtain ⟨_, y, hy⟩ := hi.dom r (hi.rdom r h1)
          have hy2 := hkeep _ _ hy
          simp only [Adj.addNode] at h2
          rw [hy2] at h2
          cases h2
          exact ⟨r, h1, hy⟩
      · intro u hu
        obtain ⟨h1, x, h2⟩ := hi.dom u hu
        exact ⟨h1, x, hkeep _ _ h2⟩
      · intro u t w h1 h2
        rcases hi.comp u t w h1 h2 with h3 | ⟨h3, x, y, h4, h5, h6⟩
        · exact Or.inl h3
        · exact Or.inr ⟨h3, x, y, hkeep _ _ h4, hkeep _ _ h5, HasEdge.addNode.2 h6⟩
    · refine ⟨hself, hkeep, rfl, rfl, rfl, fun _ _ _ => HasEdge.addNode, by simp [Adj.addNode, hi.wf], ?_, fun h => (by cases h), ?_⟩
      · intro _ u y h
        have := (hi.lab u y h).1
        simp only [Adj.addNode]
        omega
      · intro u y h
        simp only [Adj.addNode] at h ⊢
        rw [hset] at h
        split at h
        · cases h; exact Or.inr rfl
        · exact Or.inl h

theorem addRoots_spec {g : G T W} (hg : GWf g) {cls : List Nat} {nc : Nat} (hc : ClsI g cls nc) (todo : List Nat) :
    ∀ {done : List Nat} {s : CS T W}, CI g cls nc done (fun _ _ _ => False) s → (∀ v : Nat, s.handled[v]? ≠ some true) →
    (∀ v x, img cls s.e2v v = some x → x ∈ s.ret.roots) → (∀ r, r ∈ todo → r < size g) → ∃ s', addRoots g cls todo s = some s' ∧
      CI g cls nc (done ++ todo) (fun _ _ _ => False) s' := by
  induction todo with
  | nil =>
    intro done s hi _ _ _
    exact ⟨s, rfl, by rw [List.append_nil]; exact hi⟩
  | cons r rs ih =>
    intro done s hi hh hall hlt
    obtain ⟨s1, x, new, h1, i1, vf⟩ := vertexFor_spec hg hc hi (hlt r List.mem_cons_self)
    have hret : ∃ ret, (if new then addRoot s1.ret x else some s1.ret) = some ret ∧ ret.adj = s1.ret.adj ∧
        ret.nodes = s1.ret.nodes ∧ ∀ y, y ∈ ret.roots ↔ (y ∈ s1.ret.roots ∨ y = x) := by
      cases new with
      | true =>
        refine ⟨{ s1.ret with roots := s1.ret.roots ++ [x] }, ?_, rfl, rfl, fun y => by simp⟩
        simp only [if_true, addRoot, if_pos vf.lt]
      | false =>
        refine ⟨s1.ret, rfl, rfl, rfl, fun y => ⟨Or.inl, ?_⟩⟩
        rintro (h | h)
        · exact h
        · subst h
          rw [vf.roots]
          exact hall _ _ (vf.old rfl)
    obtain ⟨ret, h2, e1, e2, e3⟩ := hret
    have hedge : ∀ a b w, HasEdge ret a b w ↔ HasEdge s1.ret a b w := by
      intro a b w; unfold HasEdge; rw [e1]
    have hnode : ∀ a, node ret a = node s1.ret a := by intro a; unfold node; rw [e2]
    have i2 : CI g cls nc (done ++ [r]) (fun _ _ _ => False) { s1 with ret := ret, wl := r :: s1.wl } := by
      refine ⟨?_, i1.e2v, i1.hlen, i1.inj, ?_, ?_, ?_, ?_, ?_, ?_, ?_⟩
      · show ret.adj.length = ret.nodes.length
        rw [e1, e2]; exact i1.wf
      · intro v y h
        obtain ⟨l1, l2⟩ := i1.lab v y h
        exact ⟨by show y < ret.nodes.length; rw [e2]; exact l1, (hnode y).trans l2⟩
      · show ret.nodes.length = _
        rw [e2]; exact i1.cnt
      · intro a b w h
        exact i1.sound a b w ((hedge a b w).1 h)
      · intro y
        show y ∈ ret.roots ↔ _
        rw [e3, i1.roots]
        constructor
        · rintro (⟨q, q1, q2⟩ | h)
          · exact ⟨q, List.mem_append_left _ q1, q2⟩
          · exact ⟨r, by simp, by rw [h]; exact vf.img⟩
        · rintro ⟨q, q1, q2⟩
          rw [List.mem_append] at q1
          rcases q1 with q1 | q1
          · exact Or.inl ⟨q, q1, q2⟩
          · simp at q1
            subst q1
            have q3 := vf.img
            rw [q2] at q3
            cases q3
            exact Or.inr rfl
      · intro v hv
        have hv' : v = r ∨ (v ∈ s1.wl ∨ s1.handled[v]? = some true) := by
          rcases hv with h | h
          · cases h with
            | head => exact Or.inl rfl
            | tail _ h => exact Or.inr (Or.inl h)
          · exact Or.inr (Or.inr h)
        rcases hv' with rfl | h
        · exact ⟨hlt _ List.mem_cons_self, x, vf.img⟩
        · exact i1.dom v h
      · intro q hq
        rw [List.mem_append] at hq
        rcases hq with hq | hq
        · rcases i1.rdom q hq with h | h
          · exact Or.inl (List.mem_cons_of_mem _ h)
          · exact Or.inr h
        · simp at hq
          subst hq
          exact Or.inl List.mem_cons_self
      · intro v t w h
        have h' : s1.handled[v]? = some true := h
        rw [vf.handled] at h'
        exact (hh v h').elim
    obtain ⟨s', h3, i3⟩ := ih (s := { s1 with ret := ret, wl := r :: s1.wl }) i2 (by
      intro v h
      have h' : s1.handled[v]? = some true := h
      rw [vf.handled] at h'
      exact hh v h') (by
        intro v y h
        show y ∈ ret.roots
        rw [e3, vf.roots]
        rcases vf.only v y h with h | h
        · exact Or.inl (hall v y h)
        · exact Or.inr h) (fun q hq => hlt q (List.mem_cons_of_mem _ hq))
    refine ⟨s', ?_, by rw [List.append_assoc] at i3; exact i3⟩
    simp only [addRoots, h1, Option.bind_some, h2, h3]

theorem addEdge_spec {r : G T W} {x : Nat} (hx : x < r.adj.length) (e : Nat × W) :
    ∃ r', addEdge r x e = some r' ∧ r'.nodes = r.nodes ∧ r'.roots = r.roots ∧ r'.adj.length = r.adj.length ∧
      ∀ a b w, HasEdge r' a b w ↔ (HasEdge r a b w ∨ (a = x ∧ (b, w) = e)) := by
  unfold addEdge
  have hes : r.adj[x]? = some r.adj[x] := List.getElem?_eq_getElem hx
  rw [hes]
  refine ⟨_, rfl, rfl, rfl, by simp, ?_⟩
  intro a b w
  unfold HasEdge
  simp only
  by_cases ha : x = a
  · subst ha
    rw [List.getElem?_set]
    simp only [if_pos, hx, hes, Option.some.injEq]
    constructor
    · rintro ⟨es, rfl, h⟩
      rw [List.mem_append] at h
      rcases h with h | h
      · exact Or.inl ⟨_, rfl, h⟩
      · exact Or.inr ⟨trivial, by simpa using h⟩
    · rintro (⟨es, rfl, h⟩ | ⟨_, h⟩)
      · exact ⟨_, rfl, List.mem_append_left _ h⟩
      · exact ⟨_, rfl, by rw [h]; simp⟩
  · rw [List.getElem?_set_ne ha]
    constructor
    · exact Or.inl
    · rintro (h | ⟨h, _⟩)
      · exact h
      · exact (ha h.symm).elim

theorem edges_spec {g : G T W} (hg : GWf g) {cls : List Nat} {nc : Nat} (hc : ClsI g cls nc) {rs : List Nat} {v nw : Nat}
    (todo : List (Nat × W)) : ∀ {s : CS T W},
    CI g cls nc rs (fun u t w => u = v ∧ (t, w) ∈ todo) s → img cls s.e2v v = some nw →
    (∀ e, e ∈ todo → HasEdge g v e.1 e.2) →
    ∃ s' new, edges g cls nw todo s = some s' ∧ CI g cls nc rs (fun _ _ _ => False) s' ∧ s'.handled = s.handled ∧
      s'.wl = new ++ s.wl ∧ ∀ t, t ∈ new → s.handled[t]? = some false := by
  induction todo with
  | nil =>
    intro s hi _ _
    refine ⟨s, [], rfl, ?_, rfl, rfl, fun t h => by cases h⟩
    refine ⟨hi.wf, hi.e2v, hi.hlen, hi.inj, hi.lab, hi.cnt, hi.sound, hi.roots, hi.dom, hi.rdom, ?_⟩
    intro u t w h1 h2
    rcases hi.comp u t w h1 h2 with h | h
    · cases h.2
    · exact Or.inr h
  | cons e es ih =>
    intro s hi hv hes
    have he := hes e List.mem_cons_self
    obtain ⟨aes, ha1, ha2⟩ := he
    have htlt : e.1 < size g := edges_lt hg ha1 ha2
    obtain ⟨s1, x, new, h1, i1, vf⟩ := vertexFor_spec hg hc hi htlt
    have hnw := vf.keep v nw hv
    have hnwlt : nw < s1.ret.adj.length := by rw [i1.wf]; exact (i1.lab v nw hnw).1
    obtain ⟨ret, h2, e1, e2, e3, e4⟩ := addEdge_spec hnwlt (x, e.2)
    have hh : s1.handled[e.1]? = some (s1.handled[e.1]'(by rw [i1.hlen]; exact htlt)) := List.getElem?_eq_getElem _
    generalize s1.handled[e.1]'(by rw [i1.hlen]; exact htlt) = hd at hh
    have hwl : ∀ t, t ∈ (if hd then s1.wl else e.1 :: s1.wl) ∨ s1.handled[t]? = some true ↔
        (t ∈ s1.wl ∨ s1.handled[t]? = some true) ∨ t = e.1 := by
      intro t
      cases hd with
      | true =>
        simp only [if_true]
        constructor
        · exact Or.inl
        · rintro (h | h)
          · exact h
          · rw [h]; exact Or.inr hh
      | false =>
        simp only [Bool.false_eq_true, if_false, List.mem_cons]
        constructor
        · rintro ((h | h) | h)
          · exact Or.inr h
          · exact Or.inl (Or.inl h)
          · exact Or.inl (Or.inr h)
        · rintro ((h | h) | h)
          · exact Or.inl (Or.inr h)
          · exact Or.inr h
          · exact Or.inl (Or.inl h)
    have i2 : CI g cls nc rs (fun u t w => u = v ∧ (t, w) ∈ es)
        { s1 with ret := ret, wl := if hd then s1.wl else e.1 :: s1.wl } := by
      refine ⟨?_, i1.e2v, i1.hlen, i1.inj, ?_, ?_, ?_, ?_, ?_, ?_, ?_⟩
      · show ret.adj.length = ret.nodes.length
        rw [e3, e1]; exact i1.wf
      · intro u y h
        obtain ⟨l1, l2⟩ := i1.lab u y h
        refine ⟨by show y < ret.nodes.length; rw [e1]; exact l1, ?_⟩
        rw [← l2]; show ret.nodes[y]? = s1.ret.nodes[y]?; rw [e1]
      · show ret.nodes.length = _
        rw [e1]; exact i1.cnt
      · intro a b w h
        rcases (e4 a b w).1 h with h | ⟨h3, h4⟩
        · exact i1.sound a b w h
        · cases h4
          exact ⟨v, e.1, ⟨aes, ha1, ha2⟩, by rw [h3]; exact hnw, vf.img⟩
      · intro y
        show y ∈ ret.roots ↔ _
        rw [e2]; exact i1.roots y
      · intro u hu
        rcases (hwl u).1 hu with h | h
        · exact i1.dom u h
        · rw [h]; exact ⟨htlt, x, vf.img⟩
      · intro r hr
        exact (hwl r).2 (Or.inl (i1.rdom r hr))
      · intro u t w h3 h4
        rcases i1.comp u t w h3 h4 with ⟨h5, h6⟩ | ⟨h5, a, b, h6, h7, h8⟩
        · by_cases hq : (t, w) = e
          · refine Or.inr ⟨(hwl t).2 (Or.inr (by rw [← hq])), nw, x, by rw [h5]; exact hnw, ?_, ?_⟩
            · rw [← hq] at vf; exact vf.img
            · exact (e4 _ _ _).2 (Or.inr ⟨rfl, by rw [← hq]⟩)
          · cases h6 with
            | head => exact (hq rfl).elim
            | tail _ h6 => exact Or.inl ⟨h5, h6⟩
        · exact Or.inr ⟨(hwl t).2 (Or.inl h5), a, b, h6, h7, (e4 _ _ _).2 (Or.inl h8)⟩
    obtain ⟨s', nw', h3, i3, h4, h5, h6⟩ := ih (s := { s1 with ret := ret, wl := if hd then s1.wl else e.1 :: s1.wl })
      i2 hnw (fun f hf => hes f (List.mem_cons_of_mem _ hf))
    refine ⟨s', if hd then nw' else nw' ++ [e.1], ?_, i3, h4.trans vf.handled, ?_, ?_⟩
    · simp only [edges, h1, Option.bind_some, hh, h2, h3]
    · rw [h5]
      show nw' ++ (if hd then s1.wl else e.1 :: s1.wl) = _
      rw [vf.wl]
      cases hd <;> simp
    · have h6' : ∀ t, t ∈ nw' → s.handled[t]? = some false := by
        intro t ht
        have := h6 t ht
        have h7 : s1.handled[t]? = some false := this
        rw [vf.handled] at h7
        exact h7
      intro t ht
      cases hd with
      | true => exact h6' t ht
      | false =>
        simp only [Bool.false_eq_true, if_false, List.mem_append, List.mem_singleton] at ht
        rcases ht with ht | ht
        · exact h6' t ht
        · rw [ht, ← vf.handled]; exact hh

theorem round_spec {g : G T W} (hg : GWf g) {cls : List Nat} {nc : Nat} (hc : ClsI g cls nc) {rs : List Nat} {v : Nat}
    {rest : List Nat} {s : CS T W} (hi : CI g cls nc rs (fun _ _ _ => False) s) (hw : s.wl = v :: rest) :
    ∃ s' new, round g cls v { s with wl := rest } = some s' ∧ CI g cls nc rs (fun _ _ _ => False) s' ∧
      s'.handled = s.handled.set v true ∧ s'.wl = new ++ rest ∧ v < s.handled.length ∧
      ∀ t, t ∈ new → s'.handled[t]? = some false := by
  obtain ⟨hv, x, hx⟩ := hi.dom v (Or.inl (by rw [hw]; exact List.mem_cons_self))
  have hes : outEdges g v = some g.adj[v] := List.getElem?_eq_getElem hv
  have hvl : v < s.handled.length := by rw [hi.hlen]; exact hv
  have hset : ∀ u : Nat, (s.handled.set v true)[u]? = some true ↔ (u = v ∨ s.handled[u]? = some true) := by
    intro u
    rw [List.getElem?_set]
    by_cases h : v = u
    · subst h; simp [hvl]
    · rw [if_neg h]
      constructor
      · exact Or.inr
      · rintro (e | e)
        · exact (h e.symm).elim
        · exact e
  have hin : ∀ u, (u ∈ s.wl ∨ s.handled[u]? = some true) ↔ (u ∈ rest ∨ (s.handled.set v true)[u]? = some true) := by
    intro u
    rw [hw, hset, List.mem_cons]
    constructor
    · rintro ((h | h) | h)
      · exact Or.inr (Or.inl h)
      · exact Or.inl h
      · exact Or.inr (Or.inr h)
    · rintro (h | h | h)
      · exact Or.inl (Or.inr h)
      · exact Or.inl (Or.inl h)
      · exact Or.inr h
  have i0 : CI g cls nc rs (fun u t w => u = v ∧ (t, w) ∈ g.adj[v]) { s with wl := rest, handled := s.handled.set v true } := by
    refine ⟨hi.wf, hi.e2v, by simp [hi.hlen], hi.inj, hi.lab, hi.cnt, hi.sound, hi.roots, ?_, ?_, ?_⟩
    · intro u hu
      exact hi.dom u ((hin u).2 hu)
    · intro r hr
      exact (hin r).1 (hi.rdom r hr)
    · intro u t w h1 h2
      by_cases huv : u = v
      · subst huv
        obtain ⟨es, h3, h4⟩ := h2
        have h5 : some g.adj[u] = some es := hes.symm.trans h3
        cases h5
        exact Or.inl ⟨rfl, h4⟩
      · rcases (hset u).1 h1 with h | h
        · exact (huv h).elim
        · rcases hi.comp u t w h h2 with h3 | ⟨h3, h4⟩
          · exact h3.elim
          · exact Or.inr ⟨(hin t).1 h3, h4⟩
  obtain ⟨s', new, h1, h2, h3, h4, h5⟩ := edges_spec hg hc g.adj[v] i0 hx (fun e he => ⟨g.adj[v], hes, he⟩)
  refine ⟨s', new, ?_, h2, h3, h4, hvl, ?_⟩
  · unfold round
    unfold img at hx
    cases hcv : cls[v]? with
    | none => rw [hcv] at hx; cases hx
    | some c =>
      rw [hcv] at hx
      simp only [Option.bind_some] at hx
      have hx2 : s.e2v[c]? = some (some x) := by
        cases hq : s.e2v[c]? with
        | none => rw [hq] at hx; cases hx
        | some o => rw [hq] at hx; simp at hx; rw [hx]
      simp only [hx2, hes, if_pos hvl, h1]
  · intro t ht
    rw [h3]; exact h5 t ht

/-- The number of vertices not handled. -/
def unh (h : List Bool) : Nat := (h.filter (! ·)).length

theorem unh_set : ∀ {h : List Bool} {v : Nat}, h[v]? = some false → unh (h.set v true) + 1 = unh h
  | [], _, e => by simp at e
  | b :: bs, 0, e => by
    simp at e; subst e
    simp [unh]
  | b :: bs, v + 1, e => by
    have := unh_set (h := bs) (v := v) (by simpa using e)
    unfold unh at this ⊢
    rw [List.set_cons_succ]
    cases b <;> simp at this ⊢ <;> omega

theorem unh_set_true : ∀ {h : List Bool} {v : Nat}, h[v]? = some true → h.set v true = h := by
  intro h v e
  apply List.ext_getElem?
  intro i
  rw [List.getElem?_set]
  split
  · rename_i hi
    subst hi
    obtain ⟨h1, h2⟩ := List.getElem?_eq_some_iff.1 e
    simp [h1, h2]
  · rfl

theorem loop_spec {g : G T W} (hg : GWf g) {cls : List Nat} {nc : Nat} (hc : ClsI g cls nc) {rs : List Nat} (u : Nat) :
    ∀ (m : Nat) {s : CS T W}, CI g cls nc rs (fun _ _ _ => False) s → unh s.handled = u → s.wl.length = m →
    ∃ k s', (∀ f, k ≤ f → loop g cls f s = some s') ∧ CI g cls nc rs (fun _ _ _ => False) s' ∧ s'.wl = [] := by
  induction u using Nat.strongRecOn with
  | ind u ihu =>
    intro m
    induction m using Nat.strongRecOn with
    | ind m ihm =>
      intro s hi hu hm
      cases hw : s.wl with
      | nil =>
        refine ⟨0, s, ?_, hi, hw⟩
        intro f _
        unfold loop
        rw [hw]
      | cons v rest =>
        obtain ⟨s1, new, h1, i1, h2, h3, h4, h5⟩ := round_spec hg hc hi hw
        have hstep : ∀ k s', (∀ f, k ≤ f → loop g cls f s1 = some s') → ∀ f, k + 1 ≤ f → loop g cls f s = some s' := by
          intro k s' h f hf
          match f, hf with
          | f + 1, hf =>
            rw [loop.eq_def]
            simp only
            rw [hw]
            simp only [h1, Option.bind_some]
            exact h f (by omega)
        have hv : s.handled[v]? = some s.handled[v] := List.getElem?_eq_getElem h4
        cases hb : s.handled[v] with
        | false =>
          rw [hb] at hv
          have hlt : unh s1.handled < u := by
            rw [h2]; have := unh_set hv; omega
          obtain ⟨k, s', h6, h7, h8⟩ := ihu _ hlt s1.wl.length i1 rfl rfl
          exact ⟨k + 1, s', hstep k s' h6, h7, h8⟩
        | true =>
          rw [hb] at hv
          rw [unh_set_true hv] at h2
          cases new with
          | nil =>
            obtain ⟨k, s', h6, h7, h8⟩ := ihm rest.length (by rw [← hm, hw]; simp) i1 (by rw [h2]; exact hu)
              (by rw [h3]; rfl)
            exact ⟨k + 1, s', hstep k s' h6, h7, h8⟩
          | cons t ts =>
            have ht := h5 t List.mem_cons_self
            have hw1 : s1.wl = t :: (ts ++ rest) := h3
            obtain ⟨s2, new2, g1, i2, g2, g3, g4, g5⟩ := round_spec hg hc i1 hw1
            have hlt : unh s2.handled < u := by
              rw [g2]
              have := unh_set ht
              rw [h2] at this ⊢
              omega
            obtain ⟨k, s', h6, h7, h8⟩ := ihu _ hlt s2.wl.length i2 rfl rfl
            refine ⟨k + 2, s', hstep (k + 1) s' ?_, h7, h8⟩
            intro f hf
            match f, hf with
            | f + 1, hf =>
              rw [loop.eq_def]
              simp only
              rw [hw1]
              simp only [g1, Option.bind_some]
              exact h6 f (by omega)

theorem dedupAll_spec (lt : Nat × W → Nat × W → Bool) (vs : List Nat) : ∀ (r : G T W), (∀ v, v ∈ vs → v < r.adj.length) →
    ∃ r', dedupAll lt vs r = some r' ∧ r'.nodes = r.nodes ∧ r'.roots = r.roots ∧ r'.adj.length = r.adj.length ∧
      ∀ a b w, HasEdge r' a b w ↔ HasEdge r a b w := by
  induction vs with
  | nil => intro r _; exact ⟨r, rfl, rfl, rfl, rfl, fun _ _ _ => Iff.rfl⟩
  | cons v vs ih =>
    intro r hlt
    have hv := hlt v List.mem_cons_self
    have hes : r.adj[v]? = some r.adj[v] := List.getElem?_eq_getElem hv
    obtain ⟨r', h1, h2, h3, h4, h5⟩ := ih { r with adj := r.adj.set v (unique (sort lt r.adj[v])) } (by
      intro u hu
      simp
      exact hlt u (List.mem_cons_of_mem _ hu))
    refine ⟨r', ?_, h2, h3, by rw [h4]; simp, ?_⟩
    · simp only [dedupAll, dedupOutEdges, hes, Option.bind_some, h1]
    · intro a b w
      rw [h5]
      unfold HasEdge
      simp only
      by_cases ha : v = a
      · subst ha
        rw [List.getElem?_set]
        simp only [if_pos, hv, hes, Option.some.injEq]
        constructor
        · rintro ⟨es, rfl, h⟩
          rw [mem_unique, (sort_perm lt _).mem_iff] at h
          exact ⟨_, rfl, h⟩
        · rintro ⟨es, rfl, h⟩
          exact ⟨_, rfl, by rw [mem_unique, (sort_perm lt _).mem_iff]; exact h⟩
      · rw [List.getElem?_set_ne ha]

/-! ### The paths -/

theorem path_iff {g : G T W} {v : Nat} {a : T} {w : W} {b : T} {r : List (W × T)} :
    Path g v a ((w, b) :: r) ↔ node g v = some a ∧ ∃ t, HasEdge g v t w ∧ Path g t b r := by
  simp only [Path, HasEdge, outEdges]
  constructor
  · rintro ⟨h1, es, t, h2, h3, h4⟩
    exact ⟨h1, t, ⟨es, h2, h3⟩, h4⟩
  · rintro ⟨h1, t, ⟨es, h2, h3⟩, h4⟩
    exact ⟨h1, es, t, h2, h3, h4⟩

theorem path_congr {g g' : G T W} (hn : g'.nodes = g.nodes) (he : ∀ a b w, HasEdge g' a b w ↔ HasEdge g a b w)
    (ws : List (W × T)) : ∀ v a, Path g' v a ws ↔ Path g v a ws := by
  induction ws with
  | nil => intro v a; simp [Path, node, hn]
  | cons p ws ih =>
    intro v a
    obtain ⟨w, b⟩ := p
    rw [path_iff, path_iff]
    simp only [node, hn, he, ih]

theorem path_forth {g : G T W} {cls : List Nat} {nc : Nat} {rs : List Nat} {s : CS T W}
    (hi : CI g cls nc rs (fun _ _ _ => False) s) (hw : s.wl = []) (ws : List (W × T)) :
    ∀ v a x, s.handled[v]? = some true → img cls s.e2v v = some x → Path g v a ws → Path s.ret x a ws := by
  induction ws with
  | nil =>
    intro v a x _ hx hp
    exact (hi.lab v x hx).2.trans hp
  | cons p ws ih =>
    intro v a x hv hx hp
    obtain ⟨w, b⟩ := p
    rw [path_iff] at hp ⊢
    obtain ⟨h1, t, h2, h3⟩ := hp
    refine ⟨(hi.lab v x hx).2.trans h1, ?_⟩
    rcases hi.comp v t w hv h2 with h | ⟨h4, x', y, h5, h6, h7⟩
    · exact h.elim
    · rw [hx] at h5
      cases h5
      have ht : s.handled[t]? = some true := by
        rcases h4 with h | h
        · rw [hw] at h; cases h
        · exact h
      exact ⟨y, h7, ih t b y ht h6 h3⟩

theorem img_lt {cls : List Nat} {e2v : List (Option Nat)} {v x : Nat} (h : img cls e2v v = some x) : v < cls.length := by
  unfold img at h
  cases hq : cls[v]? with
  | none => rw [hq] at h; cases h
  | some c => exact (List.getElem?_eq_some_iff.1 hq).1

theorem path_back {g : G T W} {cls : List Nat} {nc : Nat} (hc : ClsI g cls nc) {rs : List Nat} {s : CS T W}
    (hi : CI g cls nc rs (fun _ _ _ => False) s) (ws : List (W × T)) :
    ∀ v a x, img cls s.e2v v = some x → Path s.ret x a ws → Path g v a ws := by
  induction ws with
  | nil =>
    intro v a x hx hp
    exact (hi.lab v x hx).2.symm.trans hp
  | cons p ws ih =>
    intro v a x hx hp
    obtain ⟨w, b⟩ := p
    rw [path_iff] at hp ⊢
    obtain ⟨h1, y, h2, h3⟩ := hp
    refine ⟨(hi.lab v x hx).2.symm.trans h1, ?_⟩
    obtain ⟨u, t, ⟨es, h4, h4'⟩, h5, h6⟩ := hi.sound x y w h2
    have hcls := hi.inj u v x h5 hx
    obtain ⟨fs, f, h7, h8, h9, h10⟩ := (hc.bis u v (by rw [← hc.len]; exact img_lt h5) (by rw [← hc.len]; exact img_lt hx) hcls).2
      es h4 (t, w) h4'
    refine ⟨f.1, ⟨fs, h7, ?_⟩, ih f.1 b y ?_ h3⟩
    · have : w = f.2 := h9
      rw [this]; exact h8
    · rw [← h6]
      unfold img
      have h10' : cls[t]? = cls[f.1]? := h10
      rw [h10']

theorem create_spec {g : G T W} (hg : GWf g) {cls : List Nat} {nc : Nat} (hc : ClsI g cls nc) (lt : Nat × W → Nat × W → Bool) :
    ∃ k g', (∀ f, k ≤ f → createEquivalentGraphFrom lt f g (cls, nc) = some g') ∧ (∀ a ws, Lang g' a ws ↔ Lang g a ws) ∧
      g'.nodes.length ≤ nc ∧ g'.adj.length = g'.nodes.length := by
  have himg : ∀ v x, img cls (List.replicate nc none) v ≠ some x := by
    intro v x h
    unfold img at h
    cases hq : cls[v]? with
    | none => rw [hq] at h; cases h
    | some c =>
      rw [hq] at h
      simp [List.getElem?_replicate] at h
      split at h <;> cases h
  have hcnt : ∀ n, cnt (List.replicate n (none : Option Nat)) = 0 := by
    intro n; simp [cnt]
  have hnh : ∀ v : Nat, (List.replicate (size g) false)[v]? ≠ some true := by
    intro v h
    rw [List.getElem?_replicate] at h
    split at h <;> cases h
  have i0 : CI g cls nc [] (fun _ _ _ => False)
      ⟨Adj.empty, List.replicate nc none, List.replicate (size g) false, []⟩ := by
    refine ⟨rfl, by simp, by simp, fun u v x h => (himg _ _ h).elim, fun v x h => (himg _ _ h).elim, (hcnt nc).symm, ?_, ?_, ?_, ?_, ?_⟩
    · rintro x y w ⟨es, h, _⟩
      simp [Adj.empty] at h
    · intro x
      constructor
      · intro h; simp [Adj.empty] at h
      · rintro ⟨r, h, _⟩; cases h
    · intro v h
      rcases h with h | h
      · cases h
      · exact (hnh v h).elim
    · intro r h; cases h
    · intro v t w h; exact (hnh v h).elim
  obtain ⟨s, h1, i1⟩ := addRoots_spec hg hc g.roots i0 hnh (fun v x h => (himg v x h).elim) hg.2.1
  rw [List.nil_append] at i1
  obtain ⟨k, s', h2, i2, h3⟩ := loop_spec hg hc (unh s.handled) s.wl.length i1 rfl rfl
  obtain ⟨g', h4, e1, e2, e3, e4⟩ := dedupAll_spec lt (List.range (size s'.ret)) s'.ret (by intro v hv; exact List.mem_range.1 hv)
  refine ⟨k, g', ?_, ?_, ?_, ?_⟩
  · intro f hf
    simp only [createEquivalentGraphFrom, h1, Option.bind_some, h2 f hf, h4]
  · intro a ws
    unfold Lang
    rw [e2]
    constructor
    · rintro ⟨x, hx, hp⟩
      rw [i2.roots] at hx
      obtain ⟨r, hr, hx⟩ := hx
      exact ⟨r, hr, path_back hc i2 ws r a x hx ((path_congr e1 e4 ws x a).1 hp)⟩
    · rintro ⟨r, hr, hp⟩
      have hh : s'.handled[r]? = some true := by
        rcases i2.rdom r hr with h | h
        · rw [h3] at h; cases h
        · exact h
      obtain ⟨_, x, hx⟩ := i2.dom r (Or.inr hh)
      exact ⟨x, (i2.roots x).2 ⟨r, hr, hx⟩, (path_congr e1 e4 ws x a).2 (path_forth i2 h3 ws r a x hh hx hp)⟩
  · rw [e1, i2.cnt]
    have := cnt_le s'.e2v
    rw [i2.e2v] at this
    exact this
  · rw [e3, e1]; exact i2.wf

end Phasar.DFAMin
