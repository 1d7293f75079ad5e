import Verif.Path.Filter
import Verif.Path.DagGraph
/-!
# Lemmas about the removal of edges
-/
namespace Phasar.PathFilter
open Phasar Dag
set_option linter.unusedSectionVars false

variable {N C M : Type} [DecidableEq N] {z : Z3 C} {holds : M → C → Prop} {con : Constr N C}

/-! ## Lists -/

theorem pairs_cons (a b : N) (l : List N) : pairs (a :: b :: l) = (a, b) :: pairs (b :: l) := rfl

theorem pairs_append (l : List N) (a b : N) (l' : List N) : pairs (l ++ [a] ++ b :: l') = pairs (l ++ [a]) ++ (a, b) :: pairs (b :: l') := by
  induction l with
  | nil => rfl
  | cons c l ih =>
    cases l with
    | nil => rfl
    | cons d l =>
      show (c, d) :: pairs (d :: l ++ [a] ++ b :: l') = (c, d) :: (pairs (d :: l ++ [a]) ++ (a, b) :: pairs (b :: l'))
      rw [ih]

theorem pairs_snoc (l : List N) (a b : N) : pairs (l ++ [a] ++ [b]) = pairs (l ++ [a]) ++ [(a, b)] := by
  rw [pairs_append]; rfl

theorem pairs_prefix (l l' : List N) : ∃ ext, pairs (l ++ l') = pairs l ++ ext := by
  rcases List.eq_nil_or_concat l with rfl | ⟨l, a, rfl⟩
  · exact ⟨_, rfl⟩
  · rw [List.concat_eq_append]
    cases l' with
    | nil => exact ⟨[], by simp⟩
    | cons b l' => exact ⟨_, pairs_append l a b l'⟩

theorem feasible_append {m : M} (l : List N) (a b : N) (l' : List N) : Feasible con holds m (l ++ [a] ++ b :: l') ↔
    Feasible con holds m (l ++ [a]) ∧ (∀ c, con a b = some c → holds m c.1) ∧ Feasible con holds m (b :: l') := by
  unfold Feasible
  rw [pairs_append]
  constructor
  · intro h
    exact ⟨fun q hq => h q (List.mem_append_left _ hq), h (a, b) (by simp), fun q hq => h q (by simp [hq])⟩
  · rintro ⟨h1, h2, h3⟩ q hq
    rcases List.mem_append.1 hq with hq | hq
    · exact h1 q hq
    · cases hq with
      | head => exact h2
      | tail _ hq => exact h3 q hq

theorem swapPop_split {A : Type} {l l' : List A} {i : Nat} (h : Adj.swapPop l i = some l') :
    ∃ a u b, l = a ++ u :: b ∧ a.length = i ∧ ((b = [] ∧ l' = a) ∨ ∃ b' x, b = b' ++ [x] ∧ l' = a ++ x :: b') := by
  unfold Adj.swapPop at h
  split at h
  · rename_i u x hu hx
    obtain ⟨hi, hu⟩ := List.getElem?_eq_some_iff.1 hu
    cases h
    refine ⟨l.take i, u, l.drop (i + 1), ?_, by simp; omega, ?_⟩
    · rw [← hu, ← List.drop_eq_getElem_cons hi, List.take_append_drop]
    · have hl : l = l.take i ++ u :: l.drop (i + 1) := by
        rw [← hu, ← List.drop_eq_getElem_cons hi, List.take_append_drop]
      rcases List.eq_nil_or_concat (l.drop (i + 1)) with hb | ⟨b', y, hb⟩
      · left
        refine ⟨hb, ?_⟩
        have hlen : l.length = i + 1 := by have := congrArg List.length hb; simp at this; omega
        apply List.ext_getElem?
        intro k
        rw [List.getElem?_dropLast, List.length_set, List.getElem?_set, List.getElem?_take]
        by_cases hk : k < i
        · rw [if_pos (by omega), if_neg (by omega), if_pos hk]
        · rw [if_neg (by omega), if_neg hk]
      · right
        rw [List.concat_eq_append] at hb
        refine ⟨b', y, hb, ?_⟩
        have hy : y = x := by
          have : l = (l.take i ++ u :: b') ++ [y] := by rw [hb] at hl; simpa using hl
          rw [this, List.getLast?_append] at hx
          simpa using hx
        subst hy
        have hset : l.set i y = (l.take i ++ y :: b') ++ [y] := by
          conv => lhs; rw [hl, hb]
          rw [List.set_append_right _ _ (by simp; omega)]
          have : i - (l.take i).length = 0 := by simp; omega
          rw [this]; simp
        rw [hset, List.dropLast_append_of_ne_nil (by simp)]
        simp
  · cases h

theorem swapPop_some {A : Type} {l : List A} {i : Nat} (h : i < l.length) : ∃ l', Adj.swapPop l i = some l' := by
  unfold Adj.swapPop
  rw [List.getElem?_eq_getElem h]
  cases hl : l.getLast? with
  | none => rw [List.getLast?_eq_none_iff] at hl; subst hl; simp at h
  | some x => exact ⟨_, rfl⟩

/-! ## Constraints of paths -/

theorem holds_fold (hs : z.Sound holds) {m : M} (qs : List (N × N)) (x : C) :
    holds m (qs.foldl (fun x q => match con q.1 q.2 with | some c => z.and x c.1 | none => x) x) ↔
      holds m x ∧ ∀ q ∈ qs, ∀ c, con q.1 q.2 = some c → holds m c.1 := by
  induction qs generalizing x with
  | nil => simp
  | cons q qs ih =>
    rw [List.foldl_cons, ih]
    cases hc : con q.1 q.2 with
    | none => simp [hc]
    | some c =>
      simp only [hs.and]
      constructor
      · rintro ⟨⟨h1, h2⟩, h3⟩
        refine ⟨h1, fun q' hq' c' hc' => ?_⟩
        rcases List.mem_cons.1 hq' with rfl | hq'
        · rw [hc] at hc'; cases hc'; exact h2
        · exact h3 q' hq' c' hc'
      · rintro ⟨h1, h2⟩
        exact ⟨⟨h1, h2 q (by simp) c hc⟩, fun q' hq' => h2 q' (by simp [hq'])⟩

theorem holds_inner (hs : z.Sound holds) {m : M} (l : List N) : holds m (inner z con l) ↔ Feasible con holds m l.reverse := by
  have := holds_fold (con := con) hs (m := m) (pairs l.reverse) z.tt
  exact ⟨fun h => (this.1 h).2, fun h => this.2 ⟨hs.tt m, h⟩⟩

theorem holds_or (hs : z.Sound holds) {m : M} (ys : List C) (y : C) : holds m (ys.foldl z.or y) ↔ ∃ c ∈ y :: ys, holds m c := by
  induction ys generalizing y with
  | nil => simp
  | cons a ys ih =>
    rw [List.foldl_cons, ih]
    simp [hs.or, or_assoc]

variable {g : Adj.Graph (List N) Nat} {leaf : Nat}

/-- A model satisfies a path from `v` to the leaf. -/
def PathSat (con : Constr N C) (holds : M → C → Prop) (g : Adj.Graph (List N) Nat) (leaf : Nat) (m : M) (v : Nat) : Prop :=
  ∃ us, Walk g v us leaf ∧ Feasible con holds m (labelsFwd g us)

/-- A model satisfies a path that starts with an edge, apart from the constraint inside the first vertex. -/
def EdgeSat (con : Constr N C) (holds : M → C → Prop) (g : Adj.Graph (List N) Nat) (leaf : Nat) (m : M) (l : List N) (t : Nat) : Prop :=
  (∀ a b l', g.nodes[t]? = some l' → l.head? = some a → l'.getLast? = some b → ∀ c, con a b = some c → holds m c.1) ∧
    PathSat con holds g leaf m t

theorem labelsFwd_cons {v : Nat} {us : List Nat} {l : List N} (h : g.nodes[v]? = some l) : labelsFwd g (v :: us) = l.reverse ++ labelsFwd g us := by
  simp [labelsFwd, h]

theorem walk_head {T : Type} {g : Adj.Graph T Nat} {a b : Nat} {us : List Nat} (h : Walk g a us b) : ∃ us', us = a :: us' := by
  cases h <;> exact ⟨_, rfl⟩

theorem feasible_step (hne : ∀ l ∈ g.nodes, l ≠ []) {m : M} {v t e : Nat} {us : List Nat} {l l' : List N} (hv : g.nodes[v]? = some l)
    (ht : g.nodes[t]? = some l') (hw : Walk g t us e) : Feasible con holds m (labelsFwd g (v :: us)) ↔
      Feasible con holds m l.reverse ∧ (∀ a b, l.head? = some a → l'.getLast? = some b → ∀ c, con a b = some c → holds m c.1) ∧
        Feasible con holds m (labelsFwd g us) := by
  obtain ⟨us', rfl⟩ := walk_head hw
  rw [labelsFwd_cons hv, labelsFwd_cons ht]
  cases l with
  | nil => exact absurd rfl (hne _ (List.mem_of_getElem? hv))
  | cons a l =>
    rcases List.eq_nil_or_concat l' with h | ⟨l', b, h⟩
    · exact absurd h (hne _ (List.mem_of_getElem? ht))
    · rw [List.concat_eq_append] at h
      subst h
      rw [List.reverse_cons, List.reverse_append, List.reverse_singleton, List.singleton_append, List.cons_append, feasible_append]
      constructor
      · rintro ⟨h1, h2, h3⟩
        refine ⟨h1, fun a' b' ha hb => ?_, h3⟩
        cases ha
        rw [List.getLast?_append] at hb
        cases (show some b = some b' by simpa using hb)
        exact h2
      · rintro ⟨h1, h2, h3⟩
        exact ⟨h1, h2 a b rfl (by simp), h3⟩

theorem pathSat_leaf (hl : Leaf g leaf) {m : M} {l : List N} (hv : g.nodes[leaf]? = some l) :
    PathSat con holds g leaf m leaf ↔ Feasible con holds m l.reverse := by
  constructor
  · rintro ⟨us, hw, hf⟩
    cases hw with
    | one => rw [labelsFwd_cons hv] at hf; simpa [labelsFwd] using hf
    | cons hs _ =>
      obtain ⟨es, he, hm⟩ := hs
      have hl : g.adj[leaf]? = some [] := hl
      rw [hl] at he; cases he; cases hm
  · intro h
    refine ⟨[leaf], .one (List.getElem?_eq_some_iff.1 hl).1, ?_⟩
    rw [labelsFwd_cons hv]; simpa [labelsFwd] using h

theorem pathSat_step (hg : InRange g) (hne : ∀ l ∈ g.nodes, l ≠ []) {m : M} {v : Nat} {l : List N} (hv : g.nodes[v]? = some l)
    (hvl : v ≠ leaf) : PathSat con holds g leaf m v ↔
      Feasible con holds m l.reverse ∧ ∃ t, Succ g v t ∧ EdgeSat con holds g leaf m l t := by
  constructor
  · rintro ⟨us, hw, hf⟩
    cases hw with
    | one => exact absurd rfl hvl
    | @cons _ t us _ hs hw =>
      have ht := hg.succ v t hs
      rw [hg.wf] at ht
      obtain ⟨h1, h2, h3⟩ := (feasible_step hne hv (List.getElem?_eq_getElem ht) hw).1 hf
      refine ⟨h1, t, hs, fun a b l' hl' ha hb => ?_, us, hw, h3⟩
      rw [List.getElem?_eq_getElem ht] at hl'; cases hl'
      exact h2 a b ha hb
  · rintro ⟨h1, t, hs, h2, us, hw, h3⟩
    have ht := hg.succ v t hs
    rw [hg.wf] at ht
    exact ⟨v :: us, .cons hs hw, (feasible_step hne hv (List.getElem?_eq_getElem ht) hw).2
      ⟨h1, fun a b ha hb => h2 a b _ (List.getElem?_eq_getElem ht) ha hb, h3⟩⟩

theorem across_some (hs : z.Sound holds) {y : C} {l l' : List N} (h1 : l ≠ []) (h2 : l' ≠ []) :
    ∃ y', across z con y l l' = some y' ∧ (y' = y ∨ ∃ d, y' = z.and y d) ∧ ∀ m, holds m y' ↔
      (∀ a b, l.head? = some a → l'.getLast? = some b → ∀ c, con a b = some c → holds m c.1) ∧ holds m y := by
  cases l with
  | nil => exact absurd rfl h1
  | cons a l =>
    rcases List.eq_nil_or_concat l' with h | ⟨l', b, h⟩
    · exact absurd h h2
    · rw [List.concat_eq_append] at h
      subst h
      unfold across
      simp only [List.head?_cons, List.getLast?_append, List.getLast?_singleton, Option.some_or]
      cases hc : con a b with
      | none =>
        refine ⟨y, rfl, .inl rfl, fun m => ⟨fun h => ⟨fun a' b' ha hb c hc' => ?_, h⟩, fun h => h.2⟩⟩
        cases ha; cases hb; rw [hc] at hc'; cases hc'
      | some c =>
        refine ⟨z.and y c.1, rfl, .inr ⟨_, rfl⟩, fun m => ?_⟩
        rw [hs.and]
        constructor
        · rintro ⟨h3, h4⟩
          refine ⟨fun a' b' ha hb c' hc' => ?_, h3⟩
          cases ha; cases hb; rw [hc] at hc'; cases hc'; exact h4
        · rintro ⟨h3, h4⟩
          exact ⟨h4, h3 a b rfl rfl c hc⟩

end Phasar.PathFilter
