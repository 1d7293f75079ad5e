import Verif.Util.ECM
import Verif.Util.AdjList
import Verif.Util.DFAMinFix
import Verif.Util.StableVecWorld
import Verif.Util.BitVec
/-!
# Properties C25-C30: utility data structures
-/
set_option linter.unusedSimpArgs false
set_option linter.unusedSectionVars false
namespace Phasar

/-! ## C26: `BitVectorSet` -/

section C26
open BVS
variable {T : Type} [DecidableEq T]

/-- C26, partial: for every history of operations on any number of sets over one element type, no operation
accesses a bit out of range, and `count`, `find`, `empty`, `size`, iteration, `includes` and `==` agree with the
family of mathematical sets the history describes. Missing: equal hashes of equal sets, which holds for non-empty
sets only (`C26_hash`, `C26_hash_empty`), and iterating while a new element enters another set
(`C26_iteration_overrun`). -/
theorem C26_partial (os : List (Op T)) :
    ∃ w, run init os = some w ∧
    ∀ S : Nat → T → Prop, S = specRun (fun _ _ => False) os →
    (∀ k t, (S k t → count w.pos (w.sets k) t = 1) ∧ (¬ S k t → count w.pos (w.sets k) t = 0)) ∧
    (∀ k t, find w.pos (w.sets k) t = true ↔ S k t) ∧
    (∀ k, isEmpty (w.sets k) = true ↔ ∀ t, ¬ S k t) ∧
    (∀ k, ∃ l, elems w.pos (w.sets k) = some l ∧ l.Nodup ∧ (∀ t, t ∈ l ↔ S k t) ∧ size (w.sets k) = l.length) ∧
    (∀ k j, includes (w.sets k) (w.sets j) = true ↔ ∀ t, S j t → S k t) ∧
    (∀ k j, eq (w.sets k) (w.sets j) = true ↔ ∀ t, S k t ↔ S j t) := by
  obtain ⟨w, hw, hi, hm⟩ := run_refines (inv_init (T := T)) os
  refine ⟨w, hw, ?_⟩
  rintro S rfl
  have hS : ∀ k t, (Mem w.pos (w.sets k) t ↔ specRun (fun _ _ => False) os k t) := by
    intro k t
    rw [hm k t]
    exact specRun_congr (fun j t => by simp [Mem, init, bit]) os k t
  have hbit : ∀ k i (t : T), w.pos[i]? = some t → (bit (w.sets k) i = true ↔ specRun (fun _ _ => False) os k t) :=
    fun k i t h => (mem_iff_bit hi.nodup h).symm.trans (hS k t)
  have hget : ∀ k i, bit (w.sets k) i = true → ∃ t, w.pos[i]? = some t :=
    fun k i h => ⟨_, List.getElem?_eq_getElem (hi.bound k i h)⟩
  refine ⟨?_, ?_, ?_, ?_, ?_, ?_⟩
  · intro k t
    have := count_spec hi.nodup (w.sets k) t
    rw [hS] at this
    exact this
  · intro k t
    have := count_spec hi.nodup (w.sets k) t
    rw [← hS]
    unfold find
    by_cases h : Mem w.pos (w.sets k) t
    · simp [this.1 h, h]
    · simp [this.2 h, h]
  · intro k
    rw [isEmpty_iff]
    constructor
    · intro h t ht
      obtain ⟨i, _, hb⟩ := (hS k t).2 ht
      rw [h i] at hb; cases hb
    · intro h i
      cases hb : bit (w.sets k) i with
      | false => rfl
      | true => obtain ⟨t, ht⟩ := hget k i hb; exact (h t ((hbit k i t ht).1 hb)).elim
  · intro k
    obtain ⟨l, hl, hl2⟩ := elems_spec (hi.bound k)
    have hlen : l.length = (idxs (w.sets k)).length := by
      have := congrArg List.length hl2; simpa using this
    refine ⟨l, hl, ?_, ?_, ?_⟩
    · have hnd : (l.map some).Nodup := by
        rw [hl2]
        refine List.pairwise_map.2 (List.Pairwise.imp_of_mem ?_ (nodup_idxs (w.sets k)))
        intro a b ha hb hab e
        obtain ⟨t, ht⟩ := hget k a ((mem_idxs _ _).1 ha)
        rw [ht] at e
        exact hab (nodup_idx hi.nodup ht e.symm)
      have := List.pairwise_map.1 hnd
      exact List.Pairwise.imp (fun h e => h (congrArg some e)) this
    · intro t
      have h1 : t ∈ l ↔ some t ∈ l.map some := by simp
      rw [h1, hl2, List.mem_map, ← hS]
      constructor
      · rintro ⟨i, hi1, hi2⟩; exact ⟨i, hi2, (mem_idxs _ _).1 hi1⟩
      · rintro ⟨i, hi1, hi2⟩; exact ⟨i, (mem_idxs _ _).2 hi2, hi1⟩
    · rw [hlen, length_idxs]; rfl
  · intro k j
    rw [includes_iff]
    constructor
    · intro h t ht
      obtain ⟨i, hi1, hb⟩ := (hS j t).2 ht
      exact (hbit k i t hi1).1 (h i hb)
    · intro h i hb
      obtain ⟨t, ht⟩ := hget j i hb
      exact (hbit k i t ht).2 (h t ((hbit j i t ht).1 hb))
  · intro k j
    rw [eq_iff]
    constructor
    · intro h t
      rw [← hS, ← hS]
      unfold Mem
      simp only [h]
    · intro h i
      cases hb : bit (w.sets k) i with
      | true =>
        obtain ⟨t, ht⟩ := hget k i hb
        exact ((hbit j i t ht).2 ((h t).1 ((hbit k i t ht).1 hb))).symm
      | false =>
        cases hc : bit (w.sets j) i with
        | false => rfl
        | true =>
          obtain ⟨t, ht⟩ := hget j i hc
          have := (hbit k i t ht).2 ((h t).2 ((hbit j i t ht).1 hc))
          rw [hb] at this; cases this

/-- C26 for hashes: non-empty sets that are `==` have the same hash, whatever their sizes; so do empty sets whose
bit vectors have some bits. -/
theorem C26_hash (hc : List (List Bool) → Nat) (a b : Bits) (h : eq a b = true) (ha : a.length ≠ 0)
    (hb : b.length ≠ 0) : hash hc a = hash hc b := by
  unfold BVS.hash
  rw [if_neg ha, if_neg hb, trim_words_eq ((eq_iff a b).1 h)]

/-- C26: "equal sets have equal hashes" is false for empty sets: a default-constructed set hashes to 0, a set
emptied by `erase` hashes to `hash_combine_range` of the empty range, though the two are `==`. -/
theorem C26_hash_empty (hc : List (List Bool) → Nat) (h : hc [] ≠ 0) :
    ∃ w, run init [Op.insert 0 7, Op.erase 0 7] = some w ∧ eq (w.sets 0) (w.sets 1) = true ∧
      hash hc (w.sets 0) ≠ hash hc (w.sets 1) := by
  refine ⟨⟨[7], fun j => if j = 0 then [false] else if j = 0 then [true] else []⟩, rfl, by decide, ?_⟩
  show hc (trim (words [false])) ≠ 0
  have : trim (words [false]) = [] := by decide
  rw [this]
  exact h

/-- C26: iterating over a set while an element that no set ever held is inserted into another set runs past the
end: `++` at the last element looks up `end()` anew and now finds the new element's entry. Here set `{10}` is
iterated, `20` enters another set, and the iteration visits `20`. -/
theorem C26_iteration_overrun :
    let pos0 := [10]
    let pos1 := [10, 20]
    let b := [true]
    elems pos0 b = some [10] ∧
    begin' pos0 b = some 0 ∧ end' pos0 b = none ∧ next pos1 b 0 = some 1 ∧ next pos1 b 0 ≠ end' pos0 b ∧
    pos1[1]? = some 20 ∧ count pos1 b 20 = 0 ∧ ∀ k, iterate pos1 b (end' pos0 b) k (begin' pos0 b) = none := by
  refine ⟨by decide, by decide, by decide, by decide, by decide, by decide, by decide, ?_⟩
  have h1 : ∀ k, iterate [10, 20] [true] none k (some 1) = none := by
    intro k
    induction k with
    | zero => decide
    | succ k ih =>
      show (iterate [10, 20] [true] none k (some 1)).map (20 :: ·) = none
      rw [ih]; rfl
  intro k
  show iterate [10, 20] [true] none k (some 0) = none
  cases k with
  | zero => decide
  | succ k =>
    show (iterate [10, 20] [true] none k (some 1)).map (10 :: ·) = none
    rw [h1]; rfl

/-- C26: `operator<` compares the sets as binary numbers; it is a strict total order whose equality is `==`. -/
theorem C26_less (a b c : Bits) :
    (isLess a b = true ↔ val a < val b) ∧ isLess a a = false ∧
    (isLess a b = true → isLess b c = true → isLess a c = true) ∧
    ((isLess a b = false ∧ isLess b a = false) ↔ eq a b = true) := by
  rw [eq_iff, ← val_inj]
  simp only [isLess_spec, decide_eq_true_eq, decide_eq_false_iff_not]
  refine ⟨trivial, by omega, by omega, by omega⟩

/-- C26: `setUnion` and `setUnionWith` give equal sets, as do `setIntersect` and `setIntersectWith`, and both are
commutative up to `==`. -/
theorem C26_union_inter (a b : Bits) :
    eq (setUnion a b) (orBits a b) = true ∧ eq (setIntersect a b) (andBits a b) = true ∧
    eq (setUnion a b) (setUnion b a) = true ∧ eq (setIntersect a b) (setIntersect b a) = true := by
  simp only [eq_iff, bit_setUnion, bit_setIntersect, bit_or, bit_and]
  exact ⟨fun _ => trivial, fun _ => trivial, fun i => Bool.or_comm _ _, fun i => Bool.and_comm _ _⟩

/-- C26 instance: three sets, 70 elements (two words); the second set knows only later elements. -/
example :
    let os : List (Op Nat) := (List.range 70).map (fun i => Op.insert 0 (100 + i)) ++
      [.insert 1 169, .insert 1 3, .union 2 0 1, .erase 2 3, .inter 1 1 0, .eraseSet 0 1]
    (run init os).any (fun w => size (w.sets 0) == 69 && size (w.sets 1) == 1 && size (w.sets 2) == 70 &&
      includes (w.sets 2) (w.sets 0) && !eq (w.sets 2) (w.sets 0) && count w.pos (w.sets 1) 169 == 1 &&
      elems w.pos (w.sets 1) == some [169]) = true := by
  decide +kernel

/-- C26 hash instance: equal sets with bit vectors of different size and number of words. -/
example : eq [true, false] ([true] ++ List.replicate 100 false) = true ∧
    (words [true, false]).length ≠ (words ([true] ++ List.replicate 100 false)).length := by decide +kernel

end C26

/-! ## C27: `EquivalenceClassMap` -/

section C27
open ECM
variable {K V : Type} [DecidableEq K]

/-- Specification: no key is inserted with two different values. -/
def ECM.Consistent (eqV : V → V → Bool) (h : List (K × V)) : Prop :=
  ∀ k v w, (k, v) ∈ h → (k, w) ∈ h → eqV v w = true

/-- C27, partial: for histories that never insert a key with two different values, `find` yields a value equal
to the inserted one and `end()` for keys never inserted; two keys are found in the same class exactly when
their values are equal; the classes have pairwise different values, all of them inserted ones, and every
inserted value has its class. Missing: histories re-inserting a key with another value, where it is false
(`C27_reinsert`, `C27_two_classes`). -/
theorem C27_partial (eqV : V → V → Bool) (he : IsEquiv eqV) (h : List (K × V)) (hc : ECM.Consistent eqV h) :
    let m := runIns eqV h
    (∀ k v, (k, v) ∈ h → ∃ b, find m k = some b ∧ findValue m k = some b.2 ∧ eqV b.2 v = true ∧ k ∈ b.1) ∧
    (∀ k, (∀ v, (k, v) ∉ h) → find m k = none ∧ findValue m k = none ∧ count m k = 0) ∧
    (∀ k v k' v', (k, v) ∈ h → (k', v') ∈ h → (find m k = find m k' ↔ eqV v v' = true)) ∧
    m.Pairwise (fun a b => eqV a.2 b.2 = false) ∧
    (∀ b ∈ m, ∃ k, (k, b.2) ∈ h) ∧ (∀ k v, (k, v) ∈ h → ∃ b ∈ m, eqV b.2 v = true) ∧
    (∀ k, count m k = if (find m k).isSome then 1 else 0) := by
  intro m
  have hi := inv_run he h
  have hfind : ∀ k v, (k, v) ∈ h → ∃ b, b ∈ m ∧ find m k = some b ∧ eqV b.2 v = true ∧ k ∈ b.1 := by
    intro k v hk
    rcases find_spec m k with ⟨m1, b, m2, hm, _, hb, hf⟩ | ⟨hn, _⟩
    · have hbm : b ∈ m := by rw [hm]; simp
      obtain ⟨w, hw, hbw⟩ := ((hi.bucket b hbm).1 k).1 hb
      exact ⟨b, hbm, hf, he.trans _ _ _ hbw (hc k w v hw hk), hb⟩
    · obtain ⟨b, hb, hbv⟩ := hi.cover k v hk
      exact absurd (((hi.bucket b hb).1 k).2 ⟨v, hk, hbv⟩) (hn b hb)
  have habs : ∀ k, (∀ v, (k, v) ∉ h) → find m k = none := by
    intro k hk
    rcases find_spec m k with ⟨m1, b, m2, hm, _, hb, hf⟩ | ⟨_, hf⟩
    · obtain ⟨w, hw, _⟩ := ((hi.bucket b (by show b ∈ m; rw [hm]; simp)).1 k).1 hb
      exact absurd hw (hk w)
    · exact hf
  refine ⟨?_, ?_, ?_, hi.distinct, hi.from', hi.cover, count_eq m⟩
  · intro k v hk
    obtain ⟨b, _, h1, h2, h3⟩ := hfind k v hk
    exact ⟨b, h1, by simp [findValue, h1], h2, h3⟩
  · intro k hk
    have := habs k hk
    exact ⟨this, by simp [findValue, this], by rw [count_eq]; simp [this]⟩
  · intro k v k' v' hk hk'
    obtain ⟨b, hbm, h1, h2, _⟩ := hfind k v hk
    obtain ⟨b', hbm', h1', h2', hk2⟩ := hfind k' v' hk'
    rw [h1, h1', Option.some.injEq]
    constructor
    · rintro rfl
      exact he.trans _ _ _ (he.symm _ _ h2) h2'
    · intro hvv
      have hbb : eqV b.2 b'.2 = true :=
        he.trans _ _ _ h2 (he.trans _ _ _ hvv (he.symm _ _ h2'))
      -- k is in both buckets, so `find` of k' and k stop at the same one
      obtain ⟨i, hi1, hib⟩ := List.getElem_of_mem hbm
      obtain ⟨j, hj1, hjb⟩ := List.getElem_of_mem hbm'
      have hpw := List.pairwise_iff_getElem.1 hi.distinct
      rcases Nat.lt_trichotomy i j with hlt | heq | hgt
      · have := hpw i j hi1 hj1 hlt
        change eqV m[i].2 m[j].2 = false at this
        rw [hib, hjb, hbb] at this; cases this
      · subst heq; rw [← hib, ← hjb]
      · have := hpw j i hj1 hi1 hgt
        change eqV m[j].2 m[i].2 = false at this
        rw [hib, hjb, he.symm _ _ hbb] at this; cases this

/-- C27 is false when a key is re-inserted with another value: `find` returns neither always the first nor
always the last value. -/
theorem C27_reinsert :
    let eqV : Nat → Nat → Bool := fun a b => a == b
    findValue (runIns eqV [(1, 10), (1, 20)]) 1 = some 10 ∧
    findValue (runIns eqV [(2, 20), (1, 10), (1, 20)]) 1 = some 20 := by decide

/-- ... and the key is then in two classes. -/
theorem C27_two_classes :
    runIns (fun a b : Nat => a == b) [(1, 10), (1, 20)] = [([1], 10), ([1], 20)] := by decide

/-- In every history, `find` returns the class that was created first among those the key was inserted into. -/
theorem C27_first_class (eqV : V → V → Bool) (he : IsEquiv eqV) (h : List (K × V)) (k : K) (b : List K × V)
    (hf : find (runIns eqV h) k = some b) :
    ∃ m1 m2, runIns eqV h = m1 ++ b :: m2 ∧ (∃ v, (k, v) ∈ h ∧ eqV b.2 v = true) ∧
      ∀ a ∈ m1, ∀ v, (k, v) ∈ h → eqV a.2 v = false := by
  have hi := inv_run he h
  rcases find_spec (runIns eqV h) k with ⟨m1, b', m2, hm, h1, hb, hf'⟩ | ⟨_, hf'⟩
  · rw [hf] at hf'
    cases hf'
    refine ⟨m1, m2, hm, ((hi.bucket b (by rw [hm]; simp)).1 k).1 hb, fun a ha v hv => ?_⟩
    cases hh : eqV a.2 v with
    | false => rfl
    | true => exact absurd (((hi.bucket a (by rw [hm]; simp [ha])).1 k).2 ⟨v, hv, hh⟩) (h1 a ha)
  · rw [hf] at hf'; cases hf'

-- a consistent history with classes modulo 10
example : IsEquiv (fun a b : Nat => a % 10 == b % 10) := by
  refine ⟨?_, ?_, ?_⟩ <;> simp <;> omega
example : ECM.Consistent (fun a b : Nat => a % 10 == b % 10) [(1, 13), (2, 23), (3, 5), (1, 33)] ∧
    runIns (fun a b : Nat => a % 10 == b % 10) [(1, 13), (2, 23), (3, 5), (1, 33)] = [([1, 2], 13), ([3], 5)] := by
  refine ⟨?_, by decide⟩
  intro k v w hv hw
  simp at hv hw
  rcases hv with ⟨rfl, rfl⟩ | ⟨rfl, rfl⟩ | ⟨rfl, rfl⟩ | ⟨rfl, rfl⟩ <;>
    rcases hw with h | h | h | h <;> obtain ⟨h1, rfl⟩ := h <;> first | rfl | (exact absurd h1 (by decide))

end C27

/-! ## C30: `AdjacencyList` -/

section C30
open Adj
variable {T E : Type} [DecidableEq E]

/-- C30: for every graph and every operation, the operation is defined exactly if its arguments name a vertex,
edge or root of the graph; it then performs exactly the edit it names on the multisets of edges and roots and
leaves everything else as it was, and it keeps `Adj.size() == Nodes.size()`. -/
theorem C30_step (lt : E → E → Bool) (hlt : StrictTotal lt) (g : Graph T E) (hw : Wf g) (o : Op T E) :
    (meaning g o = none → step lt g o = none) ∧
    (∀ s, meaning g o = some s → ∃ g', step lt g o = some g' ∧ Wf g' ∧ abs g' = sstep (abs g) s) := by
  have h := step_abs hlt hw o
  constructor
  · intro hm; rw [hm] at h; exact h
  · intro s hm
    rw [hm] at h
    obtain ⟨g', h1, h2⟩ := h
    exact ⟨g', h1, step_wf hw h1, h2⟩

/-- C30 for sequences of operations: the resulting graph stands for the multisets obtained by performing the
named edits in order. -/
theorem C30_run (lt : E → E → Bool) (hlt : StrictTotal lt) (os : List (Op T E)) (g g' : Graph T E) (hw : Wf g)
    (h : run lt g os = some g') :
    Wf g' ∧ abs g' = (meanings lt g os).foldl sstep (abs g) ∧ (meanings lt g os).length = os.length := by
  induction os generalizing g with
  | nil => cases h; exact ⟨hw, rfl, rfl⟩
  | cons o os ih =>
    simp only [run] at h
    cases hs : step lt g o with
    | none => rw [hs] at h; cases h
    | some g1 =>
      rw [hs] at h
      have hC := C30_step lt hlt g hw o
      cases hm : meaning g o with
      | none => rw [hC.1 hm] at hs; cases hs
      | some s =>
        obtain ⟨g2, h2, hw2, ha2⟩ := hC.2 s hm
        rw [hs] at h2
        cases h2
        obtain ⟨i1, i2, i3⟩ := ih g1 hw2 h
        refine ⟨i1, ?_, ?_⟩
        · simp only [meanings, hm, hs, List.foldl_cons, i2, ha2]
        · simp only [meanings, hm, hs, List.length_cons, i3]

/-- C30: `addNode` returns a vertex that was not in the graph, `addEdge` and `addRoot` append, so the order of
the other edges is kept too. -/
theorem C30_order (g : Graph T E) (hw : Wf g) (t : T) (v : Nat) (e : E) :
    (addNode g t).2 = size g ∧ node (addNode g t).1 (addNode g t).2 = some t ∧
    outEdges (addNode g t).1 (addNode g t).2 = some [] ∧
    (∀ es, outEdges g v = some es → ∃ g', addEdge g v e = some g' ∧ outEdges g' v = some (es ++ [e]) ∧
      outDegree g' v = some (es.length + 1)) := by
  unfold Wf at hw
  refine ⟨?_, ?_, ?_, ?_⟩
  · simp [addNode, size, hw]
  · simp [addNode, node]
  · simp only [addNode, outEdges, ← hw]; simp
  · intro es hes
    unfold outEdges at hes
    have hv := (List.getElem?_eq_some_iff.1 hes).1
    refine ⟨{ g with adj := g.adj.set v (es ++ [e]) }, by simp only [addEdge, hes], ?_, ?_⟩
    · simp [outEdges, List.getElem?_set, hv]
    · simp [outDegree, List.getElem?_set, hv]

/-- C30: continuing an iteration at the iterator `removeEdge` returns (same index) visits the remaining edges
exactly once: the edges before it are untouched, the edges from it on are those that followed the removed one. -/
theorem C30_remove_iter (g g' : Graph T E) (v i : Nat) (es : List E) (hes : outEdges g v = some es)
    (h : removeEdge g v i = some g') :
    ∃ es', outEdges g' v = some es' ∧ es'.take i = es.take i ∧ List.Perm (es.drop (i + 1)) (es'.drop i) := by
  unfold outEdges at hes
  have hv := (List.getElem?_eq_some_iff.1 hes).1
  simp only [removeEdge, hes] at h
  cases hs : swapPop es i with
  | none => rw [hs] at h; cases h
  | some es' =>
    rw [hs] at h
    cases h
    obtain ⟨x, _, _, h3, h4⟩ := swapPop_spec hs
    exact ⟨es', by simp [outEdges, List.getElem?_set, hv], h3, h4⟩

/-- C30: `removeRoot` likewise. -/
theorem C30_remove_root_iter (g g' : Graph T E) (i : Nat) (h : removeRoot g i = some g') :
    g'.roots.take i = g.roots.take i ∧ List.Perm (g.roots.drop (i + 1)) (g'.roots.drop i) ∧
    g'.adj = g.adj ∧ g'.nodes = g.nodes := by
  simp only [removeRoot] at h
  cases hs : swapPop g.roots i with
  | none => rw [hs] at h; cases h
  | some r =>
    rw [hs] at h
    cases h
    obtain ⟨x, _, _, h3, h4⟩ := swapPop_spec hs
    exact ⟨h3, h4, rfl, rfl⟩

/-- C30: after `dedupOutEdges` the out-edges of the vertex are strictly ascending and have the same elements. -/
theorem C30_dedup (lt : E → E → Bool) (hlt : StrictTotal lt) (g g' : Graph T E) (v : Nat) (es : List E)
    (hes : outEdges g v = some es) (h : dedupOutEdges lt g v = some g') :
    ∃ es', outEdges g' v = some es' ∧ es'.Pairwise (fun a b => lt a b = true) ∧ (∀ e, e ∈ es' ↔ e ∈ es) := by
  unfold outEdges at hes
  have hv := (List.getElem?_eq_some_iff.1 hes).1
  simp only [dedupOutEdges, hes] at h
  cases h
  refine ⟨unique (sort lt es), by simp [outEdges, List.getElem?_set, hv], unique_strict hlt _ (sort_sorted hlt es), ?_⟩
  intro e
  rw [mem_unique]
  exact (sort_perm lt es).mem_iff

/-- C30: `pop` removes the node and its out-edges only; edges into the popped vertex and its root entry stay, so
the next vertex added inherits them (here an edge 0 → 1 and the root 1). -/
theorem C30_pop_dangling :
    let g : Graph String Nat := ⟨["a", "b"], [[1], []], [1]⟩
    let g' := (addNode (pop g 1).1 "c").1
    (pop g 1).2 = true ∧ node g' 1 = some "c" ∧ outEdges g' 0 = some [1] ∧ g'.roots = [1] := by
  decide

theorem C30.natLt_total : StrictTotal (fun a b : Nat => decide (a < b)) :=
  ⟨fun a => by simp, fun a b c h1 h2 => by simp at *; omega, fun a b h1 h2 => by simp at *; omega⟩

/-- C30 instance: a triangle with a double edge; the operations are defined and the hypotheses hold. -/
example :
    let g : Graph String Nat := ⟨["a", "b", "c"], [[1, 2, 1], [2], [0]], [0, 2]⟩
    let os : List (Op String Nat) := [.removeEdge 0 0, .addEdge 0 2, .dedup 0, .removeRoot 0, .addNode "d", .pop 3]
    Wf g ∧ run (fun a b : Nat => decide (a < b)) g os = some ⟨["a", "b", "c"], [[1, 2], [2], [0]], [2]⟩ ∧
    (meanings (fun a b : Nat => decide (a < b)) g os).length = 6 :=
  ⟨rfl, by decide, by decide⟩

example := C30_step (T := String) (fun a b : Nat => decide (a < b)) C30.natLt_total
  ⟨["a", "b", "c"], [[1, 2, 1], [2], [0]], [0, 2]⟩ rfl (.removeEdge 0 0)

end C30

/-! ## C28: StableVector -/
section C28
open SVec

/-- C28 (partial: no `shrink_to_fit` on an empty vector, see `C28_shrink_use_after_free`): after any history of
create, emplace_back, pop_back, pop_back_n, clear, shrink_to_fit, copy, move, swap and destroy on any number of
vectors whose preconditions hold for the lists the vectors stand for, no step has undefined behaviour (`run` is
defined: no access to freed or uninitialised memory, no double free), and size, indexing, front, back and
iteration of every vector agree with its list; when all vectors are destroyed no memory is left. -/
theorem C28_partial {T : Type} (os : List (Op T)) (S : Nat → Option (List T))
    (hs : specRun (fun _ => none) os = some S) (hn : NoEmptyShrink (fun _ => none) os) :
    ∃ w, run init os = some w ∧
      (∀ k, S k = none → w.vecs k = none) ∧
      (∀ k l, S k = some l → ∃ v, w.vecs k = some v ∧ v.size = l.length ∧ toList v w.heap = some l ∧
        (∀ (i : Nat) (h : i < l.length), get v w.heap i = some l[i]) ∧
        (l ≠ [] → front v w.heap = l.head? ∧ back v w.heap = l.getLast?)) ∧
      ((∀ k, S k = none) → ∀ a, w.heap.mem a = none) := by
  obtain ⟨w, h1, h2⟩ := run_spec os WInv.init hs hn
  refine ⟨w, h1, fun k hk => h2.get_none hk, ?_, ?_⟩
  · intro k l hk
    obtain ⟨v, hv, hi⟩ := h2.get hk
    exact ⟨v, hv, hi.size, toList_spec hi, fun i h => get_spec hi h, fun hl => ⟨front_spec hi hl, back_spec hi hl⟩⟩
  · intro hall a
    cases hm : w.heap.mem a with
    | none => rfl
    | some c =>
      obtain ⟨k, u, hu, _⟩ := h2.leak a (by rw [hm]; exact fun e => by cases e)
      rw [h2.get_none (hall k)] at hu
      cases hu

/-- C28: addresses are stable: after one more operation every element that stays in its vector (for `move` and
`swap`: in the vector it was moved to) is at the address it had. -/
theorem C28_stable {T : Type} (os : List (Op T)) (o : Op T) (S S' : Nat → Option (List T)) (w : World T)
    (hs : specRun (fun _ => none) os = some S) (hn : NoEmptyShrink (fun _ => none) (os ++ [o]))
    (hs' : spec S o = some S') (hw : run init os = some w) :
    ∃ w', step w o = some w' ∧ ∀ k l l', S (origin o k) = some l → S' k = some l' →
      ∃ v v', w.vecs (origin o k) = some v ∧ w'.vecs k = some v' ∧
        ∀ i, i < l.length → i < l'.length → addr v' i = addr v i ∧ ∃ p, addr v i = some p := by
  have key : ∀ (os : List (Op T)) (S0 S : Nat → Option (List T)), specRun S0 os = some S →
      NoEmptyShrink S0 (os ++ [o]) → NoEmptyShrink S0 os ∧ ∀ k, o = .shrink k → S k ≠ some [] := by
    intro os
    induction os with
    | nil => intro S0 S h hn; cases h; exact ⟨trivial, hn.1⟩
    | cons q qs ih =>
      intro S0 S h hn
      simp only [specRun] at h
      cases hq : spec S0 q with
      | none => rw [hq] at h; cases h
      | some S1 =>
        rw [hq] at h
        have := ih S1 S h (hn.2 S1 hq)
        refine ⟨⟨hn.1, fun S' h' => ?_⟩, this.2⟩
        rw [hq] at h'
        cases h'
        exact this.1
  obtain ⟨k1, k2⟩ := key os _ S hs hn
  obtain ⟨w0, h1, h2⟩ := run_spec os WInv.init hs k1
  rw [hw] at h1
  cases h1
  obtain ⟨w', h3, h4, h5⟩ := step_spec h2 o hs' k2
  refine ⟨w', h3, ?_⟩
  intro k l l' hl hl'
  obtain ⟨v, hv, hi⟩ := h2.get hl
  obtain ⟨v', hv', hi'⟩ := h4.get hl'
  refine ⟨v, v', hv, hv', fun i h6 h7 => ⟨h5 k v v' l l' hv' hl' hv hl i h6 h7, ?_⟩⟩
  have := get_spec hi h6
  unfold SVec.get at this
  cases ha : addr v i with
  | none => rw [ha] at this; cases this
  | some p => exact ⟨p, rfl⟩

/-- C28: two different elements are never at the same address. -/
theorem C28_distinct {T : Type} (os : List (Op T)) (S : Nat → Option (List T)) (w : World T)
    (hs : specRun (fun _ => none) os = some S) (hn : NoEmptyShrink (fun _ => none) os) (hw : run init os = some w)
    (k j : Nat) (v u : SV) (l m : List T) (hv : w.vecs k = some v) (hu : w.vecs j = some u) (hl : S k = some l)
    (hm : S j = some m) (a b : Nat) (ha : a < l.length) (hb : b < m.length) (he : addr v a = addr u b) :
    k = j ∧ a = b := by
  obtain ⟨w0, h1, h2⟩ := run_spec os WInv.init hs hn
  rw [hw] at h1
  cases h1
  obtain ⟨v0, hv0, hi⟩ := h2.get hl
  rw [hv] at hv0; cases hv0
  obtain ⟨u0, hu0, hi2⟩ := h2.get hm
  rw [hu] at hu0; cases hu0
  obtain ⟨x, x1, x2⟩ := exists_block a
  obtain ⟨y, y1, y2⟩ := exists_block b
  have ga := get_spec hi ha
  unfold SVec.get at ga
  rw [addr_eq v x1 x2] at he ga
  rw [addr_eq u y1 y2] at he
  cases hx : v.blocks[x]? with
  | none => rw [hx] at ga; cases ga
  | some p =>
    rw [hx] at he
    cases hy : u.blocks[y]? with
    | none => rw [hy] at he; cases he
    | some q =>
      rw [hy] at he
      simp only [Option.map_some, Option.some.injEq, Prod.mk.injEq] at he
      obtain ⟨e1, e2⟩ := he
      subst e1
      by_cases hkj : k = j
      · subst hkj
        rw [hv] at hu
        cases hu
        have hxy := nodup_idx hi.nodup hx hy
        subst hxy
        exact ⟨rfl, by omega⟩
      · exact (h2.disj k j p hkj ⟨v, hv, List.mem_of_getElem? hx⟩ ⟨u, hu, List.mem_of_getElem? hy⟩).elim

/-- C28 fails for `shrink_to_fit` on an empty vector with more than one block: it frees the first block, but
`Start` still points into it, so the next `emplace_back` is always undefined behaviour. -/
theorem C28_shrink_use_after_free {T : Type} (v : SV) (h : Heap T) (hi : Inv v h ([] : List T))
    (hb : 2 ≤ v.blocks.length) :
    ∃ v' h' b, shrink v h = some (v', h') ∧ v'.start = some b ∧ h'.mem b = none ∧
      ∀ x, emplaceBack v' h' x = none := by
  obtain ⟨v', h', b, h1, h2, h3, _, h4⟩ := shrink_empty hi hb
  exact ⟨v', h', b, h1, h2, h3, h4⟩

/-- The history of 40 insertions. -/
def C28.fill (k n : Nat) : List (Op Nat) := (List.range n).map (fun i => Op.emplace k i)

/-- C28 fails on a history the list specification allows: 33 insertions, clear, shrink_to_fit, one insertion. -/
theorem C28_false :
    let os : List (Op Nat) := Op.create 0 :: C28.fill 0 33 ++ [.clear 0, .shrink 0, .emplace 0 7]
    (specRun (fun _ => none) os).isSome = true ∧ (run init os).isNone = true ∧ (run init os.dropLast).isSome = true := by
  decide +kernel

/-- C28 instance: 70 insertions (three blocks), a copy, popping back over two block boundaries, shrinking, a move
and a swap; the list specification gives the stated lists and the model the same. -/
example :
    let os : List (Op Nat) := Op.create 0 :: C28.fill 0 70 ++
      [.clone 1 0, .popN 0 50, .shrink 0, .emplace 0 100, .pop 1, .move 2 1, .emplace 1 5, .swap 0 1]
    (specRun (fun _ => none) os).map (fun S => (S 0, S 1, (S 2).map List.length)) =
      some (some [5], some (List.range 20 ++ [100]), some 69) ∧
    (run init os).bind (fun w => (w.vecs 1).bind (fun v => toList v w.heap)) = some (List.range 20 ++ [100]) := by
  decide +kernel

example := C28_partial (Op.create 0 :: C28.fill 0 40 ++ [.clone 1 0, .popN 1 39, .shrink 1])

/-- C28 instance: the precondition of the partial theorem holds for a history with `shrink_to_fit`. -/
example : NoEmptyShrink (fun _ => none) [Op.create 0, .emplace 0 1, .shrink 0, .clear 0] := by
  refine ⟨fun k h => (by cases h), fun S1 h1 => ⟨fun k h => (by cases h), fun S2 h2 => ⟨fun k h => ?_, fun S3 h3 =>
    ⟨fun k h => (by cases h), fun _ _ => trivial⟩⟩⟩⟩
  cases h; cases h1; cases h2
  simp [setL]

end C28

/-! ## C29: graph minimization -/
section C29
open DFAMin Adj

/-- C29: for every finite graph, `createEquivalentGraphFrom(G, minimizeGraph(G))` terminates (with enough rounds
the result no longer depends on their number), never reads outside an array, has exactly the label sequences
(node labels and edge weights) of the paths from roots that `G` has, and has no more nodes than `G`. -/
theorem C29_minimize {T W : Type} [DecidableEq T] [DecidableEq W] (lt : Nat × W → Nat × W → Bool) (g : DFAMin.G T W)
    (hg : GWf g) :
    ∃ k g', (∀ f, k ≤ f → (minimizeGraph g).bind (createEquivalentGraphFrom lt f g) = some g') ∧
      (∀ a ws, Lang g' a ws ↔ Lang g a ws) ∧ g'.nodes.length ≤ g.nodes.length ∧
      g'.adj.length = g'.nodes.length := by
  obtain ⟨r, h1, h2⟩ := minimizeGraph_spec hg
  obtain ⟨k, g', h3, h4, h5, h6⟩ := create_spec hg h2 lt
  refine ⟨k, g', fun f hf => by rw [h1]; exact h3 f hf, h4, ?_, h6⟩
  have := h2.num
  have hw := hg.1
  unfold size at this
  omega

/-- C29 for node labels alone, the property as stated. -/
theorem C29_node_labels {T W : Type} [DecidableEq T] [DecidableEq W] (lt : Nat × W → Nat × W → Bool) (g : DFAMin.G T W)
    (hg : GWf g) :
    ∃ k g', (∀ f, k ≤ f → (minimizeGraph g).bind (createEquivalentGraphFrom lt f g) = some g') ∧
      (∀ (l : List T), (∃ a ws, Lang g' a ws ∧ l = a :: ws.map (·.2)) ↔ (∃ a ws, Lang g a ws ∧ l = a :: ws.map (·.2))) ∧
      g'.nodes.length ≤ g.nodes.length := by
  obtain ⟨k, g', h1, h2, h3, _⟩ := C29_minimize lt g hg
  exact ⟨k, g', h1, fun l => by simp only [h2], h3⟩

/-- C29: `minimizeGraph` only identifies vertices with the same node label and the same outgoing label sequences. -/
theorem C29_classes {T W : Type} [DecidableEq T] [DecidableEq W] (g : DFAMin.G T W) (hg : GWf g) :
    ∃ cls n, minimizeGraph g = some (cls, n) ∧ cls.length = size g ∧ n ≤ size g ∧
      ∀ u v, u < size g → v < size g → cls[u]? = cls[v]? → ∀ a ws, Path g u a ws ↔ Path g v a ws := by
  obtain ⟨r, h1, h2⟩ := minimizeGraph_spec hg
  refine ⟨r.1, r.2, h1, h2.len, h2.num, ?_⟩
  have key : ∀ (ws : List (W × T)) u v, u < size g → v < size g → r.1[u]? = r.1[v]? → ∀ a, Path g u a ws → Path g v a ws := by
    intro ws
    induction ws with
    | nil =>
      intro u v hu hv h a hp
      exact (h2.bis u v hu hv h).1.symm.trans hp
    | cons p ws ih =>
      intro u v hu hv h a hp
      obtain ⟨w, b⟩ := p
      rw [path_iff] at hp ⊢
      obtain ⟨q1, t, ⟨es, q2, q3⟩, q4⟩ := hp
      have hs := h2.bis u v hu hv h
      obtain ⟨fs, f, q5, q6, q7, q8⟩ := hs.2 es q2 (t, w) q3
      refine ⟨hs.1.symm.trans q1, f.1, ⟨fs, q5, ?_⟩, ih t f.1 (edges_lt hg q2 q3) (edges_lt hg q5 q6) q8 b q4⟩
      have : w = f.2 := q7
      rw [this]; exact q6
  intro u v hu hv h a ws
  exact ⟨key ws u v hu hv h a, key ws v u hv hu h.symm a⟩

/-- C29: `minimizeGraph` stops at a fixed point: two vertices with the same label, whose outgoing edges pair up one by
one (or, if there are two, crosswise) in equal weights and targets of the same class, are in the same class. (This is not
minimality: `C29_not_minimal`.) -/
theorem C29_fixpoint {T W : Type} [DecidableEq T] [DecidableEq W] (g : DFAMin.G T W) (hg : GWf g) :
    ∃ cls n, minimizeGraph g = some (cls, n) ∧ ∀ u v es fs, u < size g → v < size g → node g u = node g v →
      outEdges g u = some es → outEdges g v = some fs → es.length = fs.length →
      ((∀ (i : Nat) e f, es[i]? = some e → fs[i]? = some f → e.2 = f.2 ∧ cls[e.1]? = cls[f.1]?) ∨
        (∃ e1 e2 f1 f2, es = [e1, e2] ∧ fs = [f1, f2] ∧ (e1.2 = f2.2 ∧ cls[e1.1]? = cls[f2.1]?) ∧
          e2.2 = f1.2 ∧ cls[e2.1]? = cls[f1.1]?)) → cls[u]? = cls[v]? := by
  obtain ⟨r, h1, h2⟩ := minimizeGraph_spec hg
  refine ⟨r.1, r.2, h1, fun u v es fs hu hv hn hes hfs hlen h => ?_⟩
  rcases Nat.lt_trichotomy u v with huv | rfl | huv
  · obtain ⟨m1, m2⟩ := minimize_fix hg h1 huv hv hn hes hfs hlen
    rcases h with h | ⟨e1, e2, f1, f2, q1, q2, q3, q4⟩
    · exact m1 h
    · exact m2 e1 e2 f1 f2 q1 q2 q3 q4
  · rfl
  · obtain ⟨m1, m2⟩ := minimize_fix hg h1 huv hu hn.symm hfs hes hlen.symm
    rcases h with h | ⟨e1, e2, f1, f2, q1, q2, q3, q4⟩
    · exact (m1 fun i e f he hf => ⟨(h i f e hf he).1.symm, (h i f e hf he).2.symm⟩).symm
    · exact (m2 f1 f2 e1 e2 q2 q1 ⟨q4.1.symm, q4.2.symm⟩ ⟨q3.1.symm, q3.2.symm⟩).symm

/-- C29: despite its name the result is not minimal: two loops with the same label sequences stay apart. -/
theorem C29_not_minimal :
    let g : DFAMin.G String Unit := ⟨["r", "a", "a"], [[(1, ()), (2, ())], [(1, ())], [(2, ())]], [0]⟩
    GWf g ∧ minimizeGraph g = some ([0, 1, 2], 3) ∧ ∀ a ws, Path g 1 a ws ↔ Path g 2 a ws := by
  intro g
  refine ⟨⟨rfl, by decide, by decide⟩, by decide +kernel, fun a ws => ?_⟩
  induction ws generalizing a with
  | nil => exact Iff.rfl
  | cons p ws ih =>
    obtain ⟨w, b⟩ := p
    have e1 : outEdges g 1 = some [(1, ())] := rfl
    have e2 : outEdges g 2 = some [(2, ())] := rfl
    have n1 : node g 1 = node g 2 := rfl
    simp only [Path, e1, e2, n1, Option.some.injEq]
    constructor
    · rintro ⟨h, es, t, rfl, ht, hp⟩
      simp only [List.mem_singleton, Prod.mk.injEq] at ht
      obtain ⟨rfl, _⟩ := ht
      exact ⟨h, _, 2, rfl, by simp, (ih b).1 hp⟩
    · rintro ⟨h, es, t, rfl, ht, hp⟩
      simp only [List.mem_singleton, Prod.mk.injEq] at ht
      obtain ⟨rfl, _⟩ := ht
      exact ⟨h, _, 1, rfl, by simp, (ih b).2 hp⟩

/-- C29 instance: a cyclic graph in which the two `b`s and the two `c`s are equivalent (the edges of the `b`s are
in different order); five nodes become three. -/
example :
    let lt : Nat × Unit → Nat × Unit → Bool := fun a b => decide (a.1 < b.1)
    let g : DFAMin.G String Unit :=
      ⟨["a", "b", "b", "c", "c"], [[(1, ()), (2, ())], [(3, ()), (0, ())], [(0, ()), (4, ())], [], []], [0]⟩
    GWf g ∧ minimizeGraph g = some ([0, 1, 1, 2, 2], 3) ∧
    (minimizeGraph g).bind (createEquivalentGraphFrom lt 10 g) =
      some ⟨["a", "b", "c"], [[(1, ())], [(0, ()), (2, ())], []], [0]⟩ := by
  refine ⟨⟨rfl, by decide, by decide⟩, by decide +kernel, by decide +kernel⟩

end C29
end Phasar
