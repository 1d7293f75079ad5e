import Verif.CG.TypeGraphDag

/-!
# Properties of type graphs (C56)

`Reach`, `Linked`, `links`, `mentions`, `Owner`, `Distinct` and `Acyclic` are the specification at the end of `TypeGraph.lean`.
-/

namespace Phasar.TypeGraph

/-- C56, cached graph: whatever was linked and queried before, `getTypes` returns the types that the names reachable along links stand for,
where a name stands for the first type with this name.  No link may lead to a literal type. -/
theorem C56_cached (as : Bool) (ops : List Op) (hl : ∀ a b, Op.link a b ∈ ops → b.lit = false) :
    ∃ g, runC as ops .empty = some g ∧ ∀ a t, t ∈ (getTypesC g a).2 ↔
      ∃ k, Reach (LinkedKeys keyC (links ops)) (keyC a) k ∧ Owner keyC (mentions ops ++ [a]) k t := by
  obtain ⟨g, h, W, F, _⟩ := runC_ok as ops wf_empty full_empty rfl hl
  exact ⟨g, h, fun a t => getTypesC_ok (by simpa using W) F a t⟩

/-- Reachable names and reachable types. -/
theorem C56.owner_iff {key : SType → String} {ops : List Op} {a t : SType} (hd : Distinct key (mentions ops ++ [a])) :
    (∃ k, Reach (LinkedKeys key (links ops)) (key a) k ∧ Owner key (mentions ops ++ [a]) k t) ↔ Reach (Linked (links ops)) a t := by
  have hL : ∀ p q, (p, q) ∈ links ops → p ∈ mentions ops ++ [a] ∧ q ∈ mentions ops ++ [a] := fun p q h =>
    ⟨List.mem_append_left _ (links_mentions h).1, List.mem_append_left _ (links_mentions h).2⟩
  have ha : a ∈ mentions ops ++ [a] := by simp
  constructor
  · rintro ⟨k, h, ho⟩
    obtain ⟨s, h1, h2⟩ := reach_of_keys hd hL ha h
    have := ho.mem
    rw [hd t this.1 s (reach_mem hL ha h1) (by rw [this.2, h2])]
    exact h1
  · intro h
    exact ⟨key t, h.map key (fun p q h => ⟨p, q, h, rfl, rfl⟩), owner_of_distinct hd (reach_mem hL ha h)⟩

/-- C56, cached graph: if different types have different names, `getTypes` returns exactly the types reachable along links. -/
theorem C56_types (as : Bool) (ops : List Op) (hl : ∀ a b, Op.link a b ∈ ops → b.lit = false) :
    ∃ g, runC as ops .empty = some g ∧ ∀ a, Distinct keyC (mentions ops ++ [a]) → ∀ t, t ∈ (getTypesC g a).2 ↔ Reach (Linked (links ops)) a t := by
  obtain ⟨g, h, hg⟩ := C56_cached as ops hl
  exact ⟨g, h, fun a hd t => (hg a t).trans (C56.owner_iff hd)⟩

/-- C56, order: the answers depend only on which links were added. -/
theorem C56_order (as : Bool) {ops ops' : List Op} (hl : ∀ a b, Op.link a b ∈ ops → b.lit = false)
    (hs : ∀ a b, Op.link a b ∈ ops ↔ Op.link a b ∈ ops') {a : SType} (hd : Distinct keyC (mentions ops ++ [a]))
    (hd' : Distinct keyC (mentions ops' ++ [a])) :
    ∃ g g', runC as ops .empty = some g ∧ runC as ops' .empty = some g' ∧ ∀ t, t ∈ (getTypesC g a).2 ↔ t ∈ (getTypesC g' a).2 := by
  obtain ⟨g, h, hg⟩ := C56_types as ops hl
  obtain ⟨g', h', hg'⟩ := C56_types as ops' (fun a b h => hl a b ((hs a b).mpr h))
  refine ⟨g, g', h, h', fun t => ?_⟩
  rw [hg a hd, hg' a hd']
  have e : Linked (links ops) = Linked (links ops') := by
    funext p q
    unfold Linked
    rw [mem_links, mem_links]
    exact propext (hs p q)
  rw [e]

/-- C56, result of `addLink`: true exactly if there was no such link before. -/
theorem C56_new (as : Bool) (ops : List Op) (hl : ∀ a b, Op.link a b ∈ ops → b.lit = false) {a b : SType} (hb : b.lit = false)
    (hd : Distinct keyC (mentions ops ++ [a, b])) :
    ∃ g, runC as ops .empty = some g ∧ ∃ g' n, addLinkC as g a b = some (g', n) ∧ (n = true ↔ Op.link a b ∉ ops) := by
  obtain ⟨g, h, W, F, hz⟩ := runC_ok as ops wf_empty full_empty rfl hl
  obtain ⟨g', n, h1, _, _, _, h2⟩ := addLinkC_ok W F hz as a hb
  refine ⟨g, h, g', n, h1, h2.trans (not_congr ⟨?_, fun h => ⟨a, b, by simpa using mem_links.mpr h, rfl, rfl⟩⟩)⟩
  rintro ⟨p, q, hpq, hp, hq⟩
  have hm := links_mentions (by simpa using hpq : (p, q) ∈ links ops)
  have e1 := hd p (List.mem_append_left _ hm.1) a (by simp) hp
  have e2 := hd q (List.mem_append_left _ hm.2) b (by simp) hq
  subst e1; subst e2
  exact mem_links.mp (by simpa using hpq)

/-- C56, lazy graph: the type itself, and what the names reachable by one or more links stand for.  Literal types only without assertions. -/
theorem C56_lazy (as : Bool) (ops : List Op) (hl : as = true → ∀ t ∈ mentions ops, t.lit = false) :
    ∃ g, runL as ops .empty = some g ∧ ∀ a, (as = true → a.lit = false) → ∃ g' r, getTypesL as g a = some (g', r) ∧
      ∀ t, t ∈ r ↔ t = a ∨ ∃ k k', Reach (LinkedKeys keyL (links ops)) (keyL a) k ∧ LinkedKeys keyL (links ops) k k' ∧
        Owner keyL (mentions ops ++ [a]) k' t := by
  obtain ⟨g, h, W, _⟩ := runL_ok as ops wf_empty rfl hl
  exact ⟨g, h, fun a ha => getTypesL_ok (by simpa using W) ha⟩

/-- C56, lazy graph: if different types have different names, `getTypes` returns exactly the types reachable along links. -/
theorem C56_lazy_types (as : Bool) (ops : List Op) (hl : as = true → ∀ t ∈ mentions ops, t.lit = false) :
    ∃ g, runL as ops .empty = some g ∧ ∀ a, (as = true → a.lit = false) → Distinct keyL (mentions ops ++ [a]) →
      ∃ g' r, getTypesL as g a = some (g', r) ∧ ∀ t, t ∈ r ↔ Reach (Linked (links ops)) a t := by
  obtain ⟨g, h, hg⟩ := C56_lazy as ops hl
  refine ⟨g, h, fun a ha hd => ?_⟩
  obtain ⟨g', r, h1, h2⟩ := hg a ha
  refine ⟨g', r, h1, fun t => ?_⟩
  rw [h2, ← C56.owner_iff hd]
  constructor
  · rintro (rfl | ⟨k, k', h3, h4, h5⟩)
    · exact ⟨keyL t, .refl, owner_of_distinct hd (by simp)⟩
    · exact ⟨k', .step h3 h4, h5⟩
  · rintro ⟨k, h3, h4⟩
    cases h3 with
    | refl =>
      have := h4.mem
      exact .inl (hd t this.1 a (by simp) this.2)
    | step h5 h6 => exact .inr ⟨_, _, h5, h6, h4⟩

/-- C56, agreement: on types with names of their own both graphs give the same answer. -/
theorem C56_agree (as : Bool) (ops : List Op) (a : SType) (hl : ∀ t ∈ mentions ops ++ [a], t.lit = false)
    (hd : Distinct SType.name (mentions ops ++ [a])) :
    ∃ g h r h', runC as ops .empty = some g ∧ runL as ops .empty = some h ∧ getTypesL as h a = some (h', r) ∧
      ∀ t, t ∈ (getTypesC g a).2 ↔ t ∈ r := by
  have hk : ∀ t ∈ mentions ops ++ [a], keyC t = t.name ∧ keyL t = t.name := by
    intro t ht
    simp [keyC, keyL, hl t ht]
  have hl' : ∀ t ∈ mentions ops, t.lit = false := fun t ht => hl t (List.mem_append_left _ ht)
  obtain ⟨g, h1, h2⟩ := C56_types as ops (fun p q h => hl' q (links_mentions (mem_links.mpr h)).2)
  obtain ⟨h, h3, h4⟩ := C56_lazy_types as ops (fun _ => hl')
  obtain ⟨h', r, h5, h6⟩ := h4 a (fun _ => hl a (by simp)) (fun p hp q hq e => hd p hp q hq (by rw [← (hk p hp).2, ← (hk q hq).2]; exact e))
  refine ⟨g, h, r, h', h1, h3, h5, fun t => ?_⟩
  rw [h2 a (fun p hp q hq e => hd p hp q hq (by rw [← (hk p hp).1, ← (hk q hq).1]; exact e)), h6]

theorem C56.links_map (l : List (SType × SType)) : links (l.map fun p => Op.link p.1 p.2) = l := by
  induction l with
  | nil => rfl
  | cons p l ih => simp [links, ih]

/-- C56, aggregation: links that are added without propagation and aggregated afterwards, if there is no cycle of links. -/
theorem C56_aggregate_partial (l : List (SType × SType)) {a : SType}
    (hd : Distinct keyC (mentions (l.map fun p => .link p.1 p.2) ++ [a])) (hac : Acyclic l) :
    ∀ t, t ∈ (getTypesC (aggregateTypes (runW l .empty)) a).2 ↔ Reach (Linked l) a t := by
  intro t
  have hraw : Raw Graph.empty := by intro v t; simp [Graph.empty, types]
  obtain ⟨W, F, _⟩ := runW_ok l wf_empty hraw rfl
  simp only [List.nil_append] at W
  have hlm : ∀ p q, (p, q) ∈ l → p ∈ mentions (l.map fun p => Op.link p.1 p.2) ++ [a] ∧ q ∈ mentions (l.map fun p => Op.link p.1 p.2) ++ [a] := by
    intro p q h
    have : (p, q) ∈ links (l.map fun p => Op.link p.1 p.2) := mem_links.mpr (List.mem_map.mpr ⟨(p, q), h, rfl⟩)
    exact ⟨List.mem_append_left _ (links_mentions this).1, List.mem_append_left _ (links_mentions this).2⟩
  have hac' : ∀ u v, E (runW l .empty) u v → ¬ Reach (E (runW l .empty)) v u := by
    intro u v h hr
    obtain ⟨x, y, hx, hy, p, q, hpq, hp, hq⟩ := W.edges u v h
    have h1 := W.keyReach hy hr hx
    rw [← hp, ← hq] at h1
    obtain ⟨s, h2, h3⟩ := reach_of_keys hd hlm (hlm p q hpq).2 h1
    have := hd s (reach_mem hlm (hlm p q hpq).2 h2) p (hlm p q hpq).1 h3
    subst this
    exact hac s q hpq h2
  obtain ⟨F', hb⟩ := aggregate_full hac' W.range F
  have W' : Wf keyC (mentions (l.map fun p => Op.link p.1 p.2)) l (aggregateTypes (runW l .empty)) := wf_congr W rfl rfl hb
  rw [getTypesC_ok W' F']
  have h := C56.owner_iff (t := t) (ops := l.map fun p => Op.link p.1 p.2) hd
  rw [C56.links_map] at h
  exact h

/-! ## Concrete cases -/

def C56.A : SType := ⟨1, false, "A"⟩
def C56.B : SType := ⟨2, false, "B"⟩
def C56.C : SType := ⟨3, false, "C"⟩
def C56.D : SType := ⟨4, false, "D"⟩
/-- A literal type, `{ i32 }`. -/
def C56.Lit : SType := ⟨5, true, ""⟩
/-- Identified types without a name, `%0` and `%1`. -/
def C56.N0 : SType := ⟨6, false, ""⟩
def C56.N1 : SType := ⟨7, false, ""⟩

open C56 in
/-- A cycle that is closed after its types have been queried. -/
def C56.ops : List Op := [.link C D, .link A B, .get A, .link B C, .link D B, .link A B]

open C56 in
example : (∀ a b, Op.link a b ∈ C56.ops → b.lit = false) ∧ Distinct keyC (mentions C56.ops ++ [A]) ∧ Distinct keyL (mentions C56.ops ++ [A]) ∧
    Distinct SType.name (mentions C56.ops ++ [A]) ∧ (∀ t ∈ mentions C56.ops ++ [A], t.lit = false) ∧
    (runC true C56.ops .empty).map (fun g => [(getTypesC g A).2, (getTypesC g D).2]) = some [[A, B, C, D], [D, B, C]] ∧
    ((runL true C56.ops .empty).bind fun g => getTypesL true g D).map (·.2) = some [D, C, B] := by
  refine ⟨?_, ?_, ?_, ?_, ?_, by decide, by decide⟩
  · intro a b h
    simp only [C56.ops, List.mem_cons, Op.link.injEq, reduceCtorEq, false_or, List.not_mem_nil, or_false] at h
    rcases h with ⟨_, rfl⟩ | ⟨_, rfl⟩ | ⟨_, rfl⟩ | ⟨_, rfl⟩ | ⟨_, rfl⟩ <;> rfl
  · unfold Distinct; decide
  · unfold Distinct; decide
  · unfold Distinct; decide
  · decide

open C56 in
/-- A second `addLink` of the same link is not new. -/
example : Distinct keyC (mentions C56.ops ++ [A, B]) ∧ Distinct keyC (mentions C56.ops ++ [A, D]) ∧
    ((runC true C56.ops .empty).bind fun g => addLinkC true g A B).map (·.2) = some false ∧
    ((runC true C56.ops .empty).bind fun g => addLinkC true g A D).map (·.2) = some true := by
  refine ⟨?_, ?_, by decide, by decide⟩ <;> (unfold Distinct; decide)

open C56 in
/-- The same links in another order. -/
example : ∀ a b, Op.link a b ∈ [Op.link A B, .link D B, .link B C, .link C D] ↔ Op.link a b ∈ C56.ops := by
  intro a b
  simp only [C56.ops, List.mem_cons, Op.link.injEq, reduceCtorEq, false_or, List.not_mem_nil, or_false]
  grind

open C56 in
/-- A diamond without cycles. -/
def C56.diamond : List (SType × SType) := [(C, D), (A, B), (B, D), (A, C)]

open C56 in
theorem C56.diamond_acyclic : Acyclic C56.diamond := by
  have rank : ∀ a b, Linked C56.diamond a b → a.id < b.id := by
    intro a b h
    simp only [Linked, C56.diamond, List.mem_cons, Prod.mk.injEq, List.not_mem_nil, or_false] at h
    rcases h with ⟨rfl, rfl⟩ | ⟨rfl, rfl⟩ | ⟨rfl, rfl⟩ | ⟨rfl, rfl⟩ <;> decide
  have hr : ∀ a b, Reach (Linked C56.diamond) a b → a.id ≤ b.id := by
    intro a b h
    induction h with
    | refl => exact Nat.le_refl _
    | step _ h ih => exact Nat.le_of_lt (Nat.lt_of_le_of_lt ih (rank _ _ h))
  intro a b h h'
  have := rank a b h
  have := hr b a h'
  omega

open C56 in
example : Distinct keyC (mentions (C56.diamond.map fun p => Op.link p.1 p.2) ++ [A]) ∧
    (getTypesC (aggregateTypes (runW C56.diamond .empty)) A).2 = [A, C, D, B] := by
  refine ⟨?_, by decide⟩
  unfold Distinct; decide

/-! ## What does not hold -/

open C56 in
/-- C56, literal types: without assertions, a link to a literal type is propagated from the first type of the graph instead; with assertions,
the program ends.  In general `getTypes` is not the set of the reachable types. -/
theorem C56_literal_false :
    ¬ (∀ ops a, Distinct keyC (mentions ops ++ [a]) → ∃ g, runC false ops .empty = some g ∧ ∀ t, t ∈ (getTypesC g a).2 ↔ Reach (Linked (links ops)) a t) ∧
    runC true [.link A Lit] .empty = none := by
  refine ⟨fun h => ?_, by decide⟩
  obtain ⟨g, h1, h2⟩ := h [.link A B, .link C Lit] C (by unfold Distinct; decide)
  have hg : (runC false [.link A B, .link C Lit] .empty).map (fun g => (getTypesC g C).2) = some [C] := by decide
  rw [h1] at hg
  have h3 := (h2 Lit).mpr (.step .refl (by unfold Linked; decide))
  simp only [Option.map_some, Option.some.injEq] at hg
  rw [hg] at h3
  revert h3; decide

open C56 in
/-- C56, literal types: the name `""` is then taken for the first type of the graph, so a query for an unnamed type answers with the types
of the first type. -/
theorem C56_poison_false :
    (runC false [.link A B, .link C Lit] .empty).map (fun g => (getTypesC g N0).2) = some [A, B] := by decide

open C56 in
/-- C56, unnamed types: all identified types without a name are one type, so that `getTypes` of a type need not contain the type. -/
theorem C56_unnamed_false :
    ¬ (∀ ops a, (∀ t ∈ mentions ops ++ [a], t.lit = false) → ∃ g, runC true ops .empty = some g ∧ a ∈ (getTypesC g a).2) := by
  intro h
  obtain ⟨g, h1, h2⟩ := h [.link N0 A] N1 (by decide)
  have hg : (runC true [.link N0 A] .empty).map (fun g => (getTypesC g N1).2) = some [N0, A] := by decide
  rw [h1] at hg
  simp only [Option.map_some, Option.some.injEq] at hg
  rw [hg] at h2
  revert h2; decide

open C56 in
/-- C56, lazy graph: without assertions all literal types are one type. -/
theorem C56_lazy_literal_false :
    ∃ t, ¬ Reach (Linked (links [.link ⟨8, true, ""⟩ A])) Lit t ∧
      ∃ r, ((runL false [.link ⟨8, true, ""⟩ A] .empty).bind fun g => getTypesL false g Lit).map (·.2) = some r ∧ t ∈ r := by
  refine ⟨A, fun h => ?_, [Lit, A], by decide, by decide⟩
  rcases h.cases_head with h | ⟨b, h, _⟩
  · revert h; decide
  · simp only [Linked, links, List.mem_singleton, Prod.mk.injEq] at h
    exact absurd h.1 (by decide)

open C56 in
/-- C56, aggregation: with a cycle of links, `aggregateTypes` misses types. -/
theorem C56_aggregate_false :
    ¬ (∀ (l : List (SType × SType)) a, Distinct keyC (mentions (l.map fun p => .link p.1 p.2) ++ [a]) →
      ∀ t, t ∈ (getTypesC (aggregateTypes (runW l .empty)) a).2 ↔ Reach (Linked l) a t) := by
  intro h
  have h1 := (h [(A, B), (B, A), (A, C)] B (by unfold Distinct; decide) C).mpr
    (.step (.step .refl (b := B) (c := A) (by unfold Linked; decide)) (by unfold Linked; decide))
  revert h1; decide

end Phasar.TypeGraph
