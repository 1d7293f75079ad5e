import Verif.EdgeFn.Domain
import Verif.IDE.Model
import Verif.Store.JumpFns
import Verif.Store.Cache
import Verif.Store.FlowFns
import Verif.Store.Seeds
import Verif.Store.Results
/-!
# Properties C16-C22: data structures around the solver
-/
set_option linter.unusedSimpArgs false
set_option linter.unusedSectionVars false
namespace Phasar

/-! ## C16: the lookup views of the jump-function store -/

section C16
open JF
variable {N D E : Type} [DecidableEq N] [DecidableEq D]

/-- C16 (first half, in full): after any sequence of calls, `forwardLookup`, `reverseLookup` and
`foreachEdgeFunction` describe exactly the entries denoted by the sequence, with one edge function per
(source fact, target, target fact). -/
theorem C16_forward_reverse (isTop : E → Bool) (ops : List (Op N D E)) (d1 : D) (n : N) (d2 : D) :
    (∀ l, forwardLookup (runOps isTop ops) d1 n = some l →
      (l.map Prod.fst).Nodup ∧ ∀ e, (d2, e) ∈ l ↔ specRun isTop ops d1 n d2 = some e) ∧
    (forwardLookup (runOps isTop ops) d1 n = none → specRun isTop ops d1 n d2 = none) ∧
    (∀ l, reverseLookup (runOps isTop ops) n d2 = some l →
      (l.map Prod.fst).Nodup ∧ ∀ e, (d1, e) ∈ l ↔ specRun isTop ops d1 n d2 = some e) ∧
    (reverseLookup (runOps isTop ops) n d2 = none → specRun isTop ops d1 n d2 = none) ∧
    (∀ e, e ∈ foreachEdgeFunction (runOps isTop ops) ↔ ∃ a x b, specRun isTop ops a x b = some e) := by
  have h := rel_run isTop ops
  refine ⟨fun l hl => ?_, fun hl => (h.forward d1 n).2 hl d2, fun l hl => ?_, fun hl => (h.reverse n d2).2 hl d1,
    h.foreach⟩
  · obtain ⟨a, b⟩ := (h.forward d1 n).1 l hl
    exact ⟨a, b d2⟩
  · obtain ⟨a, b⟩ := (h.reverse n d2).1 l hl
    exact ⟨a, b d1⟩

/-- C16, partial: `lookupByTarget` never invents an entry, and agrees with the other views for every history
without `removeFunction` (the solver never calls it). Missing: histories that remove; there the claim is
false, see `C16_remove_drops_target`. -/
theorem C16_partial (isTop : E → Bool) (ops : List (Op N D E)) (n : N) (d1 d2 : D) (e : E) :
    ((d1, d2, e) ∈ (lookupByTarget (runOps isTop ops) n).1.cellVec → specRun isTop ops d1 n d2 = some e) ∧
    ((∀ op ∈ ops, ∀ a x b, op ≠ .remove a x b) →
      ((d1, d2, e) ∈ (lookupByTarget (runOps isTop ops) n).1.cellVec ↔ specRun isTop ops d1 n d2 = some e)) :=
  ⟨((rel_run isTop ops).target n d1 d2 e).1, fun h =>
    ((rel_run isTop ops).target n d1 d2 e).2 (keep_of_no_remove ops h n)⟩

/-- C16 is false with removals: removing one of two jump functions with the same target also hides the other
one from `lookupByTarget`, although `forwardLookup` still has it. -/
theorem C16_remove_drops_target :
    let ops : List (Op Nat Nat Nat) := [.add 0 7 0 10, .add 0 7 1 11, .remove 0 7 0]
    let s := runOps (fun _ => false) ops
    forwardLookup s 0 7 = some [(1, 11)] ∧ (lookupByTarget s 7).1.cellVec = [] := by decide

/-- `removeFunction` returns true for a function that was never added, and false for one that was. -/
theorem C16_remove_result_wrong :
    let s : Store Nat Nat Nat := runOps (fun _ => false) [.add 0 7 0 10, .add 0 7 1 11]
    (removeFunction s 5 7 5).1 = true ∧ (removeFunction (removeFunction s 0 7 0).2 0 7 1).1 = false ∧
      specRun (fun _ => false) [.add 0 7 0 10, .add 0 7 1 11, .remove 0 7 0] 0 7 1 = some (11 : Nat) := by decide

-- non-trivial history: overwriting, an ignored all-top function (value 0), removal
example : let ops : List (Op Nat Nat Nat) := [.add 0 7 0 10, .add 0 7 0 12, .add 1 7 0 0, .add 1 7 1 5, .remove 1 7 1]
    forwardLookup (runOps (· == 0) ops) 0 7 = some [(0, 12)] ∧
    reverseLookup (runOps (· == 0) ops) 7 0 = some [(0, 12)] ∧
    specRun (· == 0) ops 0 7 0 = some 12 ∧ specRun (· == 0) ops 1 7 0 = none := by decide
example : let ops : List (Op Nat Nat Nat) := [.add 0 7 0 10, .add 0 7 0 12, .add 1 7 0 0, .add 1 7 1 5]
    (lookupByTarget (runOps (· == 0) ops) 7).1.cellVec = [(0, 0, 12), (1, 1, 5)] := by decide

end C16

/-! ## C17: `Table` -/

section C17
variable {R C V : Type} [DecidableEq R] [DecidableEq C]
open Table

/-- C17: after any sequence of calls every reader of `Table` agrees with the partial map the sequence
denotes. `size` is the number of rows, i.e. the length of any duplicate-free list of exactly the rows that
exist (a row can exist without cells, see the example). -/
theorem C17_refines (dflt : V) (ops : List (Op R C V)) :
    let t := runOps dflt ops
    let s := Spec.run dflt ops
    (∀ r c, t.contains r c = (s.cell r c).isSome) ∧
    (∀ r c, t.getC dflt r c = (s.cell r c).getD dflt) ∧
    (∀ r, t.containsRow r = true ↔ s.hasRow r) ∧
    (∀ c, t.containsColumn c = true ↔ ∃ r, s.cell r c ≠ none) ∧
    (∀ r c, (t.rowC r).get c = s.cell r c) ∧
    (∀ r, ((t.rowC r).map Prod.fst).Nodup) ∧
    (∀ c r, (t.column c).get r = s.cell r c) ∧
    (∀ r c v, (r, c, v) ∈ t.cellVec ↔ s.cell r c = some v) ∧
    ((t.cellVec.map fun p => (p.1, p.2.1)).Nodup) ∧
    (∃ rows : List R, rows.Nodup ∧ (∀ r, r ∈ rows ↔ s.hasRow r) ∧ t.size = rows.length) := by
  have h := rel_run dflt ops
  refine ⟨h.contains, h.getC dflt, fun r => ?_, h.containsColumn, h.cell, fun r => nodup_rowC h.nodupRow r,
    h.column, h.cellVec, h.cellVec_nodup, ?_⟩
  · rw [← h.row]
    unfold Table.containsRow
    rw [Option.isSome_iff_exists]
  · refine ⟨(runOps dflt ops).map Prod.fst, h.nodup, fun r => ?_, by simp [Table.size]⟩
    rw [← h.row, AMap.get_isSome_iff]
    simp

/-- C17: `get` of a cell returns its value, or creates and returns a default one; `remove` returns the removed
value or a default one. -/
theorem C17_return_values (dflt : V) (ops : List (Op R C V)) (r : R) (c : C) :
    (getRef dflt (runOps dflt ops) r c).1 = ((Spec.run dflt ops).cell r c).getD dflt ∧
    (getRef dflt (runOps dflt ops) r c).2.contains r c = true ∧
    (∀ r' c', (r', c') ≠ (r, c) → (getRef dflt (runOps dflt ops) r c).2.contains r' c' =
      (runOps dflt ops).contains r' c') ∧
    (Table.remove dflt (runOps dflt ops) r c).1 = ((Spec.run dflt ops).cell r c).getD dflt := by
  have h := rel_run dflt ops
  obtain ⟨h1, h2⟩ := h.getRef dflt r c
  refine ⟨h2, ?_, ?_, (h.remove dflt r c).2⟩
  · rw [h1.contains]; simp [Spec.step]
  · intro r' c' hne
    rw [h1.contains, h.contains]
    have : ¬ (r' = r ∧ c' = c) := fun hh => hne (by rw [hh.1, hh.2])
    simp [Spec.step, this]

/-- `size` counts rows, not cells: two cells in one row and a row touched by `row()` give 2. -/
example : let t := runOps 0 ([.insert 1 1 5, .insert 1 2 6, .row 3] : List (Op Nat Nat Nat))
    t.size = 2 ∧ t.cellVec = [(1, 1, 5), (1, 2, 6)] ∧ t.containsRow 3 = true := by decide
example : let t := runOps 0 ([.insert 1 1 5, .insert 2 1 6, .remove 1 1, .modify 2 2 (· + 3)] : List (Op Nat Nat Nat))
    t.containsRow 1 = false ∧ t.getC 0 2 2 = 3 ∧ t.column 1 = [(2, 6)] := by decide

end C17

/-! ## C18: caching is unobservable -/

section C18
open FEC
variable {K N D F E : Type} [DecidableEq K] [DecidableEq N] [DecidableEq D] [DecidableEq F]

/-- C18: whatever was asked before, a query returns what the problem itself returns (flow functions with the
zero fact added if configured, edge functions up to `operator==`). Preconditions: statements and facts are
distinct values as keys; the callees passed with a call-to-return query are those of the call site; fewer
than 2^32 distinct values are used. -/
theorem C18_unobservable (P : Prob N D F E) (ks : Keys K N D) (hkn : ∀ n n', ks.kn n = ks.kn n' → n = n')
    (hkd : ∀ d d', ks.kd d = ks.kd d' → d = d') (hrefl : ∀ e, P.eqE e e = true) (cal : N → List F)
    (qs : List (Call N D F)) (q : Call N D F) (hqs : ∀ x ∈ qs ++ [q], CalleesOk cal x)
    (hsmall : (runQ P ks (qs ++ [q])).comp.length < 2 ^ 32) :
    (query P ks (runQ P ks qs) q).1.Same P.eqE (direct P q) := by
  have hrun : runQ P ks (qs ++ [q]) = (query P ks (runQ P ks qs) q).2 := by
    unfold runQ; rw [List.foldl_append]; rfl
  rw [hrun] at hsmall
  exact (query_inv hkn hkd hrefl (run_inv hkn hkd hrefl qs (fun x hx => hqs x (by simp [hx]))
    (Nat.lt_of_le_of_lt (query_length P ks _ q) hsmall)) q (hqs q (by simp)) hsmall).2

/-- C18, partial: the problem is asked at most once for every flow and edge function, without precondition.
Missing: summary flow functions, which are not cached; for them the claim is false, see
`C18_summary_not_cached`. -/
theorem C18_at_most_once_partial (P : Prob N D F E) (ks : Keys K N D) (qs : List (Call N D F)) :
    (((runQ P ks qs).log.filter Call.cached).map Call.key).Nodup := (run_log P ks qs).1

/-- Summary flow functions are asked for again on every query. -/
theorem C18_summary_not_cached (P : Prob N D F E) (ks : Keys K N D) (n : N) (f : F) :
    (runQ P ks [.sumFF n f, .sumFF n f]).log = [.sumFF n f, .sumFF n f] := rfl

/-- Instance: facts and statements are numbers used as values, edge functions are numbers compared modulo 10. -/
def exProb : Prob Nat Nat Nat Nat where
  autoAddZero := true
  zero := 0
  eqE := fun a b => a % 10 == b % 10
  normalFF := fun n n' d => if n = d then [] else [d, n']
  callFF := fun _ _ d => [d]
  retFF := fun _ _ _ _ d => [d]
  ctrFF := fun _ _ fs d => fs.map (· + d)
  sumFF := fun _ _ => none
  normalEF := fun n d n' d' => 1000 * n + 100 * d + 10 * n' + d'
  callEF := fun _ _ _ _ => 0
  retEF := fun _ _ _ _ _ _ => 0
  ctrEF := fun _ _ _ _ fs => fs.length
  sumEF := fun _ _ _ _ => 0

/-- Keys of the instance: even values are statements, odd values are facts. -/
def exKeys : Keys Nat Nat Nat := ⟨(2 * ·), (2 * · + 1), true⟩

/-- The precondition on callees is needed: the second of two queries with different callees gets the first
one's answer. -/
theorem C18_callees_needed :
    let qs : List (Call Nat Nat Nat) := [.ctrEF 1 0 2 0 [5]]
    (match (query exProb exKeys (runQ exProb exKeys qs) (.ctrEF 1 0 2 0 [5, 6])).1 with
      | .ef e => e
      | _ => 99) = 1 ∧ exProb.ctrEF 1 0 2 0 [5, 6] = 2 := by decide

/-- The bound of 2^32 keys is needed: beyond it, different pairs of identifiers get the same key. (The same
happens for integral statement types wider than 32 bits, which are used as identifiers directly,
`FlowEdgeFunctionCache.h:30-45`.) -/
theorem C18_wide_keys_collide : mkKey 0 (2 ^ 32) = mkKey 1 0 ∧ mkKey (2 ^ 32) 5 = mkKey 0 5 := by decide

-- the hypotheses hold for a history with hits, misses, and a shared equivalence class
example : (∀ n n', exKeys.kn n = exKeys.kn n' → n = n') ∧ (∀ d d', exKeys.kd d = exKeys.kd d' → d = d') ∧
    (∀ e, exProb.eqE e e = true) := by
  refine ⟨fun n n' h => ?_, fun n n' h => ?_, fun e => by simp [exProb]⟩
  · simp only [exKeys] at h; omega
  · simp only [exKeys] at h; omega
example : let qs : List (Call Nat Nat Nat) :=
      [.normalEF 1 1 2 2, .normalEF 1 3 2 2, .normalFF 1 2, .normalEF 1 1 2 2, .normalFF 1 2]
    (runQ exProb exKeys qs).comp.length = 5 ∧ (runQ exProb exKeys qs).log.length = 3 ∧
    (match (query exProb exKeys (runQ exProb exKeys qs) (.normalEF 1 3 2 2)).1 with
      | .ef e => e
      | _ => 99) = 1122 ∧ exProb.normalEF 1 3 2 2 = 1322 := by decide

end C18

/-! ## C19: flow-function factories -/

section C19
open FlowFn
variable {D : Type} [DecidableEq D]

/-- C19: the target sets of the factories, as documented: `y ∈ f(x)` in terms of the parameters. -/
theorem C19_factories (v w : D) (vs : List D) (p : D → Bool) (f : D → List D) (x y : D) :
    -- identityFlow: f(x) = {x}
    (y ∈ identityFlow x ↔ y = x) ∧
    -- lambdaFlow: f(x) = F(x)
    (y ∈ lambdaFlow f x ↔ y ∈ f x) ∧
    -- generateFlow(v, w): f(w) = {v, w}, f(x) = {x}
    (y ∈ generateFlow v w x ↔ y = x ∨ (x = w ∧ y = v)) ∧
    -- generateFlowIf(v, p): f(x) = {v, x} if p(x), else {x}
    (y ∈ generateFlowIf v p x ↔ y = x ∨ (p x = true ∧ y = v)) ∧
    -- generateManyFlows(vs, w): f(w) = vs ∪ {w}, f(x) = {x}
    (y ∈ generateManyFlows vs w x ↔ y = x ∨ (x = w ∧ y ∈ vs)) ∧
    -- killFlow(v): f(v) = {}, f(x) = {x}
    (y ∈ killFlow v x ↔ y = x ∧ x ≠ v) ∧
    -- killFlowIf(p)
    (y ∈ killFlowIf p x ↔ y = x ∧ p x = false) ∧
    -- killManyFlows(vs)
    (y ∈ killManyFlows vs x ↔ y = x ∧ x ∉ vs) ∧
    -- killAllFlows
    (y ∉ killAllFlows x) ∧
    -- generateFlowAndKillAllOthers(v, w): f(w) = {v, w}, f(x) = {}
    (y ∈ generateFlowAndKillAllOthers v w x ↔ x = w ∧ (y = v ∨ y = w)) ∧
    -- generateManyFlowsAndKillAllOthers(vs, w)
    (y ∈ generateManyFlowsAndKillAllOthers vs w x ↔ x = w ∧ (y ∈ vs ∨ y = w)) ∧
    -- transferFlow(v, w), v ≠ w: f(v) = {}, f(w) = {v, w}, f(x) = {x}
    (v ≠ w → (y ∈ transferFlow v w x ↔ (x = w ∧ (y = v ∨ y = w)) ∨ (x ≠ v ∧ x ≠ w ∧ y = x))) := by
  refine ⟨?_, Iff.rfl, ?_, ?_, ?_, ?_, ?_, ?_, ?_, ?_, ?_, ?_⟩
  · simp [identityFlow, FSet.mem_ofList]
  · unfold generateFlow; split <;> simp [FSet.mem_ofList, *]
  · unfold generateFlowIf; split <;> simp [FSet.mem_ofList, *]
  · unfold generateManyFlows makeContainer; split <;> simp [FSet.mem_ofList, *]
  · unfold killFlow; split <;> simp [FSet.mem_ofList, *]
  · unfold killFlowIf; split <;> simp [FSet.mem_ofList, *]
  · unfold killManyFlows makeContainer; split <;> simp_all [FSet.mem_ofList]
  · simp [killAllFlows]
  · unfold generateFlowAndKillAllOthers
    split <;> simp [FSet.mem_ofList, *]
    exact or_comm
  · unfold generateManyFlowsAndKillAllOthers makeContainer
    split <;> simp [FSet.mem_ofList, *]
    exact or_comm
  · intro hvw
    unfold transferFlow
    by_cases h1 : x = w
    · subst h1; simp [FSet.mem_ofList]; exact or_comm
    · by_cases h2 : x = v
      · subst h2; simp [h1]
      · simp [h1, h2, FSet.mem_ofList]

/-- C19: `unionFlows` and the legacy `Union` compute the union; an empty `Union` is the identity. -/
theorem C19_union (f g : FF D) (fs : List (FF D)) (x y : D) :
    (y ∈ unionFlows f g x ↔ y ∈ f x ∨ y ∈ g x) ∧
    (y ∈ FlowFn.union fs x ↔ (fs = [] ∧ y = x) ∨ ∃ h ∈ fs, y ∈ h x) := by
  constructor
  · unfold unionFlows
    split
    · rw [FSet.mem_insertAll]
    · rw [FSet.mem_insertAll]; exact or_comm
  · unfold FlowFn.union
    cases fs with
    | nil =>
      show y ∈ FSet.insertAll [] (identityFlow x) ↔ _
      simp [FSet.mem_insertAll, identityFlow, FSet.mem_ofList]
    | cons h fs =>
      rw [mem_foldl_insertAll]
      simp

/-- C19: the legacy `Compose` applies its functions one after the other, and dropping identities in
`Compose::compose` does not change that. -/
theorem C19_compose (fs : List (Ptr D)) (x y : D) :
    y ∈ (compose fs).fn x ↔ Chain (fs.map Ptr.fn) x y := by
  rw [← chain_filter]
  unfold compose
  cases hf : fs.filter Ptr.notId with
  | nil =>
    simp only [List.map_nil]
    constructor
    · intro h
      simp [Ptr.fn, identityFlow, FSet.mem_ofList] at h
      subst h; exact .nil _
    · intro h; cases h; simp [Ptr.fn, identityFlow, FSet.mem_ofList]
  | cons a l =>
    cases l with
    | nil => simp only [List.map_cons, List.map_nil]; exact (chain_single _ _ _).symm
    | cons b l => exact mem_composeTargets _ _ _

/-- C19: the legacy generators, including those that change their own state: every call of a sequence gives
the documented result. -/
theorem C19_legacy (gens : List D) (p : D → Bool) (zero x y : D) (calls : List D) :
    (y ∈ genIf gens p x ↔ y = x ∨ (p x = true ∧ y ∈ gens)) ∧
    (∀ (i : Nat) s r, calls[i]? = some s → (callSeq (fun g s => genAll g zero s) gens calls)[i]? = some r →
      ∀ y, y ∈ r ↔ y = s ∨ (s = zero ∧ y ∈ gens)) ∧
    (∀ (i : Nat) s r, calls[i]? = some s →
      (callSeq (fun g s => genAllAndKillAllOthers g zero s) gens calls)[i]? = some r →
      ∀ y, y ∈ r ↔ s = zero ∧ (y = s ∨ y ∈ gens)) := by
  refine ⟨?_, ?_, ?_⟩
  · unfold genIf
    split <;> simp [FSet.mem_insertAll, FSet.mem_ofList, *]
    exact or_comm
  · refine callSeq_spec _ (fun st => ∀ y, (y ∈ st ↔ y ∈ gens) ∨ (y = zero)) _ ?_ gens (fun y => .inl Iff.rfl) calls
    intro st s hst
    constructor
    · intro y
      by_cases hy : y = zero
      · exact .inr hy
      · refine .inl ?_
        have := (hst y).resolve_right hy
        unfold genAll
        split
        · rename_i hs; simp [hs, hy, this]
        · exact this
    · intro y
      unfold genAll
      split
      · rename_i hs
        subst hs
        by_cases hy : y = s
        · simp [hy]
        · simp [hy, (hst y).resolve_right hy]
      · rename_i hs; simp [FSet.mem_ofList, hs]
  · refine callSeq_spec _ (fun st => ∀ y, (y ∈ st ↔ y ∈ gens) ∨ (y = zero)) _ ?_ gens (fun y => .inl Iff.rfl) calls
    intro st s hst
    constructor
    · intro y
      by_cases hy : y = zero
      · exact .inr hy
      · refine .inl ?_
        have := (hst y).resolve_right hy
        unfold genAllAndKillAllOthers
        split
        · rename_i hs; simp [hs, hy, this]
        · exact this
    · intro y
      unfold genAllAndKillAllOthers
      split
      · rename_i hs
        subst hs
        by_cases hy : y = s
        · simp [hy]
        · simp [hy, (hst y).resolve_right hy]
      · rename_i hs; simp [hs]

/-- C19: results are sets (no duplicates) as long as the given containers are. -/
theorem C19_nodup (v w : D) (vs : List D) (p : D → Bool) (f g : FF D) (x : D) (hf : (f x).Nodup)
    (hg : (g x).Nodup) :
    (identityFlow x).Nodup ∧ (generateFlow v w x).Nodup ∧ (generateFlowIf v p x).Nodup ∧
    (generateManyFlows vs w x).Nodup ∧ (killFlow v x).Nodup ∧ (killFlowIf p x).Nodup ∧
    (killManyFlows vs x).Nodup ∧ (generateFlowAndKillAllOthers v w x).Nodup ∧
    (generateManyFlowsAndKillAllOthers vs w x).Nodup ∧ (transferFlow v w x).Nodup ∧
    (unionFlows f g x).Nodup := by
  have e : (FSet.ofList [x] : List D).Nodup := FSet.nodup_ofList _
  refine ⟨e, ?_, ?_, ?_, ?_, ?_, ?_, ?_, ?_, ?_, ?_⟩
  · unfold generateFlow; split <;> exact FSet.nodup_ofList _
  · unfold generateFlowIf; split <;> exact FSet.nodup_ofList _
  · unfold generateManyFlows; split
    · exact FSet.nodup_insert (FSet.nodup_ofList _) _
    · exact e
  · unfold killFlow; split
    · exact List.nodup_nil
    · exact e
  · unfold killFlowIf; split
    · exact List.nodup_nil
    · exact e
  · unfold killManyFlows; split
    · exact List.nodup_nil
    · exact e
  · unfold generateFlowAndKillAllOthers; split
    · exact FSet.nodup_ofList _
    · exact List.nodup_nil
  · unfold generateManyFlowsAndKillAllOthers; split
    · exact FSet.nodup_insert (FSet.nodup_ofList _) _
    · exact List.nodup_nil
  · unfold transferFlow; split
    · exact FSet.nodup_ofList _
    · split
      · exact List.nodup_nil
      · exact e
  · unfold unionFlows; split
    · exact FSet.nodup_insertAll hg _
    · exact FSet.nodup_insertAll hf _

/-- The documented equations of `transferFlow(v, w)` contradict each other when `v = w` (`f(v) = {}` and
`f(w) = {v, w}`); the code then is the identity. -/
theorem C19_transfer_same (v x : D) : transferFlow v v x = identityFlow x := by
  unfold transferFlow identityFlow
  split
  · rename_i h; subst h; simp [FSet.ofList, FSet.insertAll, FSet.insert]
  · rfl

example : transferFlow 1 2 2 = [2, 1] ∧ transferFlow 1 2 1 = [] ∧ transferFlow 1 2 3 = [3] ∧
    transferFlow 1 1 1 = [1] ∧ unionFlows (generateFlow 1 2) (killFlow 2) 2 = [2, 1] ∧
    (compose [.obj (generateFlow 1 2), .idInst, .obj (killFlow 2)]).fn 2 = [1] ∧
    callSeq (fun g s => genAll g 0 s) [5] [0, 3, 0] = [[5, 0], [3], [5, 0]] := by decide

end C19

/-! ## C20: automatically adding the zero fact -/

section C20
open FlowFn
variable {D : Type} [DecidableEq D]

/-- C20: the wrapper returns the user's targets plus zero for zero, and exactly the user's targets
otherwise. -/
theorem C20_zeroed (f : FF D) (zero : D) (x y : D) :
    (y ∈ zeroed f zero zero ↔ y = zero ∨ y ∈ f zero) ∧ (x ≠ zero → zeroed f zero x = f x) ∧
    ((f x).Nodup → (zeroed f zero x).Nodup) := by
  refine ⟨by simp [zeroed], fun h => by simp [zeroed, h], fun h => ?_⟩
  unfold zeroed
  split
  · exact FSet.nodup_insert h _
  · exact h

/-- C20: wrapping twice, or wrapping a function that already keeps zero, changes nothing. -/
theorem C20_idempotent (f : FF D) (zero : D) : zeroed (zeroed f zero) zero = zeroed f zero ∧
    (zero ∈ f zero → zeroed f zero = f) := by
  constructor
  · funext x
    by_cases h : x = zero
    · subst h
      have : x ∈ FSet.insert (f x) x := by simp
      simp only [zeroed, if_true]
      rw [FSet.insert, if_pos this]
    · simp [zeroed, h]
  · intro hz
    funext x
    by_cases h : x = zero
    · subst h; simp [zeroed, FSet.insert, hz]
    · simp [zeroed, h]

/-- C20: what the cache hands to the solver is the wrapped function when configured, else the user's. -/
theorem C20_cache {N F E : Type} (P : FEC.Prob N D F E) (f : FF D) :
    (P.autoAddZero = true → FEC.wrap P f = zeroed f P.zero) ∧ (P.autoAddZero = false → FEC.wrap P f = f) := by
  constructor <;> intro h <;> simp [FEC.wrap, h]
  rfl

example : zeroed (killAllFlows : FF Nat) 0 0 = [0] ∧ zeroed (generateFlow 5 0) 0 0 = [0, 5] ∧
    zeroed (killAllFlows : FF Nat) 0 3 = [] := by decide

end C20

/-! ## C21: initial seeds -/

section C21
open Seeds
variable {N D L : Type} [DecidableEq N] [DecidableEq D]

/-- C21: after any sequence of `addSeed` calls the stored value is the last one added, the counts are the
numbers of distinct pairs, and `containsInitialSeedsFor` / `empty` tell whether something was added. -/
theorem C21_last_write_wins (ops : List (N × D × L)) :
    (∀ n d, (rowOf (runAdd ops) n).get d = lastAdded ops n d) ∧
    (∃ ps : List (N × D), ps.Nodup ∧ (∀ n d, (n, d) ∈ ps ↔ ∃ v, (n, d, v) ∈ ops) ∧
      countAll (runAdd ops) = ps.length) ∧
    (∀ n, ∃ ds : List D, ds.Nodup ∧ (∀ d, d ∈ ds ↔ ∃ v, (n, d, v) ∈ ops) ∧ countAt (runAdd ops) n = ds.length) ∧
    (∀ n, containsFor (runAdd ops) n = true ↔ ∃ d v, (n, d, v) ∈ ops) ∧
    (isEmpty (runAdd ops) = true ↔ ops = []) := by
  have hok := ok_run ops
  have hex : ∀ n d, (∃ v, lastAdded ops n d = some v) ↔ ∃ v, (n, d, v) ∈ ops := by
    intro n d
    unfold lastAdded
    constructor
    · rintro ⟨v, hv⟩
      rw [Option.map_eq_some_iff] at hv
      obtain ⟨o, ho, rfl⟩ := hv
      have h1 := List.mem_of_find?_eq_some ho
      have h2 := List.find?_some ho
      simp only [decide_eq_true_eq] at h2
      obtain ⟨a, b, c⟩ := o
      simp only at h2
      rw [h2.1, h2.2] at h1
      exact ⟨c, List.mem_reverse.1 h1⟩
    · rintro ⟨v, hv⟩
      cases hf : ops.reverse.find? (fun o => o.1 = n ∧ o.2.1 = d) with
      | some o => exact ⟨o.2.2, rfl⟩
      | none =>
        have := List.find?_eq_none.1 hf (n, d, v) (List.mem_reverse.2 hv)
        simp at this
  refine ⟨rowOf_run ops, ?_, ?_, ?_, ?_⟩
  · refine ⟨_, pairs_nodup hok, fun n d => ?_, countAll_eq _⟩
    rw [mem_pairs hok, rowOf_run, hex]
  · intro n
    refine ⟨(rowOf (runAdd ops) n).map Prod.fst, nodup_rowOf hok n, fun d => ?_, ?_⟩
    · rw [← hex, ← rowOf_run, AMap.get_isSome_iff]; simp
    · unfold countAt rowOf
      cases (runAdd ops).get n <;> simp
  · intro n
    rw [containsFor_run]
    constructor
    · rintro ⟨⟨a, b, c⟩, h, rfl⟩; exact ⟨b, c, h⟩
    · rintro ⟨d, v, h⟩; exact ⟨_, h, rfl⟩
  · constructor
    · intro h
      cases ops with
      | nil => rfl
      | cons o ops =>
        have hc := (containsFor_run (o :: ops) o.1).2 ⟨o, List.mem_cons_self, rfl⟩
        have h0 : runAdd (o :: ops) = [] := by
          simpa [isEmpty, List.length_eq_zero_iff] using h
        rw [h0] at hc; simp [containsFor] at hc
    · intro h; subst h; rfl

/-- C21: the constructor from a set of facts per statement seeds each listed pair with bottom, and nothing
else. -/
theorem C21_from_sets (bot : L) (m : List (N × List D)) (n : N) (d : D) :
    (rowOf (ofSets bot m) n).get d = if ∃ p ∈ m, p.1 = n ∧ d ∈ p.2 then some bot else none := by
  have inner : ∀ (ds : List D) (k : N) (s : Seeds N D L),
      (rowOf (ds.foldl (fun s d => addSeed s k d bot) s) n).get d =
        if k = n ∧ d ∈ ds then some bot else (rowOf s n).get d := by
    intro ds k
    induction ds with
    | nil => intro s; simp
    | cons a ds ih =>
      intro s
      rw [List.foldl_cons, ih, rowOf_addSeed]
      by_cases hk : k = n
      · by_cases ha : a = d
        · simp [hk, ha]
        · by_cases hd : d ∈ ds <;> simp [hk, ha, hd, Ne.symm ha]
      · simp [hk]
  have outer : ∀ (m : List (N × List D)) (s : Seeds N D L),
      (rowOf (m.foldl (fun s p => p.2.foldl (fun s d => addSeed s p.1 d bot) s) s) n).get d =
        if ∃ p ∈ m, p.1 = n ∧ d ∈ p.2 then some bot else (rowOf s n).get d := by
    intro m
    induction m with
    | nil => intro s; simp
    | cons p m ih =>
      intro s
      rw [List.foldl_cons, ih, inner]
      by_cases h1 : p.1 = n ∧ d ∈ p.2
      · simp [h1]
      · by_cases h2 : ∃ q ∈ m, q.1 = n ∧ d ∈ q.2
        · rw [if_pos h2, if_pos]
          obtain ⟨q, hq, hq'⟩ := h2
          exact ⟨q, List.mem_cons_of_mem _ hq, hq'⟩
        · rw [if_neg h2, if_neg h1, if_neg]
          rintro ⟨q, hq, hq'⟩
          rcases List.mem_cons.1 hq with rfl | hq
          · exact h1 hq'
          · exact h2 ⟨q, hq, hq'⟩
  unfold ofSets
  rw [outer]
  simp [rowOf]

/-- C21: when solving starts, the zero fact is added with bottom at every seeded statement that lacks it;
nothing else changes. -/
theorem C21_zero_added (ops : List (N × D × L)) (zero : D) (bot : L) (n : N) (d : D) :
    ((d = zero ∧ lastAdded ops n zero = none ∧ ∃ d v, (n, d, v) ∈ ops) →
      (rowOf (addZeroLoop zero bot (runAdd ops)) n).get d = some bot) ∧
    (¬ (d = zero ∧ lastAdded ops n zero = none ∧ ∃ d v, (n, d, v) ∈ ops) →
      (rowOf (addZeroLoop zero bot (runAdd ops)) n).get d = lastAdded ops n d) ∧
    (containsFor (addZeroLoop zero bot (runAdd ops)) n = true ↔ ∃ d v, (n, d, v) ∈ ops) := by
  obtain ⟨h1, h2⟩ := addZeroLoop_spec (ok_run ops) zero bot n
  have h3 := (C21_last_write_wins ops).2.2.2.1 n
  rw [← h3, h1, rowOf_run, rowOf_run, h2]
  exact ⟨fun h => if_pos h, fun h => if_neg h, Iff.rfl⟩

/-- C21: the seeds used by the solver model (`IDE.seedsWithZero`) are those of `addZeroLoop`. -/
theorem C21_solver_seeds {F E : Type} [JoinLat L] (P : IDE.Problem N D F L E) (ops : List (N × D × L))
    (hP : P.seeds = runAdd ops) (n : N) (d : D) :
    (rowOf (IDE.seedsWithZero P) n).get d =
      (rowOf (addZeroLoop P.zero JoinLat.bottom (runAdd ops)) n).get d := by
  rw [(addZeroLoop_spec (ok_run ops) P.zero JoinLat.bottom n).1]
  unfold IDE.seedsWithZero
  rw [hP]
  have app : ∀ (m : AMap D L) (k : D) (v : L), k ∉ m.map Prod.fst → ∀ d,
      AMap.get (m ++ [(k, v)]) d = if d = k then some v else m.get d := by
    intro m k v hk d
    induction m with
    | nil =>
      show (if k = d then some v else none) = _
      by_cases h : k = d
      · simp [h]
      · simp [h, Ne.symm h]
    | cons p m ih =>
      obtain ⟨a, b⟩ := p
      simp only [List.map_cons, List.mem_cons, not_or] at hk
      show (if a = d then some b else AMap.get (m ++ [(k, v)]) d) = _
      rw [ih hk.2]
      by_cases h : a = d
      · subst h; simp [Ne.symm hk.1, AMap.get]
      · simp [h, AMap.get]
  have key : ∀ s : Seeds N D L, (rowOf (s.map fun p =>
      if P.zero ∈ p.2.map Prod.fst then p else (p.1, p.2 ++ [(P.zero, JoinLat.bottom)])) n).get d =
      if d = P.zero ∧ (rowOf s n).get P.zero = none ∧ containsFor s n = true then some JoinLat.bottom
      else (rowOf s n).get d := by
    intro s
    induction s with
    | nil => simp [rowOf, containsFor]
    | cons p s ih =>
      obtain ⟨a, m⟩ := p
      rw [List.map_cons]
      by_cases ha : a = n
      · subst ha
        by_cases hz : P.zero ∈ m.map Prod.fst
        · rw [if_pos hz]
          have : ∃ v, m.get P.zero = some v := by
            rw [AMap.get_isSome_iff]; simpa using hz
          obtain ⟨v, hv⟩ := this
          simp [rowOf, AMap.get, hv]
        · rw [if_neg hz]
          have hn : m.get P.zero = none := by
            cases hg : m.get P.zero with
            | none => rfl
            | some v => exact absurd (List.mem_map.2 ⟨_, AMap.mem_of_get hg, rfl⟩) hz
          have := app m P.zero JoinLat.bottom hz d
          simp [rowOf, AMap.get, hn, containsFor]
          exact this
      · have e1 : ∀ (x : AMap D L) (l : Seeds N D L), rowOf ((a, x) :: l : Seeds N D L) n = rowOf l n := by
          intro x l; simp [rowOf, AMap.get, ha]
        have e2 : containsFor ((a, m) :: s : Seeds N D L) n = containsFor s n := by
          simp [containsFor, AMap.get, ha]
        rw [e1, e2, ← ih]
        split <;> rw [e1]
  exact key _

example : let s := runAdd ([(1, 5, 10), (1, 5, 11), (2, 0, 7), (1, 6, 3)] : List (Nat × Nat × Nat))
    (rowOf s 1).get 5 = some 11 ∧ countAll s = 3 ∧ countAt s 1 = 2 ∧ containsFor s 3 = false ∧
    (rowOf (addZeroLoop 0 99 s) 1).get 0 = some 99 ∧ (rowOf (addZeroLoop 0 99 s) 2).get 0 = some 7 ∧
    (rowOf (addZeroLoop 0 99 s) 3).get 0 = none := by decide

end C21

/-! ## C22: result accessors -/

section C22
open Results
variable {N D L : Type} [DecidableEq N] [DecidableEq D]

/-- C22: for every result table the solver can build (any history of `Table` calls), statement and fact: the
accessors present the same entries, and stripping zero removes exactly the zero fact. -/
theorem C22_agree (dflt : L) (ops : List (Table.Op N D L)) (zv : D) (n : N) (d : D) (v : L) :
    let t := Table.runOps dflt ops
    -- keys of resultsAt = ifdsResultsAt, without duplicates
    (((resultsAt zv t n false).get d).isSome = true ↔ d ∈ ifdsResultsAt t n) ∧ (ifdsResultsAt t n).Nodup ∧
    -- resultAt is the mapped value, the default if there is none
    (resultAt dflt t n d = ((resultsAt zv t n false).get d).getD dflt) ∧
    -- the entries of the whole table
    ((n, d, v) ∈ getAllResultEntries t ↔ (resultsAt zv t n false).get d = some v) ∧
    -- stripping zero
    ((resultsAt zv t n true).get d = if d = zv then none else (resultsAt zv t n false).get d) ∧
    -- and all of them show the denoted map
    ((resultsAt zv t n false).get d = (Table.Spec.run dflt ops).cell n d) := by
  have h := Table.rel_run dflt ops
  have hc := h.cell n d
  refine ⟨?_, nodup_foldl_insert _ List.nodup_nil, ?_, ?_, ?_, hc⟩
  · show ((Table.rowC (Table.runOps dflt ops) n).get d).isSome = true ↔ d ∈ ifdsResultsAt (Table.runOps dflt ops) n
    unfold ifdsResultsAt
    rw [mem_foldl_insert, Option.isSome_iff_exists, AMap.get_isSome_iff]
    simp
  · exact getC_eq dflt _ n d
  · show _ ↔ (Table.rowC (Table.runOps dflt ops) n).get d = some v
    rw [hc]; exact h.cellVec n d v
  · show ((Table.rowC (Table.runOps dflt ops) n).erase zv).get d = if d = zv then none else
      (Table.rowC (Table.runOps dflt ops) n).get d
    rw [AMap.get_erase]
    by_cases hz : zv = d
    · simp [hz]
    · simp [hz, Ne.symm hz]

/-- `ifdsResultsAt` ignores the value: a fact stored with `TOP` is listed; and `resultAt` cannot tell an absent
fact from one stored with `BOTTOM`, the default `BinaryDomain`. -/
theorem C22_value_ignored :
    let t := Table.runOps BinaryDomain.BOTTOM ([.insert 1 5 .TOP] : List (Table.Op Nat Nat BinaryDomain))
    ifdsResultsAt t 1 = [5] ∧ resultAt .BOTTOM t 1 6 = .BOTTOM ∧ (6 ∈ ifdsResultsAt t 1) = False := by
  refine ⟨by decide, by decide, by simp; decide⟩

variable [JoinLat L] [DecidableEq L]

/-- C22: the two SSA accessors agree whenever no merge is needed, for any default value. -/
theorem C22_ssa (dflt : L) (zv : D) (t : Table N D L) (n : N) (p : Pos N) (d : D) (allow : Bool)
    (h : p.isVoid = true ∨ p.next ≠ none ∨ (∃ s ∈ p.succs, s.1 = true)) :
    ∃ m, resultsAtSSA zv t n p allow false = some m ∧ resultAtSSA dflt t n p d allow = some ((m.get d).getD dflt) := by
  unfold resultsAtSSA resultAtSSA
  cases hv : p.isVoid with
  | true => exact ⟨_, by simp; rfl, by simp [getC_eq]⟩
  | false =>
    cases hn : p.next with
    | some n' => exact ⟨_, by simp; rfl, by simp [getC_eq]⟩
    | none =>
      rw [hv, hn] at h
      obtain ⟨s, hs, hs1⟩ : ∃ s ∈ p.succs, s.1 = true := by
        rcases h with h | h | h
        · cases h
        · exact absurd rfl h
        · exact h
      cases hf : p.succs.find? (·.1) with
      | none =>
        have := List.find?_eq_none.1 hf s hs
        exact absurd hs1 this
      | some s' => exact ⟨_, by simp; rfl, by simp [getC_eq]⟩

/-- C22: in the merge case they agree if the default value of the value type is top. -/
theorem C22_ssa_merge (zv : D) (ops : List (Table.Op N D L)) (n : N) (p : Pos N) (d : D)
    (hv : p.isVoid = false) (hn : p.next = none) (hs : ∀ s ∈ p.succs, s.1 = false) :
    let t := Table.runOps JoinLat.top ops
    (resultsAtSSA zv t n p false false = none ∧ resultAtSSA JoinLat.top t n p d false = none) ∧
    ∃ m, resultsAtSSA zv t n p true false = some m ∧
      resultAtSSA JoinLat.top t n p d true = some ((m.get d).getD JoinLat.top) := by
  have hrel := Table.rel_run (R := N) (C := D) (JoinLat.top : L) ops
  have hf : p.succs.find? (·.1) = none := by
    rw [List.find?_eq_none]; intro s hs'; simp [hs s hs']
  intro t
  unfold resultsAtSSA resultAtSSA
  simp only [hv, hn, hf, Bool.false_eq_true, if_false, Bool.not_false, if_true, Bool.not_true, and_self, true_and]
  refine ⟨_, rfl, ?_⟩
  have hm := mergeAll_val t (fun n => Table.nodup_rowC hrel.nodupRow n) p.succs d []
  unfold valTop at hm
  rw [hm]
  cases hss : p.succs with
  | nil => rfl
  | cons s ss =>
    simp only [List.foldl_cons, AMap.get_nil, Option.getD_none, JoinLat.top_join]
    rw [mergeVals_eq]

/-- C22 is false for other defaults in the merge case: with a value type whose default is an ordinary value
(as for the typestate enumerations) `resultsAtInLLVMSSA` and `resultAtInLLVMSSA` disagree. -/
theorem C22_ssa_disagree :
    let t := Table.runOps (.val 0) ([.insert 1 5 (.val 7)] : List (Table.Op Nat Nat (LatticeDomain Nat)))
    let p : Pos Nat := ⟨false, none, [(false, 1), (false, 2)]⟩
    resultsAtSSA 0 t 0 p true false = some [(5, .val 7)] ∧
      resultAtSSA (.val 0) t 0 p 5 true = some .bottom := by decide

example : let t := Table.runOps .top ([.insert 1 5 (.val 7), .insert 2 5 (.val 8), .insert 1 0 .bottom,
      .insert 1 6 (.val 1)] : List (Table.Op Nat Nat (LatticeDomain Nat)))
    let p : Pos Nat := ⟨false, none, [(false, 1), (false, 2)]⟩
    resultsAtSSA 0 t 0 p true true = some [(5, .bottom), (6, .val 1)] ∧
    resultAtSSA .top t 0 p 5 true = some .bottom ∧ ifdsResultsAt t 1 = [5, 0, 6] ∧
    resultsAt 0 t 1 true = [(5, .val 7), (6, .val 1)] := by decide

end C22
end Phasar
