import Verif.Base.AMap
import Verif.Util.ECM
/-!
# `FlowEdgeFunctionCache` (`include/phasar/DataFlow/IfdsIde/Solver/FlowEdgeFunctionCache.h`)

Not modelled: the performance counters and logging, `print`, `foreachCachedEdgeFunction`, and the
`assertNotNull` debug checks.
-/
set_option linter.unusedSectionVars false
namespace Phasar.FEC
open Phasar

/-- A flow function as seen through `computeTargets`. -/
abbrev FF (D : Type) := D → List D

/-- The callbacks of the tabulation problem the cache forwards to
(`FlowFunctions.h:640-872`, `EdgeFunctions.h`). Flow-function pointers are assumed non-null except for the
summary flow function, whose default is `nullptr` (`FlowFunctions.h:867-870`). -/
structure Prob (N D F E : Type) where
  autoAddZero : Bool
  zero : D
  eqE : E → E → Bool
  normalFF : N → N → FF D
  callFF : N → F → FF D
  retFF : N → F → N → N → FF D
  ctrFF : N → N → List F → FF D
  sumFF : N → F → Option (FF D)
  normalEF : N → D → N → D → E
  callEF : N → D → F → D → E
  retEF : N → F → N → D → N → D → E
  ctrEF : N → D → N → D → List F → E
  sumEF : N → D → N → D → E

/-- A callback of the problem with its arguments; also used for queries to the cache, whose interface
mirrors it. -/
inductive Call (N D F : Type)
  | normalFF (n n' : N)
  | callFF (n : N) (f : F)
  | retFF (c : N) (f : F) (e r : N)
  | ctrFF (c r : N) (fs : List F)
  | sumFF (c : N) (f : F)
  | normalEF (n : N) (d : D) (n' : N) (d' : D)
  | callEF (c : N) (d : D) (f : F) (d' : D)
  | retEF (c : N) (f : F) (e : N) (d : D) (r : N) (d' : D)
  | ctrEF (c : N) (d : D) (r : N) (d' : D) (fs : List F)
  | sumEF (c : N) (d : D) (r : N) (d' : D)

/-- What a query returns. -/
inductive Ans (D E : Type)
  | ff (f : FF D)
  | optFF (f : Option (FF D))
  | ef (e : E)

/-- Node key: `uint64_t` when facts are `llvm::Value`s, a pair of facts otherwise
(`FlowEdgeFunctionCache.h:105-107`). -/
abbrev NodeKey (D : Type) := Nat ⊕ (D × D)

/-- The caches (`FlowEdgeFunctionCache.h:116-143`) plus a log of the calls made to the problem.
Simplification: the call-to-return edge cache maps to a bare `EquivalenceClassMap`; here it has the same
type as the normal one, with an unused flow-function slot. -/
structure Cache (K N D F E : Type) where
  comp : AMap K Nat
  normal : AMap Nat (Option (FF D) × ECM (NodeKey D) E)
  callFF : AMap (N × F) (FF D)
  retFF : AMap (N × F × N × N) (FF D)
  ctrFF : AMap (N × N) (FF D)
  callEF : AMap (N × D × F × D) E
  retEF : AMap (N × F × N × D × N × D) E
  ctrEF : AMap Nat (Option (FF D) × ECM (NodeKey D) E)
  sumEF : AMap (N × D × N × D) E
  log : List (Call N D F)

/-- A fresh cache (constructor, `FlowEdgeFunctionCache.h:148-184`). -/
def Cache.empty {K N D F E : Type} : Cache K N D F E := ⟨[], [], [], [], [], [], [], [], [], []⟩

/-- How keys are compressed: `K` stands for `const llvm::Value *`; `kn`, `kd` view statements and facts as
values. `useId` is `std::is_base_of_v<llvm::Value, ...>` for facts. Statements are always compressed:
the alternative (`DefaultMapKeyCompressor`) only compiles for integral statements. -/
structure Keys (K N D : Type) where
  kn : N → K
  kd : D → K
  useId : Bool

section
variable {K N D F E : Type} [DecidableEq K] [DecidableEq N] [DecidableEq D] [DecidableEq F]

/-- `LLVMMapKeyCompressor::getCompressedID` (`FlowEdgeFunctionCache.h:58-64`); identifiers are stored as
`uint32_t`. -/
def getCompressedID (m : AMap K Nat) (k : K) : Nat × AMap K Nat :=
  match m.get k with
  | some i => (i, m)
  | none => ((m.length + 1) % 2 ^ 32, m.set k ((m.length + 1) % 2 ^ 32))

/-- The bit operations of `createEdgeFunctionInstKey` / `createEdgeFunctionNodeKey`
(`FlowEdgeFunctionCache.h:638-642`, `647-651`) on `uint64_t`. -/
def mkKey (a b : Nat) : Nat := (((0 ||| a) <<< 32) % 2 ^ 64) ||| b

/-- `createEdgeFunctionInstKey` (`FlowEdgeFunctionCache.h:637-643`). -/
def instKey (m : AMap K Nat) (k1 k2 : K) : Nat × AMap K Nat :=
  let p := getCompressedID m k1
  let q := getCompressedID p.2 k2
  (mkKey p.1 q.1, q.2)

/-- `createEdgeFunctionNodeKey` (`FlowEdgeFunctionCache.h:645-655`). -/
def nodeKey (ks : Keys K N D) (m : AMap K Nat) (d d' : D) : NodeKey D × AMap K Nat :=
  if ks.useId then
    let p := instKey m (ks.kd d) (ks.kd d')
    (.inl p.1, p.2)
  else (.inr (d, d'), m)

/-- `ZeroedFlowFunction::computeTargets` (`FlowFunctions.h:112-119`). -/
def zeroedFF (z : D) (f : FF D) : FF D := fun d => if d = z then FSet.insert (f d) z else f d

/-- The wrapping all cached flow functions get (`FlowEdgeFunctionCache.h:208-211`, `216-219`, `242-245`,
`272-278`, `307-312`). -/
def wrap (P : Prob N D F E) (f : FF D) : FF D := if P.autoAddZero then zeroedFF P.zero f else f

/-- Look-up-or-compute on one of the plain `std::map` caches (`FlowEdgeFunctionCache.h:234-249` and the
five other places of the same shape). The Boolean tells whether the problem was asked. -/
def memo {A V : Type} [DecidableEq A] (m : AMap A V) (k : A) (v : V) : V × Bool × AMap A V :=
  match m.get k with
  | some x => (x, false, m)
  | none => (v, true, m.set k v)

/-- Second half of `getNormalEdgeFunction` and `getCallToRetEdgeFunction`
(`FlowEdgeFunctionCache.h:345-376`, `466-499`): look up the edge function in the inner map or ask the
problem for it (value `e`) and insert it. -/
def memoEF (eqE : E → E → Bool) (m : AMap Nat (Option (FF D) × ECM (NodeKey D) E)) (key : Nat) (nk : NodeKey D)
    (e : E) : E × Bool × AMap Nat (Option (FF D) × ECM (NodeKey D) E) :=
  match m.get key with
  | some v =>
    match v.2.find nk with
    | some b => (b.2, false, m)
    | none => (e, true, m.set key (v.1, (v.2.tryEmplace eqE nk e).2))
  | none => (e, true, m.set key (none, (ECM.tryEmplace eqE [] nk e).2))

/-- Appends to the log if the problem was asked. -/
def note (l : List (Call N D F)) (asked : Bool) (q : Call N D F) : List (Call N D F) :=
  if asked then l ++ [q] else l

/-- One query to the cache: `getNormalFlowFunction` (192-224), `getCallFlowFunction` (226-249),
`getRetFlowFunction` (251-282), `getCallToRetFlowFunction` (284-316), `getSummaryFlowFunction` (318-330),
`getNormalEdgeFunction` (332-377), `getCallEdgeFunction` (379-410), `getReturnEdgeFunction` (412-447),
`getCallToRetEdgeFunction` (449-505), `getSummaryEdgeFunction` (507-536), all
`FlowEdgeFunctionCache.h`. Simplification: the node key is computed once, the code computes it again
before inserting (same result). -/
def query (P : Prob N D F E) (ks : Keys K N D) (c : Cache K N D F E) :
    Call N D F → Ans D E × Cache K N D F E
  | .normalFF n n' =>
    let p := instKey c.comp (ks.kn n) (ks.kn n')
    match c.normal.get p.1 with
    | some (some f, _) => (.ff f, { c with comp := p.2 })
    | some (none, m) =>
      let f := wrap P (P.normalFF n n')
      (.ff f, { c with comp := p.2, normal := c.normal.set p.1 (some f, m), log := c.log ++ [.normalFF n n'] })
    | none =>
      let f := wrap P (P.normalFF n n')
      (.ff f, { c with comp := p.2, normal := c.normal.set p.1 (some f, []), log := c.log ++ [.normalFF n n'] })
  | .callFF n f =>
    let r := memo c.callFF (n, f) (wrap P (P.callFF n f))
    (.ff r.1, { c with callFF := r.2.2, log := note c.log r.2.1 (.callFF n f) })
  | .retFF n f e s =>
    let r := memo c.retFF (n, f, e, s) (wrap P (P.retFF n f e s))
    (.ff r.1, { c with retFF := r.2.2, log := note c.log r.2.1 (.retFF n f e s) })
  | .ctrFF n s fs =>
    let r := memo c.ctrFF (n, s) (wrap P (P.ctrFF n s fs))
    (.ff r.1, { c with ctrFF := r.2.2, log := note c.log r.2.1 (.ctrFF n s fs) })
  | .sumFF n f => (.optFF (P.sumFF n f), { c with log := c.log ++ [.sumFF n f] })
  | .normalEF n d n' d' =>
    let p := instKey c.comp (ks.kn n) (ks.kn n')
    let q := nodeKey ks p.2 d d'
    let r := memoEF P.eqE c.normal p.1 q.1 (P.normalEF n d n' d')
    (.ef r.1, { c with comp := q.2, normal := r.2.2, log := note c.log r.2.1 (.normalEF n d n' d') })
  | .callEF n d f d' =>
    let r := memo c.callEF (n, d, f, d') (P.callEF n d f d')
    (.ef r.1, { c with callEF := r.2.2, log := note c.log r.2.1 (.callEF n d f d') })
  | .retEF n f e d s d' =>
    let r := memo c.retEF (n, f, e, d, s, d') (P.retEF n f e d s d')
    (.ef r.1, { c with retEF := r.2.2, log := note c.log r.2.1 (.retEF n f e d s d') })
  | .ctrEF n d s d' fs =>
    let p := instKey c.comp (ks.kn n) (ks.kn s)
    let q := nodeKey ks p.2 d d'
    let r := memoEF P.eqE c.ctrEF p.1 q.1 (P.ctrEF n d s d' fs)
    (.ef r.1, { c with comp := q.2, ctrEF := r.2.2, log := note c.log r.2.1 (.ctrEF n d s d' fs) })
  | .sumEF n d s d' =>
    let r := memo c.sumEF (n, d, s, d') (P.sumEF n d s d')
    (.ef r.1, { c with sumEF := r.2.2, log := note c.log r.2.1 (.sumEF n d s d') })

/-- A history of queries on a fresh cache. -/
def runQ (P : Prob N D F E) (ks : Keys K N D) (qs : List (Call N D F)) : Cache K N D F E :=
  qs.foldl (fun c q => (query P ks c q).2) .empty

/-! ## Specification -/

/-- The answer the problem itself gives; flow functions other than summaries with the zero fact added for
the zero fact if that is configured. -/
def direct (P : Prob N D F E) : Call N D F → Ans D E
  | .normalFF n n' => .ff (wrap P (P.normalFF n n'))
  | .callFF n f => .ff (wrap P (P.callFF n f))
  | .retFF n f e s => .ff (wrap P (P.retFF n f e s))
  | .ctrFF n s fs => .ff (wrap P (P.ctrFF n s fs))
  | .sumFF n f => .optFF (P.sumFF n f)
  | .normalEF n d n' d' => .ef (P.normalEF n d n' d')
  | .callEF n d f d' => .ef (P.callEF n d f d')
  | .retEF n f e d s d' => .ef (P.retEF n f e d s d')
  | .ctrEF n d s d' fs => .ef (P.ctrEF n d s d' fs)
  | .sumEF n d s d' => .ef (P.sumEF n d s d')

/-- Same answer: equal flow functions; edge functions equal by `operator==`. -/
def Ans.Same (eqE : E → E → Bool) : Ans D E → Ans D E → Prop
  | .ff f, .ff g => f = g
  | .optFF f, .optFF g => f = g
  | .ef e, .ef e' => eqE e e' = true
  | _, _ => False

/-- Call-to-return queries pass the callees of the call site, as the solver does. -/
def CalleesOk (cal : N → List F) : Call N D F → Prop
  | .ctrFF n _ fs => fs = cal n
  | .ctrEF n _ _ _ fs => fs = cal n
  | _ => True

/-- The summary flow function is deliberately not cached. -/
def Call.cached : Call N D F → Bool
  | .sumFF _ _ => false
  | _ => true

/-! ## Key compression -/

/-- Invariant of the key compressor. -/
structure CompInv (m : AMap K Nat) : Prop where
  nodup : AMap.NodupKeys m
  range : ∀ k i, m.get k = some i → 1 ≤ i ∧ i ≤ m.length
  inj : ∀ k k' i, m.get k = some i → m.get k' = some i → k = k'

theorem length_set_of_none {A V : Type} [DecidableEq A] (m : AMap A V) (k : A) (v : V) (h : m.get k = none) :
    (m.set k v).length = m.length + 1 := by
  induction m with
  | nil => rfl
  | cons p m ih =>
    obtain ⟨a, b⟩ := p
    simp only [AMap.get] at h
    by_cases hak : a = k
    · simp [hak] at h
    · simp only [hak, if_false] at h
      simp only [AMap.set, hak, if_false, List.length_cons]
      rw [ih h]

theorem getCompressedID_spec {m : AMap K Nat} (k : K) (hl : (getCompressedID m k).2.length < 2 ^ 32)
    (h : CompInv m) :
    CompInv (getCompressedID m k).2 ∧
    (getCompressedID m k).2.get k = some (getCompressedID m k).1 ∧
    (∀ k' i, m.get k' = some i → (getCompressedID m k).2.get k' = some i) ∧
    m.length ≤ (getCompressedID m k).2.length := by
  unfold getCompressedID at *
  cases hg : m.get k with
  | some i => exact ⟨h, hg, fun _ _ h => h, Nat.le_refl _⟩
  | none =>
    rw [hg] at hl
    simp only at hl ⊢
    have hlen := length_set_of_none m k ((m.length + 1) % 2 ^ 32) hg
    rw [hlen] at hl
    have hmod : (m.length + 1) % 2 ^ 32 = m.length + 1 := Nat.mod_eq_of_lt hl
    rw [hmod] at hlen ⊢
    refine ⟨⟨AMap.nodupKeys_set h.nodup _ _, ?_, ?_⟩, by simp, ?_, by omega⟩
    · intro k' i hk'
      rw [AMap.get_set] at hk'
      rw [hlen]
      split at hk'
      · cases hk'; omega
      · have := h.range _ _ hk'; omega
    · intro k' k'' i h1 h2
      rw [AMap.get_set] at h1 h2
      split at h1 <;> split at h2
      · rename_i a b; rw [← a, ← b]
      · cases h1; have := h.range _ _ h2; omega
      · cases h2; have := h.range _ _ h1; omega
      · exact h.inj _ _ _ h1 h2
    · intro k' i hk'
      rw [AMap.get_set]
      split
      · rename_i hh; subst hh; rw [hg] at hk'; cases hk'
      · exact hk'

theorem mkKey_eq {a b : Nat} (ha : a < 2 ^ 32) (hb : b < 2 ^ 32) : mkKey a b = a * 2 ^ 32 + b := by
  unfold mkKey
  rw [Nat.zero_or]
  have h1 : a <<< 32 < 2 ^ 64 := by
    rw [Nat.shiftLeft_eq]
    have : a * 2 ^ 32 < 2 ^ 32 * 2 ^ 32 := (Nat.mul_lt_mul_right (by decide)).2 ha
    simpa [← Nat.pow_add] using this
  rw [Nat.mod_eq_of_lt h1, ← Nat.shiftLeft_add_eq_or_of_lt hb, Nat.shiftLeft_eq]

theorem mkKey_inj {a b a' b' : Nat} (ha : a < 2 ^ 32) (hb : b < 2 ^ 32) (ha' : a' < 2 ^ 32) (hb' : b' < 2 ^ 32)
    (h : mkKey a b = mkKey a' b') : a = a' ∧ b = b' := by
  rw [mkKey_eq ha hb, mkKey_eq ha' hb'] at h
  omega

/-- `instKey` after both keys are known. -/
def IsKey (m : AMap K Nat) (k1 k2 : K) (key : Nat) : Prop :=
  ∃ a b, m.get k1 = some a ∧ m.get k2 = some b ∧ key = mkKey a b

theorem IsKey.inj {m : AMap K Nat} (h : CompInv m) (hl : m.length < 2 ^ 32) {k1 k2 k1' k2' : K} {key : Nat}
    (h1 : IsKey m k1 k2 key) (h2 : IsKey m k1' k2' key) : k1 = k1' ∧ k2 = k2' := by
  obtain ⟨a, b, ha, hb, rfl⟩ := h1
  obtain ⟨a', b', ha', hb', hk⟩ := h2
  have r1 := h.range _ _ ha
  have r2 := h.range _ _ hb
  have r3 := h.range _ _ ha'
  have r4 := h.range _ _ hb'
  obtain ⟨rfl, rfl⟩ := mkKey_inj (by omega) (by omega) (by omega) (by omega) hk
  exact ⟨h.inj _ _ _ ha ha', h.inj _ _ _ hb hb'⟩

theorem IsKey.unique {m : AMap K Nat} {k1 k2 : K} {key key' : Nat}
    (h1 : IsKey m k1 k2 key) (h2 : IsKey m k1 k2 key') : key = key' := by
  obtain ⟨a, b, ha, hb, rfl⟩ := h1
  obtain ⟨a', b', ha', hb', rfl⟩ := h2
  rw [ha] at ha'; rw [hb] at hb'
  cases ha'; cases hb'; rfl

theorem IsKey.mono {m m' : AMap K Nat} (hm : ∀ k i, m.get k = some i → m'.get k = some i) {k1 k2 : K} {key : Nat}
    (h : IsKey m k1 k2 key) : IsKey m' k1 k2 key := by
  obtain ⟨a, b, ha, hb, rfl⟩ := h
  exact ⟨a, b, hm _ _ ha, hm _ _ hb, rfl⟩

theorem getCompressedID_length (m : AMap K Nat) (k : K) : m.length ≤ (getCompressedID m k).2.length := by
  unfold getCompressedID
  cases hg : m.get k with
  | some i => exact Nat.le_refl _
  | none => simp only; rw [length_set_of_none _ _ _ hg]; omega

theorem instKey_length (m : AMap K Nat) (k1 k2 : K) : m.length ≤ (instKey m k1 k2).2.length :=
  Nat.le_trans (getCompressedID_length _ _) (getCompressedID_length _ _)

theorem nodeKey_length (ks : Keys K N D) (m : AMap K Nat) (d d' : D) :
    m.length ≤ (nodeKey ks m d d').2.length := by
  unfold nodeKey
  split
  · exact instKey_length _ _ _
  · exact Nat.le_refl _

theorem instKey_spec {m : AMap K Nat} (k1 k2 : K) (hl : (instKey m k1 k2).2.length < 2 ^ 32) (h : CompInv m) :
    CompInv (instKey m k1 k2).2 ∧ IsKey (instKey m k1 k2).2 k1 k2 (instKey m k1 k2).1 ∧
    (∀ k' i, m.get k' = some i → (instKey m k1 k2).2.get k' = some i) := by
  have hl1 := Nat.lt_of_le_of_lt (getCompressedID_length _ _) hl
  obtain ⟨a1, a2, a3, _⟩ := getCompressedID_spec k1 hl1 h
  obtain ⟨b1, b2, b3, _⟩ := getCompressedID_spec k2 hl a1
  exact ⟨b1, ⟨_, _, b3 _ _ a2, b2, rfl⟩, fun k' i hk => b3 _ _ (a3 _ _ hk)⟩

/-- The node key of a pair of facts, given the identifiers handed out so far. -/
def IsNodeKey (ks : Keys K N D) (m : AMap K Nat) (d d' : D) : NodeKey D → Prop
  | .inl key => ks.useId = true ∧ IsKey m (ks.kd d) (ks.kd d') key
  | .inr p => ks.useId = false ∧ p = (d, d')

theorem IsNodeKey.mono {ks : Keys K N D} {m m' : AMap K Nat}
    (hm : ∀ k i, m.get k = some i → m'.get k = some i) {d d' : D} {nk : NodeKey D}
    (h : IsNodeKey ks m d d' nk) : IsNodeKey ks m' d d' nk := by
  cases nk with
  | inl k => exact ⟨h.1, h.2.mono hm⟩
  | inr p => exact h

theorem IsNodeKey.inj {ks : Keys K N D} (hkd : ∀ d d', ks.kd d = ks.kd d' → d = d') {m : AMap K Nat}
    (hc : CompInv m) (hl : m.length < 2 ^ 32) {d d' x x' : D} {nk : NodeKey D}
    (h1 : IsNodeKey ks m d d' nk) (h2 : IsNodeKey ks m x x' nk) : d = x ∧ d' = x' := by
  cases nk with
  | inl k =>
    obtain ⟨a, b⟩ := h1.2.inj hc hl h2.2
    exact ⟨hkd _ _ a, hkd _ _ b⟩
  | inr p =>
    have := h1.2.symm.trans h2.2
    exact ⟨(Prod.mk.inj this).1, (Prod.mk.inj this).2⟩

theorem IsNodeKey.unique {ks : Keys K N D} {m : AMap K Nat} {d d' : D} {nk nk' : NodeKey D}
    (h1 : IsNodeKey ks m d d' nk) (h2 : IsNodeKey ks m d d' nk') : nk = nk' := by
  cases nk <;> cases nk'
  · rw [h1.2.unique h2.2]
  · have := h1.1; rw [h2.1] at this; cases this
  · have := h1.1; rw [h2.1] at this; cases this
  · rw [h1.2, h2.2]

theorem nodeKey_spec (ks : Keys K N D) {m : AMap K Nat} (d d' : D)
    (hl : (nodeKey ks m d d').2.length < 2 ^ 32) (h : CompInv m) :
    CompInv (nodeKey ks m d d').2 ∧ IsNodeKey ks (nodeKey ks m d d').2 d d' (nodeKey ks m d d').1 ∧
    (∀ k' i, m.get k' = some i → (nodeKey ks m d d').2.get k' = some i) := by
  unfold nodeKey at *
  cases hu : ks.useId with
  | true =>
    rw [hu] at hl
    simp only [if_true] at hl ⊢
    obtain ⟨a, b, c⟩ := instKey_spec (ks.kd d) (ks.kd d') hl h
    exact ⟨a, ⟨hu, b⟩, c⟩
  | false =>
    simp only [Bool.false_eq_true, if_false]
    exact ⟨h, ⟨hu, rfl⟩, fun _ _ h => h⟩

/-! ## Invariant of the caches -/

/-- Contents of a two-level cache: every entry belongs to a pair of statements, holds that pair's flow
function (if any) and for every recorded pair of facts an edge function equal to the problem's. -/
def EMapOk (ks : Keys K N D) (eqE : E → E → Bool) (comp : AMap K Nat) (ffOf : N → N → FF D)
    (efOf : N → N → D → D → E) (m : AMap Nat (Option (FF D) × ECM (NodeKey D) E)) : Prop :=
  ∀ key v, m.get key = some v → ∃ n n', IsKey comp (ks.kn n) (ks.kn n') key ∧
    (∀ f, v.1 = some f → f = ffOf n n') ∧
    ∀ b ∈ v.2, ∀ nk ∈ b.1, ∃ d d', IsNodeKey ks comp d d' nk ∧ eqE b.2 (efOf n n' d d') = true

theorem EMapOk.mono {ks : Keys K N D} {eqE : E → E → Bool} {comp comp' : AMap K Nat}
    (hm : ∀ k i, comp.get k = some i → comp'.get k = some i) {ffOf : N → N → FF D}
    {efOf : N → N → D → D → E} {m : AMap Nat (Option (FF D) × ECM (NodeKey D) E)}
    (h : EMapOk ks eqE comp ffOf efOf m) : EMapOk ks eqE comp' ffOf efOf m := by
  intro key v hv
  obtain ⟨n, n', h1, h2, h3⟩ := h key v hv
  refine ⟨n, n', h1.mono hm, h2, fun b hb nk hnk => ?_⟩
  obtain ⟨d, d', h4, h5⟩ := h3 b hb nk hnk
  exact ⟨d, d', h4.mono hm, h5⟩

theorem memoEF_spec {ks : Keys K N D} (hkn : ∀ n n', ks.kn n = ks.kn n' → n = n')
    (hkd : ∀ d d', ks.kd d = ks.kd d' → d = d') {eqE : E → E → Bool} (hrefl : ∀ e, eqE e e = true)
    {comp : AMap K Nat} (hc : CompInv comp) (hl : comp.length < 2 ^ 32) {ffOf : N → N → FF D}
    {efOf : N → N → D → D → E} {m : AMap Nat (Option (FF D) × ECM (NodeKey D) E)}
    (h : EMapOk ks eqE comp ffOf efOf m) {n n' : N} {d d' : D} {key : Nat} {nk : NodeKey D}
    (hk : IsKey comp (ks.kn n) (ks.kn n') key) (hnk : IsNodeKey ks comp d d' nk) :
    EMapOk ks eqE comp ffOf efOf (memoEF eqE m key nk (efOf n n' d d')).2.2 ∧
    eqE (memoEF eqE m key nk (efOf n n' d d')).1 (efOf n n' d d') = true := by
  have upd : ∀ (f : Option (FF D)) (old : ECM (NodeKey D) E),
      (∀ g, f = some g → g = ffOf n n') →
      (∀ b ∈ old, ∀ k ∈ b.1, ∃ x x', IsNodeKey ks comp x x' k ∧ eqE b.2 (efOf n n' x x') = true) →
      EMapOk ks eqE comp ffOf efOf (m.set key (f, (old.tryEmplace eqE nk (efOf n n' d d')).2)) := by
    intro f old hf hold k0 v0 hv0
    rw [AMap.get_set] at hv0
    split at hv0
    · rename_i hkk
      cases hv0
      subst hkk
      refine ⟨n, n', hk, hf, ?_⟩
      intro b hb k hkb
      rcases ECM.tryEmplace_spec (eqV := eqE) nk (efOf n n' d d') old with
        ⟨m1, b0, m2, rfl, _, h2, h3⟩ | ⟨_, h3⟩
      · rw [h3] at hb
        simp only [List.mem_append, List.mem_cons] at hb
        rcases hb with hb | rfl | hb
        · exact hold b (by simp [hb]) k hkb
        · simp only [FSet.mem_insert] at hkb
          rcases hkb with rfl | hkb
          · exact ⟨d, d', hnk, h2⟩
          · exact hold b0 (by simp) k hkb
        · exact hold b (by simp [hb]) k hkb
      · rw [h3] at hb
        simp only [List.mem_append, List.mem_singleton] at hb
        rcases hb with hb | rfl
        · exact hold b hb k hkb
        · rw [List.mem_singleton] at hkb
          subst hkb
          exact ⟨d, d', hnk, hrefl _⟩
    · exact h k0 v0 hv0
  unfold memoEF
  cases hg : m.get key with
  | none =>
    exact ⟨upd none [] (by simp) (by simp), hrefl _⟩
  | some v =>
    obtain ⟨x, x', h1, h2, h3⟩ := h key v hg
    obtain ⟨e1, e2⟩ := hk.inj hc hl h1
    have e1 := hkn _ _ e1
    have e2 := hkn _ _ e2
    subst e1; subst e2
    simp only
    rcases ECM.find_spec v.2 nk with ⟨m1, b, m2, hm, _, hb, hf⟩ | ⟨_, hf⟩
    · rw [hf]
      refine ⟨h, ?_⟩
      obtain ⟨y, y', h4, h5⟩ := h3 b (by rw [hm]; simp) nk hb
      obtain ⟨rfl, rfl⟩ := hnk.inj hkd hc hl h4
      exact h5
    · rw [hf]
      exact ⟨upd v.1 v.2 h2 h3, hrefl _⟩

/-- Everything stored is what the problem returns. -/
structure CInv (P : Prob N D F E) (ks : Keys K N D) (cal : N → List F) (c : Cache K N D F E) : Prop where
  comp : CompInv c.comp
  normal : EMapOk ks P.eqE c.comp (fun n n' => wrap P (P.normalFF n n')) (fun n n' d d' => P.normalEF n d n' d')
    c.normal
  ctr : EMapOk ks P.eqE c.comp (fun n n' => wrap P (P.normalFF n n'))
    (fun n n' d d' => P.ctrEF n d n' d' (cal n)) c.ctrEF
  callFF : ∀ n f v, c.callFF.get (n, f) = some v → v = wrap P (P.callFF n f)
  retFF : ∀ n f e s v, c.retFF.get (n, f, e, s) = some v → v = wrap P (P.retFF n f e s)
  ctrFF : ∀ n s v, c.ctrFF.get (n, s) = some v → v = wrap P (P.ctrFF n s (cal n))
  callEF : ∀ n d f d' v, c.callEF.get (n, d, f, d') = some v → v = P.callEF n d f d'
  retEF : ∀ n f e d s d' v, c.retEF.get (n, f, e, d, s, d') = some v → v = P.retEF n f e d s d'
  sumEF : ∀ n d s d' v, c.sumEF.get (n, d, s, d') = some v → v = P.sumEF n d s d'

theorem memo_spec {A V : Type} [DecidableEq A] (m : AMap A V) (k : A) (spec : A → V)
    (h : ∀ a v, m.get a = some v → v = spec a) :
    (memo m k (spec k)).1 = spec k ∧ ∀ a v, (memo m k (spec k)).2.2.get a = some v → v = spec a := by
  unfold memo
  cases hg : m.get k with
  | some x => exact ⟨h _ _ hg, h⟩
  | none =>
    refine ⟨rfl, fun a v hv => ?_⟩
    rw [AMap.get_set] at hv
    split at hv
    · rename_i hh; cases hv; rw [hh]
    · exact h _ _ hv

theorem query_inv {P : Prob N D F E} {ks : Keys K N D} (hkn : ∀ n n', ks.kn n = ks.kn n' → n = n')
    (hkd : ∀ d d', ks.kd d = ks.kd d' → d = d') (hrefl : ∀ e, P.eqE e e = true) {cal : N → List F}
    {c : Cache K N D F E} (h : CInv P ks cal c) (q : Call N D F) (hq : CalleesOk cal q)
    (hl : (query P ks c q).2.comp.length < 2 ^ 32) :
    CInv P ks cal (query P ks c q).2 ∧ (query P ks c q).1.Same P.eqE (direct P q) := by
  cases q with
  | normalFF n n' =>
    have hl' : (instKey c.comp (ks.kn n) (ks.kn n')).2.length < 2 ^ 32 := by
      unfold query at hl
      dsimp only at hl
      split at hl <;> exact hl
    obtain ⟨h1, h2, h3⟩ := instKey_spec (ks.kn n) (ks.kn n') hl' h.comp
    have hN := h.normal.mono h3
    have hC := h.ctr.mono h3
    unfold query
    dsimp only
    split
    · rename_i f m hg
      obtain ⟨x, x', a1, a2, a3⟩ := hN _ _ hg
      obtain ⟨e1, e2⟩ := h2.inj h1 hl' a1
      refine ⟨⟨h1, hN, hC, h.callFF, h.retFF, h.ctrFF, h.callEF, h.retEF, h.sumEF⟩, ?_⟩
      have e1 := hkn _ _ e1; have e2 := hkn _ _ e2
      subst e1; subst e2
      exact a2 _ rfl
    · rename_i m hg
      obtain ⟨x, x', a1, a2, a3⟩ := hN _ _ hg
      obtain ⟨e1, e2⟩ := h2.inj h1 hl' a1
      have e1 := hkn _ _ e1; have e2 := hkn _ _ e2
      subst e1; subst e2
      refine ⟨⟨h1, ?_, hC, h.callFF, h.retFF, h.ctrFF, h.callEF, h.retEF, h.sumEF⟩, rfl⟩
      intro k v hv
      rw [AMap.get_set] at hv
      split at hv
      · rename_i hk
        cases hv; subst hk
        exact ⟨n, n', h2, fun f hf => (Option.some.inj hf).symm, a3⟩
      · exact hN k v hv
    · rename_i hg
      refine ⟨⟨h1, ?_, hC, h.callFF, h.retFF, h.ctrFF, h.callEF, h.retEF, h.sumEF⟩, rfl⟩
      intro k v hv
      rw [AMap.get_set] at hv
      split at hv
      · rename_i hk
        cases hv; subst hk
        exact ⟨n, n', h2, fun f hf => (Option.some.inj hf).symm, by simp⟩
      · exact hN k v hv
  | normalEF n d n' d' =>
    have hl' : (nodeKey ks (instKey c.comp (ks.kn n) (ks.kn n')).2 d d').2.length < 2 ^ 32 := hl
    have hl1 := Nat.lt_of_le_of_lt (nodeKey_length _ _ _ _) hl'
    obtain ⟨h1, h2, h3⟩ := instKey_spec (ks.kn n) (ks.kn n') hl1 h.comp
    obtain ⟨b1, b2, b3⟩ := nodeKey_spec ks d d' hl' h1
    have hm := fun k i hk => b3 k i (h3 k i hk)
    obtain ⟨m1, m2⟩ := memoEF_spec hkn hkd hrefl b1 hl' (h.normal.mono hm) (h2.mono b3) b2
    exact ⟨⟨b1, m1, h.ctr.mono hm, h.callFF, h.retFF, h.ctrFF, h.callEF, h.retEF, h.sumEF⟩, m2⟩
  | ctrEF n d n' d' fs =>
    have hfs : fs = cal n := hq
    subst hfs
    have hl' : (nodeKey ks (instKey c.comp (ks.kn n) (ks.kn n')).2 d d').2.length < 2 ^ 32 := hl
    have hl1 := Nat.lt_of_le_of_lt (nodeKey_length _ _ _ _) hl'
    obtain ⟨h1, h2, h3⟩ := instKey_spec (ks.kn n) (ks.kn n') hl1 h.comp
    obtain ⟨b1, b2, b3⟩ := nodeKey_spec ks d d' hl' h1
    have hm := fun k i hk => b3 k i (h3 k i hk)
    obtain ⟨m1, m2⟩ := memoEF_spec hkn hkd hrefl b1 hl' (h.ctr.mono hm) (h2.mono b3) b2
    exact ⟨⟨b1, h.normal.mono hm, m1, h.callFF, h.retFF, h.ctrFF, h.callEF, h.retEF, h.sumEF⟩, m2⟩
  | callFF n f =>
    obtain ⟨a, b⟩ := memo_spec c.callFF (n, f) (fun p => wrap P (P.callFF p.1 p.2)) fun p v hv => h.callFF _ _ _ hv
    exact ⟨⟨h.comp, h.normal, h.ctr, fun n f v hv => b (n, f) v hv, h.retFF, h.ctrFF, h.callEF, h.retEF, h.sumEF⟩, a⟩
  | retFF n f e s =>
    obtain ⟨a, b⟩ := memo_spec c.retFF (n, f, e, s) (fun p => wrap P (P.retFF p.1 p.2.1 p.2.2.1 p.2.2.2))
      fun p v hv => h.retFF _ _ _ _ _ hv
    exact ⟨⟨h.comp, h.normal, h.ctr, h.callFF, fun n f e s v hv => b (n, f, e, s) v hv, h.ctrFF, h.callEF,
      h.retEF, h.sumEF⟩, a⟩
  | ctrFF n s fs =>
    have hfs : fs = cal n := hq
    subst hfs
    obtain ⟨a, b⟩ := memo_spec c.ctrFF (n, s) (fun p => wrap P (P.ctrFF p.1 p.2 (cal p.1)))
      fun p v hv => h.ctrFF _ _ _ hv
    exact ⟨⟨h.comp, h.normal, h.ctr, h.callFF, h.retFF, fun n s v hv => b (n, s) v hv, h.callEF,
      h.retEF, h.sumEF⟩, a⟩
  | sumFF n f => exact ⟨⟨h.comp, h.normal, h.ctr, h.callFF, h.retFF, h.ctrFF, h.callEF, h.retEF, h.sumEF⟩, rfl⟩
  | callEF n d f d' =>
    obtain ⟨a, b⟩ := memo_spec c.callEF (n, d, f, d') (fun p => P.callEF p.1 p.2.1 p.2.2.1 p.2.2.2)
      fun p v hv => h.callEF _ _ _ _ _ hv
    refine ⟨⟨h.comp, h.normal, h.ctr, h.callFF, h.retFF, h.ctrFF, fun n d f d' v hv => b (n, d, f, d') v hv,
      h.retEF, h.sumEF⟩, ?_⟩
    show P.eqE _ _ = true
    rw [a]; exact hrefl _
  | retEF n f e d s d' =>
    obtain ⟨a, b⟩ := memo_spec c.retEF (n, f, e, d, s, d')
      (fun p => P.retEF p.1 p.2.1 p.2.2.1 p.2.2.2.1 p.2.2.2.2.1 p.2.2.2.2.2)
      fun p v hv => h.retEF _ _ _ _ _ _ _ hv
    refine ⟨⟨h.comp, h.normal, h.ctr, h.callFF, h.retFF, h.ctrFF, h.callEF,
      fun n f e d s d' v hv => b (n, f, e, d, s, d') v hv, h.sumEF⟩, ?_⟩
    show P.eqE _ _ = true
    rw [a]; exact hrefl _
  | sumEF n d s d' =>
    obtain ⟨a, b⟩ := memo_spec c.sumEF (n, d, s, d') (fun p => P.sumEF p.1 p.2.1 p.2.2.1 p.2.2.2)
      fun p v hv => h.sumEF _ _ _ _ _ hv
    refine ⟨⟨h.comp, h.normal, h.ctr, h.callFF, h.retFF, h.ctrFF, h.callEF, h.retEF,
      fun n d s d' v hv => b (n, d, s, d') v hv⟩, ?_⟩
    show P.eqE _ _ = true
    rw [a]; exact hrefl _

theorem query_length (P : Prob N D F E) (ks : Keys K N D) (c : Cache K N D F E) (q : Call N D F) :
    c.comp.length ≤ (query P ks c q).2.comp.length := by
  cases q with
  | normalFF n n' =>
    have := instKey_length c.comp (ks.kn n) (ks.kn n')
    unfold query
    dsimp only
    split <;> exact this
  | normalEF => exact Nat.le_trans (instKey_length _ _ _) (nodeKey_length _ _ _ _)
  | ctrEF => exact Nat.le_trans (instKey_length _ _ _) (nodeKey_length _ _ _ _)
  | _ => exact Nat.le_refl _

theorem foldl_length (P : Prob N D F E) (ks : Keys K N D) (qs : List (Call N D F)) (c : Cache K N D F E) :
    c.comp.length ≤ (qs.foldl (fun c q => (query P ks c q).2) c).comp.length := by
  induction qs generalizing c with
  | nil => exact Nat.le_refl _
  | cons q qs ih => exact Nat.le_trans (query_length P ks c q) (ih _)

theorem run_inv {P : Prob N D F E} {ks : Keys K N D} (hkn : ∀ n n', ks.kn n = ks.kn n' → n = n')
    (hkd : ∀ d d', ks.kd d = ks.kd d' → d = d') (hrefl : ∀ e, P.eqE e e = true) {cal : N → List F}
    (qs : List (Call N D F)) (hq : ∀ q ∈ qs, CalleesOk cal q) (hl : (runQ P ks qs).comp.length < 2 ^ 32) :
    CInv P ks cal (runQ P ks qs) := by
  have : ∀ (qs : List (Call N D F)) (c : Cache K N D F E), (∀ q ∈ qs, CalleesOk cal q) → CInv P ks cal c →
      (qs.foldl (fun c q => (query P ks c q).2) c).comp.length < 2 ^ 32 →
      CInv P ks cal (qs.foldl (fun c q => (query P ks c q).2) c) := by
    intro qs
    induction qs with
    | nil => intro c _ h _; exact h
    | cons q qs ih =>
      intro c hq h hl
      refine ih _ (fun q' hq' => hq q' (List.mem_cons_of_mem _ hq')) ?_ hl
      exact (query_inv hkn hkd hrefl h q (hq q List.mem_cons_self)
        (Nat.lt_of_le_of_lt (foldl_length P ks qs _) hl)).1
  refine this qs _ hq ?_ hl
  refine ⟨⟨AMap.nodupKeys_nil, ?_, ?_⟩, ?_, ?_, ?_, ?_, ?_, ?_, ?_, ?_⟩ <;>
    simp [Cache.empty, EMapOk]

/-! ## Every callback at most once -/

/-- A call without the callees argument, which is not part of any cache key. -/
def Call.key : Call N D F → Call N D F
  | .ctrFF n s _ => .ctrFF n s []
  | .ctrEF n d s d' _ => .ctrEF n d s d' []
  | q => q

/-- The answer to `q` is in the cache. -/
def Stored (ks : Keys K N D) (c : Cache K N D F E) : Call N D F → Prop
  | .normalFF n n' => ∃ key v, IsKey c.comp (ks.kn n) (ks.kn n') key ∧ c.normal.get key = some v ∧ v.1.isSome
  | .callFF n f => (c.callFF.get (n, f)).isSome
  | .retFF n f e s => (c.retFF.get (n, f, e, s)).isSome
  | .ctrFF n s _ => (c.ctrFF.get (n, s)).isSome
  | .sumFF _ _ => False
  | .normalEF n d n' d' => ∃ key v nk, IsKey c.comp (ks.kn n) (ks.kn n') key ∧ c.normal.get key = some v ∧
      IsNodeKey ks c.comp d d' nk ∧ (v.2.find nk).isSome
  | .callEF n d f d' => (c.callEF.get (n, d, f, d')).isSome
  | .retEF n f e d s d' => (c.retEF.get (n, f, e, d, s, d')).isSome
  | .ctrEF n d n' d' _ => ∃ key v nk, IsKey c.comp (ks.kn n) (ks.kn n') key ∧ c.ctrEF.get key = some v ∧
      IsNodeKey ks c.comp d d' nk ∧ (v.2.find nk).isSome
  | .sumEF n d s d' => (c.sumEF.get (n, d, s, d')).isSome

theorem getCompressedID_get (m : AMap K Nat) (k : K) :
    (getCompressedID m k).2.get k = some (getCompressedID m k).1 := by
  unfold getCompressedID
  cases hg : m.get k with
  | some i => exact hg
  | none => simp

theorem getCompressedID_mono (m : AMap K Nat) (k : K) {k' : K} {i : Nat} (h : m.get k' = some i) :
    (getCompressedID m k).2.get k' = some i := by
  unfold getCompressedID
  cases hg : m.get k with
  | some i => exact h
  | none =>
    simp only [AMap.get_set]
    split
    · rename_i hh; subst hh; rw [hg] at h; cases h
    · exact h

theorem instKey_isKey (m : AMap K Nat) (k1 k2 : K) : IsKey (instKey m k1 k2).2 k1 k2 (instKey m k1 k2).1 :=
  ⟨_, _, getCompressedID_mono _ _ (getCompressedID_get m k1), getCompressedID_get _ k2, rfl⟩

theorem instKey_mono (m : AMap K Nat) (k1 k2 : K) (k' : K) (i : Nat) (h : m.get k' = some i) :
    (instKey m k1 k2).2.get k' = some i := getCompressedID_mono _ _ (getCompressedID_mono _ _ h)

theorem nodeKey_isNodeKey (ks : Keys K N D) (m : AMap K Nat) (d d' : D) :
    IsNodeKey ks (nodeKey ks m d d').2 d d' (nodeKey ks m d d').1 := by
  unfold nodeKey
  cases hu : ks.useId with
  | true => simp only [if_true]; exact ⟨hu, instKey_isKey _ _ _⟩
  | false => simp only [Bool.false_eq_true, if_false]; exact ⟨hu, rfl⟩

theorem nodeKey_mono (ks : Keys K N D) (m : AMap K Nat) (d d' : D) (k' : K) (i : Nat) (h : m.get k' = some i) :
    (nodeKey ks m d d').2.get k' = some i := by
  unfold nodeKey
  split
  · exact instKey_mono _ _ _ _ _ h
  · exact h

theorem memo_stored {A V : Type} [DecidableEq A] (m : AMap A V) (k : A) (v : V) :
    ((memo m k v).2.2.get k).isSome ∧ (∀ a, (m.get a).isSome → ((memo m k v).2.2.get a).isSome) ∧
    ((memo m k v).2.1 = true → (m.get k).isSome = false) := by
  unfold memo
  cases hg : m.get k with
  | some x => exact ⟨by simp [hg], fun _ h => h, by simp⟩
  | none =>
    refine ⟨by simp, fun a ha => ?_, by simp⟩
    rw [AMap.get_set]
    split
    · rfl
    · exact ha

theorem find_tryEmplace (eqE : E → E → Bool) (m : ECM (NodeKey D) E) (k : NodeKey D) (e : E) :
    ((m.tryEmplace eqE k e).2.find k).isSome ∧
    ∀ k', (m.find k').isSome → ((m.tryEmplace eqE k e).2.find k').isSome := by
  have aux : ∀ (m : ECM (NodeKey D) E) (k' : NodeKey D), (m.find k').isSome ↔ ∃ b ∈ m, k' ∈ b.1 := by
    intro m k'
    rcases ECM.find_spec m k' with ⟨m1, b, m2, hm, _, hb, hf⟩ | ⟨hn, hf⟩
    · rw [hf]; simp only [Option.isSome_some, true_iff]; exact ⟨b, by rw [hm]; simp, hb⟩
    · rw [hf]; simp only [Option.isSome_none, Bool.false_eq_true, false_iff]
      rintro ⟨b, hb, hk⟩; exact hn b hb hk
  simp only [aux]
  rcases ECM.tryEmplace_spec (eqV := eqE) k e m with ⟨m1, b0, m2, rfl, _, h2, h3⟩ | ⟨_, h3⟩
  · rw [h3]
    refine ⟨⟨(FSet.insert b0.1 k, b0.2), by simp, by simp⟩, ?_⟩
    rintro k' ⟨b, hb, hk⟩
    simp only [List.mem_append, List.mem_cons] at hb ⊢
    rcases hb with hb | rfl | hb
    · exact ⟨b, .inl hb, hk⟩
    · exact ⟨_, .inr (.inl rfl), by simp [hk]⟩
    · exact ⟨b, .inr (.inr hb), hk⟩
  · rw [h3]
    refine ⟨⟨([k], e), by simp, by simp⟩, ?_⟩
    rintro k' ⟨b, hb, hk⟩
    exact ⟨b, by simp [hb], hk⟩

theorem memoEF_stored (eqE : E → E → Bool) (m : AMap Nat (Option (FF D) × ECM (NodeKey D) E)) (key : Nat)
    (nk : NodeKey D) (e : E) :
    (∃ v, (memoEF eqE m key nk e).2.2.get key = some v ∧ (v.2.find nk).isSome) ∧
    (∀ k v, m.get k = some v → ∃ w, (memoEF eqE m key nk e).2.2.get k = some w ∧ w.1 = v.1 ∧
      ∀ x, (v.2.find x).isSome → (w.2.find x).isSome) ∧
    ((memoEF eqE m key nk e).2.1 = true → ∀ v, m.get key = some v → (v.2.find nk).isSome = false) := by
  unfold memoEF
  cases hg : m.get key with
  | none =>
    refine ⟨⟨_, by simp; rfl, (find_tryEmplace eqE [] nk e).1⟩, ?_, by simp⟩
    intro k v hv
    refine ⟨v, ?_, rfl, fun _ h => h⟩
    rw [AMap.get_set]
    split
    · rename_i hh; subst hh; rw [hg] at hv; cases hv
    · exact hv
  | some v0 =>
    simp only
    cases hf : v0.2.find nk with
    | some b => exact ⟨⟨v0, hg, by simp [hf]⟩, fun k v hv => ⟨v, hv, rfl, fun _ h => h⟩, by simp⟩
    | none =>
      refine ⟨⟨_, by simp; rfl, (find_tryEmplace eqE v0.2 nk e).1⟩, ?_, ?_⟩
      · intro k v hv
        simp only [AMap.get_set]
        by_cases hk : key = k
        · subst hk
          rw [hg] at hv; cases hv
          exact ⟨(v0.1, (v0.2.tryEmplace eqE nk e).2), by simp, rfl, (find_tryEmplace eqE v0.2 nk e).2⟩
        · simp only [hk, if_false]
          exact ⟨v, hv, rfl, fun _ h => h⟩
      · intro _ v hv; cases hv; simp [hf]

/-- What one query does to the log and to what is stored. -/
structure StepOk (ks : Keys K N D) (c c' : Cache K N D F E) (q : Call N D F) : Prop where
  keep : ∀ x, Stored ks c x → Stored ks c' x
  log : c'.log = c.log ∨ (c'.log = c.log ++ [q] ∧ ¬ Stored ks c q ∧ (q.cached = true → Stored ks c' q))

theorem note_eq (l : List (Call N D F)) (b : Bool) (q : Call N D F) :
    (b = false ∧ note l b q = l) ∨ (b = true ∧ note l b q = l ++ [q]) := by
  cases b <;> simp [note]

theorem query_step (P : Prob N D F E) (ks : Keys K N D) (c : Cache K N D F E) (q : Call N D F) :
    StepOk ks c (query P ks c q).2 q := by
  cases q with
  | normalFF n n' =>
    have hmono := instKey_mono c.comp (ks.kn n) (ks.kn n')
    have hk := instKey_isKey c.comp (ks.kn n) (ks.kn n')
    have keepAux : ∀ (m : ECM (NodeKey D) E) (f : FF D) (nrm : AMap Nat (Option (FF D) × ECM (NodeKey D) E)) l,
        nrm = c.normal.set (instKey c.comp (ks.kn n) (ks.kn n')).1 (some f, m) →
        (∀ v, c.normal.get (instKey c.comp (ks.kn n) (ks.kn n')).1 = some v → v.2 = m) →
        ∀ x, Stored ks c x →
          Stored ks ({ c with comp := (instKey c.comp (ks.kn n) (ks.kn n')).2, normal := nrm, log := l } :
            Cache K N D F E) x := by
      intro m f nrm l hn hv x hx
      subst hn
      cases x with
      | normalFF a a' =>
        obtain ⟨key, v, h1, h2, h3⟩ := hx
        simp only [Stored, AMap.get_set]
        by_cases hh : (instKey c.comp (ks.kn n) (ks.kn n')).1 = key
        · exact ⟨key, (some f, m), h1.mono hmono, by simp [hh], rfl⟩
        · exact ⟨key, v, h1.mono hmono, by simp [hh, h2], h3⟩
      | normalEF a d a' d' =>
        obtain ⟨key, v, nk, h1, h2, h3, h4⟩ := hx
        simp only [Stored, AMap.get_set]
        by_cases hh : (instKey c.comp (ks.kn n) (ks.kn n')).1 = key
        · have := hv v (by rw [hh]; exact h2)
          exact ⟨key, (some f, m), nk, h1.mono hmono, by simp [hh], h3.mono hmono, by rw [← this]; exact h4⟩
        · exact ⟨key, v, nk, h1.mono hmono, by simp [hh, h2], h3.mono hmono, h4⟩
      | ctrEF a d a' d' fs =>
        obtain ⟨key, v, nk, h1, h2, h3, h4⟩ := hx
        exact ⟨key, v, nk, h1.mono hmono, h2, h3.mono hmono, h4⟩
      | _ => exact hx
    unfold query
    dsimp only
    split
    · rename_i f m hg
      refine ⟨?_, .inl rfl⟩
      intro x hx
      cases x with
      | normalFF a a' =>
        obtain ⟨key, v, h1, h2, h3⟩ := hx
        exact ⟨key, v, h1.mono hmono, h2, h3⟩
      | normalEF a d a' d' =>
        obtain ⟨key, v, nk, h1, h2, h3, h4⟩ := hx
        exact ⟨key, v, nk, h1.mono hmono, h2, h3.mono hmono, h4⟩
      | ctrEF a d a' d' fs =>
        obtain ⟨key, v, nk, h1, h2, h3, h4⟩ := hx
        exact ⟨key, v, nk, h1.mono hmono, h2, h3.mono hmono, h4⟩
      | _ => exact hx
    · rename_i m hg
      refine ⟨keepAux m _ _ _ rfl fun v hv => by rw [hg] at hv; cases hv; rfl, .inr ⟨rfl, ?_, fun _ => ?_⟩⟩
      · rintro ⟨key, v, h1, h2, h3⟩
        rw [(h1.mono hmono).unique hk, hg] at h2
        cases h2; simp at h3
      · exact ⟨_, (_, m), hk, by simp; rfl, rfl⟩
    · rename_i hg
      refine ⟨keepAux [] _ _ _ rfl fun v hv => (by rw [hg] at hv; cases hv), .inr ⟨rfl, ?_, fun _ => ?_⟩⟩
      · rintro ⟨key, v, h1, h2, h3⟩
        rw [(h1.mono hmono).unique hk, hg] at h2
        cases h2
      · exact ⟨_, (_, []), hk, by simp; rfl, rfl⟩
  | normalEF n d n' d' =>
    have hmono : ∀ k i, c.comp.get k = some i →
        (nodeKey ks (instKey c.comp (ks.kn n) (ks.kn n')).2 d d').2.get k = some i :=
      fun k i h => nodeKey_mono ks _ d d' _ _ (instKey_mono _ _ _ _ _ h)
    have hk := (instKey_isKey c.comp (ks.kn n) (ks.kn n')).mono (nodeKey_mono ks _ d d')
    have hnk := nodeKey_isNodeKey ks (instKey c.comp (ks.kn n) (ks.kn n')).2 d d'
    obtain ⟨s1, s2, s3⟩ := memoEF_stored P.eqE c.normal (instKey c.comp (ks.kn n) (ks.kn n')).1
      (nodeKey ks (instKey c.comp (ks.kn n) (ks.kn n')).2 d d').1 (P.normalEF n d n' d')
    constructor
    · intro x hx
      cases x with
      | normalFF a a' =>
        obtain ⟨key, v, h1, h2, h3⟩ := hx
        obtain ⟨w, w1, w2, w3⟩ := s2 key v h2
        exact ⟨key, w, h1.mono hmono, w1, by rw [w2]; exact h3⟩
      | normalEF a x a' x' =>
        obtain ⟨key, v, nk, h1, h2, h3, h4⟩ := hx
        obtain ⟨w, w1, w2, w3⟩ := s2 key v h2
        exact ⟨key, w, nk, h1.mono hmono, w1, h3.mono hmono, w3 _ h4⟩
      | ctrEF a d a' d' fs =>
        obtain ⟨key, v, nk, h1, h2, h3, h4⟩ := hx
        exact ⟨key, v, nk, h1.mono hmono, h2, h3.mono hmono, h4⟩
      | _ => exact hx
    · rcases note_eq c.log (memoEF P.eqE c.normal (instKey c.comp (ks.kn n) (ks.kn n')).1
        (nodeKey ks (instKey c.comp (ks.kn n) (ks.kn n')).2 d d').1 (P.normalEF n d n' d')).2.1
        (.normalEF n d n' d') with ⟨_, h⟩ | ⟨hb, h⟩
      · exact .inl h
      · refine .inr ⟨h, ?_, fun _ => ?_⟩
        · rintro ⟨key, v, nk, h1, h2, h3, h4⟩
          rw [(h1.mono hmono).unique hk] at h2
          rw [(h3.mono hmono).unique hnk, s3 hb v h2] at h4
          cases h4
        · obtain ⟨v, v1, v2⟩ := s1
          exact ⟨_, v, _, hk, v1, hnk, v2⟩
  | ctrEF n d n' d' fs =>
    have hmono : ∀ k i, c.comp.get k = some i →
        (nodeKey ks (instKey c.comp (ks.kn n) (ks.kn n')).2 d d').2.get k = some i :=
      fun k i h => nodeKey_mono ks _ d d' _ _ (instKey_mono _ _ _ _ _ h)
    have hk := (instKey_isKey c.comp (ks.kn n) (ks.kn n')).mono (nodeKey_mono ks _ d d')
    have hnk := nodeKey_isNodeKey ks (instKey c.comp (ks.kn n) (ks.kn n')).2 d d'
    obtain ⟨s1, s2, s3⟩ := memoEF_stored P.eqE c.ctrEF (instKey c.comp (ks.kn n) (ks.kn n')).1
      (nodeKey ks (instKey c.comp (ks.kn n) (ks.kn n')).2 d d').1 (P.ctrEF n d n' d' fs)
    constructor
    · intro x hx
      cases x with
      | normalFF a a' =>
        obtain ⟨key, v, h1, h2, h3⟩ := hx
        exact ⟨key, v, h1.mono hmono, h2, h3⟩
      | normalEF a x a' x' =>
        obtain ⟨key, v, nk, h1, h2, h3, h4⟩ := hx
        exact ⟨key, v, nk, h1.mono hmono, h2, h3.mono hmono, h4⟩
      | ctrEF a d a' d' fs =>
        obtain ⟨key, v, nk, h1, h2, h3, h4⟩ := hx
        obtain ⟨w, w1, w2, w3⟩ := s2 key v h2
        exact ⟨key, w, nk, h1.mono hmono, w1, h3.mono hmono, w3 _ h4⟩
      | _ => exact hx
    · rcases note_eq c.log (memoEF P.eqE c.ctrEF (instKey c.comp (ks.kn n) (ks.kn n')).1
        (nodeKey ks (instKey c.comp (ks.kn n) (ks.kn n')).2 d d').1 (P.ctrEF n d n' d' fs)).2.1
        (.ctrEF n d n' d' fs) with ⟨_, h⟩ | ⟨hb, h⟩
      · exact .inl h
      · refine .inr ⟨h, ?_, fun _ => ?_⟩
        · rintro ⟨key, v, nk, h1, h2, h3, h4⟩
          rw [(h1.mono hmono).unique hk] at h2
          rw [(h3.mono hmono).unique hnk, s3 hb v h2] at h4
          cases h4
        · obtain ⟨v, v1, v2⟩ := s1
          exact ⟨_, v, _, hk, v1, hnk, v2⟩
  | sumFF n f =>
    refine ⟨?_, .inr ⟨rfl, fun h => h, by simp [Call.cached]⟩⟩
    intro x hx
    cases x <;> exact hx
  | callFF n f =>
    obtain ⟨s1, s2, s3⟩ := memo_stored c.callFF (n, f) (wrap P (P.callFF n f))
    refine ⟨fun x hx => ?_, ?_⟩
    · cases x with
      | callFF a b => exact s2 _ hx
      | _ => exact hx
    · rcases note_eq c.log (memo c.callFF (n, f) (wrap P (P.callFF n f))).2.1 (.callFF n f) with ⟨_, h⟩ | ⟨hb, h⟩
      · exact .inl h
      · refine .inr ⟨h, fun hs => ?_, fun _ => s1⟩
        simp only [Stored, s3 hb] at hs; cases hs
  | retFF n f e s =>
    obtain ⟨s1, s2, s3⟩ := memo_stored c.retFF (n, f, e, s) (wrap P (P.retFF n f e s))
    refine ⟨fun x hx => ?_, ?_⟩
    · cases x with
      | retFF a b => exact s2 _ hx
      | _ => exact hx
    · rcases note_eq c.log (memo c.retFF (n, f, e, s) (wrap P (P.retFF n f e s))).2.1 (.retFF n f e s) with
        ⟨_, h⟩ | ⟨hb, h⟩
      · exact .inl h
      · refine .inr ⟨h, fun hs => ?_, fun _ => s1⟩
        simp only [Stored, s3 hb] at hs; cases hs
  | ctrFF n s fs =>
    obtain ⟨s1, s2, s3⟩ := memo_stored c.ctrFF (n, s) (wrap P (P.ctrFF n s fs))
    refine ⟨fun x hx => ?_, ?_⟩
    · cases x with
      | ctrFF a b => exact s2 _ hx
      | _ => exact hx
    · rcases note_eq c.log (memo c.ctrFF (n, s) (wrap P (P.ctrFF n s fs))).2.1 (.ctrFF n s fs) with
        ⟨_, h⟩ | ⟨hb, h⟩
      · exact .inl h
      · refine .inr ⟨h, fun hs => ?_, fun _ => s1⟩
        simp only [Stored, s3 hb] at hs; cases hs
  | callEF n d f d' =>
    obtain ⟨s1, s2, s3⟩ := memo_stored c.callEF (n, d, f, d') (P.callEF n d f d')
    refine ⟨fun x hx => ?_, ?_⟩
    · cases x with
      | callEF a b => exact s2 _ hx
      | _ => exact hx
    · rcases note_eq c.log (memo c.callEF (n, d, f, d') (P.callEF n d f d')).2.1 (.callEF n d f d') with
        ⟨_, h⟩ | ⟨hb, h⟩
      · exact .inl h
      · refine .inr ⟨h, fun hs => ?_, fun _ => s1⟩
        simp only [Stored, s3 hb] at hs; cases hs
  | retEF n f e d s d' =>
    obtain ⟨s1, s2, s3⟩ := memo_stored c.retEF (n, f, e, d, s, d') (P.retEF n f e d s d')
    refine ⟨fun x hx => ?_, ?_⟩
    · cases x with
      | retEF a b => exact s2 _ hx
      | _ => exact hx
    · rcases note_eq c.log (memo c.retEF (n, f, e, d, s, d') (P.retEF n f e d s d')).2.1 (.retEF n f e d s d') with
        ⟨_, h⟩ | ⟨hb, h⟩
      · exact .inl h
      · refine .inr ⟨h, fun hs => ?_, fun _ => s1⟩
        simp only [Stored, s3 hb] at hs; cases hs
  | sumEF n d s d' =>
    obtain ⟨s1, s2, s3⟩ := memo_stored c.sumEF (n, d, s, d') (P.sumEF n d s d')
    refine ⟨fun x hx => ?_, ?_⟩
    · cases x with
      | sumEF a b => exact s2 _ hx
      | _ => exact hx
    · rcases note_eq c.log (memo c.sumEF (n, d, s, d') (P.sumEF n d s d')).2.1 (.sumEF n d s d') with
        ⟨_, h⟩ | ⟨hb, h⟩
      · exact .inl h
      · refine .inr ⟨h, fun hs => ?_, fun _ => s1⟩
        simp only [Stored, s3 hb] at hs; cases hs

theorem stored_key {ks : Keys K N D} {c : Cache K N D F E} {x y : Call N D F} (h : x.key = y.key) :
    Stored ks c x ↔ Stored ks c y := by
  cases x <;> cases y <;> simp only [Call.key] at h <;> cases h <;> exact Iff.rfl

/-- The log has no two calls with the same key, and everything logged is stored. -/
def LogInv (ks : Keys K N D) (c : Cache K N D F E) : Prop :=
  ((c.log.filter Call.cached).map Call.key).Nodup ∧ ∀ x ∈ c.log, x.cached = true → Stored ks c x

theorem LogInv.step {ks : Keys K N D} {c c' : Cache K N D F E} {q : Call N D F} (h : LogInv ks c)
    (hs : StepOk ks c c' q) : LogInv ks c' := by
  rcases hs.log with hl | ⟨hl, hn, hst⟩
  · unfold LogInv
    rw [hl]
    exact ⟨h.1, fun x hx hc => hs.keep _ (h.2 x hx hc)⟩
  · unfold LogInv
    rw [hl]
    constructor
    · rw [List.filter_append, List.map_append, List.nodup_append]
      refine ⟨h.1, ?_, ?_⟩
      · by_cases hc : q.cached = true
        · simp [hc]
        · simp [hc]
      · intro a ha b hb hab
        subst hab
        obtain ⟨x, hx, hxk⟩ := List.mem_map.1 ha
        obtain ⟨y, hy, hyk⟩ := List.mem_map.1 hb
        rw [List.mem_filter] at hx hy
        have := List.mem_singleton.1 hy.1
        subst this
        exact hn ((stored_key (hxk.trans hyk.symm)).1 (h.2 x hx.1 hx.2))
    · intro x hx hc
      rcases List.mem_append.1 hx with hx | hx
      · exact hs.keep _ (h.2 x hx hc)
      · have := List.mem_singleton.1 hx
        subst this
        exact hst hc

theorem run_log (P : Prob N D F E) (ks : Keys K N D) (qs : List (Call N D F)) : LogInv ks (runQ P ks qs) := by
  have : ∀ (qs : List (Call N D F)) (c : Cache K N D F E), LogInv ks c →
      LogInv ks (qs.foldl (fun c q => (query P ks c q).2) c) := by
    intro qs
    induction qs with
    | nil => intro c h; exact h
    | cons q qs ih => intro c h; exact ih _ (h.step (query_step P ks c q))
  exact this qs _ (by simp [LogInv, Cache.empty])

end
end Phasar.FEC
