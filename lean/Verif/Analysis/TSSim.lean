import Verif.Analysis.TSAlg
import Verif.Store.LLVMFlowProps
import Verif.IDE.Ifds
/-!
# Executions are covered by runs of the exploded graph (lemmas for C64)
-/
set_option linter.unusedSectionVars false

namespace Phasar.TypeState
open JoinLat IDE FlowFn

theorem mem_identity {s t : Val} : t ∈ identityFlow s ↔ t = s := by
  simp [identityFlow, FSet.ofList]

theorem mem_generate {g x s t : Val} : t ∈ generateFlow g x s ↔ t = s ∨ (s = x ∧ t = g) := by
  unfold generateFlow
  split
  · rename_i h; rw [C50.mem_ofList]; simp [h]
  · rename_i h; rw [C50.mem_ofList]; simp [h]

theorem mem_transfer {g x s t : Val} : t ∈ transferFlow g x s ↔ (t = s ∧ (s = x ∨ s ≠ g)) ∨ (s = x ∧ t = g) := by
  unfold transferFlow
  split
  · rename_i h; rw [C50.mem_ofList]; simp [h]
  · rename_i h
    split
    · rename_i h2; subst h2; simp [h]
    · rename_i h2; rw [C50.mem_ofList]; simp [h, h2]

theorem mem_killIf {q : Val → Bool} {s t : Val} : t ∈ killFlowIf q s ↔ t = s ∧ q s = false := by
  unfold killFlowIf
  split
  · rename_i h; simp [h]
  · rename_i h; rw [C50.mem_ofList]; simp [h]

theorem mem_makeContainer {l : List Val} {t : Val} : t ∈ makeContainer l ↔ t ∈ l := by
  unfold makeContainer; first | exact C50.mem_ofList | simp [C50.mem_ofList]

theorem mem_killMany {l : List Val} {s t : Val} : t ∈ killManyFlows l s ↔ t = s ∧ s ∉ l := by
  unfold killManyFlows
  split
  · rename_i h; rw [mem_makeContainer] at h; simp [h]
  · rename_i h; rw [mem_makeContainer] at h; rw [C50.mem_ofList]; simp [h]

namespace Prog
variable {S : Type} [DecidableEq S] {p : Prog S}

theorem mem_store {v ptr : Nat} {s t : Val} : t ∈ p.storeFlow v ptr s ↔ s ≠ .node ptr ∧
    (t = s ∨ (s = .node v ∧ ∃ k ∈ p.relAllocas ptr, t = .node k)) := by
  unfold storeFlow
  split
  · rename_i h; simp [h]
  · rename_i h
    split
    · rename_i h2
      rw [C50.mem_ofList]
      simp only [List.map_append, List.mem_append, List.mem_map, List.map_cons, List.map_nil, List.mem_singleton]
      constructor
      · rintro (⟨k, hk, rfl⟩ | rfl)
        · exact ⟨h, .inr ⟨h2, k, hk, rfl⟩⟩
        · exact ⟨h, .inl h2.symm⟩
      · rintro ⟨_, rfl | ⟨_, k, hk, rfl⟩⟩
        · exact .inr h2
        · exact .inl ⟨k, hk, rfl⟩
    · rename_i h2
      rw [C50.mem_ofList]
      simp [h, h2]

theorem mem_rel {as : List Nat} {k : Nat} : k ∈ p.relOf as ↔ ∃ a ∈ as,
    (p.inst a = .load k ∧ p.matching a = true) ∨
    ((∀ q, p.inst a ≠ .load q) ∧ ∃ u ∈ p.users a, ∃ v, p.inst u = .store v k ∧ p.matching u = true) := by
  unfold relOf
  rw [List.mem_flatMap]
  refine exists_congr fun a => and_congr_right fun _ => ?_
  unfold allocasOf
  split
  · rename_i ptr hi
    rw [hi]
    by_cases hm : p.matching a = true
    · rw [if_pos hm, List.mem_singleton]
      constructor
      · rintro rfl; exact .inl ⟨rfl, hm⟩
      · rintro (⟨h, _⟩ | ⟨h, _⟩)
        · cases h; rfl
        · exact absurd rfl (h ptr)
    · simp [hm]
  · rename_i hi
    have hnl : ∀ q, p.inst a ≠ .load q := fun q h => hi q h
    rw [List.mem_filterMap]
    constructor
    · rintro ⟨u, hu, h⟩
      refine .inr ⟨hnl, u, hu, ?_⟩
      split at h
      · rename_i v ptr hs
        split at h
        · rename_i hm; cases h; exact ⟨v, hs, hm⟩
        · cases h
      · cases h
    · rintro (⟨h, _⟩ | ⟨_, u, hu, v, hs, hm⟩)
      · exact absurd h (hnl k)
      · exact ⟨u, hu, by simp [hs, hm]⟩

theorem mem_ret {c f e : Nat} {va : Option Nat} (hva : p.allocVarArg f = some va) {k : Nat} {t : Val} :
    t ∈ p.retFlow c f e (.node k) ↔ ∃ j ∈ p.retDirect c f e va k, ∃ i, t = .node i ∧ (i = j ∨ i ∈ p.relAllocas j) := by
  unfold retFlow retFlow?
  simp only [hva, Option.map_some, Option.getD_some]
  rw [C50.mem_ofList]
  simp only [List.mem_map, List.mem_append, List.mem_flatMap]
  constructor
  · rintro ⟨i, hi | ⟨j, hj, hi⟩, rfl⟩
    · exact ⟨i, hi, i, rfl, .inl rfl⟩
    · exact ⟨j, hj, i, rfl, .inr hi⟩
  · rintro ⟨j, hj, i, rfl, rfl | hi⟩
    · exact ⟨i, .inl hj, rfl⟩
    · exact ⟨i, .inr ⟨j, hj, hi⟩, rfl⟩

theorem varArg_some (hwf : p.WF) {f : Nat} : ∃ va, p.allocVarArg f = some va := by
  unfold allocVarArg
  split
  · rename_i h
    rw [Bool.and_eq_true, Bool.not_eq_true'] at h
    cases hl : (p.vaLists f).getLast? with
    | some a => exact ⟨_, rfl⟩
    | none => exact absurd (List.getLast?_eq_none_iff.1 hl) (hwf.varArg f h.1 h.2)
  · exact ⟨_, rfl⟩

theorem direct_param {c f e : Nat} {va : Option Nat} {i k a : Nat} (hk : (p.params f)[i]? = some k) (ha : (p.args c)[i]? = some a) :
    a ∈ p.retDirect c f e va k := by
  unfold retDirect
  refine List.mem_append_left _ (List.mem_append_right _ (List.mem_filterMap.2 ⟨(k, a), ?_, by simp⟩))
  exact C50.mem_zip.2 ⟨i, hk, ha⟩

theorem direct_ret {c f e : Nat} {va : Option Nat} {k : Nat} (h : p.retVal e = some k) : c ∈ p.retDirect c f e va k := by
  unfold retDirect
  exact List.mem_append_right _ (by simp [h])

/-! ### Runs -/

variable [JoinLat S]

/-- A run of the exploded graph from a seed arrives here. -/
def Run (p : Prog S) (stk : List Nat) (n : Nat) (d : Val) (v : S) : Prop :=
  ∃ n0 d0 v0, IsSeed p.problem n0 d0 v0 ∧ RSteps p.problem ⟨[], n0, d0, v0⟩ ⟨stk, n, d, v⟩

theorem Run.step {stk stk' : List Nat} {n n' : Nat} {d d' : Val} {v v' : S} (h : Run p stk n d v)
    (hs : RStep p.problem ⟨stk, n, d, v⟩ ⟨stk', n', d', v'⟩) : Run p stk' n' d' v' := by
  obtain ⟨n0, d0, v0, h1, h2⟩ := h
  exact ⟨n0, d0, v0, h1, .tail h2 hs⟩

theorem Run.normal {stk : List Nat} {n n' : Nat} {d d' : Val} {v : S} (h : Run p stk n d v) (hc : p.icf.isCall n = false)
    (hn : n' ∈ p.icf.succs n) (hd : d' ∈ p.normalFlow n d) : Run p stk n' d' ((alg p.desc).ap (p.normalEdge n d d') v) :=
  h.step (RStep.normal (P := p.problem) hc hn hd)

omit [JoinLat S] in
theorem normalEdge_id {n : Nat} {d d' : Val} (h : d ≠ .zero ∨ d' ≠ .node n) : p.normalEdge n d d' = .id := by
  unfold normalEdge
  split
  · unfold TypeState.normalEdge
    rw [if_neg]
    intro hc
    simp only [Bool.and_eq_true, decide_eq_true_eq] at hc
    rcases h with h | h
    · exact h hc.1.2
    · exact h hc.2
  · rfl

theorem Run.keep {stk : List Nat} {n n' : Nat} {d d' : Val} {v : S} (h : Run p stk n d v) (hc : p.icf.isCall n = false)
    (hn : n' ∈ p.icf.succs n) (hd : d' ∈ p.normalFlow n d) (hne : d ≠ .zero ∨ d' ≠ .node n) : Run p stk n' d' v := by
  have := h.normal hc hn hd
  rw [normalEdge_id hne] at this
  exact this

omit [JoinLat S] in
/-- Facts are kept by instructions that do not overwrite them. -/
theorem keep_flow (n : Nat) (d : Val) (h1 : ∀ v k, p.inst n = .store v k → d ≠ .node k) (h2 : d ≠ .node n) :
    d ∈ p.normalFlow n d := by
  have hid : d ∈ identityFlow d := mem_identity.2 rfl
  unfold normalFlow
  cases hi : p.inst n with
  | alloca t =>
    by_cases hm : p.matching n = true
    · simp only [hm, if_true]; exact mem_generate.2 (.inl rfl)
    · simp only [hm]; exact hid
  | load k =>
    by_cases hm : p.matching n = true
    · simp only [hm, if_true]; exact mem_transfer.2 (.inl ⟨rfl, .inr h2⟩)
    · simp only [hm]; exact hid
  | gep k =>
    by_cases hm : p.matching k = true
    · simp only [hm, if_true]; exact hid
    · simp only [hm]; exact hid
  | store v k =>
    by_cases hm : p.matching n = true
    · simp only [hm, if_true]; exact mem_store.2 ⟨h1 v k hi, .inl rfl⟩
    · simp only [hm]; exact hid
  | _ => exact hid

/-- The objects of the variables are described by runs that arrive here; the zero fact arrives with bottom. -/
structure Covers (p : Prog S) (stk : List Nat) (n : Nat) (loc : Nat → Option Nat) (st : Nat → S) : Prop where
  zero : Run p stk n .zero p.desc.bottom
  cells : ∀ k o, loc k = some o → ∃ x, Run p stk n (.node k) x ∧ Describes p.desc x (st o)

omit [DecidableEq S] [JoinLat S] in
theorem forget_some {keep : Nat → Nat → Bool} {n : Nat} {loc : Nat → Option Nat} {k o : Nat} (h : forget keep n loc k = some o) :
    keep n k = true ∧ loc k = some o := by
  unfold forget at h
  split at h
  · rename_i hk; exact ⟨hk, h⟩
  · cases h

theorem covers_effect (hr : Regular p.desc) (hwf : p.WF) {stk : List Nat} {n n' : Nat} {loc loc' : Nat → Option Nat}
    {st st' : Nat → S} {nx nx' : Nat} (hcov : Covers p stk n loc st) (hb : ∀ k o, loc k = some o → o < nx)
    (hcall : p.icf.isCall n = false) (hn : n' ∈ p.icf.succs n) (he : p.Effect n loc st nx loc' st' nx') :
    Covers p stk n' loc' st' := by
  have hz : Run p stk n' .zero p.desc.bottom := hcov.zero.keep hcall hn (keep_flow _ _ nofun nofun) (.inr nofun)
  have hold : ∀ k o, loc k = some o → k ≠ n → (∀ v q, p.inst n = .store v q → k ≠ q) →
      ∃ x, Run p stk n' (.node k) x ∧ Describes p.desc x (st o) := by
    intro k o hk hkn hks
    obtain ⟨x, hx, hd⟩ := hcov.cells k o hk
    refine ⟨x, hx.keep hcall hn (keep_flow _ _ (fun v q h e => hks v q h (by cases e; rfl)) (fun e => hkn (by cases e; rfl)))
      (.inl nofun), hd⟩
  cases he with
  | alloca t hi hm =>
    refine ⟨hz, fun k o hk => ?_⟩
    unfold upd at hk
    split at hk
    · rename_i hkn; subst hkn; cases hk
      refine ⟨p.desc.uninit, ?_, hr.uninit, .inl (by simp [upd])⟩
      have := hcov.zero.normal hcall hn (d' := .node k) (by
        unfold normalFlow; rw [hi]; simp only [hm, if_true]; exact mem_generate.2 (.inr ⟨rfl, rfl⟩))
      have he : p.normalEdge k .zero (.node k) = .const p.desc.uninit := by
        unfold normalEdge; rw [hi]; simp [TypeState.normalEdge, hm]
      rw [he] at this
      exact this
    · rename_i hkn
      have hlt := hb k o hk
      have : upd st nx p.desc.uninit o = st o := by unfold upd; rw [if_neg (by omega)]
      rw [this]
      exact hold k o hk hkn fun v q h => by rw [hi] at h; cases h
  | load q hi hm =>
    refine ⟨hz, fun k o hk => ?_⟩
    unfold upd at hk
    split at hk
    · rename_i hkn; subst hkn
      obtain ⟨x, hx, hd⟩ := hcov.cells q o hk
      refine ⟨x, hx.keep hcall hn ?_ (.inl nofun), hd⟩
      unfold normalFlow; rw [hi]; simp only [hm, if_true]; exact mem_transfer.2 (.inr ⟨rfl, rfl⟩)
    · rename_i hkn
      exact hold k o hk hkn fun v q h => by rw [hi] at h; cases h
  | store v q hi hm =>
    refine ⟨hz, fun k o hk => ?_⟩
    have hflow : p.normalFlow n = p.storeFlow v q := by unfold normalFlow; rw [hi]; simp only [hm, if_true]
    unfold upd at hk
    split at hk
    · rename_i hkq; subst hkq
      obtain ⟨x, hx, hd⟩ := hcov.cells v o hk
      refine ⟨x, hx.keep hcall hn ?_ (.inl nofun), hd⟩
      rw [hflow]
      refine mem_store.2 ⟨fun e => ?_, .inr ⟨rfl, k, ?_, rfl⟩⟩
      · cases e; exact hwf.storeSelf n v hi
      · obtain ⟨h1, h2, h3⟩ := hwf.stored n v k hi hm
        exact mem_rel.2 ⟨k, h1, .inr ⟨h3, n, h2, v, hi, hm⟩⟩
    · rename_i hkq
      obtain ⟨x, hx, hd⟩ := hcov.cells k o hk
      refine ⟨x, hx.keep hcall hn ?_ (.inl nofun), hd⟩
      rw [hflow]
      exact mem_store.2 ⟨fun e => hkq (by cases e; rfl), .inl rfl⟩
  | storeOther v q hi hm =>
    refine ⟨hz, fun k o hk => ?_⟩
    unfold upd at hk
    split at hk
    · cases hk
    · rename_i hkq
      obtain ⟨x, hx, hd⟩ := hcov.cells k o hk
      refine ⟨x, hx.keep hcall hn ?_ (.inl nofun), hd⟩
      unfold normalFlow; rw [hi]; simp only [hm]; exact mem_identity.2 rfl
  | other hs hm =>
    refine ⟨hz, fun k o hk => ?_⟩
    unfold upd at hk
    split at hk
    · cases hk
    · rename_i hkn
      exact hold k o hk hkn fun v q h => absurd h (hs v q)

/-! ### Calls -/

omit [JoinLat S] in
/-- Without API functions among the callees, the edge over the call is the identity. -/
theorem ctrEdge_plain {n : Nat} {d d' : Val} (h : ∀ f ∈ p.icf.callees n, p.desc.isFactory (p.name f) = false ∧
    p.desc.isConsuming (p.name f) = false) : p.ctrEdge n d d' = .id := by
  unfold ctrEdge
  generalize p.icf.callees n = l at h
  suffices ∀ q c, callToRetEdge p.desc n q c (l.map p.name) = some .id by rw [this]; rfl
  intro q c
  induction l with
  | nil => rfl
  | cons f l ih =>
    obtain ⟨h1, h2⟩ := h f List.mem_cons_self
    simp only [List.map_cons, callToRetEdge, h1, h2, Bool.false_and, Bool.false_eq_true, if_false]
    exact ih fun g hg => h g (List.mem_cons_of_mem _ hg)

omit [JoinLat S] in
/-- Without factory functions among the callees, facts flow over the call unless they are constants, or aliases or relevant allocas of
an argument of matching type. -/
theorem ctr_keep {n k : Nat} (h : ∀ f ∈ p.icf.callees n, p.desc.isFactory (p.name f) = false) (hg : p.isGlobal k = false)
    (hk : ∀ a ∈ p.args n, p.matching a = true → k ∉ p.aliasesAndAllocas a) : .node k ∈ p.ctrFlow n (.node k) := by
  unfold ctrFlow
  generalize p.icf.callees n = l at h
  suffices ∀ b, Val.node k ∈ p.ctrLoop n b l (.node k) from this _
  induction l with
  | nil =>
    intro b
    unfold ctrLoop
    split
    · exact mem_identity.2 rfl
    · exact mem_killIf.2 ⟨rfl, hg⟩
  | cons f l ih =>
    intro b
    have ih := ih fun g hg => h g (List.mem_cons_of_mem _ hg)
    unfold ctrLoop
    rw [if_neg (by simp [h f List.mem_cons_self])]
    split
    · cases ha : (p.args n).find? p.matching with
      | some a =>
        refine mem_killMany.2 ⟨rfl, fun hm => ?_⟩
        obtain ⟨j, hj, e⟩ := List.mem_map.1 hm
        cases e
        exact hk a (List.mem_of_find?_eq_some ha) (List.find?_some ha) hj
      | none => exact ih _
    · exact ih _

omit [JoinLat S] in
/-- If all callees are declarations and none is a factory function, everything flows over the call. -/
theorem ctr_decl {n : Nat} {d : Val} (h : ∀ f ∈ p.icf.callees n, p.isDecl f = true ∧ p.desc.isFactory (p.name f) = false)
    (hne : p.icf.callees n ≠ []) : d ∈ p.ctrFlow n d := by
  unfold ctrFlow
  generalize p.icf.callees n = l at h hne
  have key : ∀ l, (∀ f ∈ l, p.isDecl f = true ∧ p.desc.isFactory (p.name f) = false) → ∀ b, b = true ∨ l ≠ [] →
      d ∈ p.ctrLoop n b l d := by
    intro l
    induction l with
    | nil =>
      intro _ b hb
      unfold ctrLoop
      rcases hb with rfl | hb
      · exact mem_identity.2 rfl
      · exact absurd rfl hb
    | cons f l ih =>
      intro h b _
      obtain ⟨h1, h2⟩ := h f List.mem_cons_self
      unfold ctrLoop
      simp only [h1, h2, Bool.false_eq_true, if_false, Bool.not_true, Bool.and_false, Bool.or_true]
      exact ih (fun g hg => h g (List.mem_cons_of_mem _ hg)) _ (.inl rfl)
  exact key l h _ (.inr hne)

/-- The edge over the call of a consuming function. -/
theorem consume_edge {n f i a : Nat} {d : Val} (hcl : p.icf.callees n = [f]) (hnf : p.desc.isFactory (p.name f) = false)
    (hcon : p.desc.isConsuming (p.name f) = true) (hix : p.desc.consumerParamIdx (p.name f) = [i]) (ha : (p.args n)[i]? = some a) :
    p.ctrEdge n d d = if d ∈ (p.aliasesAndAllocas a).map Val.node then .ts (p.name f) n else .id := by
  unfold ctrEdge
  rw [hcl]
  by_cases hm : d ∈ (p.aliasesAndAllocas a).map Val.node
  · rw [if_pos hm]
    have : p.consumed n d d i = true := by
      unfold consumed; rw [ha]; simpa using hm
    simp [callToRetEdge, hnf, hcon, hix, this]
  · rw [if_neg hm]
    have : p.consumed n d d i = false := by
      unfold consumed; rw [ha]; simpa using hm
    simp [callToRetEdge, hnf, hcon, hix, this]

/-- What the alias information says about a pending call. -/
structure CallOk (p : Prog S) (keep : Nat → Nat → Bool) (c : Nat) (loc : Nat → Option Nat) : Prop where
  passed : ∀ r ∈ p.icf.retSites c, ∀ k o, k ≠ c → keep r k = true → loc k = some o → (∃ a, p.Passes c loc o a) →
    ∃ a, p.Passes c loc o a ∧ (k = a ∨ k ∈ p.relAllocas a)
  killed : ∀ r ∈ p.icf.retSites c, ∀ k o a, k ≠ c → keep r k = true → loc k = some o → a ∈ p.args c → p.matching a = true →
    k ∈ p.aliasesAndAllocas a → ∃ b, p.Passes c loc o b

/-- The pending calls of a function `f` whose variables are `loc`, when there are `nx` objects: the variables of the caller are
described by runs that arrive at the call, for the states `st0` at that time; objects of the caller that the function
knows, or whose state has changed since, have been passed. -/
def Frames (p : Prog S) (keep : Nat → Nat → Bool) (st : Nat → S) : Nat → List (Nat × (Nat → Option Nat)) → Nat →
    (Nat → Option Nat) → Prop
  | _, [], _, _ => True
  | nx, (c, locc) :: rest, f, loc => p.icf.isCall c = true ∧ f ∈ p.icf.callees c ∧ p.isAPI (p.name f) = false ∧
      p.isDecl f = false ∧ (p.args c).length = (p.params f).length ∧ CallOk p keep c locc ∧
      ∃ (st0 : Nat → S) (base : Nat), base ≤ nx ∧ (∀ k o, locc k = some o → o < base) ∧
        (∀ k o, locc k = some o → ∃ x, Run p (rest.map Prod.fst) c (.node k) x ∧ Describes p.desc x (st0 o)) ∧
        (∀ i k a : Nat, (p.params f)[i]? = some k → (p.args c)[i]? = some a → loc k = locc a) ∧
        (∀ k o, loc k = some o → o < base → ∃ a, p.Passes c locc o a) ∧
        (∀ o, o < base → st o ≠ st0 o → ∃ a, p.Passes c locc o a) ∧
        Frames p keep st base rest (p.icf.funOf c) locc

theorem frames_upd {keep : Nat → Nat → Bool} {st st' : Nat → S} : ∀ {stk : List (Nat × (Nat → Option Nat))} {nx nx' f : Nat}
    {loc loc' : Nat → Option Nat}, Frames p keep st nx stk f loc → (∀ k ∈ p.params f, loc' k = loc k) →
    (∀ k o, loc' k = some o → (∃ k', loc k' = some o) ∨ nx ≤ o) → (∀ o, st' o ≠ st o → (∃ k, loc k = some o) ∨ nx ≤ o) →
    nx ≤ nx' → Frames p keep st' nx' stk f loc' := by
  intro stk
  induction stk with
  | nil => intros; trivial
  | cons fr rest ih =>
    obtain ⟨c, locc⟩ := fr
    intro nx nx' f loc loc' h hp hl hs hx
    obtain ⟨h1, h2, h3, h4, h5, h6, st0, base, b1, b2, b3, b4, b5, b6, b7⟩ := h
    have hs' : ∀ o, st' o ≠ st o → (∃ a, p.Passes c locc o a) ∨ base ≤ o := by
      intro o ho
      by_cases hb : base ≤ o
      · exact .inr hb
      · rcases hs o ho with ⟨k, hk⟩ | h
        · exact .inl (b5 k o hk (by omega))
        · exact absurd (Nat.le_trans b1 h) hb
    refine ⟨h1, h2, h3, h4, h5, h6, st0, base, Nat.le_trans b1 hx, b2, b3, fun i k a hk ha => ?_, fun k o hk ho => ?_,
      fun o ho hne => ?_, ?_⟩
    · rw [hp k (List.mem_of_getElem? hk)]; exact b4 i k a hk ha
    · rcases hl k o hk with ⟨k', hk'⟩ | h
      · exact b5 k' o hk' ho
      · exact absurd (Nat.le_trans b1 h) (by omega)
    · by_cases hc : st' o = st o
      · rw [hc] at hne; exact b6 o ho hne
      · rcases hs' o hc with h | h
        · exact h
        · exact absurd h (by omega)
    · exact ih b7 (fun _ _ => rfl) (fun k o hk => .inl ⟨k, hk⟩)
        (fun o ho => (hs' o ho).imp (fun ⟨a, ha⟩ => ⟨a, ha.2⟩) id) (Nat.le_refl _)

/-- The invariant: the current variables and the pending calls are covered. -/
structure Inv (p : Prog S) (keep : Nat → Nat → Bool) (s : CState S) : Prop where
  cov : Covers p (s.stk.map Prod.fst) s.n s.loc s.st
  bound : ∀ k o, s.loc k = some o → o < s.next
  frames : Frames p keep s.st s.next s.stk (p.icf.funOf s.n) s.loc

theorem inv_init {keep : Nat → Nat → Bool} {s : CState S} (h : p.Init s) : Inv p keep s := by
  obtain ⟨h1, h2, h3, _⟩ := h
  have hseed : (s.n, [(Val.zero, p.desc.bottom)]) ∈ p.problem.seeds := List.mem_map.2 ⟨s.n, h2, rfl⟩
  refine ⟨⟨?_, fun k o hk => by rw [h3] at hk; cases hk⟩, fun k o hk => (by rw [h3] at hk; cases hk), by rw [h1]; trivial⟩
  rw [h1]
  exact ⟨_, _, _, ⟨_, hseed, .inl List.mem_cons_self⟩, .refl _⟩

omit [JoinLat S] in
theorem bind_param (hwf : p.WF) {f i k a : Nat} {as : List Nat} {loc : Nat → Option Nat} (hk : (p.params f)[i]? = some k)
    (ha : as[i]? = some a) : p.bind f as loc k = loc a := by
  unfold bind
  have : (p.params f).idxOf? k = some i := by
    obtain ⟨hlt, he⟩ := List.getElem?_eq_some_iff.1 hk
    have hn := hwf.params f
    rw [← he]
    rw [List.idxOf?_eq_some_iff]
    refine ⟨hlt, by simp, fun j hj => ?_⟩
    intro e
    exact List.pairwise_iff_getElem.1 hn j i (by omega) hlt hj e
  rw [this]; simp [ha]

omit [JoinLat S] in
theorem bind_some {f k o : Nat} {as : List Nat} {loc : Nat → Option Nat} (h : p.bind f as loc k = some o) :
    ∃ i a : Nat, (p.params f)[i]? = some k ∧ as[i]? = some a ∧ loc a = some o := by
  unfold bind at h
  obtain ⟨i, hi, h⟩ := Option.bind_eq_some_iff.1 h
  obtain ⟨a, ha, h⟩ := Option.bind_eq_some_iff.1 h
  refine ⟨i, a, ?_, ha, h⟩
  obtain ⟨hlt, he, _⟩ := List.idxOf?_eq_some_iff.1 hi
  rw [List.getElem?_eq_getElem hlt]
  simpa using he

omit [JoinLat S] in
theorem effect_facts (hwf : p.WF) {n : Nat} {loc loc' : Nat → Option Nat} {st st' : Nat → S} {nx nx' : Nat}
    (he : p.Effect n loc st nx loc' st' nx') :
    (∀ k ∈ p.params (p.icf.funOf n), loc' k = loc k) ∧ (∀ k o, loc' k = some o → (∃ k', loc k' = some o) ∨ o = nx ∧ nx < nx') ∧
    (∀ o, st' o ≠ st o → o = nx) ∧ nx ≤ nx' := by
  have hpar : ∀ (x : Option Nat), ∀ k ∈ p.params (p.icf.funOf n), upd loc n x k = loc k := by
    intro x k hk
    unfold upd; rw [if_neg]; rintro rfl; exact hwf.paramStmt _ hk
  cases he with
  | alloca t hi hm =>
    refine ⟨hpar _, fun k o hk => ?_, fun o ho => ?_, Nat.le_succ _⟩
    · unfold upd at hk
      split at hk
      · cases hk; exact .inr ⟨rfl, Nat.lt_succ_self _⟩
      · exact .inl ⟨k, hk⟩
    · unfold upd at ho
      split at ho
      · assumption
      · exact absurd rfl ho
  | load q hi hm =>
    refine ⟨hpar _, fun k o hk => ?_, fun o ho => absurd rfl ho, Nat.le_refl _⟩
    unfold upd at hk
    split at hk
    · exact .inl ⟨q, hk⟩
    · exact .inl ⟨k, hk⟩
  | store v q hi hm =>
    refine ⟨fun k hk => ?_, fun k o hk => ?_, fun o ho => absurd rfl ho, Nat.le_refl _⟩
    · unfold upd; rw [if_neg]; rintro rfl; exact hwf.paramStore _ _ _ hi hk
    · unfold upd at hk
      split at hk
      · exact .inl ⟨v, hk⟩
      · exact .inl ⟨k, hk⟩
  | storeOther v q hi hm =>
    refine ⟨fun k hk => ?_, fun k o hk => ?_, fun o ho => absurd rfl ho, Nat.le_refl _⟩
    · unfold upd; rw [if_neg]; rintro rfl; exact hwf.paramStore _ _ _ hi hk
    · unfold upd at hk
      split at hk
      · cases hk
      · exact .inl ⟨k, hk⟩
  | other hs hm =>
    refine ⟨hpar _, fun k o hk => ?_, fun o ho => absurd rfl ho, Nat.le_refl _⟩
    unfold upd at hk
    split at hk
    · cases hk
    · exact .inl ⟨k, hk⟩

theorem inv_step (hr : Regular p.desc) (hwf : p.WF) {keep : Nat → Nat → Bool} (hk : p.Keeps keep)
    (hal : p.AliasOk keep) {s t : CState S} (hreach : p.Reached keep s) (h : Inv p keep s) (hs : p.CStep keep s t) : Inv p keep t := by
  obtain ⟨hcov, hb, hfr⟩ := h
  have hfk : ∀ {n : Nat} {loc : Nat → Option Nat}, ∀ k ∈ p.params (p.icf.funOf n), forget keep n loc k = loc k := by
    intro n loc k hm
    unfold forget; rw [if_pos (hk.params n k hm)]
  have hparam : ∀ {n r : Nat} {loc : Nat → Option Nat} {x : Option Nat}, p.icf.funOf r = p.icf.funOf n →
      ∀ k ∈ p.params (p.icf.funOf r), forget keep r (upd loc n x) k = loc k := by
    intro n r loc x hfun k hm
    rw [hfk k hm]
    unfold upd; rw [if_neg]; rintro rfl; rw [hfun] at hm; exact hwf.paramStmt _ hm
  have hnone : ∀ {n r : Nat} {loc : Nat → Option Nat} {k o : Nat}, forget keep r (upd loc n none) k = some o →
      keep r k = true ∧ k ≠ n ∧ loc k = some o := by
    intro n r loc k o h
    obtain ⟨h1, h2⟩ := forget_some h
    unfold upd at h2
    split at h2
    · cases h2
    · rename_i hkn; exact ⟨h1, hkn, h2⟩
  cases hs with
  | @normal stk n loc st nx n' loc' st' nx' hc hn he =>
    have hc2 := covers_effect hr hwf hcov hb hc hn he
    obtain ⟨e1, e2, e3, e4⟩ := effect_facts hwf he
    have hfun : p.icf.funOf n' = p.icf.funOf n := hwf.icf.succs_fun n n' hn
    refine ⟨⟨hc2.zero, fun k o hko => hc2.cells k o (forget_some hko).2⟩, fun k o hko => ?_, ?_⟩
    · rcases e2 k o (forget_some hko).2 with ⟨k', hk'⟩ | ⟨rfl, h⟩
      · exact Nat.lt_of_lt_of_le (hb k' o hk') e4
      · exact h
    · refine frames_upd (by rw [hfun]; exact hfr) (fun k hm => ?_) (fun k o hko => ?_) (fun o ho => ?_) e4
      · dsimp only at hm
        show forget keep n' loc' k = loc k
        rw [hfk k hm]; exact e1 k (by rw [← hfun]; exact hm)
      · rcases e2 k o (forget_some hko).2 with h | ⟨rfl, h⟩
        · exact .inl h
        · exact .inr (Nat.le_refl _)
      · exact .inr (Nat.le_of_eq (e3 o ho).symm)
  | @call stk n loc st nx as f sp hc hi hf hapi hd hsp =>
    have hargs : p.args n = as := by unfold args; rw [hi]
    have hstep : ∀ {d d' v}, Run p (stk.map Prod.fst) n d v → d' ∈ p.callFlow n f d → Run p (n :: stk.map Prod.fst) sp d' v :=
      fun hrn hd' => hrn.step (RStep.call (P := p.problem) hc hf rfl hsp hd')
    have hcf : ∀ d, p.callFlow n f d = mapFactsToCallee p.ir (as.map .node) (p.callee f) (fun a s => decide (a = s)) true true d := by
      intro d; unfold callFlow; rw [if_neg (by simp [hapi]), hargs]
    have hfun : p.icf.funOf sp = f := hwf.icf.start_fun f sp hsp
    have hlen := hwf.arity n as hi f hf hapi hd
    refine ⟨⟨?_, fun k o hko => ?_⟩, fun k o hko => ?_, ?_⟩
    · exact hstep hcov.zero (by rw [hcf]; exact (C50_callee ..).2 ⟨hd, .inl ⟨rfl, .inl ⟨rfl, rfl⟩⟩⟩)
    · obtain ⟨i, a, h1, h2, h3⟩ := bind_some (forget_some hko).2
      obtain ⟨x, hx, hdx⟩ := hcov.cells a o h3
      refine ⟨x, hstep hx ?_, hdx⟩
      rw [hcf]
      refine (C50_callee ..).2 ⟨hd, .inr (.inl ⟨i, .node a, by simp [callee, h1], by simp [h2], by simp, fun h => ?_⟩)⟩
      have : p.sret f = true := h.1
      rw [hwf.sret] at this; cases this
    · obtain ⟨i, a, h1, h2, h3⟩ := bind_some (forget_some hko).2
      exact hb a o h3
    · show Frames p keep st nx ((n, loc) :: stk) (p.icf.funOf sp) (forget keep sp (p.bind f as loc))
      rw [hfun]
      refine ⟨hc, hf, hapi, hd, by rw [hargs]; exact hlen, ⟨hal.passed _ hreach f hf hapi hd, hal.killed _ hreach f hf hapi hd⟩, st, nx,
        Nat.le_refl _, hb, hcov.cells, fun i k a hki hai => ?_, fun k o hko _ => ?_, fun o _ hne => absurd rfl hne, hfr⟩
      · rw [hfk k (by rw [hfun]; exact List.mem_of_getElem? hki)]
        rw [hargs] at hai
        exact bind_param hwf hki hai
      · obtain ⟨i, a, h1, h2, h3⟩ := bind_some (forget_some hko).2
        exact ⟨a, by rw [hargs]; exact List.mem_of_getElem? h2, h3⟩
  | @ret stk c locc n loc st nx r v hc hex hi hrs =>
    obtain ⟨h1, h2, h3, h4, h5, h6, st0, base, b1, b2, b3, b4, b5, b6, b7⟩ := hfr
    dsimp only at h2 h3 h4 h5 b4 hcov hb
    obtain ⟨va, hva⟩ := varArg_some hwf (f := p.icf.funOf n)
    have hstep : ∀ {d d' v}, Run p (c :: stk.map Prod.fst) n d v → d' ∈ p.retFlow c (p.icf.funOf n) n d →
        Run p (stk.map Prod.fst) r d' v := fun hrn hd' => hrn.step (RStep.ret (P := p.problem) hc hex hrs hd')
    have hfun : p.icf.funOf r = p.icf.funOf c := hwf.icf.ret_fun c r hrs
    have hplain : ∀ g ∈ p.icf.callees c, p.isAPI (p.name g) = false := by
      intro g hg
      by_cases hga : p.isAPI (p.name g) = true
      · have := hwf.alone c g hg hga
        rw [this] at h2
        rw [List.mem_singleton.1 h2] at h3
        rw [hga] at h3; cases h3
      · simpa using hga
    have hnofc : ∀ g ∈ p.icf.callees c, p.desc.isFactory (p.name g) = false ∧ p.desc.isConsuming (p.name g) = false := by
      intro g hg
      have := hplain g hg
      constructor
      · cases hq : p.desc.isFactory (p.name g) with
        | false => rfl
        | true => rw [hwf.api _ (.inl hq)] at this; cases this
      · cases hq : p.desc.isConsuming (p.name g) with
        | false => rfl
        | true => rw [hwf.api _ (.inr hq)] at this; cases this
    have hcell : ∀ k o, keep r k = true → upd locc c (v.bind loc) k = some o →
        ∃ x, Run p (stk.map Prod.fst) r (.node k) x ∧ Describes p.desc x (st o) := by
      intro k o hkr hko
      unfold upd at hko
      split at hko
      · rename_i hkc; subst hkc
        obtain ⟨j, hj, hko⟩ := Option.bind_eq_some_iff.1 hko
        obtain ⟨x, hx, hd⟩ := hcov.cells j o hko
        refine ⟨x, hstep hx ?_, hd⟩
        exact (mem_ret hva).2 ⟨k, direct_ret (by unfold retVal; rw [hi, hj]), k, rfl, .inl rfl⟩
      · rename_i hkc
        by_cases hp : ∃ a, p.Passes c locc o a
        · obtain ⟨a, ⟨ha, hao⟩, hka⟩ := h6.passed r hrs k o hkc hkr hko hp
          obtain ⟨i, hia⟩ := List.mem_iff_getElem?.1 ha
          have hlt : i < (p.params (p.icf.funOf n)).length := by rw [← h5]; exact (List.getElem?_eq_some_iff.1 hia).1
          have hik : (p.params (p.icf.funOf n))[i]? = some ((p.params (p.icf.funOf n))[i]) := List.getElem?_eq_getElem hlt
          generalize (p.params (p.icf.funOf n))[i] = q at hik
          have hlq := b4 i q a hik hia
          rw [hao] at hlq
          obtain ⟨x, hx, hd⟩ := hcov.cells q o hlq
          refine ⟨x, hstep hx ?_, hd⟩
          exact (mem_ret hva).2 ⟨a, direct_param hik hia, k, rfl, hka⟩
        · have hlt := b2 k o hko
          have hst : st o = st0 o := by
            by_cases he : st o = st0 o
            · exact he
            · exact absurd (b6 o hlt he) hp
          obtain ⟨x, hx, hd⟩ := b3 k o hko
          refine ⟨x, ?_, by rw [hst]; exact hd⟩
          have hgl : p.isGlobal k = false := by
            cases hg : p.isGlobal k with
            | false => rfl
            | true => rw [hk.globals r k hg] at hkr; cases hkr
          have hctr := ctr_keep (p := p) (n := c) (k := k) (fun g hg => (hnofc g hg).1) hgl
            fun a ha hm hka => hp (h6.killed r hrs k o a hkc hkr hko ha hm hka)
          have := hx.step (RStep.callToRet (P := p.problem) (r := r) h1 hrs hctr)
          have he : p.problem.ctrEdge c (.node k) r (.node k) = .id := ctrEdge_plain hnofc
          rw [he] at this
          exact this
    have hobj : ∀ k o, upd locc c (v.bind loc) k = some o → (∃ k', locc k' = some o) ∨ base ≤ o := by
      intro k o hko
      unfold upd at hko
      split at hko
      · obtain ⟨j, hj, hko⟩ := Option.bind_eq_some_iff.1 hko
        by_cases hlt : o < base
        · obtain ⟨a, ha⟩ := b5 j o hko hlt
          exact .inl ⟨a, ha.2⟩
        · exact .inr (by omega)
      · exact .inl ⟨k, hko⟩
    refine ⟨⟨?_, fun k o hko => hcell k o (forget_some hko).1 (forget_some hko).2⟩, fun k o hko => ?_, ?_⟩
    · exact hstep hcov.zero (by show Val.zero ∈ p.retFlow c (p.icf.funOf n) n .zero; simp [retFlow, retFlow?])
    · have hko := (forget_some hko).2
      unfold upd at hko
      split at hko
      · obtain ⟨j, hj, hko⟩ := Option.bind_eq_some_iff.1 hko
        exact hb j o hko
      · exact Nat.lt_of_lt_of_le (b2 k o hko) b1
    · refine frames_upd (st := st) (nx := base) (loc := locc) (by rw [hfun]; exact b7) (fun k hm => ?_)
        (fun k o hko => hobj k o (forget_some hko).2) (fun o ho => absurd rfl ho) b1
      show forget keep r (upd locc c (v.bind loc)) k = locc k
      rw [hfk k hm]
      dsimp only at hm
      rw [hfun] at hm
      unfold upd; rw [if_neg]; rintro rfl; exact hwf.paramStmt _ hm
  | @factory stk n loc st nx as f r s' hc hi hcl hfac hnext hrs =>
    have hfun : p.icf.funOf r = p.icf.funOf n := hwf.icf.ret_fun n r hrs
    have hctr : p.ctrFlow n = generateFlow (.node n) .zero := by
      unfold ctrFlow; rw [hcl]; unfold ctrLoop; rw [if_pos hfac]
    have hstep : ∀ {d d' v}, Run p (stk.map Prod.fst) n d v → d' ∈ p.ctrFlow n d →
        Run p (stk.map Prod.fst) r d' ((alg p.desc).ap (p.ctrEdge n d d') v) := fun hrn hd' =>
      hrn.step (RStep.callToRet (P := p.problem) hc hrs hd')
    have hcons := hr.disjoint _ hfac
    have hid : ∀ d, p.ctrEdge n d d = .id := by
      intro d
      unfold ctrEdge
      rw [hcl]
      have : (decide (d = Val.zero) && decide (d = Val.node n)) = false := by
        cases d <;> simp
      simp only [this, hcons, List.map_cons, List.map_nil, callToRetEdge, Bool.and_false, Bool.false_and, Bool.false_eq_true, if_false]
      rfl
    have hgen : p.ctrEdge n .zero (.node n) = .const s' := by
      unfold ctrEdge
      rw [hcl]
      simp [callToRetEdge, hfac, hnext]
    refine ⟨⟨?_, fun k o hko => ?_⟩, fun k o hko => ?_, ?_⟩
    · have := hstep hcov.zero (d' := .zero) (by rw [hctr]; exact mem_generate.2 (.inl rfl))
      rw [hid] at this; exact this
    · have hko' := (forget_some hko).2
      unfold upd at hko'
      split at hko'
      · rename_i hkn; subst hkn; cases hko'
        refine ⟨s', ?_, fun e => hr.noTop _ _ _ (e ▸ hnext), .inl (by simp [upd])⟩
        have := hstep hcov.zero (d' := .node k) (by rw [hctr]; exact mem_generate.2 (.inr ⟨rfl, rfl⟩))
        rw [hgen] at this; exact this
      · obtain ⟨x, hx, hd⟩ := hcov.cells k o hko'
        have hlt : o < nx := hb k o hko'
        refine ⟨x, ?_, ?_⟩
        · have := hstep hx (d' := .node k) (by rw [hctr]; exact mem_generate.2 (.inl rfl))
          rw [hid] at this; exact this
        · show Describes p.desc x (upd st nx s' o)
          unfold upd; rw [if_neg (by omega)]; exact hd
    · have hko' := (forget_some hko).2
      unfold upd at hko'
      split at hko'
      · injection hko' with hko'; subst hko'; exact Nat.lt_succ_self _
      · exact Nat.lt_succ_of_lt (hb k o hko')
    · refine frames_upd (st := st) (nx := nx) (loc := loc) (by rw [hfun]; exact hfr) (fun k hm => ?_) (fun k o hko => ?_)
        (fun o ho => ?_) (Nat.le_succ _)
      · exact hparam hfun k hm
      · have hko' := (forget_some hko).2
        unfold upd at hko'
        split at hko'
        · injection hko' with hko'; subst hko'; exact .inr (Nat.le_refl _)
        · exact .inl ⟨k, hko'⟩
      · change upd _ _ _ o ≠ st o at ho
        unfold upd at ho
        split at ho
        · rename_i e; exact .inr (Nat.le_of_eq e.symm)
        · exact absurd rfl ho
  | @consume stk n loc st nx as f r i a o s' hc hi hcl hdecl hnf hcon hix ha hla hnext hrs =>
    have hfun : p.icf.funOf r = p.icf.funOf n := hwf.icf.ret_fun n r hrs
    have hargs : p.args n = as := by unfold args; rw [hi]
    have hed : ∀ d, p.ctrEdge n d d = if d ∈ (p.aliasesAndAllocas a).map Val.node then .ts (p.name f) n else .id := by
      intro d
      exact consume_edge hcl hnf hcon hix (by rw [hargs]; exact ha)
    have hflow : ∀ d, d ∈ p.ctrFlow n d := fun d => ctr_decl (by rw [hcl]; simp [hdecl, hnf]) (by rw [hcl]; simp)
    have hstep : ∀ {d v}, Run p (stk.map Prod.fst) n d v → Run p (stk.map Prod.fst) r d ((alg p.desc).ap (p.ctrEdge n d d) v) :=
      fun hrn => hrn.step (RStep.callToRet (P := p.problem) hc hrs (hflow _))
    refine ⟨⟨?_, fun k o' hko => ?_⟩, fun k o' hko => ?_, ?_⟩
    · have := hstep hcov.zero
      rw [hed, if_neg (by simp)] at this; exact this
    · obtain ⟨hkr, hko'⟩ := forget_some hko
      unfold upd at hko'
      split at hko'
      · cases hko'
      · rename_i hkn
        obtain ⟨x, hx, hd⟩ := hcov.cells k o' hko'
        have hiff := hal.consume _ hreach f i a hcl hcon hix (by rw [hargs]; exact ha) r hrs k o' hkn hkr hko'
        have hrun := hstep hx
        rw [hed] at hrun
        by_cases hm : k ∈ p.aliasesAndAllocas a
        · have e : o' = o := by
            have := hiff.1 hm
            dsimp only at this
            rw [hla] at this; injection this with this; exact this.symm
          subst e
          rw [if_pos (List.mem_map.2 ⟨k, hm, rfl⟩)] at hrun
          show ∃ x, _ ∧ Describes p.desc x (upd st o' s' o')
          have hup : upd st o' s' o' = s' := by simp [upd]
          rw [hup]
          rcases hd.2 with rfl | rfl
          · refine ⟨s', ?_, fun e => hr.noTop _ _ _ (e ▸ hnext), .inl rfl⟩
            have e : (alg p.desc).ap (.ts (p.name f) n) (st o') = s' := by
              have ht : st o' ≠ p.desc.top := hd.1
              simp [alg, EF.ap, hnext, ht]
            rw [e] at hrun; exact hrun
          · refine ⟨p.desc.bottom, ?_, hr.distinct, .inr rfl⟩
            have e : (alg p.desc).ap (.ts (p.name f) n) p.desc.bottom = p.desc.bottom := by
              simp [alg, EF.ap, hr.bottom _ _ hcon, hr.distinct]
            rw [e] at hrun; exact hrun
        · have hne : o' ≠ o := by
            rintro rfl; exact hm (hiff.2 hla)
          rw [if_neg (by simpa using hm)] at hrun
          refine ⟨x, hrun, ?_⟩
          show Describes p.desc x (upd st o s' o')
          unfold upd; rw [if_neg hne]; exact hd
    · exact hb k o' (hnone hko).2.2
    · refine frames_upd (st := st) (nx := nx) (loc := loc) (by rw [hfun]; exact hfr) (fun k hm => hparam hfun k hm) (fun k o' hko => ?_)
        (fun o' ho => ?_) (Nat.le_refl _)
      · exact .inl ⟨k, (hnone hko).2.2⟩
      · change upd _ _ _ o' ≠ st o' at ho
        unfold upd at ho
        split at ho
        · rename_i e; subst e; exact .inl ⟨a, hla⟩
        · exact absurd rfl ho
  | @consumeOther stk n loc st nx as f r i a hc hi hcl hdecl hnf hcon hix ha hla hrs =>
    have hfun : p.icf.funOf r = p.icf.funOf n := hwf.icf.ret_fun n r hrs
    have hargs : p.args n = as := by unfold args; rw [hi]
    have hed : ∀ d, p.ctrEdge n d d = if d ∈ (p.aliasesAndAllocas a).map Val.node then .ts (p.name f) n else .id := fun d =>
      consume_edge hcl hnf hcon hix (by rw [hargs]; exact ha)
    have hflow : ∀ d, d ∈ p.ctrFlow n d := fun d => ctr_decl (by rw [hcl]; simp [hdecl, hnf]) (by rw [hcl]; simp)
    have hstep : ∀ {d v}, Run p (stk.map Prod.fst) n d v → Run p (stk.map Prod.fst) r d ((alg p.desc).ap (p.ctrEdge n d d) v) :=
      fun hrn => hrn.step (RStep.callToRet (P := p.problem) hc hrs (hflow _))
    refine ⟨⟨?_, fun k o' hko => ?_⟩, fun k o' hko => hb k o' (hnone hko).2.2, ?_⟩
    · have := hstep hcov.zero
      rw [hed, if_neg (by simp)] at this; exact this
    · obtain ⟨hkr, hkn, hko'⟩ := hnone hko
      obtain ⟨x, hx, hd⟩ := hcov.cells k o' hko'
      have hiff := hal.consume _ hreach f i a hcl hcon hix (by rw [hargs]; exact ha) r hrs k o' hkn hkr hko'
      have hrun := hstep hx
      have hm : k ∉ p.aliasesAndAllocas a := fun h => by
        have := hiff.1 h
        dsimp only at this
        rw [hla] at this; cases this
      rw [hed, if_neg (by simpa using hm)] at hrun
      exact ⟨x, hrun, hd⟩
    · exact frames_upd (st := st) (nx := nx) (loc := loc) (by rw [hfun]; exact hfr) (fun k hm => hparam hfun k hm)
        (fun k o' hko => .inl ⟨k, (hnone hko).2.2⟩) (fun o' ho => absurd rfl ho) (Nat.le_refl _)
  | @extern stk n loc st nx as r hc hi hne hall hrs =>
    have hfun : p.icf.funOf r = p.icf.funOf n := hwf.icf.ret_fun n r hrs
    have hstep : ∀ {d v}, Run p (stk.map Prod.fst) n d v → Run p (stk.map Prod.fst) r d v := fun {d v} hrn => by
      have := hrn.step (RStep.callToRet (P := p.problem) (r := r) hc hrs (ctr_decl (fun f hf => ⟨(hall f hf).1, (hall f hf).2.1⟩) hne))
      have he : p.problem.ctrEdge n d r d = .id := ctrEdge_plain fun f hf => (hall f hf).2
      rw [he] at this
      exact this
    refine ⟨⟨hstep hcov.zero, fun k o' hko => ?_⟩, fun k o' hko => hb k o' (hnone hko).2.2, ?_⟩
    · obtain ⟨x, hx, hd⟩ := hcov.cells k o' (hnone hko).2.2
      exact ⟨x, hstep hx, hd⟩
    · exact frames_upd (st := st) (nx := nx) (loc := loc) (by rw [hfun]; exact hfr) (fun k hm => hparam hfun k hm)
        (fun k o' hko => .inl ⟨k, (hnone hko).2.2⟩) (fun o' ho => absurd rfl ho) (Nat.le_refl _)

theorem inv_reached (hr : Regular p.desc) (hwf : p.WF) {keep : Nat → Nat → Bool} (hk : p.Keeps keep)
    (hal : p.AliasOk keep) {t : CState S} (h : p.Reached keep t) : Inv p keep t := by
  obtain ⟨s, hi, hs⟩ := h
  induction hs with
  | refl => exact inv_init hi
  | tail hs1 hs2 ih => exact inv_step hr hwf hk hal ⟨s, hi, hs1⟩ ih hs2

/-! ### The solver -/

/-- The problem that is solved, with or without `autoAddZero` (`IFDSIDESolverConfig.h`, on by default). -/
def input (p : Prog S) (z : Bool) : Problem Nat Val Nat S (EF S) := if z then autoZero p.problem else p.problem

theorem input_icf (z : Bool) : (p.input z).icf = p.icf := by cases z <;> rfl
theorem input_alg (z : Bool) : (p.input z).alg = alg p.desc := by cases z <;> rfl

theorem mem_zeroed {z d d' : Val} {f : Val → List Val} (h : d' ∈ f d) : d' ∈ IDE.zeroed z f d := by
  unfold IDE.zeroed
  split
  · split
    · exact h
    · exact List.mem_append_left _ h
  · exact h

theorem of_zeroed {z d d' : Val} {f : Val → List Val} (h : d' ∈ IDE.zeroed z f d) : d' ∈ f d ∨ d' = z := by
  unfold IDE.zeroed at h
  split at h
  · split at h
    · exact .inl h
    · rcases List.mem_append.1 h with h | h
      · exact .inl h
      · exact .inr (List.mem_singleton.1 h)
  · exact .inl h

theorem input_run (z : Bool) {stk : List Nat} {n : Nat} {d : Val} {v : S} (h : Run p stk n d v) : RunVal (p.input z) n d v := by
  obtain ⟨n0, d0, v0, h1, h2⟩ := h
  cases z with
  | false => exact ⟨n0, d0, v0, stk, h1, h2⟩
  | true =>
    refine ⟨n0, d0, v0, stk, h1, ?_⟩
    have key : ∀ a b, RSteps p.problem a b → RSteps (autoZero p.problem) a b := by
      intro a b h
      induction h with
      | refl => exact .refl _
      | tail _ hst ih =>
        refine .tail ih ?_
        cases hst with
        | normal h1 h2 h3 => exact .normal (P := autoZero p.problem) h1 h2 (mem_zeroed h3)
        | call h1 h2 h3 h4 h5 => exact .call (P := autoZero p.problem) h1 h2 h3 h4 (mem_zeroed h5)
        | ret h1 h2 h3 h4 => exact .ret (P := autoZero p.problem) h1 h2 h3 (mem_zeroed h4)
        | callToRet h1 h2 h3 => exact .callToRet (P := autoZero p.problem) h1 h2 (mem_zeroed h3)
        | summary h1 h2 h3 h4 h5 => exact .summary (P := autoZero p.problem) h1 h2 h3 h4 h5
    exact key _ _ h2

theorem ok_ctrEdge (hr : Regular p.desc) (n : Nat) (d d' : Val) : EF.Ok p.desc (p.ctrEdge n d d') := by
  unfold ctrEdge
  generalize (decide (d = Val.zero) && decide (d' = Val.node n)) = q
  generalize p.consumed n d d' = c
  generalize (p.icf.callees n).map p.name = l
  suffices ∃ e, callToRetEdge p.desc n q c l = some e ∧ EF.Ok p.desc e by
    obtain ⟨e, h1, h2⟩ := this
    rw [h1]; exact h2
  induction l with
  | nil => exact ⟨_, rfl, trivial, trivial⟩
  | cons f l ih =>
    unfold callToRetEdge
    split
    · rename_i h
      obtain ⟨s', hs⟩ := hr.factory f n (by simp only [Bool.and_eq_true] at h; exact h.1)
      rw [hs]
      exact ⟨_, rfl, trivial, fun e => hr.noTop _ _ _ (e ▸ hs)⟩
    · split
      · rename_i h
        exact ⟨_, rfl, trivial, by simp only [Bool.and_eq_true] at h; exact h.1⟩
      · exact ih

theorem ok_normalEdge (hr : Regular p.desc) (n : Nat) (d d' : Val) : EF.Ok p.desc (p.normalEdge n d d') := by
  unfold normalEdge
  split
  · unfold TypeState.normalEdge
    split
    · exact ⟨trivial, hr.uninit⟩
    · exact ⟨trivial, trivial⟩
  · exact ⟨trivial, trivial⟩

theorem ok_edges (hr : Regular p.desc) (z : Bool) : (p.input z).OkEdges (EF.Ok p.desc) := by
  have hid : EF.Ok p.desc (.id : EF S) := ⟨trivial, trivial⟩
  cases z
  · exact ⟨fun n d _ d' _ _ => ok_normalEdge hr n d d', fun _ _ _ _ _ _ => hid, fun _ _ _ _ _ _ _ _ => hid,
      fun n d _ d' _ _ => ok_ctrEdge hr n d d', fun _ _ _ _ _ _ _ _ _ => hid⟩
  · exact ⟨fun n d _ d' _ _ => ok_normalEdge hr n d d', fun _ _ _ _ _ _ => hid, fun _ _ _ _ _ _ _ _ => hid,
      fun n d _ d' _ _ => ok_ctrEdge hr n d d', fun _ _ _ _ _ _ _ _ _ => hid⟩

theorem seed_cases {n : Nat} {d : Val} {v : S} (hl : Lawful p.desc) (h : IsSeed p.problem n d v) :
    n ∈ p.entries ∧ d = .zero ∧ v = p.desc.bottom := by
  obtain ⟨facts, hf, h | ⟨rfl, rfl, _⟩⟩ := h
  · obtain ⟨sp, hsp, hf⟩ := List.mem_map.1 hf
    cases hf
    cases List.mem_singleton.1 h
    exact ⟨hsp, rfl, rfl⟩
  · obtain ⟨sp, hsp, hf⟩ := List.mem_map.1 hf
    cases hf
    exact ⟨hsp, rfl, hl.bottom⟩

theorem no_top (hl : Lawful p.desc) (hr : Regular p.desc) (z : Bool) : (p.input z).NoTop (EF.Ok p.desc) where
  seed n d v h := by
    have : IsSeed p.problem n d v := by cases z <;> exact h
    rw [(seed_cases hl this).2.2, hl.top]
    exact hr.distinct
  ap f hf x hx := by
    rw [input_alg, hl.top] at *
    obtain ⟨u, hu, h⟩ := ap_total hr hf.2 x
    have := alg_ap hr hf x
    rw [hu] at this
    injection this with this
    rw [← this]; exact h hx

theorem seeds_at_start (hwf : p.WF) (z : Bool) : SeedsAtStart (p.input z) := by
  intro n facts h
  have h : (n, facts) ∈ p.problem.seeds := by cases z <;> exact h
  obtain ⟨sp, hsp, h⟩ := List.mem_map.1 h
  cases h
  rw [input_icf]
  exact hwf.entries _ hsp

theorem describes_mono (hl : Lawful p.desc) (hr : Regular p.desc) {x y s : S} (h : x ⊑ y) (hd : Describes p.desc x s) :
    Describes p.desc y s := by
  rw [le_iff hl hr.distinct] at h
  rcases h with h | rfl | rfl
  · exact absurd h hd.1
  · exact hd
  · exact ⟨hr.distinct, .inr rfl⟩

end Prog
end Phasar.TypeState
