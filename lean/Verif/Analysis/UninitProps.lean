import Verif.Analysis.UninitTab
import Verif.IDE.Props
/-!
# C58: which uses of undefined values the analysis of uninitialized variables reports
-/
set_option linter.unusedSectionVars false
namespace Phasar.Uninit
open Phasar Phasar.IDE FlowFn

variable {p : Prog}

/-! ## The flow functions -/

/-- C58: after a store, the facts are those before it except the pointer operand, which holds exactly if the stored value is
undefined (as a fact, or as a literal). -/
theorem C58_store {n n' : Nat} {v ptr : Val} (hi : p.inst n = .store v ptr) (s t : Val) : t ∈ p.normalFlow n n' s ↔
    (t = s ∧ (s = ptr → s = v ∨ (s = .zero ∧ v.isUndef = true))) ∨ (t = ptr ∧ (s = v ∨ (s = .zero ∧ v.isUndef = true))) := by
  rw [mem_normalFlow, hi]

/-- C58: an allocation generates its result, for a variable of integer, floating-point, pointer or array type. -/
theorem C58_alloca {n n' : Nat} {ty : Ty} (hi : p.inst n = .alloca ty) (s t : Val) : t ∈ p.normalFlow n n' s ↔
    t = s ∨ (s = .zero ∧ (ty = .int ∨ ty = .float ∨ ty = .ptr ∨ ty = .array) ∧ t = .node n) := by
  rw [mem_normalFlow, hi]
  cases ty <;> simp [Ty.tracked]

/-- C58: other statements keep all facts and generate their result exactly if one of their operands is undefined. -/
theorem C58_use {n n' : Nat} (hs : ∀ v ptr, p.inst n ≠ .store v ptr) (ha : ∀ ty, p.inst n ≠ .alloca ty) (s t : Val) :
    t ∈ p.normalFlow n n' s ↔ t = s ∨ (t = .node n ∧ ∃ o ∈ p.operands n, o = s ∨ o.isUndef = true) := by
  rw [mem_normalFlow]
  split
  · rename_i hi; exact absurd hi (hs _ _)
  · rename_i hi; exact absurd hi (ha _)
  · rfl

/-- C58: a `call` or `invoke` passes the zero fact on, and other facts to the parameters at the positions at which they are
arguments; a literal `undef` passes nothing. -/
theorem C58_call {n f : Nat} (hc : p.callOrInvoke n = true) (s t : Val) : t ∈ p.callFlow n f s ↔
    (s = .zero ∧ t = .zero) ∨
    (s ≠ .zero ∧ ∃ (i k : Nat), (p.params f)[i]? = some k ∧ (p.args n)[i]? = some s ∧ t = .node k) :=
  mem_callFlow hc

/-- C58: a return to a `call` or `invoke` passes on the returned value to the result of the call and pointer parameters of the
function named by the call to the arguments, and nothing else. -/
theorem C58_ret {c f e r : Nat} (hc : p.callOrInvoke c = true) (s t : Val) : t ∈ p.retFlow c f e r s ↔
    ((p.operands e)[0]? = some s ∧ t = .node c) ∨
    ∃ (g i k : Nat), p.called c = some g ∧ (p.params g)[i]? = some k ∧ (p.args c)[i]? = some t ∧ s = .node k ∧
      p.isPtr (.node k) = true :=
  mem_retFlow hc

/-- C58: beside a call all facts hold on, except the pointers it passes. -/
theorem C58_alongside {n r : Nat} (s t : Val) : t ∈ p.ctrFlow n r s ↔ t = s ∧ ¬ (p.isPtr s = true ∧ s ∈ p.args n) :=
  mem_ctrFlow

/-! ## What is reported -/

theorem C58.ifds : IsIFDS p.problem where
  alg := rfl
  normal _ _ _ _ := rfl
  call _ _ _ _ := rfl
  ret _ _ _ _ _ _ := rfl
  ctr _ _ _ _ := rfl
  sum _ _ _ _ := rfl
  seeds n facts h d v hd := by
    obtain ⟨sp, _, e⟩ := List.mem_map.1 h
    cases e
    rcases List.mem_cons.1 hd with h | h
    · cases h; rfl
    · cases h

theorem C58.seeds (wf : p.WF) : SeedsAtStart p.problem := by
  intro n facts h
  obtain ⟨sp, hsp, e⟩ := List.mem_map.1 h
  cases e
  exact wf.seeds _ hsp

theorem C58.noSummary : SummariesDisjoint p.problem := fun _ _ _ _ h => by cases h

/-- C58: the result of the solver at a statement is exactly the facts the flow functions carry there along the valid paths of
the program from an entry point. -/
theorem C58_results (wf : p.WF) (huniq : p.icf.UniqueStart) {st : St Nat Val (EF Empty BinaryDomain)} {w : VS Nat Val BinaryDomain}
    (h : Solved p.problem st w) (n : Nat) (d : Val) : ifdsResultsAt w n d ↔ FactReachable p.problem n d :=
  C01_ifds_exact C58.ifds wf.icf huniq rfl (C58.seeds wf) C58.noSummary h n d

/-- The zero fact has come here, with these suspended calls, and to the calls. -/
def C58.Zeros (p : Prog) : List Nat → Nat → Prop
  | [], n => p.Run [] n .zero
  | c :: cs, n => p.Run (c :: cs) n .zero ∧ p.icf.isCall c = true ∧ C58.Zeros p cs c

theorem C58.Zeros.run {cs : List Nat} {n : Nat} (h : C58.Zeros p cs n) : p.Run cs n .zero := by
  cases cs with
  | nil => exact h
  | cons c cs => exact h.1

theorem C58.Zeros.move {cs : List Nat} {n n' : Nat} (h : C58.Zeros p cs n) (hr : p.Run cs n' .zero) : C58.Zeros p cs n' := by
  cases cs with
  | nil => exact hr
  | cons c cs => exact ⟨hr, h.2⟩

/-- The zero fact holds wherever another one does. -/
theorem C58.zero (wf : p.WF) {n : Nat} {d : Val} (h : FactReachable p.problem n d) : FactReachable p.problem n .zero := by
  obtain ⟨n0, d0, stk, ⟨facts, hs, hd0⟩, hr⟩ := h
  have key : ∀ a b, FSteps p.problem a b → C58.Zeros p a.1 a.2.1 → C58.Zeros p b.1 b.2.1 := by
    intro a b hab h1
    induction hab with
    | refl => exact h1
    | tail _ hst ih =>
      cases hst with
      | normal hc hn hd => exact ih.move (ih.run.zero_normal wf hc hn)
      | @call stk n d g sp d' hc hg hsum hsp hd =>
        refine ⟨ih.run.step (.call hc hg rfl hsp ?_), hc, ih⟩
        show Val.zero ∈ p.callFlow n g .zero
        unfold Prog.callFlow
        split <;> simp [FSet.ofList]
      | ret hc he hr hd => exact ih.2.2.move (ih.2.2.run.zero_ctr wf ih.2.1 hr)
      | callToRet hc hr hd => exact ih.move (ih.run.zero_ctr wf hc hr)
      | summary _ _ h => cases h
  obtain ⟨sp, hsp, e⟩ := List.mem_map.1 hs
  cases e
  obtain ⟨m0, e0, h0, h1⟩ := (key _ _ hr (⟨_, .zero, ⟨_, hs, .inr rfl⟩, .refl _⟩ : p.Run [] _ .zero)).run
  exact ⟨m0, e0, _, h0, h1⟩

/-- C58: an operand is reported at a statement exactly if the statement is no call, no store, no allocation, no cast, no phi and no
address computation, has a successor, and there is no undefined literal before the operand, which itself is an undefined literal
(and the statement is reached) or a value the flow functions carry there. -/
theorem C58_reported (wf : p.WF) (huniq : p.icf.UniqueStart) {st : St Nat Val (EF Empty BinaryDomain)} {w : VS Nat Val BinaryDomain}
    (h : Solved p.problem st w) (n : Nat) (v : Val) : p.Reported w n v ↔
    p.icf.isCall n = false ∧ p.icf.succs n ≠ [] ∧ ((∃ ptr, p.inst n = .load ptr) ∨ (∃ ops, p.inst n = .op ops) ∨ ∃ r, p.inst n = .ret r) ∧
    ∃ l₁ l₂, p.operands n = l₁ ++ v :: l₂ ∧ v ∉ l₁ ∧ (∀ o ∈ l₁, o.isUndef = false) ∧
      (FactReachable p.problem n v ∨ (v.isUndef = true ∧ FactReachable p.problem n .zero)) := by
  have hrec : p.icf.isCall n = false → (p.records n = true ↔
      (∃ ptr, p.inst n = .load ptr) ∨ (∃ ops, p.inst n = .op ops) ∨ ∃ r, p.inst n = .ret r) := by
    intro hc
    have hnc : ∀ as, p.inst n ≠ .call as := fun as e => by rw [(wf.isCall n).2 ⟨as, e⟩] at hc; cases hc
    unfold Prog.records
    split <;> simp_all
    cases hi : p.inst n <;> simp_all
  unfold Prog.Reported
  constructor
  · rintro ⟨h1, h2, h3, s, hs, hf⟩
    refine ⟨h1, h2, (hrec h1).1 h3, ?_⟩
    unfold Prog.firstUse at hf
    rw [List.find?_eq_some_iff_append] at hf
    obtain ⟨hv, l₁, l₂, e, hl⟩ := hf
    simp only [Bool.or_eq_true, decide_eq_true_eq, Bool.not_eq_true', Bool.or_eq_false_iff, decide_eq_false_iff_not] at hv hl
    have hr := (C58_results wf huniq h n s).1 hs
    refine ⟨l₁, l₂, e, ?_, fun o ho => (hl o ho).2, ?_⟩
    · intro hm
      rcases hv with rfl | hv
      · exact (hl _ hm).1 rfl
      · rw [(hl v hm).2] at hv; cases hv
    · rcases hv with rfl | hv
      · exact .inl hr
      · exact .inr ⟨hv, C58.zero wf hr⟩
  · rintro ⟨h1, h2, h3, l₁, l₂, e, hv, hl, hr⟩
    refine ⟨h1, h2, (hrec h1).2 h3, ?_⟩
    rcases hr with hr | ⟨hu, hr⟩
    · refine ⟨v, (C58_results wf huniq h n v).2 hr, ?_⟩
      unfold Prog.firstUse
      rw [List.find?_eq_some_iff_append]
      refine ⟨by simp, l₁, l₂, e, fun o ho => ?_⟩
      have : o ≠ v := fun e => hv (e ▸ ho)
      simp [hl o ho, this]
    · refine ⟨.zero, (C58_results wf huniq h n .zero).2 hr, ?_⟩
      unfold Prog.firstUse
      rw [List.find?_eq_some_iff_append]
      refine ⟨by simp [hu], l₁, l₂, e, fun o ho => ?_⟩
      have : o ≠ .zero := fun e' => wf.operand n (by rw [e]; exact List.mem_append_left _ (e' ▸ ho))
      simp [hl o ho, this]

/-! ## Nothing is missed -/

/-- States of executions all of whose states are unaliased (with respect to undefined values). -/
def Prog.Reached (p : Prog) (t : CState) : Prop := ∃ s, p.Init s ∧ p.CSteps s t ∧ ∀ u, p.CSteps s u → p.Unaliased u

/-- C58 (partial: the restrictions of `Fit` and unaliased states): after the solver has ended, every operand that is undefined, or
from which an undefined value is reached through memory, when an execution arrives at the statement is among the results there;
for an undefined literal, the zero fact is. -/
theorem C58_operands_partial (wf : p.WF) (fit : p.Fit) {st : St Nat Val (EF Empty BinaryDomain)} {w : VS Nat Val BinaryDomain}
    (h : Solved p.problem st w) {t : CState} (ht : p.Reached t) {v : Val} (hb : Bad t.mem (p.val t.regs v)) :
    ifdsResultsAt w t.n v ∨ (v.isUndef = true ∧ ifdsResultsAt w t.n .zero) := by
  obtain ⟨s, hs, hst, hu⟩ := ht
  obtain ⟨d, ⟨n0, d0, h0, h1⟩, hd⟩ := (inv_steps wf fit hs hst hu).act.operand (hu t hst).globals hb
  have := C01_ifds_complete C58.ifds wf.icf (C58.seeds wf) h _ _ ⟨n0, d0, _, h0, h1⟩
  rcases hd with ⟨rfl, _⟩ | ⟨hv, rfl⟩
  · exact .inl this
  · exact .inr ⟨hv, this⟩

theorem C58.bad_operand {t : CState} (h : p.ReadsUndef t) : p.records t.n = true ∧
    ∃ v ∈ p.operands t.n, Bad t.mem (p.val t.regs v) := by
  rcases h with ⟨ops, hi, v, hv, e⟩ | ⟨ptr, hi, h⟩
  · refine ⟨by unfold Prog.records; rw [hi], v, by unfold Prog.operands; rw [hi]; exact hv, ?_⟩
    rw [e]; exact .undef
  · refine ⟨by unfold Prog.records; rw [hi], ptr, by unfold Prog.operands; rw [hi]; exact List.mem_singleton_self _, ?_⟩
    rcases h with e | ⟨ℓ, e, e'⟩
    · rw [e]; exact .undef
    · rw [e]; exact .ptr (by rw [e']; exact .undef)

theorem C58.reported_of {w : VS Nat Val BinaryDomain} {n : Nat} {v : Val} (hc : p.icf.isCall n = false) (hn : p.icf.succs n ≠ [])
    (hr : p.records n = true) (hv : v ∈ p.operands n) (h : ifdsResultsAt w n v ∨ (v.isUndef = true ∧ ifdsResultsAt w n .zero)) :
    ∃ v, p.Reported w n v := by
  have key : ∀ s, ifdsResultsAt w n s → (v = s ∨ v.isUndef = true) → ∃ v, p.Reported w n v := by
    intro s hs hvs
    have : (p.firstUse n s).isSome := by
      unfold Prog.firstUse
      rw [List.find?_isSome]
      refine ⟨v, hv, ?_⟩
      rw [Bool.or_eq_true, decide_eq_true_eq]
      exact hvs
    obtain ⟨x, hx⟩ := Option.isSome_iff_exists.1 this
    exact ⟨x, hc, hn, hr, s, hs, hx⟩
  rcases h with h | ⟨h1, h2⟩
  · exact key v h (.inl rfl)
  · exact key .zero h2 (.inr h1)

theorem C58.not_call (wf : p.WF) {t : CState} (h : p.ReadsUndef t) : p.icf.isCall t.n = false := by
  cases hc : p.icf.isCall t.n
  · rfl
  · obtain ⟨as, hi⟩ := (wf.isCall _).1 hc
    rcases h with ⟨ops, hi', _⟩ | ⟨ptr, hi', _⟩ <;> rw [hi] at hi' <;> cases hi'

/-- C58 (partial, as above): every statement with a successor that computes with or loads an undefined value in an execution is
reported. -/
theorem C58_complete_partial (wf : p.WF) (fit : p.Fit) {st : St Nat Val (EF Empty BinaryDomain)} {w : VS Nat Val BinaryDomain}
    (h : Solved p.problem st w) {t : CState} (ht : p.Reached t) (hr : p.ReadsUndef t) (hn : p.icf.succs t.n ≠ []) :
    ∃ v, p.Reported w t.n v := by
  obtain ⟨h1, v, hv, hb⟩ := C58.bad_operand hr
  exact C58.reported_of (C58.not_call wf hr) hn h1 hv (C58_operands_partial wf fit h ht hb)

theorem C58.mem_zeroed {z d d' : Val} {f : Val → List Val} (h : d' ∈ f d) : d' ∈ IDE.zeroed z f d := by
  unfold IDE.zeroed
  split
  · split
    · exact h
    · exact List.mem_append_left _ h
  · exact h

theorem C58.autoZero_steps {a b : List Nat × Nat × Val} (h : FSteps p.problem a b) : FSteps (autoZero p.problem) a b := by
  induction h with
  | refl => exact .refl _
  | tail _ hst ih =>
    refine .tail ih ?_
    cases hst with
    | normal h1 h2 h3 => exact .normal h1 h2 (C58.mem_zeroed h3)
    | call h1 h2 h3 h4 h5 => exact .call h1 h2 h3 h4 (C58.mem_zeroed h5)
    | ret h1 h2 h3 h4 => exact .ret h1 h2 h3 (C58.mem_zeroed h4)
    | callToRet h1 h2 h3 => exact .callToRet h1 h2 (C58.mem_zeroed h3)
    | summary h1 h2 h3 h4 h5 => exact .summary h1 h2 h3 h4 h5

/-- C58 (partial, as above): the same when the solver adds the zero fact to the flow functions itself, which is the default. -/
theorem C58_complete_auto_partial (wf : p.WF) (fit : p.Fit) {st : St Nat Val (EF Empty BinaryDomain)} {w : VS Nat Val BinaryDomain}
    (h : Solved (autoZero p.problem) st w) {t : CState} (ht : p.Reached t) (hr : p.ReadsUndef t) (hn : p.icf.succs t.n ≠ []) :
    ∃ v, p.Reported w t.n v := by
  obtain ⟨h1, v, hv, hb⟩ := C58.bad_operand hr
  obtain ⟨s, hs, hst, hu⟩ := ht
  obtain ⟨d, ⟨n0, d0, h0, h2⟩, hd⟩ := (inv_steps wf fit hs hst hu).act.operand (hu t hst).globals hb
  have hI : IsIFDS (autoZero p.problem) := { C58.ifds (p := p) with }
  have := C01_ifds_complete hI wf.icf (C58.seeds wf) h _ _ ⟨n0, d0, _, h0, C58.autoZero_steps h2⟩
  refine C58.reported_of (C58.not_call wf hr) hn h1 hv ?_
  rcases hd with ⟨rfl, _⟩ | ⟨hv, rfl⟩
  · exact .inl this
  · exact .inr ⟨hv, this⟩

/-- C58 (partial: the restrictions of `Fit` and of `Plain`): in programs that only load from, store through and pass on addresses,
no condition on the executions is needed. -/
theorem C58_plain_partial (wf : p.WF) (fit : p.Fit) (pl : p.Plain) {st : St Nat Val (EF Empty BinaryDomain)}
    {w : VS Nat Val BinaryDomain} (h : Solved p.problem st w) {s t : CState} (hs : p.Init s) (h0 : PlainStart s)
    (hst : p.CSteps s t) (hr : p.ReadsUndef t) (hn : p.icf.succs t.n ≠ []) : ∃ v, p.Reported w t.n v :=
  C58_complete_partial wf fit h ⟨s, hs, hst, fun _ hu => pinv_unaliased pl (pinv_steps wf pl hs h0 hu)⟩ hr hn

/-! ## Finite programs -/

/-- The program is finite: the statements `S` and the values `K` are all that can be reached. -/
structure Prog.Bounded (p : Prog) (S : List Nat) (K : List Val) : Prop where
  entries : ∀ n ∈ p.entries, n ∈ S
  succs : ∀ n ∈ S, ∀ n' ∈ p.icf.succs n, n' ∈ S
  starts : ∀ n ∈ S, ∀ f ∈ p.icf.callees n, ∀ sp ∈ p.icf.starts f, sp ∈ S
  rets : ∀ n ∈ S, ∀ r ∈ p.icf.retSites n, r ∈ S
  zero : .zero ∈ K
  results : ∀ n ∈ S, .node n ∈ K
  operands : ∀ n ∈ S, ∀ v ∈ p.operands n, v ∈ K
  params : ∀ n ∈ S, ∀ f ∈ p.icf.callees n, ∀ k ∈ p.params f, .node k ∈ K

theorem C58.args_sub {n : Nat} {v : Val} (h : v ∈ p.args n) : v ∈ p.operands n := by
  unfold Prog.args at h
  unfold Prog.operands
  split at h
  · rename_i as hi; rw [hi]; exact h
  · cases h

/-- What can be reached in a finite program. -/
theorem C58.reach_bounded {S : List Nat} {K : List Val} (hb : p.Bounded S K) {n : Nat} {d : Val}
    (h : FactReachable p.problem n d) : n ∈ S ∧ d ∈ K := by
  obtain ⟨n0, d0, stk, ⟨facts, hs, hd0⟩, hr⟩ := h
  have key : ∀ a b, FSteps p.problem a b → (∀ c ∈ a.1, c ∈ S) → a.2.1 ∈ S → a.2.2 ∈ K →
      (∀ c ∈ b.1, c ∈ S) ∧ b.2.1 ∈ S ∧ b.2.2 ∈ K := by
    intro a b hab h1 h2 h3
    induction hab with
    | refl => exact ⟨h1, h2, h3⟩
    | tail _ hst ih =>
      obtain ⟨i1, i2, i3⟩ := ih
      cases hst with
      | @normal stk n d n' d' hc hn hd =>
        refine ⟨i1, hb.succs n i2 n' hn, ?_⟩
        have hd := (mem_normalFlow (n' := n')).1 hd
        split at hd
        · rename_i v ptr hi
          rcases hd with ⟨rfl, _⟩ | ⟨rfl, _⟩
          · exact i3
          · exact hb.operands n i2 _ (by unfold Prog.operands; rw [hi]; simp)
        · rcases hd with rfl | ⟨_, _, rfl⟩
          · exact i3
          · exact hb.results n i2
        · rcases hd with rfl | ⟨rfl, _⟩
          · exact i3
          · exact hb.results n i2
      | @call stk n d g sp d' hc hg hsum hsp hd =>
        refine ⟨fun c hc => ?_, hb.starts n i2 g hg sp hsp, ?_⟩
        · rcases List.mem_cons.1 hc with rfl | hc
          · exact i2
          · exact i1 c hc
        · change d' ∈ p.callFlow n g d at hd
          cases hci : p.callOrInvoke n
          · unfold Prog.callFlow at hd
            rw [hci] at hd
            simp only [Bool.false_eq_true, if_false, C50.mem_ofList, List.mem_singleton] at hd
            rw [hd]; exact i3
          · rcases (mem_callFlow hci).1 hd with ⟨_, rfl⟩ | ⟨_, i, k, hk, _, rfl⟩
            · exact hb.zero
            · exact hb.params n i2 g hg k (List.mem_of_getElem? hk)
      | @ret stk c n d r d' hc hex hr hd =>
        have hcS := i1 c List.mem_cons_self
        refine ⟨fun c' hc' => i1 c' (List.mem_cons_of_mem _ hc'), hb.rets c hcS r hr, ?_⟩
        change d' ∈ p.retFlow c (p.icf.funOf n) n r d at hd
        cases hci : p.callOrInvoke c
        · unfold Prog.retFlow at hd
          rw [hci] at hd
          cases hd
        · rcases (mem_retFlow (f := p.icf.funOf n) (r := r) hci).1 hd with ⟨_, rfl⟩ | ⟨_, i, _, _, _, ha, _⟩
          · exact hb.results c hcS
          · exact hb.operands c hcS _ (C58.args_sub (List.mem_of_getElem? ha))
      | @callToRet stk n d r d' hc hr hd =>
        refine ⟨i1, hb.rets n i2 r hr, ?_⟩
        change d' ∈ p.ctrFlow n r d at hd
        rw [(mem_ctrFlow.1 hd).1]; exact i3
      | summary _ _ h => cases h
  obtain ⟨sp, hsp, e⟩ := List.mem_map.1 hs
  cases e
  refine (key _ _ hr (fun c hc => absurd hc List.not_mem_nil) (hb.entries _ hsp) ?_).2
  rcases hd0 with hd0 | hd0
  · rw [List.mem_singleton.1 hd0]; exact hb.zero
  · rw [show d0 = .zero from hd0]; exact hb.zero

/-- C58: the solver ends on every finite program, in any processing order. -/
theorem C58_terminates (wf : p.WF) (huniq : p.icf.UniqueStart) {S : List Nat} {K : List Val} (hb : p.Bounded S K) :
    Acc (fun t s => SStep p.problem s t) (init p.problem) ∧
    (∀ s, Reach p.problem s → Acc (fun w v => VStep p.problem s v w) (submitInitialValues p.problem s)) ∧
    ∃ fuel s w, solve p.problem fuel = some (s, w) := by
  refine C05_terminates_reachable (ok := fun f => f = .id) ifdsAlg_sound.okClosed C58.ifds.okEdges wf.icf huniq rfl
    (C58.seeds wf) C58.noSummary (rankE := fun _ => 0) (H := 0)
    ⟨fun _ _ => Nat.le_refl _, fun e f he hf h => by subst he; subst hf; exact absurd h (by show ifdsAlg.eqE (ifdsAlg.combine .id .id) .id ≠ false; decide)⟩ (rankL := fun x => x.toNat)
    (by intro a b; cases a <;> cases b <;> decide) (S.flatMap fun n => K.map fun d => (n, d)) fun n d h => ?_
  obtain ⟨h1, h2⟩ := C58.reach_bounded hb h
  exact List.mem_flatMap.2 ⟨n, h1, List.mem_map.2 ⟨d, h2, rfl⟩⟩

/-- C58 (partial: the restrictions of `Fit` and of `Plain`): so the analysis of a finite program ends and reports every use. -/
theorem C58_total_partial (wf : p.WF) (fit : p.Fit) (pl : p.Plain) (huniq : p.icf.UniqueStart) {S : List Nat} {K : List Val}
    (hb : p.Bounded S K) : ∃ fuel st w, solve p.problem fuel = some (st, w) ∧
      ∀ s t, p.Init s → PlainStart s → p.CSteps s t → p.ReadsUndef t → p.icf.succs t.n ≠ [] → ∃ v, p.Reported w t.n v := by
  obtain ⟨_, _, fuel, st, w, h⟩ := C58_terminates wf huniq hb
  exact ⟨fuel, st, w, h, fun s t hs h0 hst hr hn => C58_plain_partial wf fit pl (solve_sound h) hs h0 hst hr hn⟩

/-! ## Nothing to report -/

theorem C58.zero_only (ha : ∀ n ty, p.inst n = .alloca ty → ty = .struct ∨ ty = .vector)
    (wf : p.WF) (hu : ∀ n, ∀ v ∈ p.operands n, v.isUndef = false) {n : Nat} {d : Val} (h : FactReachable p.problem n d) : d = .zero := by
  obtain ⟨n0, d0, stk, ⟨facts, hs, hd0⟩, hr⟩ := h
  have key : ∀ a b, FSteps p.problem a b → a.2.2 = .zero → b.2.2 = .zero := by
    intro a b hab h1
    induction hab with
    | refl => exact h1
    | tail _ hst ih =>
      cases hst with
      | @normal stk n d n' d' hc hn hd =>
        have ih : d = .zero := ih
        subst ih
        have hd := (mem_normalFlow (n' := n')).1 hd
        have hz := wf.operand n
        have hu := hu n
        split at hd
        · rename_i v ptr hi
          unfold Prog.operands at hz hu
          rw [hi] at hz hu
          rcases hd with ⟨rfl, _⟩ | ⟨_, h | h⟩
          · rfl
          · exact absurd (by rw [h]; simp) hz
          · rw [hu v (by simp)] at h; cases h.2
        · rename_i ty hi
          rcases hd with rfl | ⟨_, h, _⟩
          · rfl
          · rcases ha n ty hi with rfl | rfl <;> cases h
        · rcases hd with rfl | ⟨_, o, ho, h⟩
          · rfl
          · rcases h with rfl | h
            · exact absurd ho hz
            · rw [hu o ho] at h; cases h
      | @call stk n d g sp d' hc hg hsum hsp hd =>
        have ih : d = .zero := ih
        subst ih
        change d' ∈ p.callFlow n g .zero at hd
        unfold Prog.callFlow at hd
        split at hd
        all_goals
          simp only [ne_eq, not_true_eq_false, if_false, C50.mem_ofList, List.mem_singleton] at hd
          exact hd
      | @ret stk c n d r d' hc hex hr hd =>
        have ih : d = .zero := ih
        subst ih
        change d' ∈ p.retFlow c (p.icf.funOf n) n r .zero at hd
        cases hci : p.callOrInvoke c
        · unfold Prog.retFlow at hd
          rw [hci] at hd
          cases hd
        · rcases (mem_retFlow (f := p.icf.funOf n) (r := r) hci).1 hd with ⟨h, _⟩ | ⟨_, i, _, _, _, _, h, _⟩
          · exact absurd (List.mem_of_getElem? h) (wf.operand n)
          · cases h
      | @callToRet stk n d r d' hc hr hd =>
        have ih : d = .zero := ih
        subst ih
        change d' ∈ p.ctrFlow n r .zero at hd
        exact (mem_ctrFlow.1 hd).1
      | summary _ _ h => cases h
  obtain ⟨sp, hsp, e⟩ := List.mem_map.1 hs
  cases e
  refine key _ _ hr ?_
  rcases hd0 with hd0 | hd0
  · exact List.mem_singleton.1 hd0
  · exact hd0

/-- C58: in a program without undefined literals and without local variables (other than structures and vectors) nothing is
reported. -/
theorem C58_no_locals (wf : p.WF) (huniq : p.icf.UniqueStart) (ha : ∀ n ty, p.inst n = .alloca ty → ty = .struct ∨ ty = .vector)
    (hu : ∀ n, ∀ v ∈ p.operands n, v.isUndef = false) {st : St Nat Val (EF Empty BinaryDomain)} {w : VS Nat Val BinaryDomain}
    (h : Solved p.problem st w) (n : Nat) (v : Val) : ¬ p.Reported w n v := by
  rw [C58_reported wf huniq h]
  rintro ⟨_, _, _, l₁, l₂, e, _, _, hr⟩
  have hv : v ∈ p.operands n := by rw [e]; simp
  rcases hr with hr | ⟨h1, _⟩
  · have := C58.zero_only ha wf hu hr
    subst this
    exact wf.operand n hv
  · rw [hu n v hv] at h1; cases h1

/-! ## The report with source lines -/

theorem C58.agg_loop (line func : Nat → Nat) : ∀ (us : List Nat) (cur : Nat) (ur : UResult) (res : List UResult),
    ur.line = cur → (∀ u ∈ ur.trace, line u = cur) → (cur ≠ 0 → ∃ u l, ur.trace = u :: l ∧ ur.func = func u) →
    (∀ r ∈ res, r.line ≠ 0 ∧ (∀ u ∈ r.trace, line u = r.line) ∧ ∃ u l, r.trace = u :: l ∧ r.func = func u) →
    let x := aggLoop line func us cur ur res
    let out := if x.2.empty then x.1 else x.1 ++ [x.2]
    (∀ r ∈ out, r.line ≠ 0 ∧ (∀ u ∈ r.trace, line u = r.line) ∧ ∃ u l, r.trace = u :: l ∧ r.func = func u) ∧
    out.flatMap (·.trace) = (if ur.empty then res else res ++ [ur]).flatMap (·.trace) ++ us.filter fun u => line u != 0
  | [], cur, ur, res, h1, h2, h3, h4 => by
    unfold aggLoop UResult.empty
    subst h1
    simp only [beq_iff_eq, List.filter_nil, List.append_nil, and_true]
    intro r hr
    split at hr
    · exact h4 r hr
    · rename_i hl
      rcases List.mem_append.1 hr with hr | hr
      · exact h4 r hr
      · rw [List.mem_singleton.1 hr]; exact ⟨hl, h2, h3 hl⟩
  | u :: us, cur, ur, res, h1, h2, h3, h4 => by
    unfold aggLoop
    split
    · rename_i hne
      have ih := C58.agg_loop line func us (line u) ⟨line u, func u, [u]⟩ (if ur.empty then res else res ++ [ur]) rfl
        (fun x hx => by rw [List.mem_singleton.1 hx]) (fun _ => ⟨u, [], rfl, rfl⟩) (by
          intro r hr
          split at hr
          · exact h4 r hr
          · rename_i hl
            rcases List.mem_append.1 hr with hr | hr
            · exact h4 r hr
            · rw [List.mem_singleton.1 hr]
              have hl : ur.line ≠ 0 := by simpa [UResult.empty] using hl
              exact ⟨hl, h1 ▸ h2, h3 (h1 ▸ hl)⟩)
      refine ⟨ih.1, ih.2.trans ?_⟩
      by_cases hz : line u = 0
      · simp [UResult.empty, hz]
      · have : (line u != 0) = true := by simpa using hz
        rw [List.filter_cons_of_pos (by exact this)]
        simp [UResult.empty, hz]
    · rename_i he
      have he : cur = line u := Classical.byContradiction he
      have ih := C58.agg_loop line func us cur { ur with trace := ur.trace ++ [u] } res h1
        (fun x hx => by
          rcases List.mem_append.1 hx with hx | hx
          · exact h2 x hx
          · rw [List.mem_singleton.1 hx, he]) (fun hc => by
          obtain ⟨a, l, e, ef⟩ := h3 hc
          exact ⟨a, l ++ [u], by simp [e], ef⟩) h4
      refine ⟨ih.1, ih.2.trans ?_⟩
      by_cases hz : line u = 0
      · simp [UResult.empty, hz, h1, he]
      · have : (line u != 0) = true := by simpa using hz
        rw [List.filter_cons_of_pos (by exact this)]
        simp [UResult.empty, hz, h1, he]

/-- C58: the report contains exactly the uses with a source line, in the order of the map; each entry has the line of all its uses
and the function of its first use. -/
theorem C58_aggregate (line func : Nat → Nat) (users : List Nat) :
    (aggregate line func users).flatMap (·.trace) = users.filter (fun u => line u != 0) ∧
    ∀ r ∈ aggregate line func users, r.line ≠ 0 ∧ (∀ u ∈ r.trace, line u = r.line) ∧ ∃ u l, r.trace = u :: l ∧ r.func = func u := by
  have := C58.agg_loop line func users 0 .none [] rfl (fun u hu => by cases hu) (fun h => absurd rfl h) (fun r hr => by cases hr)
  exact ⟨this.2, this.1⟩

theorem C58.agg_split (line func : Nat → Nat) : ∀ (us : List Nat) (cur : Nat) (ur : UResult) (res : List UResult),
    ur.line = cur → (cur = 0 → res = []) → (∀ u ∈ us, line u ≠ 0) →
    (∀ (i : Nat) a b, (if ur.empty then res else res ++ [ur])[i]? = some a → (if ur.empty then res else res ++ [ur])[i + 1]? = some b → a.line ≠ b.line) →
    let x := aggLoop line func us cur ur res
    let out := if x.2.empty then x.1 else x.1 ++ [x.2]
    ∀ (i : Nat) a b, out[i]? = some a → out[i + 1]? = some b → a.line ≠ b.line
  | [], cur, ur, res, _, _, _, h => h
  | u :: us, cur, ur, res, h1, h2, h3, h => by
    have hu := h3 u List.mem_cons_self
    unfold aggLoop
    split
    · rename_i hne
      refine C58.agg_split line func us (line u) _ _ rfl (fun e => absurd e hu) (fun x hx => h3 x (List.mem_cons_of_mem _ hx)) ?_
      intro i a b ha hb
      have hem : (UResult.empty ⟨line u, func u, [u]⟩) = false := by simp [UResult.empty, hu]
      rw [hem] at ha hb
      simp only [Bool.false_eq_true, if_false] at ha hb
      by_cases hb' : i + 1 < (if ur.empty then res else res ++ [ur]).length
      · rw [List.getElem?_append_left hb'] at hb
        rw [List.getElem?_append_left (by omega)] at ha
        exact h i a b ha hb
      · by_cases ha' : i < (if ur.empty then res else res ++ [ur]).length
        · rw [List.getElem?_append_left ha'] at ha
          have hil : i + 1 = (if ur.empty then res else res ++ [ur]).length := by omega
          rw [hil, List.getElem?_append_right (Nat.le_refl _)] at hb
          simp only [Nat.sub_self, List.getElem?_cons_zero, Option.some.injEq] at hb
          subst hb
          cases hur : ur.empty
          · rw [hur] at ha hil
            simp only [Bool.false_eq_true, if_false, List.length_append, List.length_singleton] at ha hil
            have : i = res.length := by omega
            subst this
            rw [List.getElem?_append_right (Nat.le_refl _)] at ha
            simp only [Nat.sub_self, List.getElem?_cons_zero, Option.some.injEq] at ha
            subst ha
            rw [h1]; exact hne
          · have hz : ur.line = 0 := by simpa [UResult.empty] using hur
            rw [hur, h2 (h1 ▸ hz)] at ha
            simp at ha
        · rw [List.getElem?_eq_none (by simp; omega)] at hb; cases hb
    · rename_i he
      have he : cur = line u := Classical.byContradiction he
      refine C58.agg_split line func us cur _ _ h1 h2 (fun x hx => h3 x (List.mem_cons_of_mem _ hx)) ?_
      have hne : ur.empty = false := by simp [UResult.empty, h1, he, hu]
      have hne' : (UResult.empty { ur with trace := ur.trace ++ [u] }) = false := hne
      rw [hne'] ; rw [hne] at h
      simp only [Bool.false_eq_true, if_false] at h ⊢
      intro i a b ha hb
      by_cases hb' : i + 1 < res.length
      · rw [List.getElem?_append_left hb'] at hb
        rw [List.getElem?_append_left (by omega)] at ha
        exact h i a b (by rw [List.getElem?_append_left (by omega)]; exact ha) (by rw [List.getElem?_append_left hb']; exact hb)
      · have hlt : i + 1 < (res ++ [{ ur with trace := ur.trace ++ [u] }]).length := by
          rw [List.getElem?_eq_some_iff] at hb; exact hb.1
        simp only [List.length_append, List.length_singleton] at hlt
        have hil : i + 1 = res.length := by omega
        rw [List.getElem?_append_left (by omega)] at ha
        rw [hil, List.getElem?_append_right (Nat.le_refl _)] at hb
        simp only [Nat.sub_self, List.getElem?_cons_zero, Option.some.injEq] at hb
        subst hb
        have := h i a ur (by rw [List.getElem?_append_left (by omega)]; exact ha)
          (by rw [hil, List.getElem?_append_right (Nat.le_refl _)]; simp)
        exact this

/-- C58: if all uses have a source line, neighbouring entries have different lines. -/
theorem C58_aggregate_split (line func : Nat → Nat) (users : List Nat) (h : ∀ u ∈ users, line u ≠ 0) (i : Nat) (a b : UResult)
    (ha : (aggregate line func users)[i]? = some a) (hb : (aggregate line func users)[i + 1]? = some b) : a.line ≠ b.line :=
  C58.agg_split line func users 0 .none [] rfl (fun _ => rfl) h (fun i a b h => by simp [UResult.empty, UResult.none] at h) i a b ha hb

/-! ## Examples -/

/-- `void f(int *a, int *b) { *a = *b; } int main() { int x, y; do f(&x, &y); while (x); }` -/
def C58.ex : Tab where
  rows := [{ fn := 0, succs := [1] }, { fn := 0, succs := [2] }, { fn := 0, call := some ([1], [3]) }, { fn := 0, succs := [4] },
    { fn := 0, succs := [2, 5] }, { fn := 0, exit := true },
    { fn := 1, succs := [7] }, { fn := 1, succs := [8] }, { fn := 1, exit := true }]
  insts := [.alloca .int, .alloca .int, .call [.node 0, .node 1], .load (.node 0), .op [.node 3], .ret (some (.lit 0)),
    .load (.node 21), .store (.node 6) (.node 20), .ret none]
  ptrs := [0, 1, 20, 21]
  params := [(1, [20, 21])]

theorem C58.ex_wf : C58.ex.prog.WF := C58.ex.wf (by decide +kernel)
theorem C58.ex_fit : C58.ex.prog.Fit := fun r => C58.ex.obeys (by cases r <;> decide +kernel)
theorem C58.ex_plain : C58.ex.prog.Plain := C58.ex.plain (by decide +kernel)

/-- `Bounded` by computation. -/
def Tab.okBounded (t : Tab) (K : List Val) : Bool :=
  let S := List.range t.rows.length
  t.entries.all S.contains &&
  S.all (fun n => (t.prog.icf.succs n ++ t.prog.icf.retSites n).all S.contains &&
    (t.prog.icf.callees n).all (fun f => (t.prog.icf.starts f).all S.contains && (t.paramsOf f).all (fun k => decide (.node k ∈ K))) &&
    decide (.node n ∈ K) && (t.prog.operands n).all (fun v => decide (v ∈ K))) &&
  decide (.zero ∈ K)

theorem C58.okBounded {t : Tab} {K : List Val} (h : t.okBounded K = true) : t.prog.Bounded (List.range t.rows.length) K := by
  unfold Tab.okBounded at h
  simp only [Bool.and_eq_true] at h
  obtain ⟨⟨h1, h2⟩, h3⟩ := h
  have row := fun n (hn : n ∈ List.range t.rows.length) => List.all_eq_true.1 h2 n hn
  simp only [Bool.and_eq_true] at row
  have cont : ∀ {n : Nat}, (List.range t.rows.length).contains n = true → n ∈ List.range t.rows.length := by
    intro n hn; simpa using hn
  have callee := fun n (hn : n ∈ List.range t.rows.length) f (hf : f ∈ t.prog.icf.callees n) =>
    List.all_eq_true.1 (row n hn).1.1.2 f hf
  simp only [Bool.and_eq_true] at callee
  exact ⟨fun n hn => cont (List.all_eq_true.1 h1 n hn),
    fun n hn n' h' => cont (List.all_eq_true.1 (row n hn).1.1.1 n' (List.mem_append_left _ h')),
    fun n hn f hf sp hsp => cont (List.all_eq_true.1 (callee n hn f hf).1 sp hsp),
    fun n hn r hr => cont (List.all_eq_true.1 (row n hn).1.1.1 r (List.mem_append_right _ hr)),
    of_decide_eq_true h3, fun n hn => of_decide_eq_true (row n hn).1.2,
    fun n hn v hv => of_decide_eq_true (List.all_eq_true.1 (row n hn).2 v hv),
    fun n hn f hf k hk => of_decide_eq_true (List.all_eq_true.1 (callee n hn f hf).2 k hk)⟩

theorem C58.ex_bounded : C58.ex.prog.Bounded (List.range 9) (.zero :: .lit 0 :: (List.range 22).map .node) :=
  C58.okBounded (t := C58.ex) (by decide +kernel)

/-- All hypotheses of `C58_total_partial` and `C58_terminates` hold of the example. -/
example : ∃ fuel st w, solve C58.ex.prog.problem fuel = some (st, w) ∧
    ∀ s t, C58.ex.prog.Init s → PlainStart s → C58.ex.prog.CSteps s t → C58.ex.prog.ReadsUndef t → C58.ex.prog.icf.succs t.n ≠ [] →
      ∃ v, C58.ex.prog.Reported w t.n v :=
  C58_total_partial C58.ex_wf C58.ex_fit C58.ex_plain (tabICFG_unique _) C58.ex_bounded

/-- In the example `f` loads the undefined `y`, and after the return `main` loads the undefined `x`, again in the second round of
the loop; the solver reports these uses, and that of the loaded value. -/
example : (∃ s, C58.ex.prog.CSteps (Tab.start 0) s ∧ s.n = 6 ∧ C58.ex.prog.ReadsUndef s) ∧
    (∃ s, C58.ex.prog.CSteps (Tab.start 0) s ∧ s.n = 3 ∧ C58.ex.prog.ReadsUndef s) ∧
    (∃ s, C58.ex.prog.CSteps (Tab.start 0) s ∧ s.n = 4 ∧ C58.ex.prog.ReadsUndef s) ∧
    (∃ st w, solve C58.ex.prog.problem 300 = some (st, w) ∧ C58.ex.prog.Reported w 6 (.node 21)) ∧
    (∃ st w, solve C58.ex.prog.problem 300 = some (st, w) ∧ C58.ex.prog.Reported w 3 (.node 0)) ∧
    ∃ st w, solve C58.ex.prog.problem 300 = some (st, w) ∧ C58.ex.prog.Reported w 4 (.node 3) :=
  ⟨Tab.reads_sound (cs := List.replicate 3 (0, 0)) (by decide +kernel),
    Tab.reads_sound (cs := List.replicate 12 (0, 0)) (by decide +kernel),
    Tab.reads_sound (cs := List.replicate 7 (0, 0)) (by decide +kernel),
    Tab.finds_sound (s := .node 21) (by decide +kernel), Tab.finds_sound (s := .node 0) (by decide +kernel),
    Tab.finds_sound (s := .node 3) (by decide +kernel)⟩

/-- The states of the example meet the hypotheses of `C58_operands_partial` and `C58_complete_partial`. -/
example : ∃ t, C58.ex.prog.Reached t ∧ C58.ex.prog.ReadsUndef t ∧ C58.ex.prog.icf.succs t.n ≠ [] := by
  obtain ⟨t, h1, h2, h3⟩ := Tab.reads_sound (t := C58.ex) (cs := List.replicate 7 (0, 0)) (n := 4) (by decide +kernel)
  refine ⟨t, ⟨_, C58.ex.init (by decide), h1, fun u hu => ?_⟩, h3, by rw [h2]; decide +kernel⟩
  exact pinv_unaliased C58.ex_plain (pinv_steps C58.ex_wf C58.ex_plain (C58.ex.init (by decide)) (Tab.plainStart 0) hu)

/-- The flow functions in the example: the store in `f`, the allocation of `x`, the load, the call, its return and its edge to the
next statement. -/
example : C58.ex.prog.normalFlow 7 8 (.node 6) = [.node 6, .node 20] ∧ C58.ex.prog.normalFlow 7 8 (.node 20) = [] ∧
    C58.ex.prog.normalFlow 0 1 .zero = [.zero, .node 0] ∧ C58.ex.prog.normalFlow 3 4 (.node 0) = [.node 0, .node 3] ∧
    C58.ex.prog.callFlow 2 1 (.node 1) = [.node 21] ∧ C58.ex.prog.retFlow 2 1 8 3 (.node 20) = [.node 0] ∧
    C58.ex.prog.ctrFlow 2 3 (.node 0) = [] ∧ C58.ex.prog.ctrFlow 2 3 (.node 3) = [.node 3] := by decide +kernel

/-- `C58_results` and `C58_reported` apply to the example. -/
example {st : St Nat Val (EF Empty BinaryDomain)} {w : VS Nat Val BinaryDomain} (h : Solved C58.ex.prog.problem st w)
    (hr : C58.ex.prog.Reported w 3 (.node 0)) : FactReachable C58.ex.prog.problem 3 (.node 0) := by
  obtain ⟨_, _, _, _, _, _, _, _, hr⟩ := (C58_reported C58.ex_wf (tabICFG_unique _) h 3 (.node 0)).1 hr
  rcases hr with hr | ⟨h, _⟩
  · exact hr
  · cases h

/-- `void init(int *a) { *a = 1; } int main() { int x; init(&x); return x; }`: initialized by the callee, nothing is reported. -/
def C58.out : Tab where
  rows := [{ fn := 0, succs := [1] }, { fn := 0, call := some ([1], [2]) }, { fn := 0, succs := [3] }, { fn := 0, exit := true },
    { fn := 1, succs := [5] }, { fn := 1, exit := true }]
  insts := [.alloca .int, .call [.node 0], .load (.node 0), .ret (some (.node 2)), .store (.lit 1) (.node 20), .ret none]
  ptrs := [0, 20]
  params := [(1, [20])]

example : ∃ st w, solve C58.out.prog.problem 300 = some (st, w) ∧ ∀ v, ¬ C58.out.prog.Reported w 2 v :=
  Tab.misses_sound (by decide +kernel)

/-- A program without locals but with a global, a call and a store. -/
def C58.noLocals : Tab where
  rows := [{ fn := 0, call := some ([1], [1]) }, { fn := 0, succs := [2] }, { fn := 0, exit := true },
    { fn := 1, succs := [4] }, { fn := 1, exit := true }]
  insts := [.call [.node 30, .lit 1], .load (.node 30), .ret (some (.node 1)), .store (.node 21) (.node 20), .ret none]
  consts := [30]
  ptrs := [30, 20]
  params := [(1, [20, 21])]

example {st : St Nat Val (EF Empty BinaryDomain)} {w : VS Nat Val BinaryDomain} (h : Solved C58.noLocals.prog.problem st w)
    (n : Nat) (v : Val) : ¬ C58.noLocals.prog.Reported w n v := by
  refine C58_no_locals (C58.noLocals.wf (by decide +kernel)) (tabICFG_unique _) ?_ ?_ h n v
  · intro n ty hi
    match n with
    | 0 | 1 | 2 | 3 | 4 | n + 5 => cases hi
  · intro n v hv
    match n with
    | 0 | 1 | 2 | 3 | 4 => revert v; decide +kernel
    | n + 5 => cases hv

/-- Uses in two functions; two in the same line, one without a line. -/
example : aggregate (fun u => [3, 3, 0, 8][u]?.getD 0) (fun u => [1, 1, 1, 2][u]?.getD 0) [0, 1, 2, 3] = [⟨3, 1, [0, 1]⟩, ⟨8, 2, [3]⟩] ∧
    (∀ u ∈ [0, 1, 3], [3, 3, 0, 8][u]?.getD 0 ≠ 0) := by decide

/-! ## What the analysis misses, and reports without need

Each program is well-formed and obeys all restrictions but the one in question; an execution of it reads an undefined value at a
statement for which the solver ends without a report. -/

/-- A statement at which the undefined value is read in an execution from an initial state, and nothing is reported. -/
def C58.Missed (p : Prog) (n : Nat) : Prop :=
  (∃ s t, p.Init s ∧ PlainStart s ∧ p.CSteps s t ∧ t.n = n ∧ p.ReadsUndef t) ∧ p.icf.succs n ≠ [] ∧
  ∃ fuel st w, solve p.problem fuel = some (st, w) ∧ ∀ v, ¬ p.Reported w n v

theorem C58.missed {t : Tab} {cs : List (Nat × Nat)} {n fuel : Nat} (h0 : 0 ∈ t.entries) (h1 : t.reads cs n = true)
    (h2 : (t.prog.icf.succs n).isEmpty = false) (h3 : t.misses fuel n = true) : C58.Missed t.prog n := by
  obtain ⟨s, h4, h5, h6⟩ := Tab.reads_sound h1
  obtain ⟨st, w, h7⟩ := Tab.misses_sound h3
  exact ⟨⟨_, s, t.init h0, Tab.plainStart 0, h4, h5, h6⟩, by simpa using h2, fuel, st, w, h7⟩

/-- `struct { … } x; … = x;` with a structure of one cell -/
def C58.structEx : Tab where
  rows := [{ fn := 0, succs := [1] }, { fn := 0, succs := [2] }, { fn := 0, exit := true }]
  insts := [.alloca .struct, .load (.node 0), .ret (some (.node 1))]
  ptrs := [0]

/-- C58: uses of uninitialized structures are not reported. -/
theorem C58_struct_false : C58.structEx.prog.WF ∧ C58.structEx.prog.Plain ∧ (∀ r, r ≠ .types → C58.structEx.prog.Obeys r) ∧
    C58.Missed C58.structEx.prog 1 :=
  ⟨Tab.wf _ (by decide +kernel), Tab.plain _ (by decide +kernel), fun r hr => Tab.obeys _ (by revert hr; cases r <;> decide +kernel),
    C58.missed (cs := [(0, 0)]) (fuel := 300) (by decide) (by decide +kernel) (by decide +kernel) (by decide +kernel)⟩

/-- `void f(int *a) {} int main() { int x; f(&x); return x; }` -/
def C58.passed : Tab where
  rows := [{ fn := 0, succs := [1] }, { fn := 0, call := some ([1], [2]) }, { fn := 0, succs := [3] }, { fn := 0, exit := true },
    { fn := 1, exit := true }]
  insts := [.alloca .int, .call [.node 0], .load (.node 0), .ret (some (.node 2)), .ret none]
  ptrs := [0, 20]
  params := [(1, [20])]

/-- With a call by name, the use is reported. -/
example : C58.passed.prog.WF ∧ C58.passed.prog.Plain ∧ C58.passed.prog.Fit ∧
    ∃ st w, solve C58.passed.prog.problem 300 = some (st, w) ∧ C58.passed.prog.Reported w 2 (.node 0) :=
  ⟨Tab.wf _ (by decide +kernel), Tab.plain _ (by decide +kernel), fun r => Tab.obeys _ (by cases r <;> decide +kernel),
    Tab.finds_sound (s := .node 0) (by decide +kernel)⟩

/-- The same, calling `f` through a pointer. -/
def C58.indirectEx : Tab := { C58.passed with indirect := [1] }

/-- C58: a variable whose address is passed to a function that is called through a pointer is taken for initialized. -/
theorem C58_indirect_false : C58.indirectEx.prog.WF ∧ C58.indirectEx.prog.Plain ∧
    (∀ r, r ≠ .direct → C58.indirectEx.prog.Obeys r) ∧ C58.Missed C58.indirectEx.prog 2 :=
  ⟨Tab.wf _ (by decide +kernel), Tab.plain _ (by decide +kernel), fun r hr => Tab.obeys _ (by revert hr; cases r <;> decide +kernel),
    C58.missed (cs := [(0, 0), (0, 0), (0, 0)]) (fuel := 300) (by decide) (by decide +kernel) (by decide +kernel) (by decide +kernel)⟩

/-- The same, calling `f` by `callbr`. -/
def C58.callbrEx : Tab := { C58.passed with callbr := [1] }

/-- C58: the same for `callbr`. -/
theorem C58_callbr_false : C58.callbrEx.prog.WF ∧ C58.callbrEx.prog.Plain ∧
    (∀ r, r ≠ .noCallBr → C58.callbrEx.prog.Obeys r) ∧ C58.Missed C58.callbrEx.prog 2 :=
  ⟨Tab.wf _ (by decide +kernel), Tab.plain _ (by decide +kernel), fun r hr => Tab.obeys _ (by revert hr; cases r <;> decide +kernel),
    C58.missed (cs := [(0, 0), (0, 0), (0, 0)]) (fuel := 300) (by decide) (by decide +kernel) (by decide +kernel) (by decide +kernel)⟩

/-- The same, with `f(...)` for `f`. -/
def C58.varargEx : Tab := { C58.passed with params := [] }

/-- C58: the same for an address that is passed as additional argument. -/
theorem C58_vararg_false : C58.varargEx.prog.WF ∧ C58.varargEx.prog.Plain ∧
    (∀ r, r ≠ .noVarArg → C58.varargEx.prog.Obeys r) ∧ C58.Missed C58.varargEx.prog 2 :=
  ⟨Tab.wf _ (by decide +kernel), Tab.plain _ (by decide +kernel), fun r hr => Tab.obeys _ (by revert hr; cases r <;> decide +kernel),
    C58.missed (cs := [(0, 0), (0, 0), (0, 0)]) (fuel := 300) (by decide) (by decide +kernel) (by decide +kernel) (by decide +kernel)⟩

/-- The same, with a declaration of `f`, for instance the intrinsic that marks the start of the life time of `x`. -/
def C58.lifetimeEx : Tab where
  rows := [{ fn := 0, succs := [1] }, { fn := 0, call := some ([1], [2]) }, { fn := 0, succs := [3] }, { fn := 0, exit := true }]
  insts := [.alloca .int, .call [.node 0], .load (.node 0), .ret (some (.node 2))]
  ptrs := [0, 20]
  params := [(1, [20])]
  decls := [1]

theorem C58.unaliased_of_no_store (h : ∀ n v ptr, p.inst n ≠ .store v ptr) (hc : ∀ k, p.isConst k = false) (t : CState) :
    p.Unaliased t :=
  ⟨fun g hg => (by rw [hc] at hg; cases hg), fun v ptr ℓ hi => absurd hi (h _ v ptr), fun v ptr ℓ hi => absurd hi (h _ v ptr)⟩

/-- C58: a variable whose address is passed to a function without a body, such as the intrinsic at the start of its life time, is
taken for initialized, although the states are all unaliased. -/
theorem C58_lifetime_false : C58.lifetimeEx.prog.WF ∧ (∀ t, C58.lifetimeEx.prog.Unaliased t) ∧
    (∀ r, r ≠ .inits → C58.lifetimeEx.prog.Obeys r) ∧ C58.Missed C58.lifetimeEx.prog 2 :=
  ⟨Tab.wf _ (by decide +kernel), C58.unaliased_of_no_store (fun n v ptr h => by
      match n with
      | 0 | 1 | 2 | 3 | n + 4 => cases h) (fun _ => rfl),
    fun r hr => Tab.obeys _ (by revert hr; cases r <;> decide +kernel),
    C58.missed (cs := [(0, 0), (0, 0)]) (fuel := 300) (by decide) (by decide +kernel) (by decide +kernel) (by decide +kernel)⟩

/-- `void f(int a) { … = -a; } int main() { f(undef); }` -/
def C58.argEx : Tab where
  rows := [{ fn := 0, call := some ([1], [1]) }, { fn := 0, exit := true }, { fn := 1, succs := [3] }, { fn := 1, exit := true }]
  insts := [.call [.undef 0], .ret none, .op [.node 20], .ret none]
  params := [(1, [20])]

/-- C58: an undefined literal that is passed to a function is not followed. -/
theorem C58_undef_arg_false : C58.argEx.prog.WF ∧ C58.argEx.prog.Plain ∧ (∀ r, r ≠ .args → C58.argEx.prog.Obeys r) ∧
    C58.Missed C58.argEx.prog 2 :=
  ⟨Tab.wf _ (by decide +kernel), Tab.plain _ (by decide +kernel), fun r hr => Tab.obeys _ (by revert hr; cases r <;> decide +kernel),
    C58.missed (cs := [(0, 0)]) (fuel := 300) (by decide) (by decide +kernel) (by decide +kernel) (by decide +kernel)⟩

/-- `int f() { return undef; } int main() { … = -f(); }` -/
def C58.retEx : Tab where
  rows := [{ fn := 0, call := some ([1], [1]) }, { fn := 0, succs := [2] }, { fn := 0, exit := true }, { fn := 1, exit := true }]
  insts := [.call [], .op [.node 0], .ret none, .ret (some (.undef 0))]

/-- C58: an undefined literal that a function returns is not followed. -/
theorem C58_undef_ret_false : C58.retEx.prog.WF ∧ C58.retEx.prog.Plain ∧ (∀ r, r ≠ .ret → C58.retEx.prog.Obeys r) ∧
    C58.Missed C58.retEx.prog 1 :=
  ⟨Tab.wf _ (by decide +kernel), Tab.plain _ (by decide +kernel), fun r hr => Tab.obeys _ (by revert hr; cases r <;> decide +kernel),
    C58.missed (cs := [(0, 0), (0, 0)]) (fuel := 300) (by decide) (by decide +kernel) (by decide +kernel) (by decide +kernel)⟩

/-- `int x = 1, *q = &x; *q = undef; return x;` -/
def C58.aliasEx : Tab where
  rows := [{ fn := 0, succs := [1] }, { fn := 0, succs := [2] }, { fn := 0, succs := [3] }, { fn := 0, succs := [4] },
    { fn := 0, succs := [5] }, { fn := 0, exit := true }]
  insts := [.alloca .int, .store (.lit 1) (.node 0), .gep (.node 0) [], .store (.undef 0) (.node 2), .load (.node 0),
    .ret (some (.node 4))]
  ptrs := [0, 2]

/-- C58: an undefined value that is stored through another pointer is not found. -/
theorem C58_alias_false : C58.aliasEx.prog.WF ∧ C58.aliasEx.prog.Fit ∧ C58.Missed C58.aliasEx.prog 4 :=
  ⟨Tab.wf _ (by decide +kernel), fun r => Tab.obeys _ (by cases r <;> decide +kernel),
    C58.missed (cs := List.replicate 4 (0, 0)) (fuel := 300) (by decide) (by decide +kernel) (by decide +kernel) (by decide +kernel)⟩

/-- `int g; void f() { int x; g = x; } int main() { f(); return g; }` -/
def C58.globalEx : Tab where
  rows := [{ fn := 0, call := some ([1], [1]) }, { fn := 0, succs := [2] }, { fn := 0, exit := true },
    { fn := 1, succs := [4] }, { fn := 1, succs := [5] }, { fn := 1, succs := [6] }, { fn := 1, exit := true }]
  insts := [.call [], .load (.node 30), .ret (some (.node 1)), .alloca .int, .load (.node 3), .store (.node 4) (.node 30), .ret none]
  consts := [30]
  ptrs := [3, 30]

/-- C58: an undefined value that a function stores in a global variable is not found after its return. -/
theorem C58_global_false : C58.globalEx.prog.WF ∧ C58.globalEx.prog.Fit ∧ C58.Missed C58.globalEx.prog 1 :=
  ⟨Tab.wf _ (by decide +kernel), fun r => Tab.obeys _ (by cases r <;> decide +kernel),
    C58.missed (cs := List.replicate 5 (0, 0)) (fuel := 300) (by decide) (by decide +kernel) (by decide +kernel) (by decide +kernel)⟩

/-- `int x; … = undef + x;` -/
def C58.maskEx : Tab where
  rows := [{ fn := 0, succs := [1] }, { fn := 0, succs := [2] }, { fn := 0, succs := [3] }, { fn := 0, exit := true }]
  insts := [.alloca .int, .load (.node 0), .op [.undef 0, .node 1], .ret none]
  ptrs := [0]

/-- C58: of the operands after an undefined literal, none is reported: in a plain program that obeys all restrictions the second
operand of an addition is undefined in an execution and only the first is reported. -/
theorem C58_masked_false : C58.maskEx.prog.WF ∧ C58.maskEx.prog.Plain ∧ C58.maskEx.prog.Fit ∧
    (∃ s t, C58.maskEx.prog.Init s ∧ C58.maskEx.prog.CSteps s t ∧ t.n = 2 ∧ C58.maskEx.prog.inst 2 = .op [.undef 0, .node 1] ∧
      C58.maskEx.prog.val t.regs (.node 1) = .undef) ∧
    (∀ w, ¬ C58.maskEx.prog.Reported w 2 (.node 1)) ∧
    ∃ st w, solve C58.maskEx.prog.problem 300 = some (st, w) ∧ C58.maskEx.prog.Reported w 2 (.undef 0) := by
  refine ⟨Tab.wf _ (by decide +kernel), Tab.plain _ (by decide +kernel), fun r => Tab.obeys _ (by cases r <;> decide +kernel),
    ?_, ?_, Tab.finds_sound (s := .zero) (by decide +kernel)⟩
  · have h : C58.maskEx.prog.exec [(0, 0), (0, 0)] (Tab.start 0) =
        some ⟨[], 2, updR (updR (fun _ => .data) 0 (.ptr (.obj 0))) 1 .undef, updM (fun _ => .data) (.obj 0) .undef, 1⟩ := rfl
    exact ⟨_, _, C58.maskEx.init (by decide), exec_sound _ (.refl _) h, rfl, rfl, rfl⟩
  · rintro w ⟨_, _, _, s, _, h⟩
    have : C58.maskEx.prog.firstUse 2 s = some (.undef 0) := by
      show List.find? _ [Val.undef 0, .node 1] = _
      rw [List.find?_cons_of_pos (by simp [Val.isUndef])]
    rw [this] at h
    cases h

/-- `int x; … = (&x == 0);` -/
def C58.addrEx : Tab where
  rows := [{ fn := 0, succs := [1] }, { fn := 0, succs := [2] }, { fn := 0, exit := true }]
  insts := [.alloca .int, .op [.node 0, .lit 0], .ret none]
  ptrs := [0]

theorem C58.addr_regs {s t : CState} (h0 : ∀ k, s.regs k ≠ .undef) (hs : s.stk = []) (h : C58.addrEx.prog.CSteps s t) :
    t.stk = [] ∧ ∀ k, t.regs k ≠ .undef := by
  induction h with
  | refl => exact ⟨hs, h0⟩
  | tail _ hst ih =>
    obtain ⟨i1, i2⟩ := ih
    have upd : ∀ {regs : Nat → RVal} {n : Nat} {x : RVal}, (∀ k, regs k ≠ .undef) → x ≠ .undef → ∀ k, updR regs n x k ≠ .undef := by
      intro regs n x h1 h2 k
      unfold updR
      split
      · exact h2
      · exact h1 k
    cases hst with
    | @normal stk n regs mem next n' x mem' next' hc hn he =>
      refine ⟨i1, upd i2 ?_⟩
      match n with
      | 0 => cases he with
        | alloca => intro e; cases e
        | _ h => cases h
      | 1 => cases he with
        | opData => intro e; cases e
        | op hi hv =>
          have hi : Inst.op [.node 0, .lit 0] = .op _ := hi
          cases hi
          rcases List.mem_cons.1 hv with rfl | hv
          · exact i2 0
          · rw [List.mem_singleton.1 hv]; intro e; cases e
        | _ h => cases h
      | n + 2 =>
        exfalso
        match n with
        | 0 => cases hn
        | n + 1 => cases hn
    | @call _ n _ _ _ _ _ _ hc =>
      exfalso
      match n with
      | 0 | 1 | 2 | n + 3 => cases hc
    | ret => cases i1
    | @ext _ n _ _ _ _ _ _ _ _ hc =>
      exfalso
      match n with
      | 0 | 1 | 2 | n + 3 => cases hc

/-- C58: the use of the address of an uninitialized variable is reported, though no execution of the program reads an undefined
value. -/
theorem C58_address_false : C58.addrEx.prog.WF ∧ C58.addrEx.prog.Fit ∧
    (∀ s t, C58.addrEx.prog.Init s → C58.addrEx.prog.CSteps s t → ¬ C58.addrEx.prog.ReadsUndef t) ∧
    ∃ st w, solve C58.addrEx.prog.problem 300 = some (st, w) ∧ C58.addrEx.prog.Reported w 1 (.node 0) := by
  refine ⟨Tab.wf _ (by decide +kernel), fun r => Tab.obeys _ (by cases r <;> decide +kernel), ?_,
    Tab.finds_sound (s := .node 0) (by decide +kernel)⟩
  intro s t hs hst hr
  obtain ⟨_, h⟩ := C58.addr_regs (fun k e => hs.regs k (by rw [e]; exact .undef)) hs.stk hst
  rcases hr with ⟨ops, hi, v, hv, e⟩ | ⟨ptr, hi, _⟩
  · have hi : C58.addrEx.inst t.n = .op ops := hi
    generalize t.n = n at hi
    match n with
    | 0 => cases hi
    | 1 =>
      cases hi
      rcases List.mem_cons.1 hv with rfl | hv
      · exact h 0 e
      · rw [List.mem_singleton.1 hv] at e; cases e
    | 2 => cases hi
    | n + 3 => cases hi; cases hv
  · have hi : C58.addrEx.inst t.n = .load ptr := hi
    generalize t.n = n at hi
    match n with
    | 0 | 1 | 2 | n + 3 => cases hi

/-- C58: uses without a source line are not in the report, also if there are no others; two uses in the same line of two functions
become one entry with one of the functions; and one line gives two entries if the map orders a use in another line in between. -/
theorem C58_aggregate_false : aggregate (fun _ => 0) (fun _ => 1) [0, 1] = [] ∧
    aggregate (fun _ => 3) (fun u => u) [0, 1] = [⟨3, 0, [0, 1]⟩] ∧
    aggregate (fun u => [3, 8, 3][u]?.getD 0) (fun _ => 1) [0, 1, 2] = [⟨3, 1, [0]⟩, ⟨8, 1, [1]⟩, ⟨3, 1, [2]⟩] := by decide

end Phasar.Uninit
