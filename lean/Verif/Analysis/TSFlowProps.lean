import Verif.Analysis.TSSim
import Verif.Analysis.TSTab
/-!
# C64: what the typestate analysis reports for programs
-/
set_option linter.unusedSectionVars false

namespace Phasar.TypeState
open JoinLat IDE FlowFn

namespace Prog
variable {S : Type} [DecidableEq S] {p : Prog S}

/-! ## The flow functions -/

/-- C64: the names: a type has the name of interest if the name occurs in it, in the name of a struct or in the text of another
type; a typed pointer is printed as its element type followed by a star. -/
theorem C64_names (t : Ty) : (p.matchName t = true ↔
    ∃ pre post, (∃ n, t = .struct n ∧ n.toList = pre ++ p.typeName.toList ++ post) ∨
      ((∀ n, t ≠ .struct n) ∧ t.text.toList = pre ++ p.typeName.toList ++ post)) ∧
    (Ty.ptr t).text.toList = t.text.toList ++ ['*'] ∧ (∀ n, (Ty.struct n).text.toList = '%' :: n.toList) := by
  have h : ∀ a b : String, hasSub a b = true ↔ ∃ pre post, a.toList = pre ++ b.toList ++ post := by
    intro a b
    unfold hasSub
    rw [List.any_eq_true]
    constructor
    · rintro ⟨i, _, h⟩
      rw [List.isPrefixOf_iff_prefix] at h
      obtain ⟨post, h⟩ := h
      exact ⟨a.toList.take i, post, by rw [List.append_assoc, h, List.take_append_drop]⟩
    · rintro ⟨pre, post, h⟩
      refine ⟨pre.length, List.mem_range.2 ?_, ?_⟩
      · rw [← String.length_toList, h]; simp; omega
      · rw [h, List.isPrefixOf_iff_prefix, List.append_assoc, List.drop_left]
        exact List.prefix_append _ _
  refine ⟨?_, by simp [Ty.text], fun n => by simp [Ty.text]⟩
  cases t <;> simp [matchName, h]

/-- C64: the values of matching type are those whose type is a pointer to a type with the name of interest in its printed name;
and, for the instructions that allocate, load and store pointers, opaque pointers whatever they point to. -/
theorem C64_matching (k : Nat) : p.matching k = true ↔
    (∃ e, p.ty k = .ptr e ∧ p.matchName e = true) ∨
    (∃ t, ((p.inst k = .alloca t) ∨ ((∃ q, p.inst k = .load q) ∧ p.ty k = t) ∨ (∃ v q, p.inst k = .store v q ∧ p.ty v = t)) ∧
      (t = .opaque ∨ ∃ e, t = .ptr e ∧ p.matchName e = true)) := by
  have h1 : ∀ t, p.matchTyped t = true ↔ ∃ e, t = .ptr e ∧ p.matchName e = true := by
    intro t; cases t <;> simp [matchTyped]
  have h2 : ∀ t, p.matchPtr t = true ↔ t = .opaque ∨ ∃ e, t = .ptr e ∧ p.matchName e = true := by
    intro t; cases t <;> simp [matchPtr]
  unfold matching
  by_cases h : p.matchTyped (p.ty k) = true
  · rw [if_pos h]; simp only [true_iff]; exact .inl ((h1 _).1 h)
  · rw [if_neg h]
    have hn : ¬ ∃ e, p.ty k = .ptr e ∧ p.matchName e = true := fun hh => h ((h1 _).2 hh)
    simp only [hn, false_or]
    cases hi : p.inst k with
    | alloca t => simp [h2]
    | load q => simp [h2]
    | store v q => simp [h2]
    | _ => simp

/-- C64: the relevant allocas of a value, for the alias sets given: the pointers its aliases of matching type are loaded from, and
those which are stored to, with a store of matching type, by an instruction that uses an alias (whether the alias is the
stored value or the pointer). -/
theorem C64_relevant (v k : Nat) : k ∈ p.relAllocas v ↔ ∃ a ∈ p.alias v,
    (p.inst a = .load k ∧ p.matching a = true) ∨
    ((∀ q, p.inst a ≠ .load q) ∧ ∃ u ∈ p.users a, ∃ w, p.inst u = .store w k ∧ p.matching u = true) := mem_rel

/-- C64: the facts behind an instruction that is no call.  A fact is kept unless a load or store of matching type overwrites it; an
`alloca` of matching type generates itself, a load generates its result from the pointer, a store generates the relevant
allocas of the pointer from the stored value. -/
theorem C64_normal (n : Nat) (s t : Val) : t ∈ p.normalFlow n s ↔
    (t = s ∧ ¬ (p.matching n = true ∧ ((∃ q, p.inst n = .load q ∧ q ≠ n ∧ s = .node n) ∨ (∃ v q, p.inst n = .store v q ∧ s = .node q)))) ∨
    (p.matching n = true ∧
      ((∃ ty, p.inst n = .alloca ty ∧ s = .zero ∧ t = .node n) ∨ (∃ q, p.inst n = .load q ∧ s = .node q ∧ t = .node n) ∨
       (∃ v q, p.inst n = .store v q ∧ v ≠ q ∧ s = .node v ∧ ∃ k ∈ p.relAllocas q, t = .node k))) := by
  unfold normalFlow
  have hid : t ∈ identityFlow s ↔ t = s := mem_identity
  by_cases hm : p.matching n = true
  · cases hi : p.inst n with
    | alloca ty => simp only [hm, if_true]; rw [mem_generate]; simp
    | load q =>
      simp only [hm, if_true]; rw [mem_transfer]
      simp only [true_and, Inst.load.injEq, reduceCtorEq, false_and, exists_false, or_false, false_or, exists_eq_left']
      grind
    | gep q =>
      have : (if p.matching q then lambdaFlow (fun s => FSet.ofList [s]) else identityFlow) s = identityFlow s := by
        split <;> rfl
      simp only [this, hid]; simp
    | store v q =>
      simp only [hm, if_true]; rw [mem_store]
      simp only [true_and, Inst.store.injEq, reduceCtorEq, false_and, exists_false, false_or]
      grind
    | _ => simp [hid]
  · cases hi : p.inst n with
    | gep q =>
      have : (if p.matching q then lambdaFlow (fun s => FSet.ofList [s]) else identityFlow) s = identityFlow s := by
        split <;> rfl
      simp only [this, hid, hm]; simp
    | _ => simp [hm, hid]

/-- C64: the facts at the start of a called function.  Nothing for functions of the API and declarations; otherwise zero, the global
variables, the parameters for the arguments (except an `sret` parameter), and the `va_list`s for further arguments. -/
theorem C64_call (n f : Nat) (s t : Val) : t ∈ p.callFlow n f s ↔ p.isAPI (p.name f) = false ∧ p.isDecl f = false ∧
    ((t = s ∧ (s = .zero ∨ ∃ k, s = .node k ∧ p.isGlobal k = true)) ∨
     (∃ i k a : Nat, (p.params f)[i]? = some k ∧ (p.args n)[i]? = some a ∧ s = .node a ∧ t = .node k ∧ ¬ (p.sret f = true ∧ i = 0)) ∨
     (∃ k ∈ p.vaLists f, t = .node k ∧ ∃ i a : Nat, (p.params f).length ≤ i ∧ (p.args n)[i]? = some a ∧ s = .node a)) := by
  unfold callFlow
  by_cases ha : p.isAPI (p.name f) = true
  · rw [if_pos ha]; simp [ha, killAllFlows]
  · rw [if_neg ha, C50_callee]
    have ha' : p.isAPI (p.name f) = false := by simpa using ha
    simp only [ha', true_and]
    refine and_congr Iff.rfl (or_congr ?_ (or_congr ?_ ?_))
    · refine and_congr Iff.rfl ?_
      cases s <;> simp [ir]
    · simp only [callee, List.getElem?_map, Option.map_eq_some_iff, decide_eq_true_eq]
      constructor
      · rintro ⟨i, a, ⟨k, hk, rfl⟩, ⟨b, hb, rfl⟩, rfl, h⟩
        exact ⟨i, k, b, hk, hb, rfl, rfl, h⟩
      · rintro ⟨i, k, b, hk, hb, rfl, rfl, h⟩
        exact ⟨i, .node b, ⟨k, hk, rfl⟩, ⟨b, hb, rfl⟩, rfl, h⟩
    · simp only [callee, List.length_map, List.mem_map, List.getElem?_map, Option.map_eq_some_iff, decide_eq_true_eq]
      constructor
      · rintro ⟨⟨k, hk, rfl⟩, i, a, hi, ⟨b, hb, rfl⟩, rfl⟩
        exact ⟨k, hk, rfl, i, b, hi, hb, rfl⟩
      · rintro ⟨k, hk, rfl, i, b, hi, hb, rfl⟩
        exact ⟨⟨k, hk, rfl⟩, i, .node b, hi, ⟨b, hb, rfl⟩, rfl⟩

/-- What a fact of the called function is for the caller: the argument of the parameter, the call for the returned value, the
further arguments for the last `va_list`. -/
inductive Back (p : Prog S) (c f e k : Nat) : Nat → Prop
  | param (i a : Nat) : (p.params f)[i]? = some k → (p.args c)[i]? = some a → Back p c f e k a
  | result : p.inst e = .ret (some k) → Back p c f e k c
  | further (i a : Nat) : p.isVarArg f = true → p.isDecl f = false → (p.vaLists f).getLast? = some k → (p.params f).length ≤ i →
      (p.args c)[i]? = some a → Back p c f e k a

/-- C64: the facts behind a return: zero for zero; for any other fact what it is for the caller, with the relevant allocas.  In
particular facts about global variables end here.  Partial: functions with variable arguments that have no `va_list`, for which the
code reads an uninitialized variable, are excluded; see `C64_vararg_false`. -/
theorem C64_ret_partial (c f e : Nat) (hva : p.isVarArg f = true → p.isDecl f = false → p.vaLists f ≠ []) (s : Val) :
    ∃ l, p.retFlow? c f e s = some l ∧ ∀ t, t ∈ l ↔ (s = .zero ∧ t = .zero) ∨
      ∃ k j i, s = .node k ∧ Back p c f e k j ∧ t = .node i ∧ (i = j ∨ i ∈ p.relAllocas j) := by
  cases s with
  | zero => exact ⟨_, rfl, fun t => by simp⟩
  | node k =>
    have hsome : ∃ va, p.allocVarArg f = some va ∧ ∀ j, va = some j ↔
        (p.isVarArg f = true ∧ p.isDecl f = false ∧ (p.vaLists f).getLast? = some j) := by
      unfold allocVarArg
      by_cases h : (p.isVarArg f && !p.isDecl f) = true
      · rw [if_pos h]
        rw [Bool.and_eq_true, Bool.not_eq_true'] at h
        cases hl : (p.vaLists f).getLast? with
        | some a => exact ⟨_, rfl, fun j => by simp [h.1, h.2]⟩
        | none => exact absurd (List.getLast?_eq_none_iff.1 hl) (hva h.1 h.2)
      · rw [if_neg h]
        rw [Bool.and_eq_true, Bool.not_eq_true'] at h
        exact ⟨_, rfl, fun j => ⟨nofun, fun h' => absurd ⟨h'.1, h'.2.1⟩ h⟩⟩
    obtain ⟨va, hva, hv⟩ := hsome
    refine ⟨p.retFlow c f e (.node k), by simp [retFlow, retFlow?, hva], fun t => ?_⟩
    rw [mem_ret hva]
    have hb : ∀ j, j ∈ p.retDirect c f e va k ↔ Back p c f e k j := by
      intro j
      unfold retDirect
      rw [List.mem_append, List.mem_append]
      constructor
      · rintro ((h | h) | h)
        · split at h
          · rename_i he
            obtain ⟨h1, h2, h3⟩ := (hv k).1 he
            obtain ⟨i, hi⟩ := List.mem_iff_getElem?.1 h
            rw [List.getElem?_drop] at hi
            exact .further _ _ h1 h2 h3 (Nat.le_add_right _ _) hi
          · cases h
        · obtain ⟨⟨q1, q2⟩, hq, h'⟩ := List.mem_filterMap.1 h
          obtain ⟨i, h1, h2⟩ := C50.mem_zip.1 hq
          simp only at h'
          split at h'
          · rename_i he
            injection h' with h'
            subst he; subst h'
            exact .param i _ h1 h2
          · cases h'
        · split at h
          · rename_i he
            rw [List.mem_singleton] at h
            subst h
            refine .result ?_
            unfold retVal at he
            split at he
            · rename_i hi; rw [hi, he]
            · cases he
          · cases h
      · intro h
        cases h with
        | param i _ h1 h2 => exact .inl (.inr (List.mem_filterMap.2 ⟨(k, j), C50.mem_zip.2 ⟨i, h1, h2⟩, by simp⟩))
        | result h => exact .inr (by simp [retVal, h])
        | further i _ h1 h2 h3 h4 h5 =>
          refine .inl (.inl ?_)
          rw [if_pos ((hv k).2 ⟨h1, h2, h3⟩)]
          refine List.mem_iff_getElem?.2 ⟨i - (p.params f).length, ?_⟩
          rw [List.getElem?_drop]
          rw [← h5]; congr 1; omega
    simp only [hb, reduceCtorEq, false_and, false_or, Val.node.injEq]
    constructor
    · rintro ⟨j, hj, i, rfl, hi⟩; exact ⟨k, j, i, rfl, hj, rfl, hi⟩
    · rintro ⟨_, j, i, rfl, hj, rfl, hi⟩; exact ⟨j, hj, i, rfl, hi⟩

/-- The callee does not decide what happens to the facts beside the call: it is no factory function, and if it is an analysed
function outside of the API then no argument is of matching type. -/
def Passed (p : Prog S) (n g : Nat) : Prop := p.desc.isFactory (p.name g) = false ∧
  (p.isAPI (p.name g) = false → p.isDecl g = false → ∀ a ∈ p.args n, p.matching a = false)

theorem C64.ctr_skip {n : Nat} {pre : List Nat} (h : ∀ g ∈ pre, Passed p n g) (rest : List Nat) (b : Bool) :
    p.ctrLoop n b (pre ++ rest) = p.ctrLoop n (b || pre.any p.isDecl) rest := by
  induction pre generalizing b with
  | nil => simp
  | cons g pre ih =>
    obtain ⟨h1, h2⟩ := h g List.mem_cons_self
    rw [List.cons_append]
    have ih := ih fun g' hg' => h g' (List.mem_cons_of_mem _ hg')
    have hr : p.ctrLoop n (b || p.isDecl g) (pre ++ rest) = p.ctrLoop n (b || (g :: pre).any p.isDecl) rest := by
      rw [ih]; simp [Bool.or_assoc]
    rw [ctrLoop, if_neg (by simp [h1])]
    split
    · rename_i hb
      simp only [Bool.and_eq_true, Bool.not_eq_true'] at hb
      have : (p.args n).find? p.matching = none := by
        rw [List.find?_eq_none]; intro a ha; simp [h2 hb.1 hb.2 a ha]
      rw [this]; exact hr
    · exact hr

/-- C64: the facts behind a call that do not go through the called functions.  The first callee that is a factory function or
that is an analysed function outside of the API, if some argument is of matching type, decides: a factory function generates the
result of the call and keeps the rest, the other kills the aliases and relevant allocas of the first such argument.  If there is
none, everything is kept if a declaration is called, and everything but the constants and zero otherwise. -/
theorem C64_over (n : Nat) (s t : Val) :
    (∀ pre f post, p.icf.callees n = pre ++ f :: post → (∀ g ∈ pre, Passed p n g) → p.desc.isFactory (p.name f) = true →
      (t ∈ p.ctrFlow n s ↔ t = s ∨ (s = .zero ∧ t = .node n))) ∧
    (∀ pre f post l a r, p.icf.callees n = pre ++ f :: post → (∀ g ∈ pre, Passed p n g) → p.desc.isFactory (p.name f) = false →
      p.isAPI (p.name f) = false → p.isDecl f = false → p.args n = l ++ a :: r → (∀ b ∈ l, p.matching b = false) →
      p.matching a = true → (t ∈ p.ctrFlow n s ↔ t = s ∧ ∀ k, s = .node k → k ∉ p.alias a ∧ k ∉ p.relAllocas a)) ∧
    ((∀ g ∈ p.icf.callees n, Passed p n g) → (t ∈ p.ctrFlow n s ↔ t = s ∧
      ((∃ g ∈ p.icf.callees n, p.isDecl g = true) ∨ ∃ k, s = .node k ∧ p.isGlobal k = false))) := by
  refine ⟨fun pre f post he hp hf => ?_, fun pre f post l a r he hp h1 h2 h3 ha hl hm => ?_, fun hp => ?_⟩
  · unfold ctrFlow
    rw [he, C64.ctr_skip hp, ctrLoop, if_pos hf]
    exact mem_generate
  · unfold ctrFlow
    rw [he, C64.ctr_skip hp, ctrLoop, if_neg (by simp [h1]), if_pos (by simp [h2, h3])]
    have : (p.args n).find? p.matching = some a := by
      rw [List.find?_eq_some_iff_append]
      exact ⟨hm, l, r, ha, fun b hb => by simp [hl b hb]⟩
    rw [this]
    show t ∈ killManyFlows _ s ↔ _
    rw [mem_killMany]
    refine and_congr Iff.rfl ?_
    unfold aliasesAndAllocas
    constructor
    · intro h k hk
      subst hk
      simpa [not_or] using h
    · intro h hm
      obtain ⟨k, hk, rfl⟩ := List.mem_map.1 hm
      rcases List.mem_append.1 hk with hk | hk
      · exact (h k rfl).1 hk
      · exact (h k rfl).2 hk
  · unfold ctrFlow
    have := C64.ctr_skip hp [] false
    rw [List.append_nil, Bool.false_or] at this
    rw [this, ctrLoop]
    split
    · rename_i h
      rw [mem_identity]
      have : ∃ g ∈ p.icf.callees n, p.isDecl g = true := by simpa using h
      simp [this]
    · rename_i h
      rw [mem_killIf]
      have : ¬ ∃ g ∈ p.icf.callees n, p.isDecl g = true := by simpa using h
      simp only [this, false_or]
      refine and_congr Iff.rfl ?_
      cases s <;> simp [ir]

/-- C64: the edge functions.  An `alloca` of matching type that generates itself sets the uninitialized state.  Beside a call, the
first callee decides which is a factory function, if the call is generated from zero, or a consuming function, if the fact is
kept and is an alias or a relevant alloca of a consumed argument: the factory function sets the next state of the uninitialized
one, the consuming function makes the transition of the automaton.  All other edges are the identity. -/
theorem C64_edges (hr : Regular p.desc) (n : Nat) (d d' : Val) :
    ((∃ t, p.inst n = .alloca t) ∧ p.matching n = true ∧ d = .zero ∧ d' = .node n → p.normalEdge n d d' = .const p.desc.uninit) ∧
    (¬ ((∃ t, p.inst n = .alloca t) ∧ p.matching n = true ∧ d = .zero ∧ d' = .node n) → p.normalEdge n d d' = .id) ∧
    (∀ i, p.consumed n d d' i = true ↔ d = d' ∧ ∃ a k, (p.args n)[i]? = some a ∧ d = .node k ∧ (k ∈ p.alias a ∨ k ∈ p.relAllocas a)) ∧
    ((d = .zero ∧ d' = .node n) → ∀ pre f post, p.icf.callees n = pre ++ f :: post →
      (∀ g ∈ pre, p.desc.isFactory (p.name g) = false) → p.desc.isFactory (p.name f) = true →
      ∃ s', p.desc.next (p.name f) p.desc.uninit n = some s' ∧ p.ctrEdge n d d' = .const s') ∧
    (¬ (d = .zero ∧ d' = .node n) → ∀ pre f post, p.icf.callees n = pre ++ f :: post →
      (∀ g ∈ pre, ¬ (p.desc.isConsuming (p.name g) = true ∧ ∃ i ∈ p.desc.consumerParamIdx (p.name g), p.consumed n d d' i = true)) →
      p.desc.isConsuming (p.name f) = true → (∃ i ∈ p.desc.consumerParamIdx (p.name f), p.consumed n d d' i = true) →
      p.ctrEdge n d d' = .ts (p.name f) n) ∧
    ((∀ g ∈ p.icf.callees n, ¬ (p.desc.isFactory (p.name g) = true ∧ d = .zero ∧ d' = .node n) ∧
      ¬ (p.desc.isConsuming (p.name g) = true ∧ ∃ i ∈ p.desc.consumerParamIdx (p.name g), p.consumed n d d' i = true)) →
      p.ctrEdge n d d' = .id) := by
  have hcons : ∀ i, p.consumed n d d' i = true ↔ d = d' ∧ ∃ a k, (p.args n)[i]? = some a ∧ d = .node k ∧
      (k ∈ p.alias a ∨ k ∈ p.relAllocas a) := by
    intro i
    unfold consumed
    cases ha : (p.args n)[i]? with
    | none => simp
    | some a =>
      simp only [Bool.and_eq_true, decide_eq_true_eq, List.contains_eq_mem, List.mem_map, aliasesAndAllocas, List.mem_append]
      refine and_congr Iff.rfl ?_
      constructor
      · rintro ⟨k, hk, rfl⟩; exact ⟨a, k, rfl, rfl, hk⟩
      · rintro ⟨_, k, e, rfl, hk⟩; cases e; exact ⟨k, hk, rfl⟩
  refine ⟨?_, ?_, hcons, fun hz pre f post he hp hf => ?_, fun hz pre f post he hp hf hc => ?_, fun hp => ?_⟩
  · rintro ⟨⟨t, ht⟩, hm, h1, h2⟩
    simp [normalEdge, TypeState.normalEdge, ht, hm, h1, h2]
  · intro h
    unfold normalEdge TypeState.normalEdge
    cases hi : p.inst n with
    | alloca t =>
      have h' : ¬ (p.matching n = true ∧ d = .zero ∧ d' = .node n) := fun h' => h ⟨⟨t, hi⟩, h'⟩
      simpa [and_assoc] using h'
    | _ => simp
  · obtain ⟨s', hs⟩ := hr.factory (p.name f) n hf
    refine ⟨s', hs, ?_⟩
    have hno : ∀ i, p.consumed n d d' i = false := by
      intro i
      rw [← Bool.not_eq_true, hcons]
      rintro ⟨h, _⟩
      rw [hz.1, hz.2] at h; cases h
    have := (C38_call_edge p.desc n true (p.consumed n d d') (pre.map p.name) (p.name f) (post.map p.name) (by
      intro g hg
      obtain ⟨g', hg', rfl⟩ := List.mem_map.1 hg
      exact ⟨by simp [hp g' hg'], by simp [hno]⟩)).1 hf rfl s' hs
    unfold ctrEdge
    have hq : (decide (d = Val.zero) && decide (d' = Val.node n)) = true := by simp [hz]
    rw [hq, he, List.map_append, List.map_cons, this]; rfl
  · have hq : (decide (d = Val.zero) && decide (d' = Val.node n)) = false := by
      rw [← Bool.not_eq_true]; simpa using hz
    have := (C38_call_edge p.desc n false (p.consumed n d d') (pre.map p.name) (p.name f) (post.map p.name) (by
      intro g hg
      obtain ⟨g', hg', rfl⟩ := List.mem_map.1 hg
      exact ⟨by simp, hp g' hg'⟩)).2.1 rfl hf hc
    unfold ctrEdge
    rw [hq, he, List.map_append, List.map_cons, this]; rfl
  · have := (C38_call_edge p.desc n (decide (d = Val.zero) && decide (d' = Val.node n)) (p.consumed n d d')
      ((p.icf.callees n).map p.name) "" [] (by
      intro g hg
      obtain ⟨g', hg', rfl⟩ := List.mem_map.1 hg
      exact ⟨by simpa using (hp g' hg').1, (hp g' hg').2⟩)).2.2
    unfold ctrEdge
    rw [this]; rfl

/-! ## The caches -/

/-- The caches after any sequence of queries. -/
inductive Cached (p : Prog S) : Cache → Prop
  | empty : Cached p ⟨[], []⟩
  | alias {c : Cache} (v : Nat) : Cached p c → Cached p (p.getWMAliasSet c v).2
  | rel {c : Cache} (v : Nat) : Cached p c → Cached p (p.getRelevantAllocas c v).2
  | both {c : Cache} (v : Nat) : Cached p c → Cached p (p.getWMAliasesAndAllocas c v).2

/-- The alias sets are classes: aliases have the same aliases. -/
def Classes (p : Prog S) : Prop := ∀ v, ∀ a ∈ p.alias v, ∀ x, x ∈ p.alias a ↔ x ∈ p.alias v

/-- The entries of the caches are what the queries would give. -/
def C64.Right (p : Prog S) (c : Cache) : Prop :=
  (∀ v s, c.alias.lookup v = some s → ∀ x, x ∈ s ↔ x ∈ p.alias v) ∧
  (∀ v s, c.rel.lookup v = some s → ∀ x, x ∈ s ↔ x ∈ p.relAllocas v)

theorem C64.rel_congr {as bs : List Nat} (h : ∀ x, x ∈ as ↔ x ∈ bs) (k : Nat) : k ∈ p.relOf as ↔ k ∈ p.relOf bs := by
  rw [mem_rel, mem_rel]
  exact exists_congr fun a => and_congr (h a) Iff.rfl

theorem C64.lookup_fold {q : Nat → Bool} {r : List Nat} (l : List Nat) (m : List (Nat × List Nat)) (v : Nat) (s : List Nat)
    (h : (l.foldl (fun m a => if q a then (a, r) :: m else m) m).lookup v = some s) : (v ∈ l ∧ s = r) ∨ m.lookup v = some s := by
  induction l generalizing m with
  | nil => exact .inr h
  | cons a l ih =>
    rw [List.foldl_cons] at h
    rcases ih _ h with ⟨h1, h2⟩ | h'
    · exact .inl ⟨List.mem_cons_of_mem _ h1, h2⟩
    · split at h'
      · rw [List.lookup_cons] at h'
        split at h'
        · rename_i he
          injection h' with h'
          have := eq_of_beq he
          subst this
          exact .inl ⟨List.mem_cons_self, h'.symm⟩
        · exact .inr h'
      · exact .inr h'

theorem C64.alias_right (hc : p.Classes) {c : Cache} (h : C64.Right p c) (v : Nat) :
    C64.Right p (p.getWMAliasSet c v).2 ∧ ∀ x, x ∈ (p.getWMAliasSet c v).1 ↔ x ∈ p.alias v := by
  unfold getWMAliasSet
  cases hl : c.alias.lookup v with
  | some s => exact ⟨h, h.1 v s hl⟩
  | none =>
    refine ⟨⟨fun w s hs => ?_, h.2⟩, fun x => Iff.rfl⟩
    rcases C64.lookup_fold _ _ _ _ hs with ⟨h1, rfl⟩ | hs
    · exact fun x => (hc v w h1 x).symm
    · exact h.1 w s hs

theorem C64.rel_right (hc : p.Classes) {c : Cache} (h : C64.Right p c) (v : Nat) :
    C64.Right p (p.getRelevantAllocas c v).2 ∧ ∀ x, x ∈ (p.getRelevantAllocas c v).1 ↔ x ∈ p.relAllocas v := by
  unfold getRelevantAllocas
  cases hl : c.rel.lookup v with
  | some s => exact ⟨h, h.2 v s hl⟩
  | none =>
    obtain ⟨h1, h2⟩ := C64.alias_right hc h v
    have h3 : ∀ x, x ∈ p.relOf (p.getWMAliasSet c v).1 ↔ x ∈ p.relAllocas v := C64.rel_congr h2
    refine ⟨⟨h1.1, fun w s hs => ?_⟩, h3⟩
    have hs' := C64.lookup_fold (q := fun _ => true) _ _ _ _ (by simpa using hs)
    rcases hs' with ⟨hw, rfl⟩ | hs'
    · intro x
      rw [h3]
      exact C64.rel_congr (fun y => (hc v w ((h2 w).1 hw) y).symm) x
    · exact h1.2 w s hs'

theorem C64.both_right (hc : p.Classes) {c : Cache} (h : C64.Right p c) (v : Nat) :
    C64.Right p (p.getWMAliasesAndAllocas c v).2 ∧ ∀ x, x ∈ (p.getWMAliasesAndAllocas c v).1 ↔ x ∈ p.aliasesAndAllocas v := by
  unfold getWMAliasesAndAllocas aliasesAndAllocas
  obtain ⟨h1, h2⟩ := C64.rel_right hc h v
  obtain ⟨h3, h4⟩ := C64.alias_right hc h1 v
  exact ⟨h3, fun x => by rw [List.mem_append, List.mem_append, h2, h4]⟩

theorem C64.lookup_fold_eq {q : Nat → Bool} {r : List Nat} (l : List Nat) (m : List (Nat × List Nat)) (v : Nat) :
    (v ∈ l ∧ q v = true → (l.foldl (fun m a => if q a then (a, r) :: m else m) m).lookup v = some r) ∧
    (¬ (v ∈ l ∧ q v = true) → (l.foldl (fun m a => if q a then (a, r) :: m else m) m).lookup v = m.lookup v) := by
  induction l generalizing m with
  | nil => exact ⟨fun h => (nomatch h.1), fun _ => rfl⟩
  | cons a l ih =>
    rw [List.foldl_cons]
    obtain ⟨i1, i2⟩ := ih (if q a then (a, r) :: m else m)
    by_cases hl : v ∈ l ∧ q v = true
    · exact ⟨fun _ => i1 hl, fun h => absurd ⟨List.mem_cons_of_mem _ hl.1, hl.2⟩ h⟩
    · rw [i2 hl]
      by_cases hva : v = a
      · subst hva
        by_cases hq : q v = true
        · exact ⟨fun _ => by simp [hq], fun h => absurd ⟨List.mem_cons_self, hq⟩ h⟩
        · exact ⟨fun h => absurd h.2 hq, fun _ => by simp [hq]⟩
      · refine ⟨fun h => ?_, fun _ => ?_⟩
        · rcases List.mem_cons.1 h.1 with h1 | h1
          · exact absurd h1 hva
          · exact absurd ⟨h1, h.2⟩ hl
        · split
          · rw [List.lookup_cons, show (v == a) = false by simpa using hva]
          · rfl

/-- C64: what a query adds to the caches.  A query that is not answered by the cache asks the alias information once; the answer is stored
for its members of matching type, and no other entry changes.  The relevant allocas computed from it are stored for all its members. -/
theorem C64_cached (c : Cache) (v w : Nat) :
    (∀ s, c.alias.lookup v = some s → p.getWMAliasSet c v = (s, c)) ∧
    (c.alias.lookup v = none → (p.getWMAliasSet c v).1 = p.alias v ∧ (p.getWMAliasSet c v).2.rel = c.rel ∧
      (w ∈ p.alias v ∧ p.matching w = true → (p.getWMAliasSet c v).2.alias.lookup w = some (p.alias v)) ∧
      (¬ (w ∈ p.alias v ∧ p.matching w = true) → (p.getWMAliasSet c v).2.alias.lookup w = c.alias.lookup w)) ∧
    (c.rel.lookup v = none → (w ∈ (p.getWMAliasSet c v).1 →
        (p.getRelevantAllocas c v).2.rel.lookup w = some (p.relOf (p.getWMAliasSet c v).1)) ∧
      (w ∉ (p.getWMAliasSet c v).1 → (p.getRelevantAllocas c v).2.rel.lookup w = c.rel.lookup w) ∧
      (p.getRelevantAllocas c v).2.alias = (p.getWMAliasSet c v).2.alias) := by
  have hrel : (p.getWMAliasSet c v).2.rel = c.rel := by
    unfold getWMAliasSet; cases c.alias.lookup v <;> rfl
  refine ⟨fun s h => by unfold getWMAliasSet; rw [h], fun h => ⟨by unfold getWMAliasSet; rw [h], hrel, ?_⟩, fun h => ?_⟩
  · have := C64.lookup_fold_eq (q := p.matching) (r := p.alias v) (p.alias v) c.alias w
    unfold getWMAliasSet; rw [h]; exact this
  · have := C64.lookup_fold_eq (q := fun _ => true) (r := p.relOf (p.getWMAliasSet c v).1) (p.getWMAliasSet c v).1
      (p.getWMAliasSet c v).2.rel w
    unfold getRelevantAllocas; rw [h]
    simp only [and_true, if_true, hrel] at this
    exact ⟨fun hw => by simpa [hrel] using this.1 hw, fun hw => by simpa [hrel] using this.2 hw, rfl⟩

/-- C64: the caches do not change the answers, if the alias information answers with the classes of an equivalence relation (and
does not change while the analysis runs, which the model assumes).  Partial because of that; see `C64_caches_false`. -/
theorem C64_caches_partial (hc : p.Classes) {c : Cache} (h : Cached p c) (v : Nat) :
    (∀ x, x ∈ (p.getWMAliasSet c v).1 ↔ x ∈ p.alias v) ∧ (∀ x, x ∈ (p.getRelevantAllocas c v).1 ↔ x ∈ p.relAllocas v) ∧
    (∀ x, x ∈ (p.getWMAliasesAndAllocas c v).1 ↔ x ∈ p.aliasesAndAllocas v) := by
  have : C64.Right p c := by
    induction h with
    | empty => exact ⟨fun _ _ h => (nomatch h), fun _ _ h => (nomatch h)⟩
    | alias v _ ih => exact (C64.alias_right hc ih v).1
    | rel v _ ih => exact (C64.rel_right hc ih v).1
    | both v _ ih => exact (C64.both_right hc ih v).1
  exact ⟨(C64.alias_right hc this v).2, (C64.rel_right hc this v).2, (C64.both_right hc this v).2⟩

/-! ## Soundness -/

variable [JoinLat S]

/-- C64: for every execution and every variable that is kept and points to an object of the type, there is a result at the statement
the execution is at, and it describes the state of the object: it is this state, or bottom.  With and without `autoAddZero`.  It is
partial because of the requirements on the program (`WF`), on the alias information (`AliasOk`: the aliases of a consumed argument must
be exactly the variables that point to the same object), on the type state description (`Regular`), and because of the variables
that cannot be kept; the claim is false without them, see below. -/
theorem C64_sound_partial (hl : Lawful p.desc) (hr : Regular p.desc) (hwf : p.WF) {keep : Nat → Nat → Bool} (hk : p.Keeps keep)
    (hal : p.AliasOk keep) (z : Bool) {st : St Nat Val (EF S)} {vs : VS Nat Val S} (h : Solved (p.input z) st vs) {t : CState S}
    (ht : p.Reached keep t) (k o : Nat) (ho : t.loc k = some o) :
    ∃ x, resultAt vs t.n (.node k) = some x ∧ Describes p.desc x (t.st o) := by
  obtain ⟨x, hx, hd⟩ := (inv_reached hr hwf hk hal ht).cov.cells k o ho
  obtain ⟨y, hy, hle⟩ := C02_sound (ok := EF.Ok p.desc) (by rw [input_alg]; exact alg_sound hl hr) (ok_edges hr z)
    (by rw [input_icf]; exact hwf.icf) (no_top hl hr z) (seeds_at_start hwf z) h t.n (.node k) x (input_run z hx)
  exact ⟨y, hy, describes_mono hl hr hle hd⟩

/-- C64: statements that some execution reaches are not reported as unreachable. -/
theorem C64_reached (hl : Lawful p.desc) (hr : Regular p.desc) (hwf : p.WF) {keep : Nat → Nat → Bool} (hk : p.Keeps keep)
    (hal : p.AliasOk keep) (z : Bool) {st : St Nat Val (EF S)} {vs : VS Nat Val S} (h : Solved (p.input z) st vs) {t : CState S}
    (ht : p.Reached keep t) : resultAt vs t.n .zero = some p.desc.bottom := by
  obtain ⟨y, hy, hle⟩ := C02_sound (ok := EF.Ok p.desc) (by rw [input_alg]; exact alg_sound hl hr) (ok_edges hr z)
    (by rw [input_icf]; exact hwf.icf) (no_top hl hr z) (seeds_at_start hwf z) h t.n .zero p.desc.bottom
    (input_run z (inv_reached hr hwf hk hal ht).cov.zero)
  rw [le_iff hl hr.distinct] at hle
  rcases hle with h | rfl | rfl
  · exact absurd h hr.distinct
  · exact hy
  · exact hy

/-- C64: what is reported.  If an execution is at a statement while an `alloca` that is kept points to an object in the error state,
then the report lists the `alloca` for this statement, or the result for it is bottom.  Partial as above, and because of the second case,
in which nothing is reported: see `C64_report_false`. -/
theorem C64_report_partial (hl : Lawful p.desc) (hr : Regular p.desc) (hwf : p.WF) {keep : Nat → Nat → Bool} (hk : p.Keeps keep)
    (hal : p.AliasOk keep) (z : Bool) {st : St Nat Val (EF S)} {vs : VS Nat Val S} (h : Solved (p.input z) st vs) {t : CState S}
    (ht : p.Reached keep t) (k o : Nat) (ho : t.loc k = some o) (ha : ∃ ty, p.inst k = .alloca ty) (he : t.st o = p.error)
    {res : List (Val × S)} (hres : ∀ d x, (d, x) ∈ res ↔ d ≠ .zero ∧ resultAt vs t.n d = some x) :
    (t.n, k) ∈ p.reports t.n res ∨ resultAt vs t.n (.node k) = some p.desc.bottom := by
  obtain ⟨x, hx, _, rfl | rfl⟩ := C64_sound_partial hl hr hwf hk hal z h ht k o ho
  · left
    obtain ⟨ty, hty⟩ := ha
    exact List.mem_filterMap.2 ⟨(.node k, t.st o), (hres _ _).2 ⟨nofun, hx⟩, by simp [isAlloca, hty, he]⟩
  · exact .inr hx

/-- C64: what is reported are allocas whose result at the statement is the error state. -/
theorem C64_reported (n k : Nat) {vs : VS Nat Val S} {res : List (Val × S)}
    (hres : ∀ d x, (d, x) ∈ res ↔ d ≠ .zero ∧ resultAt vs n d = some x) (m : Nat) :
    (m, k) ∈ p.reports n res ↔ m = n ∧ (∃ ty, p.inst k = .alloca ty) ∧ resultAt vs n (.node k) = some p.error := by
  have hal : p.isAlloca k = true ↔ ∃ ty, p.inst k = .alloca ty := by
    unfold isAlloca
    cases p.inst k <;> simp
  unfold reports
  rw [List.mem_filterMap]
  constructor
  · rintro ⟨⟨d, x⟩, hm, h⟩
    cases d with
    | zero => cases h
    | node j =>
      simp only at h
      split at h
      · rename_i hc
        injection h with h
        injection h with h1 h2
        subst h1; subst h2
        rw [Bool.and_eq_true, decide_eq_true_eq] at hc
        rw [← hal]
        refine ⟨rfl, hc.1, ?_⟩
        rw [((hres _ _).1 hm).2, hc.2]
      · cases h
  · rintro ⟨rfl, h1, h2⟩
    exact ⟨(.node k, p.error), (hres _ _).2 ⟨nofun, h2⟩, by simp [hal.2 h1]⟩

/-! ## Termination -/

/-- The program is finite: the statements `N` and the variables `K` are all that can be reached. -/
structure Bounded (p : Prog S) (N K : List Nat) : Prop where
  entries : ∀ n ∈ p.entries, n ∈ N
  succs : ∀ n ∈ N, ∀ n' ∈ p.icf.succs n, n' ∈ N
  starts : ∀ n ∈ N, ∀ f ∈ p.icf.callees n, ∀ sp ∈ p.icf.starts f, sp ∈ N
  rets : ∀ n ∈ N, ∀ r ∈ p.icf.retSites n, r ∈ N
  results : ∀ n ∈ N, n ∈ K
  args : ∀ n ∈ N, ∀ a ∈ p.args n, a ∈ K
  params : ∀ n ∈ N, ∀ f ∈ p.icf.callees n, ∀ k ∈ p.params f ++ p.vaLists f, k ∈ K
  allocas : ∀ v k, k ∈ p.relAllocas v → k ∈ K

theorem C64.reach_bounded {N K : List Nat} (hb : p.Bounded N K) (z : Bool) {n : Nat} {d : Val}
    (h : FactReachable (p.input z) n d) : n ∈ N ∧ (d = .zero ∨ ∃ k ∈ K, d = .node k) := by
  obtain ⟨n0, d0, stk, hseed, hr⟩ := h
  have key : ∀ a b, FSteps (p.input z) a b → (∀ c ∈ a.1, c ∈ N) → a.2.1 ∈ N → (a.2.2 = .zero ∨ ∃ k ∈ K, a.2.2 = .node k) →
      (∀ c ∈ b.1, c ∈ N) ∧ b.2.1 ∈ N ∧ (b.2.2 = .zero ∨ ∃ k ∈ K, b.2.2 = .node k) := by
    intro a b hab h1 h2 h3
    induction hab with
    | refl => exact ⟨h1, h2, h3⟩
    | tail _ hst ih =>
      obtain ⟨i1, i2, i3⟩ := ih
      cases hst with
      | @normal stk n d n' d' hc hn hd =>
        rw [input_icf] at hn
        refine ⟨i1, hb.succs n i2 n' hn, ?_⟩
        have hd : d' ∈ p.normalFlow n d ∨ d' = .zero := by
          cases z
          · exact .inl hd
          · exact of_zeroed hd
        rcases hd with hd | rfl
        · rcases (C64_normal ..).1 hd with ⟨rfl, _⟩ | ⟨_, ⟨_, _, _, rfl⟩ | ⟨_, _, _, rfl⟩ | ⟨_, q, _, _, _, k, hk, rfl⟩⟩
          · exact i3
          · exact .inr ⟨n, hb.results n i2, rfl⟩
          · exact .inr ⟨n, hb.results n i2, rfl⟩
          · exact .inr ⟨k, hb.allocas q k hk, rfl⟩
        · exact .inl rfl
      | @call stk n d g sp d' hc hg hsum hsp hd =>
        rw [input_icf] at hg hsp
        refine ⟨fun c hc => ?_, hb.starts n i2 g hg sp hsp, ?_⟩
        · rcases List.mem_cons.1 hc with rfl | hc
          · exact i2
          · exact i1 c hc
        · have hd : d' ∈ p.callFlow n g d ∨ d' = .zero := by
            cases z
            · exact .inl hd
            · exact of_zeroed hd
          rcases hd with hd | rfl
          · rcases ((C64_call ..).1 hd).2.2 with ⟨rfl, _⟩ | ⟨i, k, a, hk, _, _, rfl, _⟩ | ⟨k, hk, rfl, _⟩
            · exact i3
            · exact .inr ⟨k, hb.params n i2 g hg k (List.mem_append_left _ (List.mem_of_getElem? hk)), rfl⟩
            · exact .inr ⟨k, hb.params n i2 g hg k (List.mem_append_right _ hk), rfl⟩
          · exact .inl rfl
      | @ret stk c n d r d' hc hex hr hd =>
        rw [input_icf] at hr hd
        have hcN := i1 c List.mem_cons_self
        refine ⟨fun c' hc' => i1 c' (List.mem_cons_of_mem _ hc'), hb.rets c hcN r hr, ?_⟩
        have hd : d' ∈ p.retFlow c (p.icf.funOf n) n d ∨ d' = .zero := by
          cases z
          · exact .inl hd
          · exact of_zeroed hd
        rcases hd with hd | rfl
        · cases d with
          | zero => simp [retFlow, retFlow?] at hd; exact .inl hd
          | node k =>
            cases hva : p.allocVarArg (p.icf.funOf n) with
            | none => simp [retFlow, retFlow?, hva] at hd
            | some va =>
              obtain ⟨j, hj, i, rfl, rfl | hi⟩ := (mem_ret hva).1 hd
              · refine .inr ⟨i, ?_, rfl⟩
                unfold retDirect at hj
                rw [List.mem_append, List.mem_append] at hj
                rcases hj with (hj | hj) | hj
                · split at hj
                  · exact hb.args c hcN i (List.mem_of_mem_drop hj)
                  · cases hj
                · obtain ⟨q, hq, h⟩ := List.mem_filterMap.1 hj
                  split at h
                  · injection h with h; subst h; exact hb.args c hcN _ (List.of_mem_zip hq).2
                  · cases h
                · split at hj
                  · rw [List.mem_singleton] at hj; subst hj; exact hb.results _ hcN
                  · cases hj
              · exact .inr ⟨i, hb.allocas j i hi, rfl⟩
        · exact .inl rfl
      | @callToRet stk n d r d' hc hr hd =>
        rw [input_icf] at hr
        refine ⟨i1, hb.rets n i2 r hr, ?_⟩
        have hd : d' ∈ p.ctrFlow n d ∨ d' = .zero := by
          cases z
          · exact .inl hd
          · exact of_zeroed hd
        rcases hd with hd | rfl
        · have key : ∀ l b, d' ∈ p.ctrLoop n b l d → d' = d ∨ d' = .node n := by
            intro l
            induction l with
            | nil =>
              intro b h
              unfold ctrLoop at h
              split at h
              · exact .inl (mem_identity.1 h)
              · exact .inl (mem_killIf.1 h).1
            | cons f l ih =>
              intro b h
              unfold ctrLoop at h
              split at h
              · rcases mem_generate.1 h with h | ⟨_, h⟩
                · exact .inl h
                · exact .inr h
              · split at h
                · cases ha : (p.args n).find? p.matching with
                  | some a => rw [ha] at h; exact .inl (mem_killMany.1 h).1
                  | none => rw [ha] at h; exact ih _ h
                · exact ih _ h
          rcases key _ _ hd with rfl | rfl
          · exact i3
          · exact .inr ⟨n, hb.results n i2, rfl⟩
        · exact .inl rfl
      | @summary stk n d g sum r d' hc hg hsum hr hd =>
        have : p.problem.summaryFlow n g = some sum := by cases z <;> exact hsum
        cases this
  have hseed : ∃ facts, (n0, facts) ∈ p.problem.seeds ∧ (d0 ∈ facts.map Prod.fst ∨ d0 = .zero) := by
    obtain ⟨facts, h1, h2⟩ := hseed
    exact ⟨facts, by cases z <;> exact h1, by cases z <;> exact h2⟩
  obtain ⟨facts, hs, hd0⟩ := hseed
  obtain ⟨sp, hsp, e⟩ := List.mem_map.1 hs
  cases e
  have := key _ _ hr (fun c hc => absurd hc List.not_mem_nil) (hb.entries _ hsp) (by
    rcases hd0 with hd0 | hd0
    · left; simpa using hd0
    · exact .inl hd0)
  exact this.2

/-- C64: the solver terminates for this analysis on every finite program. -/
theorem C64_terminates (hl : Lawful p.desc) (hr : Regular p.desc) (hwf : p.WF) (huniq : p.icf.UniqueStart) {N K : List Nat}
    (hb : p.Bounded N K) (z : Bool) :
    Acc (fun t s => SStep (p.input z) s t) (init (p.input z)) ∧
    (∀ s, Reach (p.input z) s → Acc (fun w v => VStep (p.input z) s v w) (submitInitialValues (p.input z) s)) ∧
    ∃ fuel s w, solve (p.input z) fuel = some (s, w) := by
  refine C05_terminates_reachable (ok := EF.Ok p.desc) (by rw [input_alg]; exact (alg_sound hl hr).okClosed) (ok_edges hr z)
    (by rw [input_icf]; exact hwf.icf) (by rw [input_icf]; exact huniq) (by cases z <;> rfl) (seeds_at_start hwf z) ?_
    (by rw [input_alg]; exact alg_finite) (v_finite hl hr.distinct)
    (N.flatMap fun n => (Val.zero :: K.map .node).map fun d => (n, d)) fun n d h => ?_
  · intro n g sm hg hs
    have : p.problem.summaryFlow n g = some sm := by cases z <;> exact hs
    cases this
  · obtain ⟨h1, h2⟩ := C64.reach_bounded hb z h
    refine List.mem_flatMap.2 ⟨n, h1, List.mem_map.2 ⟨d, ?_, rfl⟩⟩
    rcases h2 with rfl | ⟨k, hk, rfl⟩
    · exact List.mem_cons_self
    · exact List.mem_cons_of_mem _ (List.mem_map.2 ⟨k, hk, rfl⟩)

/-- C64: on every finite program that meets the requirements the solver stops, and its results describe every execution. -/
theorem C64_analysis_partial (hl : Lawful p.desc) (hr : Regular p.desc) (hwf : p.WF) (huniq : p.icf.UniqueStart) {N K : List Nat}
    (hb : p.Bounded N K) {keep : Nat → Nat → Bool} (hk : p.Keeps keep) (hal : p.AliasOk keep) (z : Bool) :
    ∃ fuel s w, solve (p.input z) fuel = some (s, w) ∧ ∀ t, p.Reached keep t → resultAt w t.n .zero = some p.desc.bottom ∧
      ∀ k o, t.loc k = some o → ∃ x, resultAt w t.n (.node k) = some x ∧ Describes p.desc x (t.st o) := by
  obtain ⟨_, _, fuel, s, w, h⟩ := C64_terminates hl hr hwf huniq hb z
  exact ⟨fuel, s, w, h, fun t ht => ⟨C64_reached hl hr hwf hk hal z (solve_sound h) ht,
    fun k o ho => C64_sound_partial hl hr hwf hk hal z (solve_sound h) ht k o ho⟩⟩

/-! ## The file API -/

/-- The lattice of `CSTDFILEIOTypeStateDescription`. -/
instance : JoinLat FileState where
  join := fileDesc.join
  top := .TOP
  bottom := .BOT
  join_assoc := by intro a b c; cases a <;> cases b <;> cases c <;> decide
  join_comm := by intro a b; cases a <;> cases b <;> decide
  join_idem := by intro a; cases a <;> decide
  top_join := by intro a; cases a <;> decide
  bottom_join := by intro a; cases a <;> decide

theorem C64.file_lawful : Lawful fileDesc := ⟨fun _ _ => rfl, rfl, rfl⟩

theorem C64.file_regular : Regular fileDesc := by
  have hcons : ∀ tok, fileDesc.isConsuming tok = true → fileIsFactory tok = false := by
    intro tok h
    change fileIsConsuming tok = true at h
    unfold fileIsConsuming at h
    unfold fileIsFactory
    cases hl : fileFuncs.lookup tok with
    | none => rfl
    | some l => rw [hl] at h; simpa using h
  have hapi : ∀ tok, fileDesc.isFactory tok = true → fileIsAPI tok = true := by
    intro tok h
    change fileIsFactory tok = true at h
    unfold fileIsFactory at h
    unfold fileIsAPI
    cases hl : fileFuncs.lookup tok with
    | none => rw [hl] at h; cases h
    | some l => rfl
  refine ⟨fun tok s cs h hs => ?_, fun tok cs h => ?_, fun tok s cs h => ?_, fun tok cs h => ?_, fun tok h => ?_, by decide, by decide⟩
  · rw [C38.file_next h]
    change s ≠ .TOP at hs
    split <;> cases s <;> first | exact absurd rfl hs | exact ⟨_, rfl⟩
  · simp only [fileDesc, hapi tok h, if_true]
    cases fileTok tok <;> exact ⟨_, rfl⟩
  · simp only [fileDesc] at h
    split at h
    · cases ht : fileTok tok <;> cases s <;> rw [ht] at h <;> cases h
    · cases h
  · rw [C38.file_next h]
    split <;> rfl
  · cases hc : fileDesc.isConsuming tok with
    | false => rfl
    | true => have := hcons tok hc; rw [show fileIsFactory tok = true from h] at this; cases this

theorem C64.file_api (s : String) (h : fileDesc.isFactory s = true ∨ fileDesc.isConsuming s = true) : fileIsAPI s = true := by
  unfold fileIsAPI
  cases hl : fileFuncs.lookup s with
  | some l => rfl
  | none => 
    rcases h with h | h
    · change fileIsFactory s = true at h; unfold fileIsFactory at h; rw [hl] at h; cases h
    · change fileIsConsuming s = true at h; unfold fileIsConsuming at h; rw [hl] at h; cases h

/-- `FILE *`. -/
def C64.fp : Ty := .ptr (.struct "struct._IO_FILE")

/-- Programs that use `FILE *`. -/
def C64.fileTab (rows : List (Row × Inst × Ty)) (funs : List FRow) (alias : List (Nat × List Nat)) (vals : List (Nat × Ty) := [])
    (globals : List Nat := []) : Tab FileState where
  rows := rows
  vals := vals
  funs := funs
  alias := alias
  globals := globals
  typeName := "struct._IO_FILE"
  desc := fileDesc
  isAPI := fileIsAPI
  error := .ERROR

/-- `void`. -/
def C64.void : Ty := .other "void"

/-- `FILE *f = fopen(..); g(f); fclose(f);` with `void g(FILE *x) { fclose(x); }`. -/
def C64.twice : Tab FileState := C64.fileTab
  [({ fn := 0, succs := [1] }, .alloca C64.fp, .ptr C64.fp),
   ({ fn := 0, call := some ([1], [2]) }, .call [], C64.fp),
   ({ fn := 0, succs := [3] }, .store 1 0, C64.void),
   ({ fn := 0, succs := [4] }, .load 0, C64.fp),
   ({ fn := 0, call := some ([3], [5]) }, .call [3], C64.void),
   ({ fn := 0, succs := [6] }, .load 0, C64.fp),
   ({ fn := 0, call := some ([2], [7]) }, .call [5], C64.void),
   ({ fn := 0, exit := true }, .ret none, C64.void),
   ({ fn := 3, succs := [9] }, .alloca C64.fp, .ptr C64.fp),
   ({ fn := 3, succs := [10] }, .store 20 8, C64.void),
   ({ fn := 3, succs := [11] }, .load 8, C64.fp),
   ({ fn := 3, call := some ([2], [12]) }, .call [10], C64.void),
   ({ fn := 3, exit := true }, .ret none, C64.void)]
  [{}, { decl := true, name := "fopen" }, { decl := true, name := "fclose" }, { params := [20], name := "g" }]
  [(1, [1, 3, 5]), (3, [1, 3, 5]), (5, [1, 3, 5]), (20, [20, 10]), (10, [20, 10])] [(20, C64.fp)]

/-- The variables that are kept: allocas, parameters, and the result of the previous statement. -/
def C64.keep (n k : Nat) : Bool := k == 0 || k == 8 || k == 20 || k + 1 == n


/-- The arrangements of the program. -/
def C64.arrsOf (p : Prog FileState) (keep : Nat → Nat → Bool) : List Arr := p.arrs keep 30 [⟨[], 0, [], 0⟩] [⟨[], 0, [], 0⟩]

theorem C64.twice_wf : C64.twice.prog.WF := Tab.wf (by decide +kernel) C64.file_api (by decide)

theorem C64.twice_keeps : C64.twice.prog.Keeps C64.keep := by
  refine ⟨fun n k hk => ?_, fun n k hk => ?_⟩
  · have : ∀ f, ∀ k ∈ (C64.twice.fn f).params, k = 20 := fun f =>
      Tab.fn_all (P := fun r => ∀ k ∈ r.params, k = 20) (by decide) (by decide) f
    rw [this _ k hk]; simp [C64.keep]
  · exact absurd hk (by simp [C64.twice, Tab.prog, C64.fileTab])

theorem C64.twice_alias : C64.twice.prog.AliasOk C64.keep :=
  alias_ok (as := C64.arrsOf C64.twice.prog C64.keep) C64.twice_wf.params (by decide +kernel) (by decide +kernel) (by decide +kernel)

/-- The states of an execution of `C64.twice`: the file is closed twice. -/
theorem C64.twice_run : ∃ t, C64.twice.prog.Reached C64.keep t ∧ t.n = 7 ∧ t.loc 0 = some 1 ∧ t.st 1 = .ERROR := by
  have h : C64.twice.prog.Reached C64.keep _ := ⟨⟨[], 0, fun _ => none, fun _ => .BOT, 0⟩, ⟨rfl, by decide, fun _ => rfl, rfl⟩,
    .tail (.tail (.tail (.tail (.tail (.tail (.tail (.tail (.tail (.tail (.tail (.tail (.refl _)
      (.normal (n' := 1) rfl (by decide) (.alloca C64.fp rfl (by decide +kernel))))
      (.factory (r := 2) (f := 1) (as := []) (s' := .OPENED) rfl rfl rfl (by decide +kernel) (by decide +kernel) (by decide)))
      (.normal (n' := 3) rfl (by decide) (.store 1 0 rfl (by decide +kernel))))
      (.normal (n' := 4) rfl (by decide) (.load 0 rfl (by decide +kernel))))
      (.call (f := 3) (as := [3]) (sp := 8) rfl rfl (by decide) (by decide +kernel) rfl (by decide)))
      (.normal (n' := 9) rfl (by decide) (.alloca C64.fp rfl (by decide +kernel))))
      (.normal (n' := 10) rfl (by decide) (.store 20 8 rfl (by decide +kernel))))
      (.normal (n' := 11) rfl (by decide) (.load 8 rfl (by decide +kernel))))
      (.consume (r := 12) (f := 2) (as := [10]) (i := 0) (a := 10) (o := 1) (s' := .CLOSED) rfl rfl rfl rfl (by decide +kernel)
        (by decide +kernel) (by decide +kernel) rfl (by decide +kernel) (by decide +kernel) (by decide)))
      (.ret (r := 5) (v := none) rfl rfl rfl (by decide)))
      (.normal (n' := 6) rfl (by decide) (.load 0 rfl (by decide +kernel))))
      (.consume (r := 7) (f := 2) (as := [5]) (i := 0) (a := 5) (o := 1) (s' := .ERROR) rfl rfl rfl rfl (by decide +kernel)
        (by decide +kernel) (by decide +kernel) rfl (by decide +kernel) (by decide +kernel) (by decide))⟩
  exact ⟨_, h, rfl, by decide +kernel, by decide +kernel⟩

/-- The example meets the requirements of the theorems, the solver stops with a result, and the report lists the variable. -/
example : C64.twice.prog.WF ∧ C64.twice.prog.Keeps C64.keep ∧ C64.twice.prog.AliasOk C64.keep ∧ Lawful C64.twice.desc ∧
    Regular C64.twice.desc ∧
    (∃ t, C64.twice.prog.Reached C64.keep t ∧ t.n = 7 ∧ t.loc 0 = some 1 ∧ t.st 1 = .ERROR) ∧
    ∀ z, ((solve (C64.twice.prog.input z) 400).map fun r => (resultAt r.2 5 (.node 0), resultAt r.2 7 (.node 0), resultAt r.2 7 .zero,
      resultAt r.2 11 (.node 10))) = some (some .CLOSED, some .ERROR, some .BOT, some .OPENED) :=
  ⟨C64.twice_wf, C64.twice_keeps, C64.twice_alias, C64.file_lawful, C64.file_regular, C64.twice_run, by decide +kernel⟩

example : C64.twice.prog.Bounded (List.range 13) (20 :: List.range 13) ∧ C64.twice.prog.icf.UniqueStart := by
  refine ⟨⟨by decide, by decide, by decide, by decide, by decide, by decide, by decide, fun v k hk => ?_⟩, tabICFG_unique _⟩
  have hl : ∀ n, C64.twice.prog.inst n ≠ .other → n < 13 := by
    intro n hn
    apply Decidable.byContradiction
    intro h
    exact hn (Tab.inst_ge (t := C64.twice) h)
  have h1 : ∀ n ∈ List.range 13, ∀ k ∈ Tab.ops (C64.twice.inst n), k ∈ 20 :: List.range 13 := by decide
  obtain ⟨a, _, ⟨hi, _⟩ | ⟨_, u, _, w, hi, _⟩⟩ := (C64_relevant v k).1 hk
  · refine h1 a (List.mem_range.2 (hl a (by rw [hi]; nofun))) k ?_
    rw [show C64.twice.inst a = .load k from hi]; simp [Tab.ops]
  · refine h1 u (List.mem_range.2 (hl u (by rw [hi]; nofun))) k ?_
    rw [show C64.twice.inst u = .store w k from hi]; simp [Tab.ops]

/-- The alias sets of the example are classes, and the caches are filled by queries. -/
example : C64.twice.prog.Classes ∧
    Cached C64.twice.prog (C64.twice.prog.getWMAliasesAndAllocas (C64.twice.prog.getRelevantAllocas ⟨[], []⟩ 1).2 20).2 ∧
    ((C64.twice.prog.getWMAliasesAndAllocas (C64.twice.prog.getRelevantAllocas ⟨[], []⟩ 1).2 20).2.rel.map Prod.fst) =
      [10, 20, 5, 3, 1] := by
  refine ⟨fun v a ha x => ?_, .both _ (.rel _ .empty), by decide +kernel⟩
  have h : ∀ q ∈ C64.twice.alias, ∀ a ∈ q.2, C64.twice.alias.lookup a = some q.2 := by decide
  have ha : a ∈ (C64.twice.alias.lookup v).getD [v] := ha
  show x ∈ (C64.twice.alias.lookup a).getD [a] ↔ x ∈ (C64.twice.alias.lookup v).getD [v]
  cases hv : C64.twice.alias.lookup v with
  | none =>
    rw [hv] at ha
    have : a = v := List.mem_singleton.1 ha
    subst this
    rw [hv]
  | some l =>
    rw [hv] at ha
    have := h _ (mem_of_lookup hv) a ha
    rw [this]; rfl

/-- The cases of the theorems about calls: a factory function at 1, a function with a body and a matching argument at 4, a declaration at 6;
the return from `g`; the transition of `fclose`. -/
example : C64.twice.prog.ctrFlow 1 .zero = [.zero, .node 1] ∧
    C64.twice.prog.ctrFlow 4 (.node 0) = [] ∧ C64.twice.prog.ctrFlow 4 (.node 3) = [] ∧ C64.twice.prog.ctrFlow 4 (.node 9) = [.node 9] ∧
    Passed C64.twice.prog 6 2 ∧ C64.twice.prog.ctrFlow 6 .zero = [.zero] ∧
    C64.twice.prog.retFlow? 4 3 12 (.node 20) = some [.node 3, .node 0] ∧ C64.twice.prog.callFlow 4 3 (.node 3) = [.node 20] ∧
    C64.twice.prog.ctrEdge 6 (.node 0) (.node 0) = .ts "fclose" 6 ∧ C64.twice.prog.ctrEdge 1 .zero (.node 1) = .const .OPENED ∧
    C64.twice.prog.ctrEdge 6 (.node 9) (.node 9) = .id ∧ C64.twice.prog.normalEdge 0 .zero (.node 0) = .const .UNINIT := by
  unfold Passed
  decide +kernel

/-- A first query, whose answer has members of matching type and others. -/
example : (C64.twice.prog.getWMAliasSet ⟨[], []⟩ 1).1 = C64.twice.prog.alias 1 ∧
    (C64.twice.prog.getWMAliasSet ⟨[], []⟩ 1).2.alias.map Prod.fst = (C64.twice.prog.alias 1).reverse.filter C64.twice.prog.matching ∧
    (C64.twice.prog.getWMAliasSet ⟨[], []⟩ 1).2.alias ≠ [] := by decide +kernel

/-- Alias sets that are no classes: 1 may alias 2, 2 may alias 3, 1 and 3 do not alias. -/
def C64.chain : Tab FileState := C64.fileTab [] [] [(1, [1, 2]), (2, [1, 2, 3]), (3, [2, 3])] [(1, C64.fp), (2, C64.fp), (3, C64.fp)]

/-- The answer for 2 depends on what has been asked before: after a query for 1 it is the alias set of 1.  The may-alias relation
is symmetric and reflexive. -/
theorem C64_caches_false :
    (∀ v, v < 4 → ∀ w, w < 4 → (v ∈ C64.chain.prog.alias w ↔ w ∈ C64.chain.prog.alias v)) ∧
    (C64.chain.prog.getWMAliasSet ⟨[], []⟩ 2).1 = [1, 2, 3] ∧
    (C64.chain.prog.getWMAliasSet (C64.chain.prog.getWMAliasSet ⟨[], []⟩ 1).2 2).1 = [1, 2] ∧
    (C64.chain.prog.getWMAliasSet (C64.chain.prog.getWMAliasSet ⟨[], []⟩ 3).2 2).1 = [2, 3] := by decide +kernel

/-- `f = fopen(..); g = fopen(..); fclose(f);`, where the alias information has `f` and `g` in one set. -/
def C64.two : Tab FileState := C64.fileTab
  [({ fn := 0, succs := [1] }, .alloca C64.fp, .ptr C64.fp),
   ({ fn := 0, succs := [2] }, .alloca C64.fp, .ptr C64.fp),
   ({ fn := 0, call := some ([1], [3]) }, .call [], C64.fp),
   ({ fn := 0, succs := [4] }, .store 2 0, C64.void),
   ({ fn := 0, call := some ([1], [5]) }, .call [], C64.fp),
   ({ fn := 0, succs := [6] }, .store 4 1, C64.void),
   ({ fn := 0, succs := [7] }, .load 0, C64.fp),
   ({ fn := 0, call := some ([2], [8]) }, .call [6], C64.void),
   ({ fn := 0, exit := true }, .ret none, C64.void)]
  [{}, { decl := true, name := "fopen" }, { decl := true, name := "fclose" }]
  [(2, [2, 4, 6]), (4, [2, 4, 6]), (6, [2, 4, 6])]

/-- The variables that are kept: the given ones, and the result of the previous statement. -/
def C64.keeping (l : List Nat) (n k : Nat) : Bool := l.contains k || k + 1 == n

/-- Alias information that is correct but not exact: the file `g` is open at the end, the analysis reports that it is closed.  The
transition is applied to all variables that may alias the argument, without joining the old state. -/
theorem C64_may_alias_false :
    C64.two.prog.WF ∧ C64.two.prog.Keeps (C64.keeping [0, 1]) ∧
    (∀ z, ((solve (C64.two.prog.input z) 400).map fun r => resultAt r.2 8 (.node 1)) = some (some .CLOSED)) ∧
    ¬ Describes fileDesc .CLOSED .OPENED ∧
    ∃ t, C64.two.prog.Reached (C64.keeping [0, 1]) t ∧ t.n = 8 ∧ t.loc 1 = some 3 ∧ t.st 3 = .OPENED := by
  refine ⟨Tab.wf (by decide +kernel) C64.file_api (by decide), ⟨fun n k hk => ?_, fun n k hk => ?_⟩, by decide +kernel,
    (by unfold Describes; decide), ?_⟩
  · exact absurd hk (Tab.fn_all (t := C64.two) (P := fun r => k ∉ r.params) (by simp [C64.two, C64.fileTab]) (by simp) _)
  · exact absurd hk (by simp [C64.two, Tab.prog, C64.fileTab])
  have h : C64.two.prog.Reached (C64.keeping [0, 1]) _ := ⟨⟨[], 0, fun _ => none, fun _ => .BOT, 0⟩, ⟨rfl, by decide, fun _ => rfl, rfl⟩,
    .tail (.tail (.tail (.tail (.tail (.tail (.tail (.tail (.refl _)
      (.normal (n' := 1) rfl (by decide) (.alloca C64.fp rfl (by decide +kernel))))
      (.normal (n' := 2) rfl (by decide) (.alloca C64.fp rfl (by decide +kernel))))
      (.factory (r := 3) (f := 1) (as := []) (s' := .OPENED) rfl rfl rfl (by decide +kernel) (by decide +kernel) (by decide)))
      (.normal (n' := 4) rfl (by decide) (.store 2 0 rfl (by decide +kernel))))
      (.factory (r := 5) (f := 1) (as := []) (s' := .OPENED) rfl rfl rfl (by decide +kernel) (by decide +kernel) (by decide)))
      (.normal (n' := 6) rfl (by decide) (.store 4 1 rfl (by decide +kernel))))
      (.normal (n' := 7) rfl (by decide) (.load 0 rfl (by decide +kernel))))
      (.consume (r := 8) (f := 2) (as := [6]) (i := 0) (a := 6) (o := 2) (s' := .CLOSED) rfl rfl rfl rfl (by decide +kernel)
        (by decide +kernel) (by decide +kernel) rfl (by decide +kernel) (by decide +kernel) (by decide))⟩
  exact ⟨_, h, rfl, by decide +kernel, by decide +kernel⟩

/-- `f = fopen(..); if (..) fclose(f); fclose(f);` -/
def C64.maybe : Tab FileState := C64.fileTab
  [({ fn := 0, succs := [1] }, .alloca C64.fp, .ptr C64.fp),
   ({ fn := 0, call := some ([1], [2]) }, .call [], C64.fp),
   ({ fn := 0, succs := [3] }, .store 1 0, C64.void),
   ({ fn := 0, succs := [4, 5] }, .load 0, C64.fp),
   ({ fn := 0, call := some ([2], [5]) }, .call [3], C64.void),
   ({ fn := 0, succs := [6] }, .load 0, C64.fp),
   ({ fn := 0, call := some ([2], [7]) }, .call [5], C64.void),
   ({ fn := 0, exit := true }, .ret none, C64.void)]
  [{}, { decl := true, name := "fopen" }, { decl := true, name := "fclose" }]
  [(1, [1, 3, 5]), (3, [1, 3, 5]), (5, [1, 3, 5])]

/-- A file that is closed twice on some path is not reported: the states before the second call join to bottom, and bottom stays
bottom.  The requirements of the soundness theorem hold. -/
theorem C64_report_false :
    C64.maybe.prog.WF ∧ C64.maybe.prog.Keeps (C64.keeping [0]) ∧ C64.maybe.prog.AliasOk (C64.keeping [0]) ∧
    (∀ z, ((solve (C64.maybe.prog.input z) 400).map fun r =>
      (resultAt r.2 6 (.node 0), (List.range 8).flatMap fun n => C64.maybe.prog.reports n
        ((List.range 8).filterMap fun k => (resultAt r.2 n (.node k)).map fun x => (.node k, x)))) = some (some .BOT, [])) ∧
    ∃ t, C64.maybe.prog.Reached (C64.keeping [0]) t ∧ t.n = 7 ∧ t.loc 0 = some 1 ∧ t.st 1 = .ERROR := by
  have hwf : C64.maybe.prog.WF := Tab.wf (by decide +kernel) C64.file_api (by decide)
  refine ⟨hwf, ⟨fun n k hk => ?_, fun n k hk => ?_⟩,
    alias_ok (as := C64.arrsOf C64.maybe.prog (C64.keeping [0])) hwf.params (by decide +kernel) (by decide +kernel) (by decide +kernel),
    by decide +kernel, ?_⟩
  · exact absurd hk (Tab.fn_all (t := C64.maybe) (P := fun r => k ∉ r.params) (by simp [C64.maybe, C64.fileTab]) (by simp) _)
  · exact absurd hk (by simp [C64.maybe, Tab.prog, C64.fileTab])
  have h : C64.maybe.prog.Reached (C64.keeping [0]) _ := ⟨⟨[], 0, fun _ => none, fun _ => .BOT, 0⟩, ⟨rfl, by decide, fun _ => rfl, rfl⟩,
    .tail (.tail (.tail (.tail (.tail (.tail (.tail (.refl _)
      (.normal (n' := 1) rfl (by decide) (.alloca C64.fp rfl (by decide +kernel))))
      (.factory (r := 2) (f := 1) (as := []) (s' := .OPENED) rfl rfl rfl (by decide +kernel) (by decide +kernel) (by decide)))
      (.normal (n' := 3) rfl (by decide) (.store 1 0 rfl (by decide +kernel))))
      (.normal (n' := 4) rfl (by decide) (.load 0 rfl (by decide +kernel))))
      (.consume (r := 5) (f := 2) (as := [3]) (i := 0) (a := 3) (o := 1) (s' := .CLOSED) rfl rfl rfl rfl (by decide +kernel)
        (by decide +kernel) (by decide +kernel) rfl (by decide +kernel) (by decide +kernel) (by decide)))
      (.normal (n' := 6) rfl (by decide) (.load 0 rfl (by decide +kernel))))
      (.consume (r := 7) (f := 2) (as := [5]) (i := 0) (a := 5) (o := 1) (s' := .ERROR) rfl rfl rfl rfl (by decide +kernel)
        (by decide +kernel) (by decide +kernel) rfl (by decide +kernel) (by decide +kernel) (by decide))⟩
  exact ⟨_, h, rfl, by decide +kernel, by decide +kernel⟩

/-- `f = fopen(..); g = fopen(..); close2(f, g); fclose(g);` with `void close2(FILE *x, FILE *y) { fclose(x); fclose(y); }`; the alias
information is exact. -/
def C64.both : Tab FileState := C64.fileTab
  [({ fn := 0, succs := [1] }, .alloca C64.fp, .ptr C64.fp),
   ({ fn := 0, succs := [2] }, .alloca C64.fp, .ptr C64.fp),
   ({ fn := 0, call := some ([1], [3]) }, .call [], C64.fp),
   ({ fn := 0, succs := [4] }, .store 2 0, C64.void),
   ({ fn := 0, call := some ([1], [5]) }, .call [], C64.fp),
   ({ fn := 0, succs := [6] }, .store 4 1, C64.void),
   ({ fn := 0, succs := [7] }, .load 0, C64.fp),
   ({ fn := 0, succs := [8] }, .load 1, C64.fp),
   ({ fn := 0, call := some ([3], [9]) }, .call [6, 7], C64.void),
   ({ fn := 0, succs := [10] }, .load 1, C64.fp),
   ({ fn := 0, call := some ([2], [11]) }, .call [9], C64.void),
   ({ fn := 0, exit := true }, .ret none, C64.void),
   ({ fn := 3, call := some ([2], [13]) }, .call [20], C64.void),
   ({ fn := 3, call := some ([2], [14]) }, .call [21], C64.void),
   ({ fn := 3, exit := true }, .ret none, C64.void)]
  [{}, { decl := true, name := "fopen" }, { decl := true, name := "fclose" }, { params := [20, 21], name := "close2" }]
  [(2, [2, 6]), (6, [2, 6]), (4, [4, 7, 9]), (7, [4, 7, 9]), (9, [4, 7, 9])] [(20, C64.fp), (21, C64.fp)]

/-- Only the aliases of the first argument of matching type are killed at a call.  The second argument keeps its old state beside the
call, so that the result is bottom: the second file, which is closed twice in every execution, is never reported, while the first
one would be. -/
theorem C64_second_argument_false :
    C64.both.prog.WF ∧ (∀ z, ((solve (C64.both.prog.input z) 600).map fun r =>
      ((resultAt r.2 9 (.node 0), resultAt r.2 9 (.node 1)), (List.range 15).flatMap fun n => C64.both.prog.reports n
        ((List.range 15).filterMap fun k => (resultAt r.2 n (.node k)).map fun x => (.node k, x)))) =
      some ((some .CLOSED, some .BOT), [])) ∧
    ∃ t, C64.both.prog.Reached (C64.keeping [0, 1, 6, 7, 20, 21]) t ∧ t.n = 11 ∧ t.loc 1 = some 3 ∧ t.st 3 = .ERROR := by
  refine ⟨Tab.wf (by decide +kernel) C64.file_api (by decide), by decide +kernel, ?_⟩
  have h : C64.both.prog.Reached (C64.keeping [0, 1, 6, 7, 20, 21]) _ := ⟨⟨[], 0, fun _ => none, fun _ => .BOT, 0⟩, ⟨rfl, by decide, fun _ => rfl, rfl⟩,
    .tail (.tail (.tail (.tail (.tail (.tail (.tail (.tail (.tail (.tail (.tail (.tail (.tail (.tail (.refl _)
      (.normal (n' := 1) rfl (by decide) (.alloca C64.fp rfl (by decide +kernel))))
      (.normal (n' := 2) rfl (by decide) (.alloca C64.fp rfl (by decide +kernel))))
      (.factory (r := 3) (f := 1) (as := []) (s' := .OPENED) rfl rfl rfl (by decide +kernel) (by decide +kernel) (by decide)))
      (.normal (n' := 4) rfl (by decide) (.store 2 0 rfl (by decide +kernel))))
      (.factory (r := 5) (f := 1) (as := []) (s' := .OPENED) rfl rfl rfl (by decide +kernel) (by decide +kernel) (by decide)))
      (.normal (n' := 6) rfl (by decide) (.store 4 1 rfl (by decide +kernel))))
      (.normal (n' := 7) rfl (by decide) (.load 0 rfl (by decide +kernel))))
      (.normal (n' := 8) rfl (by decide) (.load 1 rfl (by decide +kernel))))
      (.call (f := 3) (as := [6, 7]) (sp := 12) rfl rfl (by decide) (by decide +kernel) rfl (by decide)))
      (.consume (r := 13) (f := 2) (as := [20]) (i := 0) (a := 20) (o := 2) (s' := .CLOSED) rfl rfl rfl rfl (by decide +kernel)
        (by decide +kernel) (by decide +kernel) rfl (by decide +kernel) (by decide +kernel) (by decide)))
      (.consume (r := 14) (f := 2) (as := [21]) (i := 0) (a := 21) (o := 3) (s' := .CLOSED) rfl rfl rfl rfl (by decide +kernel)
        (by decide +kernel) (by decide +kernel) rfl (by decide +kernel) (by decide +kernel) (by decide)))
      (.ret (r := 9) (v := none) rfl rfl rfl (by decide)))
      (.normal (n' := 10) rfl (by decide) (.load 1 rfl (by decide +kernel))))
      (.consume (r := 11) (f := 2) (as := [9]) (i := 0) (a := 9) (o := 3) (s' := .ERROR) rfl rfl rfl rfl (by decide +kernel)
        (by decide +kernel) (by decide +kernel) rfl (by decide +kernel) (by decide +kernel) (by decide))⟩
  exact ⟨_, h, rfl, by decide +kernel, by decide +kernel⟩

/-- `G = fopen(..); h(); fclose(G);` with a global variable `G` and `void h() {}`. -/
def C64.glob : Tab FileState := C64.fileTab
  [({ fn := 0, call := some ([1], [1]) }, .call [], C64.fp),
   ({ fn := 0, succs := [2] }, .store 0 30, C64.void),
   ({ fn := 0, call := some ([3], [3]) }, .call [], C64.void),
   ({ fn := 0, succs := [4] }, .load 30, C64.fp),
   ({ fn := 0, call := some ([2], [5]) }, .call [3], C64.void),
   ({ fn := 0, exit := true }, .ret none, C64.void),
   ({ fn := 3, exit := true }, .ret none, C64.void)]
  [{}, { decl := true, name := "fopen" }, { decl := true, name := "fclose" }, { name := "h" }]
  [(0, [0, 3]), (3, [0, 3])] [(30, .ptr C64.fp)] [30]

/-- What is known about a global variable is lost at the first call of a function with a body: the fact is killed beside the call, and
is not returned by the callee. -/
theorem C64_global_false :
    C64.glob.prog.WF ∧ C64.glob.prog.AliasOk (C64.keeping [30]) ∧
    (∀ z, ((solve (C64.glob.prog.input z) 400).map fun r => (resultAt r.2 2 (.node 30), resultAt r.2 6 (.node 30),
      resultAt r.2 3 (.node 30), resultAt r.2 4 (.node 3))) = some (some .OPENED, some .OPENED, none, none)) ∧
    ∃ t, C64.glob.prog.Reached (C64.keeping [30]) t ∧ t.n = 3 ∧ t.loc 30 = some 0 ∧ t.st 0 = .OPENED := by
  have hwf : C64.glob.prog.WF := Tab.wf (by decide +kernel) C64.file_api (by decide)
  refine ⟨hwf,
    alias_ok (as := C64.arrsOf C64.glob.prog (C64.keeping [30])) hwf.params (by decide +kernel) (by decide +kernel) (by decide +kernel),
    by decide +kernel, ?_⟩
  have h : C64.glob.prog.Reached (C64.keeping [30]) _ := ⟨⟨[], 0, fun _ => none, fun _ => .BOT, 0⟩, ⟨rfl, by decide, fun _ => rfl, rfl⟩,
    .tail (.tail (.tail (.tail (.refl _)
      (.factory (r := 1) (f := 1) (as := []) (s' := .OPENED) rfl rfl rfl (by decide +kernel) (by decide +kernel) (by decide)))
      (.normal (n' := 2) rfl (by decide) (.store 0 30 rfl (by decide +kernel))))
      (.call (f := 3) (as := []) (sp := 6) rfl rfl (by decide) (by decide +kernel) rfl (by decide)))
      (.ret (r := 3) (v := none) rfl rfl rfl (by decide))⟩
  exact ⟨_, h, rfl, by decide +kernel, by decide +kernel⟩

/-- `f = fopen(..); a = f; g(f); fclose(a);` with `void g(FILE *x) {}`, where `a` is not stored to memory. -/
def C64.temp : Tab FileState := C64.fileTab
  [({ fn := 0, succs := [1] }, .alloca C64.fp, .ptr C64.fp),
   ({ fn := 0, call := some ([1], [2]) }, .call [], C64.fp),
   ({ fn := 0, succs := [3] }, .store 1 0, C64.void),
   ({ fn := 0, succs := [4] }, .load 0, C64.fp),
   ({ fn := 0, succs := [5] }, .load 0, C64.fp),
   ({ fn := 0, call := some ([3], [6]) }, .call [4], C64.void),
   ({ fn := 0, call := some ([2], [7]) }, .call [3], C64.void),
   ({ fn := 0, exit := true }, .ret none, C64.void),
   ({ fn := 3, exit := true }, .ret none, C64.void)]
  [{}, { decl := true, name := "fopen" }, { decl := true, name := "fclose" }, { params := [20], name := "g" }]
  [(1, [1, 3, 4]), (3, [1, 3, 4]), (4, [1, 3, 4])] [(20, C64.fp)]

/-- A temporary that is an alias of an argument is killed at a call, and is not generated again behind it: only the argument itself
and the relevant allocas are. -/
theorem C64_temporary_false :
    C64.temp.prog.WF ∧ C64.temp.prog.Keeps (C64.keeping [0, 3, 20]) ∧
    (∀ z, ((solve (C64.temp.prog.input z) 400).map fun r => (resultAt r.2 5 (.node 3), resultAt r.2 6 (.node 3),
      resultAt r.2 6 (.node 4), resultAt r.2 6 (.node 0))) = some (some .OPENED, none, some .OPENED, some .OPENED)) ∧
    ∃ t, C64.temp.prog.Reached (C64.keeping [0, 3, 20]) t ∧ t.n = 6 ∧ t.loc 3 = some 1 ∧ t.st 1 = .OPENED := by
  refine ⟨Tab.wf (by decide +kernel) C64.file_api (by decide), ⟨fun n k hk => ?_, fun n k hk => ?_⟩, by decide +kernel, ?_⟩
  · have : ∀ f, ∀ k ∈ (C64.temp.fn f).params, k = 20 := fun f =>
      Tab.fn_all (P := fun r => ∀ k ∈ r.params, k = 20) (by decide) (by decide) f
    rw [this _ k hk]; simp [C64.keeping]
  · exact absurd hk (by simp [C64.temp, Tab.prog, C64.fileTab])
  have h : C64.temp.prog.Reached (C64.keeping [0, 3, 20]) _ := ⟨⟨[], 0, fun _ => none, fun _ => .BOT, 0⟩, ⟨rfl, by decide, fun _ => rfl, rfl⟩,
    .tail (.tail (.tail (.tail (.tail (.tail (.tail (.refl _)
      (.normal (n' := 1) rfl (by decide) (.alloca C64.fp rfl (by decide +kernel))))
      (.factory (r := 2) (f := 1) (as := []) (s' := .OPENED) rfl rfl rfl (by decide +kernel) (by decide +kernel) (by decide)))
      (.normal (n' := 3) rfl (by decide) (.store 1 0 rfl (by decide +kernel))))
      (.normal (n' := 4) rfl (by decide) (.load 0 rfl (by decide +kernel))))
      (.normal (n' := 5) rfl (by decide) (.load 0 rfl (by decide +kernel))))
      (.call (f := 3) (as := [4]) (sp := 8) rfl rfl (by decide) (by decide +kernel) rfl (by decide)))
      (.ret (r := 6) (v := none) rfl rfl rfl (by decide))⟩
  exact ⟨_, h, rfl, by decide +kernel, by decide +kernel⟩

/-- `f = fopen(..); g(f0); fclose(f);` with the result `f0` of `fopen` passed directly, and `void g(FILE *x) { fclose(x); }`; the
type of `FILE *` is a parameter. -/
def C64.direct (fp : Ty) : Tab FileState := C64.fileTab
  [({ fn := 0, succs := [1] }, .alloca fp, if fp = .opaque then .opaque else .ptr fp),
   ({ fn := 0, call := some ([1], [2]) }, .call [], fp),
   ({ fn := 0, succs := [3] }, .store 1 0, C64.void),
   ({ fn := 0, call := some ([3], [4]) }, .call [1], C64.void),
   ({ fn := 0, succs := [5] }, .load 0, fp),
   ({ fn := 0, call := some ([2], [6]) }, .call [4], C64.void),
   ({ fn := 0, exit := true }, .ret none, C64.void),
   ({ fn := 3, call := some ([2], [8]) }, .call [20], C64.void),
   ({ fn := 3, exit := true }, .ret none, C64.void)]
  [{}, { decl := true, name := "fopen" }, { decl := true, name := "fclose" }, { params := [20], name := "g" }]
  [(1, [1, 4]), (4, [1, 4])] [(20, fp)]

/-- With opaque pointers, results of calls and parameters are never of matching type, whereas every other pointer is.  So the
file that is passed directly is not killed beside the call, and closing it twice is not reported; with typed pointers it is. -/
theorem C64_opaque_false :
    (∀ z, ((solve ((C64.direct C64.fp).prog.input z) 400).map fun r => resultAt r.2 6 (.node 0)) = some (some .ERROR)) ∧
    (∀ z, ((solve ((C64.direct .opaque).prog.input z) 400).map fun r => resultAt r.2 6 (.node 0)) = some (some .BOT)) ∧
    ((C64.direct .opaque).prog.matching 1 = false ∧ (C64.direct .opaque).prog.matching 20 = false ∧
     (C64.direct .opaque).prog.matching 0 = true ∧ (C64.direct .opaque).prog.matching 4 = true) := by decide +kernel

/-- A function with variable arguments that does not use them has no `va_list`; then an uninitialized pointer is compared
(`IDETypeStateAnalysis.cpp:124-147`). -/
theorem C64_vararg_false : ∃ p : Prog FileState, (∀ f, p.vaLists f = []) ∧ p.retFlow? 0 0 0 (.node 5) = none :=
  ⟨(C64.fileTab [] [{ varArg := true }] []).prog, fun f => Tab.fn_all (P := fun r => r.vaLists = []) (by simp [C64.fileTab]) rfl f,
    by decide +kernel⟩

/-- A call whose callees are not known kills the zero value, so that nothing behind it is analysed unless the solver adds the zero
value again (`autoAddZero`, the default). -/
theorem C64_no_callee_false :
    let p := (C64.fileTab [({ fn := 0, call := some ([], [1]) }, .call [], C64.void), ({ fn := 0, exit := true }, .ret none, C64.void)]
      [{}] []).prog
    ((solve (p.input false) 100).map fun r => resultAt r.2 1 .zero) = some none ∧
    ((solve (p.input true) 100).map fun r => resultAt r.2 1 .zero) = some (some .BOT) := by decide +kernel

end Prog
end Phasar.TypeState
