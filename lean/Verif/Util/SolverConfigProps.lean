/-
C89: flags and the solver's configuration.
-/
import Verif.Util.SolverConfig

namespace Phasar.SolverConfig

/-- C89, flags: the bits after each operation. -/
theorem C89_bits {w : Nat} (x f : BitVec w) (b : Bool) (i : Nat) (hi : i < w) :
    (setFlag x f b).getLsbD i = (if f.getLsbD i = true then b else x.getLsbD i) ∧
    (xorFlags x f).getLsbD i = (x.getLsbD i != f.getLsbD i) := by
  constructor
  · unfold setFlag set unset orFlags andFlags notFlags
    cases hf : f.getLsbD i <;> cases b <;> simp only [BitVec.getLsbD_or, BitVec.getLsbD_and, BitVec.getLsbD_not, hf, hi, decide_true,
      Bool.not_true, Bool.not_false, Bool.and_true, Bool.and_false, Bool.or_true, Bool.or_false, if_true, if_false, Bool.false_eq_true]
  · simp [xorFlags]

/-- C89, flags: a flag is had iff all its bits are; the result of `&` converts to `true` iff there is a common bit. -/
theorem C89_has {w : Nat} (x f : BitVec w) :
    (hasFlag x f = true ↔ ∀ i < w, f.getLsbD i = true → x.getLsbD i = true) ∧
    (toBool (andFlags x f) = true ↔ ∃ i < w, x.getLsbD i = true ∧ f.getLsbD i = true) := by
  constructor
  · unfold hasFlag andFlags
    rw [beq_iff_eq]
    constructor
    · intro h i _ hf
      have := congrArg (·.getLsbD i) h
      simp only [BitVec.getLsbD_and, hf, Bool.and_true] at this
      exact this
    · intro h
      refine BitVec.eq_of_getLsbD_eq fun i hi => ?_
      rw [BitVec.getLsbD_and]
      cases hf : f.getLsbD i with
      | false => simp
      | true => simp [h i hi hf]
  · unfold toBool andFlags
    rw [bne_iff_ne]
    constructor
    · intro h
      refine Classical.byContradiction fun hn => h (BitVec.eq_of_getLsbD_eq fun i hi => ?_)
      rw [BitVec.getLsbD_and, BitVec.getLsbD_zero, Bool.eq_false_iff]
      intro h'
      rw [Bool.and_eq_true] at h'
      exact hn ⟨i, hi, h'⟩
    · rintro ⟨i, _, h1, h2⟩ e
      have := congrArg (·.getLsbD i) e
      simp [h1, h2] at this

/-- C89, flags: what was set is had, what was cleared is not, and flags without a common bit are not touched. -/
theorem C89_set {w : Nat} (x f g : BitVec w) (b : Bool) :
    hasFlag (setFlag x f true) f = true ∧
    (f ≠ 0#w → hasFlag (setFlag x f false) f = false) ∧
    ((∀ i < w, ¬(f.getLsbD i = true ∧ g.getLsbD i = true)) → hasFlag (setFlag x f b) g = hasFlag x g) := by
  refine ⟨?_, fun hf => ?_, fun hd => ?_⟩
  · rw [(C89_has _ _).1]
    intro i hi h
    rw [(C89_bits x f true i hi).1, if_pos h]
  · rw [Bool.eq_false_iff]
    intro h
    rw [(C89_has _ _).1] at h
    refine hf (BitVec.eq_of_getLsbD_eq fun i hi => ?_)
    rw [BitVec.getLsbD_zero, Bool.eq_false_iff]
    intro hi'
    have := h i hi hi'
    rw [(C89_bits x f false i hi).1, if_pos hi'] at this
    cases this
  · rw [Bool.eq_iff_iff, (C89_has _ _).1, (C89_has _ _).1]
    refine forall_congr' fun i => forall_congr' fun hi => forall_congr' fun hg => ?_
    rw [(C89_bits x f b i hi).1, if_neg fun h => hd i hi ⟨h, hg⟩]

theorem C89.get_put (c : BitVec 32) (o o' : Opt) (b : Bool) : get (put c o b) o' = if o = o' then b else get c o' := by
  unfold get put
  by_cases h : o = o'
  · subst h
    rw [if_pos rfl]
    cases b with
    | true => exact (C89_set c o.bits o.bits true).1
    | false => exact (C89_set c o.bits o.bits true).2.1 (by cases o <;> decide)
  · rw [if_neg h]
    refine (C89_set c o.bits o'.bits b).2.2 ?_
    cases o <;> cases o' <;> first | (exact absurd rfl h) | decide

/-- C89, configuration: after any calls, an option is what the last call that concerns it has made it: its setter, or `setConfig` with or
without its bit; and without such a call it is what it was. -/
theorem C89_config (c : BitVec 32) (cs : List Call) (o : Opt) :
    (∀ pre b post, cs = pre ++ .put o b :: post → (∀ b, .put o b ∉ post) → (∀ c', .config c' ∉ post) → get (run c cs) o = b) ∧
    (∀ pre c' post, cs = pre ++ .config c' :: post → (∀ b, .put o b ∉ post) → (∀ c'', .config c'' ∉ post) →
      get (run c cs) o = get c' o) ∧
    ((∀ b, .put o b ∉ cs) → (∀ c', .config c' ∉ cs) → get (run c cs) o = get c o) := by
  have last : ∀ (cs : List Call) (c : BitVec 32), (∀ b, .put o b ∉ cs) → (∀ c', .config c' ∉ cs) → get (run c cs) o = get c o := by
    intro cs
    induction cs with
    | nil => intros; rfl
    | cons x cs ih =>
      intro c h1 h2
      show get (run (step c x) cs) o = _
      rw [ih _ (fun b hb => h1 b (List.mem_cons_of_mem _ hb)) (fun b hb => h2 b (List.mem_cons_of_mem _ hb))]
      cases x with
      | config c' => exact absurd (List.mem_cons_self ..) (h2 c')
      | put o' b =>
        show get (put c o' b) o = _
        rw [C89.get_put, if_neg]
        rintro rfl
        exact h1 b (List.mem_cons_self ..)
  refine ⟨?_, ?_, last cs c⟩
  · rintro pre b post rfl h1 h2
    unfold run
    rw [List.foldl_append]
    show get (run (put _ o b) post) o = b
    rw [last post _ h1 h2, C89.get_put, if_pos rfl]
  · rintro pre c' post rfl h1 h2
    unfold run
    rw [List.foldl_append]
    exact last post _ h1 h2

/-- C89: the options of a configuration are its bits 0 to 5; none are on in `None`, all in `All`, and two by default. -/
theorem C89_initial (c : BitVec 32) :
    (get c .followReturnsPastSeeds = c.getLsbD 0 ∧ get c .autoAddZero = c.getLsbD 1 ∧ get c .computeValues = c.getLsbD 2 ∧
      get c .recordEdges = c.getLsbD 3 ∧ get c .emitESG = c.getLsbD 4 ∧ get c .computePersistedSummaries = c.getLsbD 5) ∧
    (∀ o, get optNone o = false ∧ get optAll o = true) ∧
    ∀ o, get dflt o = true ↔ o = .autoAddZero ∨ o = .computeValues := by
  have bit : ∀ o k, k < 32 → (∀ i < 32, o.bits.getLsbD i = decide (i = k)) → get c o = c.getLsbD k := by
    intro o k hk h
    rw [Bool.eq_iff_iff]
    unfold get
    rw [(C89_has _ _).1]
    constructor
    · exact fun h' => h' k hk (by rw [h k hk]; exact decide_eq_true rfl)
    · intro h' i hi hb
      rw [h i hi, decide_eq_true_iff] at hb
      rw [hb]; exact h'
  refine ⟨⟨bit _ 0 (by decide) (by decide), bit _ 1 (by decide) (by decide), bit _ 2 (by decide) (by decide), bit _ 3 (by decide) (by decide),
    bit _ 4 (by decide) (by decide), bit _ 5 (by decide) (by decide)⟩, ?_, ?_⟩
  · intro o; cases o <;> decide
  · intro o; cases o <;> decide

/-- C89, printing, in part: every option but the first is written as `true` or `false`, and so is the first if the stream has `boolalpha`
already.  Missing: the first on other streams (`C89_print_false`). -/
theorem C89_print_partial (c : BitVec 32) :
    (print true c).1 = ["IFDSIDESolverConfig:\n"] ++ ([("followReturnsPastSeeds", c.getLsbD 0), ("autoAddZero", c.getLsbD 1),
      ("computeValues", c.getLsbD 2), ("recordEdges", c.getLsbD 3), ("computePersistedSummaries", c.getLsbD 5)].flatMap
        fun p => ["\t" ++ p.1 ++ ": ", toString p.2, "\n"]) ++ ["\temitESG: ", toString (c.getLsbD 4)] ∧
    ∀ alpha i, i ≠ 2 → (print alpha c).1[i]? = (print true c).1[i]? := by
  obtain ⟨⟨h0, h1, h2, h3, h4, h5⟩, _⟩ := C89_initial c
  constructor
  · unfold print
    rw [h0, h1, h2, h3, h4, h5]
    cases c.getLsbD 0 <;> cases c.getLsbD 1 <;> cases c.getLsbD 2 <;> cases c.getLsbD 3 <;> cases c.getLsbD 4 <;> cases c.getLsbD 5 <;> rfl
  · intro alpha i hi
    match i with
    | 0 => rfl
    | 1 => rfl
    | 2 => exact absurd rfl hi
    | n + 3 => rfl

/-- C89, finding: `std::boolalpha` is written behind the first option, so that this is written as a digit and the stream is left changed
(IFDSIDESolverConfig.cpp:64-66). -/
theorem C89_print_false :
    (print false optAll).1.take 6 = ["IFDSIDESolverConfig:\n", "\tfollowReturnsPastSeeds: ", "1", "\n", "\tautoAddZero: ", "true"] ∧
    (print false optAll).2 = true := ⟨rfl, rfl⟩

/-! ## Examples -/

example : get (run dflt [.put .recordEdges true, .put .autoAddZero false, .put .recordEdges false, .put .emitESG true]) .recordEdges = false :=
  (C89_config dflt _ .recordEdges).1 [.put .recordEdges true, .put .autoAddZero false] false [.put .emitESG true] rfl (by decide) (by simp)

example : get (run dflt [.put .emitESG true, .config optAll, .put .emitESG false]) .autoAddZero = true :=
  ((C89_config dflt _ .autoAddZero).2.1 [.put .emitESG true] optAll [.put .emitESG false] rfl (by decide) (by simp)).trans (by decide)

/-- Two flags without a common bit. -/
example : hasFlag (setFlag (5#8) 3#8 false) 4#8 = true :=
  ((C89_set 5#8 3#8 4#8 false).2.2 (by decide)).trans (by decide)

end Phasar.SolverConfig
