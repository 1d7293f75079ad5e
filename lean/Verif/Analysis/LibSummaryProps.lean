import Verif.Analysis.LibSummary
/-!
# Summaries of library functions: properties (C92)
-/
namespace Phasar.LibSummary
open Phasar

section
variable {K : Type} [DecidableEq K]

/-- What is stored for parameter `i` of `f`. -/
def C92.stored (m : FDFF K) (f : K) (i : Nat) : Option (List Fact) := (m.get f).bind fun t => t.get i

/-- One more call. -/
def C92.more (o : Op K) : Option (List Fact) → Option (List Fact)
  | none => match o with | .ins _ _ s => some s | .add _ _ x => some [x]
  | some l => match o with | .ins _ _ _ => some l | .add _ _ x => some (l ++ [x])

theorem C92.told_snoc (ops : List (Op K)) (o : Op K) (f : K) (i : Nat) :
    told (ops ++ [o]) f i = if Op.about f i o then C92.more o (told ops f i) else told ops f i := by
  unfold told
  rw [List.filter_append]
  by_cases h : Op.about f i o = true
  · simp only [h, if_true, List.filter_cons_of_pos, List.filter_nil]
    generalize ops.filter (Op.about f i) = l
    cases l with
    | nil => cases o <;> simp [C92.more, added]
    | cons a l => cases a <;> cases o <;> simp [C92.more, added]
  · simp [h]

theorem C92.stored_step (m : FDFF K) (o : Op K) (f : K) (i : Nat) :
    C92.stored (step m o) f i = if Op.about f i o then C92.more o (C92.stored m f i) else C92.stored m f i := by
  cases o with
  | ins g j s =>
    simp only [step, insertSet, Op.about, decide_eq_true_eq]
    by_cases hg : g = f
    · subst hg
      by_cases hj : j = i
      · subst hj
        cases hm : m.get g with
        | none => simp [C92.stored, entry, hm, C92.more]
        | some t => cases ht : t.get j <;> simp [C92.stored, entry, hm, ht, C92.more]
      · cases hm : m.get g with
        | none => simp [C92.stored, entry, hm, hj]
        | some t => cases ht : t.get j <;> simp [C92.stored, entry, hm, ht, hj]
    · cases (entry m g).get j <;> simp [C92.stored, hg]
  | add g j x =>
    simp only [step, addElement, Op.about, decide_eq_true_eq]
    by_cases hg : g = f
    · subst hg
      by_cases hj : j = i
      · subst hj
        cases hm : m.get g with
        | none => simp [C92.stored, entry, hm, C92.more]
        | some t => cases ht : t.get j <;> simp [C92.stored, entry, hm, ht, C92.more]
      · cases hm : m.get g <;> simp [C92.stored, entry, hm, hj]
    · simp [C92.stored, hg]

theorem C92.snoc_ind {α : Type} {P : List α → Prop} (h0 : P []) (h1 : ∀ l a, P l → P (l ++ [a])) (l : List α) : P l := by
  have : ∀ r : List α, P r.reverse := by
    intro r
    induction r with
    | nil => simpa using h0
    | cons a r ih => simpa using h1 _ a ih
  simpa using this l.reverse

theorem C92.run_snoc (ops : List (Op K)) (o : Op K) : run (ops ++ [o]) = step (run ops) o := by
  simp [run]

/-- **C92.** After any calls, what is stored for a parameter is what the calls said about it, in order; a set counts only if it is the
first call about the parameter. -/
theorem C92_facts (ops : List (Op K)) (f : K) (i : Nat) :
    ((run ops).get f).bind (fun t => t.get i) = told ops f i := by
  show C92.stored (run ops) f i = _
  induction ops using C92.snoc_ind with
  | h0 => simp [run, C92.stored, told]
  | h1 l o ih => rw [C92.run_snoc, C92.stored_step, C92.told_snoc, ih]

theorem C92.known_step (m : FDFF K) (o : Op K) (f : K) :
    contains (step m o) f = true ↔ o.fn = f ∨ contains m f = true := by
  cases o with
  | ins g j s =>
    simp only [step, insertSet, Op.fn, contains]
    by_cases hg : g = f <;> cases (entry m g).get j <;> simp [hg]
  | add g j x =>
    simp only [step, addElement, Op.fn, contains]
    by_cases hg : g = f <;> simp [hg]

/-- **C92.** A function is known iff some call was about it. -/
theorem C92_known (ops : List (Op K)) (f : K) : contains (run ops) f = true ↔ ∃ o ∈ ops, o.fn = f := by
  induction ops using C92.snoc_ind with
  | h0 => simp [run, contains]
  | h1 l o ih =>
    rw [C92.run_snoc, C92.known_step, ih]
    constructor
    · rintro (h | ⟨a, ha, h⟩)
      · exact ⟨o, by simp, h⟩
      · exact ⟨a, by simp [ha], h⟩
    · rintro ⟨a, ha, h⟩
      rcases List.mem_append.1 ha with h1 | h1
      · exact Or.inr ⟨a, h1, h⟩
      · rw [List.mem_singleton] at h1
        exact Or.inl (h1 ▸ h)

/-- **C92.** `getDataFlowFacts` gives what the calls said; for a function without calls nothing; but for a known function and a
parameter nothing was said about, its result is undefined. -/
theorem C92_get (ops : List (Op K)) (f : K) (i : Nat) :
    ((¬ ∃ o ∈ ops, o.fn = f) → getDataFlowFacts (run ops) f i = some []) ∧
    ((∃ o ∈ ops, o.fn = f) → getDataFlowFacts (run ops) f i = told ops f i) := by
  rw [← C92_known, ← C92_facts]
  unfold contains getDataFlowFacts
  cases (run ops).get f <;> simp

theorem C92.nodup_step {m : FDFF K} (h : AMap.NodupKeys m) (o : Op K) : AMap.NodupKeys (step m o) := by
  cases o with
  | ins g j s =>
    simp only [step, insertSet]
    cases (entry m g).get j <;> exact AMap.nodupKeys_set h _ _
  | add g j x => exact AMap.nodupKeys_set h _ _

theorem C92.nodup_run (ops : List (Op K)) : AMap.NodupKeys (run ops) := by
  induction ops using C92.snoc_ind with
  | h0 => exact AMap.nodupKeys_nil
  | h1 l o ih => rw [C92.run_snoc]; exact C92.nodup_step ih o

/-- One turn of the loop of `readFromFDFF`. -/
def C92.turn {F : Type} [DecidableEq F] (gf : K → Option F) (r : FDFF F) (p : K × PMap) : FDFF F :=
  match gf p.1 with
  | some g => (match r.get g with | some _ => r | none => r.set g p.2)
  | none => r

omit [DecidableEq K] in
theorem C92.turn_get {F : Type} [DecidableEq F] (gf : K → Option F) (r : FDFF F) (p : K × PMap) (g : F) :
    (C92.turn gf r p).get g = (match r.get g with | some t => some t | none => if gf p.1 = some g then some p.2 else none) := by
  unfold C92.turn
  cases h : gf p.1 with
  | none => cases r.get g <;> simp
  | some a =>
    by_cases ha : a = g
    · subst ha
      cases hr : r.get a <;> simp [hr]
    · cases hr : r.get a <;> cases hg : r.get g <;> simp [hr, hg, ha]

omit [DecidableEq K] in
theorem C92.read_get {F : Type} [DecidableEq F] (gf : K → Option F) (m : FDFF K) (r : FDFF F) (g : F) :
    (m.foldl (C92.turn gf) r).get g =
      (match r.get g with | some t => some t | none => (m.find? fun p => decide (gf p.1 = some g)).map Prod.snd) := by
  induction m generalizing r with
  | nil => cases h : r.get g <;> simp [h]
  | cons p m ih =>
    rw [List.foldl_cons, ih, C92.turn_get]
    cases r.get g with
    | some t => simp
    | none =>
      by_cases hp : gf p.1 = some g
      · simp [hp]
      · simp [hp]

theorem C92.read_eq {F : Type} [DecidableEq F] (gf : K → Option F)
    (inj : ∀ a b g, gf a = some g → gf b = some g → a = b) (ops : List (Op K)) (f : K) (g : F) (hf : gf f = some g) :
    (readFromFDFF gf (run ops)).get g = (run ops).get f := by
  have h0 : (readFromFDFF gf (run ops)).get g = ((run ops).find? fun p => decide (gf p.1 = some g)).map Prod.snd :=
    C92.read_get gf (run ops) [] g
  rw [h0]
  have hn := C92.nodup_run ops
  generalize run ops = m at hn
  cases hm : m.find? (fun p => decide (gf p.1 = some g)) with
  | some p =>
    have h1 := List.find?_some hm
    have h2 : p.1 = f := inj _ _ g (by simpa using h1) hf
    have h3 := List.mem_of_find?_eq_some hm
    have h4 : (f, p.2) ∈ m := by rw [← h2]; exact h3
    simp [AMap.get_of_mem hn h4]
  | none =>
    cases hg : m.get f with
    | none => rfl
    | some t =>
      have h5 := List.find?_eq_none.1 hm _ (AMap.mem_of_get hg)
      simp [hf] at h5

/-- **C92.** `readFromFDFF`: a function that is found by its name has the facts that were given for the name, and is known iff the name
is; a function that no name finds is not known.  (Names of functions in a module are unique.) -/
theorem C92_read {F : Type} [DecidableEq F] (getFunction : K → Option F)
    (inj : ∀ a b g, getFunction a = some g → getFunction b = some g → a = b) (ops : List (Op K)) :
    (∀ f g, getFunction f = some g →
      (contains (readFromFDFF getFunction (run ops)) g = true ↔ ∃ o ∈ ops, o.fn = f) ∧
      ∀ i, (getFactsForFunction (readFromFDFF getFunction (run ops)) g).get i = told ops f i) ∧
    (∀ g, (∀ f, getFunction f ≠ some g) → contains (readFromFDFF getFunction (run ops)) g = false) := by
  constructor
  · intro f g hf
    have h := C92.read_eq getFunction inj ops f g hf
    constructor
    · rw [← C92_known, contains, contains, h]
    · intro i
      rw [← C92_facts, getFactsForFunction, h]
      cases (run ops).get f <;> simp
  · intro g hg
    have h0 : (readFromFDFF getFunction (run ops)).get g =
        ((run ops).find? fun p => decide (getFunction p.1 = some g)).map Prod.snd := C92.read_get getFunction (run ops) [] g
    have h1 : (run ops).find? (fun p => decide (getFunction p.1 = some g)) = none :=
      List.find?_eq_none.2 fun p _ => by simp [hg p.1]
    rw [contains, h0, h1]; rfl

/-- **C92.** `getFacts` gives the stored facts, or none; asking changes neither later answers nor which functions are known, although it
may make an entry. -/
theorem C92_query (m : FDFF K) (f : K) (i : Nat) :
    (getFacts m f i).1 = ((m.get f).bind fun t => t.get i).getD [] ∧
    (∀ g j, (getFacts (getFacts m f i).2 g j).1 = (getFacts m g j).1) ∧
    (∀ g, contains (getFacts m f i).2 g = contains m g) ∧
    (∀ g j, (getFactsForFunction (getFacts m f i).2 g).get j = (getFactsForFunction m g).get j ∨
      (g = f ∧ j = i ∧ (getFactsForFunction (getFacts m f i).2 g).get j = some [])) := by
  have key : ∀ (m : FDFF K) (f : K) (i : Nat), (getFacts m f i).1 = ((m.get f).bind fun t => t.get i).getD [] := by
    intro m f i
    unfold getFacts
    cases m.get f with
    | none => rfl
    | some t => cases h : t.get i <;> simp [h]
  refine ⟨key m f i, ?_, ?_, ?_⟩
  · intro g j
    rw [key, key]
    unfold getFacts
    cases hm : m.get f with
    | none => rfl
    | some t =>
      cases h : t.get i with
      | some s => simp [h]
      | none =>
        simp only [h]
        by_cases hg : f = g
        · subst hg
          by_cases hj : i = j
          · subst hj; simp [hm, h]
          · simp [hm, hj]
        · simp [hg]
  · intro g
    unfold getFacts contains
    cases hm : m.get f with
    | none => rfl
    | some t =>
      cases h : t.get i with
      | some s => simp [h]
      | none =>
        by_cases hg : f = g
        · subst hg; simp [h, hm]
        · simp [h, hg]
  · intro g j
    unfold getFacts getFactsForFunction
    cases hm : m.get f with
    | none => exact Or.inl rfl
    | some t =>
      cases h : t.get i with
      | some s => left; simp [h]
      | none =>
        by_cases hg : f = g
        · subst hg
          by_cases hj : i = j
          · subst hj; right; simp [h]
          · left; simp [h, hm, hj]
        · left; simp [h, hg]

end

/-! ## The flow -/

section
variable {V : Type} [DecidableEq V]

theorem C92.mapM_some {α β : Type} (g : α → Option β) (l : List α) :
    (∀ r, l.mapM g = some r → ∀ y, y ∈ r ↔ ∃ x ∈ l, g x = some y) ∧ (l.mapM g = none ↔ ∃ x ∈ l, g x = none) := by
  induction l with
  | nil => simp
  | cons a l ih =>
    rw [List.mapM_cons]
    cases ha : g a with
    | none => simp [ha]
    | some b =>
      cases hl : l.mapM g with
      | none =>
        have := ih.2.1 hl
        simp [ha]
        exact this
      | some r =>
        have h1 := ih.1 r hl
        have h2 : ¬ ∃ x ∈ l, g x = none := fun h => by simp [ih.2.2 h] at hl
        constructor
        · intro r' hr y
          have hr' : b :: r = r' := by simpa using hr
          subst hr'
          simp only [List.mem_cons, h1, exists_eq_or_imp, ha, Option.some.injEq]
          exact ⟨fun h => h.imp Eq.symm id, fun h => h.imp Eq.symm id⟩
        · simp only [List.mem_cons, exists_eq_or_imp, ha]
          simp only [reduceCtorEq, false_or]
          exact ⟨fun h => by simp at h, fun h => absurd h h2⟩

omit [DecidableEq V] in
theorem C92.fromArg (t : PMap) (cs : V) (args : List V) (j : Nat) :
    (∀ r, fromArg t cs args j = some r → ∀ y, y ∈ r ↔ ∃ s, t.get j = some s ∧
      ((∃ k, Fact.param k ∈ s ∧ args[k]? = some y) ∨ (Fact.ret ∈ s ∧ y = cs))) ∧
    (fromArg t cs args j = none ↔ ∃ s, t.get j = some s ∧ ∃ k, Fact.param k ∈ s ∧ args.length ≤ k) := by
  unfold LibSummary.fromArg
  cases h : t.get j with
  | none => simp
  | some s =>
    have hm := C92.mapM_some (fun x : Fact => match x with | .param k => args[k]? | .ret => some cs) s
    refine ⟨?_, ?_⟩
    · intro r hr y
      refine (hm.1 r hr y).trans ?_
      constructor
      · rintro ⟨x, hx, hy⟩
        refine ⟨s, rfl, ?_⟩
        cases x with
        | param k => exact Or.inl ⟨k, hx, hy⟩
        | ret => exact Or.inr ⟨hx, (Option.some.inj hy).symm⟩
      · rintro ⟨s', hs, h1⟩
        cases hs
        rcases h1 with ⟨k, hk, hy⟩ | ⟨hret, rfl⟩
        · exact ⟨Fact.param k, hk, hy⟩
        · exact ⟨Fact.ret, hret, rfl⟩
    · refine hm.2.trans ?_
      constructor
      · rintro ⟨x, hx, hy⟩
        cases x with
        | param k => exact ⟨s, rfl, k, hx, List.getElem?_eq_none_iff.1 hy⟩
        | ret => cases hy
      · rintro ⟨s', hs, k, hk, hl⟩
        cases hs
        exact ⟨Fact.param k, hk, List.getElem?_eq_none_iff.2 hl⟩

theorem C92.positions (args : List V) (n : Nat) (src : V) (j : Nat) :
    j ∈ ((List.range (min args.length n)).filter fun j => decide (args[j]? = some src)) ↔ j < n ∧ args[j]? = some src := by
  simp only [List.mem_filter, List.mem_range, decide_eq_true_eq]
  constructor
  · rintro ⟨h1, h2⟩
    exact ⟨by omega, h2⟩
  · rintro ⟨h1, h2⟩
    have := (List.getElem?_eq_some_iff.1 h2).1
    exact ⟨by omega, h2⟩

/-- **C92.** The flow made from a summary fails iff the summary of a parameter that gets the fact names an argument the call does not
have; otherwise its results are the fact itself, the arguments that the summary names for a parameter that gets the fact, and the call
if the summary names the return value. -/
theorem C92_flow (t : PMap) (cs : V) (args : List V) (nparams : Nat) (src : V) :
    (libFlow t cs args nparams src = none ↔
      ∃ j, j < nparams ∧ args[j]? = some src ∧ ∃ s, t.get j = some s ∧ ∃ k, Fact.param k ∈ s ∧ args.length ≤ k) ∧
    (∀ r, libFlow t cs args nparams src = some r → ∀ y, y ∈ r ↔ y = src ∨
      ∃ j, j < nparams ∧ args[j]? = some src ∧ ∃ s, t.get j = some s ∧
        ((∃ k, Fact.param k ∈ s ∧ args[k]? = some y) ∨ (Fact.ret ∈ s ∧ y = cs))) := by
  have hm := C92.mapM_some (LibSummary.fromArg t cs args)
    ((List.range (min args.length nparams)).filter fun j => decide (args[j]? = some src))
  constructor
  · unfold libFlow
    rw [Option.map_eq_none_iff, hm.2]
    constructor
    · rintro ⟨j, hj, h⟩
      have h1 := (C92.positions args nparams src j).1 hj
      exact ⟨j, h1.1, h1.2, (C92.fromArg t cs args j).2.1 h⟩
    · rintro ⟨j, h1, h2, h⟩
      exact ⟨j, (C92.positions args nparams src j).2 ⟨h1, h2⟩, (C92.fromArg t cs args j).2.2 h⟩
  · intro r hr y
    obtain ⟨l, hl, rfl⟩ := Option.map_eq_some_iff.1 hr
    rw [List.mem_append, List.mem_flatten, List.mem_singleton, or_comm]
    refine or_congr Iff.rfl ?_
    constructor
    · rintro ⟨a, ha, hy⟩
      obtain ⟨j, hj, h⟩ := (hm.1 l hl a).1 ha
      have h1 := (C92.positions args nparams src j).1 hj
      exact ⟨j, h1.1, h1.2, ((C92.fromArg t cs args j).1 a h y).1 hy⟩
    · rintro ⟨j, h1, h2, h⟩
      have hj := (C92.positions args nparams src j).2 ⟨h1, h2⟩
      cases ha : LibSummary.fromArg t cs args j with
      | none =>
        have := hm.2.2 ⟨j, hj, ha⟩
        rw [this] at hl; cases hl
      | some a => exact ⟨a, (hm.1 l hl a).2 ⟨j, hj, ha⟩, ((C92.fromArg t cs args j).1 a ha y).2 h⟩

/-- **C92.** A fact that is only passed in the variable part of the arguments of a call goes nowhere, whatever the summary says. -/
theorem C92_flow_variadic (t : PMap) (cs : V) (args : List V) (nparams : Nat) (src : V)
    (h : ∀ j, args[j]? = some src → nparams ≤ j) : libFlow t cs args nparams src = some [src] := by
  have h0 : ((List.range (min args.length nparams)).filter fun j => decide (args[j]? = some src)) = [] := by
    refine List.eq_nil_iff_forall_not_mem.2 fun j hj => ?_
    have h1 := (C92.positions args nparams src j).1 hj
    have := h j h1.2
    omega
  unfold libFlow
  rw [h0]; rfl

end

/-! ## Examples -/

/-- `strcpy` in small: parameter 1 flows to parameter 0 and the result; a set that comes later is ignored, a set that comes first is not. -/
def C92.exOps : List (Op Nat) :=
  [.add 7 1 (.param 0), .ins 8 0 [.ret], .add 7 1 .ret, .ins 7 1 [.param 5], .add 8 0 (.param 3), .add 9 2 (.param 4)]

example : told C92.exOps 7 1 = some [.param 0, .ret] ∧ told C92.exOps 8 0 = some [.ret, .param 3] ∧
    told C92.exOps 7 0 = none ∧ getDataFlowFacts (run C92.exOps) 7 0 = none ∧ getDataFlowFacts (run C92.exOps) 5 0 = some [] ∧
    contains (run C92.exOps) 7 = true ∧ contains (run C92.exOps) 5 = false := by decide

/-- Functions are found by half their name, if it is even: injective. -/
example : (∀ a b g, (fun n : Nat => if n % 2 = 0 then some (n / 2) else none) a = some g →
      (fun n : Nat => if n % 2 = 0 then some (n / 2) else none) b = some g → a = b) ∧
    contains (readFromFDFF (fun n : Nat => if n % 2 = 0 then some (n / 2) else none) (run C92.exOps)) 4 = true ∧
    contains (readFromFDFF (fun n : Nat => if n % 2 = 0 then some (n / 2) else none) (run C92.exOps)) 7 = false := by
  refine ⟨?_, by decide, by decide⟩
  intro a b g ha hb
  simp only [Option.ite_none_right_eq_some, Option.some.injEq] at ha hb
  omega

example : (getFacts (run C92.exOps) 7 0).1 = [] ∧ (getFacts (run C92.exOps) 7 0).2 ≠ run C92.exOps := by decide

/-- A call with two arguments, the second holds the fact: it flows to the first and to the call (100). -/
example : libFlow (getFactsForFunction (run C92.exOps) 7) 100 [20, 21] 2 21 = some [20, 100, 21] ∧
    libFlow (getFactsForFunction (run C92.exOps) 7) 100 [20, 21] 1 21 = some [21] ∧
    libFlow (getFactsForFunction (run C92.exOps) 9) 100 [20, 21, 22] 3 22 = none := by decide

end Phasar.LibSummary
