import Verif.Store.LLVMFlow
/-!
# Property C50: the mapping flow functions for LLVM
-/
set_option linter.unusedSectionVars false
namespace Phasar.FlowFn
open Phasar

variable {A : Type} [DecidableEq A]

theorem C50.mem_ofList {xs : List A} {t : A} : t ∈ FSet.ofList xs ↔ t ∈ xs := by
  simp [FSet.ofList]

theorem C50.mem_fold {B : Type} (l : List B) (c : B → Bool) (g : B → A) (r : List A) (t : A) :
    t ∈ l.foldl (fun r p => if c p then FSet.insert r (g p) else r) r ↔ t ∈ r ∨ ∃ p ∈ l, c p = true ∧ t = g p := by
  induction l generalizing r with
  | nil => simp
  | cons a l ih =>
    rw [List.foldl_cons, ih]
    by_cases h : c a = true
    · rw [if_pos h, FSet.mem_insert]
      constructor
      · rintro ((h1 | h1) | ⟨p, h2, h3⟩)
        · exact .inr ⟨a, List.mem_cons_self, h, h1⟩
        · exact .inl h1
        · exact .inr ⟨p, List.mem_cons_of_mem _ h2, h3⟩
      · rintro (h1 | ⟨p, h2, h3, h4⟩)
        · exact .inl (.inr h1)
        · rcases List.mem_cons.1 h2 with rfl | h2
          · exact .inl (.inl h4)
          · exact .inr ⟨p, h2, h3, h4⟩
    · rw [if_neg h]
      constructor
      · rintro (h1 | ⟨p, h2, h3⟩)
        · exact .inl h1
        · exact .inr ⟨p, List.mem_cons_of_mem _ h2, h3⟩
      · rintro (h1 | ⟨p, h2, h3, h4⟩)
        · exact .inl h1
        · rcases List.mem_cons.1 h2 with rfl | h2
          · exact absurd h3 h
          · exact .inr ⟨p, h2, h3, h4⟩

theorem C50.mem_foldIns (l : List A) (r : List A) (t : A) : t ∈ l.foldl FSet.insert r ↔ t ∈ r ∨ t ∈ l := by
  have := C50.mem_fold l (fun _ => true) id r t
  simp only [if_true, id] at this
  rw [this]
  simp

theorem C50.mem_zip {l m : List A} {p : A × A} : p ∈ l.zip m ↔ ∃ i : Nat, l[i]? = some p.1 ∧ m[i]? = some p.2 := by
  rw [List.mem_iff_getElem?]
  simp only [List.getElem?_zip_eq_some]

theorem C50.mem_drop {l : List A} {n : Nat} {a : A} : a ∈ l.drop n ↔ ∃ i, n ≤ i ∧ l[i]? = some a := by
  rw [List.mem_iff_getElem?]
  constructor
  · rintro ⟨i, h⟩
    rw [List.getElem?_drop] at h
    exact ⟨n + i, by omega, h⟩
  · rintro ⟨i, h1, h2⟩
    refine ⟨i - n, ?_⟩
    rw [List.getElem?_drop, show n + (i - n) = i by omega]
    exact h2

/-- C50: alongside a call the zero fact is kept, constants and globals are kept or killed together, arguments are kept if the
predicate says so, and everything else is kept; no other fact appears. -/
theorem C50_alongside (ir : IR A) (args : List A) (propArgs : A → Bool) (globals : Bool) (s t : A) :
    t ∈ mapFactsAlongsideCallSite ir args propArgs globals s ↔
      t = s ∧ (s = ir.zero ∨ (ir.isConst s = true ∧ globals = true) ∨
        (ir.isConst s = false ∧ (s ∈ args → propArgs s = true))) := by
  unfold mapFactsAlongsideCallSite
  by_cases h1 : s = ir.zero
  · rw [if_pos h1, C50.mem_ofList]; simp [h1]
  · rw [if_neg h1]
    cases h2 : ir.isConst s
    · rw [if_neg (by simp)]
      by_cases h3 : s ∈ args
      · rw [if_pos h3]
        cases h4 : propArgs s <;> simp [h1, h3]
      · rw [if_neg h3]; simp [h3]
    · rw [if_pos rfl]
      cases globals <;> simp [h1]

/-- C50: into a callee that is only declared nothing flows.  Otherwise: zero and the globals as requested; the parameter at
position `i` if the predicate relates the argument at position `i` with the fact, unless it is the `sret` parameter; the
variable-argument lists if one of the arguments after the parameters is related with the fact. -/
theorem C50_callee (ir : IR A) (args : List A) (f : Callee A) (prop : A → A → Bool) (globals zeroToCallee : Bool) (s t : A) :
    t ∈ mapFactsToCallee ir args f prop globals zeroToCallee s ↔ f.decl = false ∧
      ((t = s ∧ ((s = ir.zero ∧ zeroToCallee = true) ∨ (s ≠ ir.zero ∧ ir.isConst s = true ∧ globals = true))) ∨
       (∃ i a, f.params[i]? = some t ∧ args[i]? = some a ∧ prop a s = true ∧ ¬ (f.sret = true ∧ i = 0)) ∨
       (t ∈ f.vaLists ∧ ∃ i a, f.params.length ≤ i ∧ args[i]? = some a ∧ prop a s = true)) := by
  unfold mapFactsToCallee
  cases hd : f.decl
  · rw [if_neg (by simp)]
    simp only [true_and]
    have hres : ∀ u, u ∈ (if (zeroToCallee && decide (s = ir.zero)) = true then FSet.insert [] s
        else if (globals && decide (s ≠ ir.zero) && ir.isConst s) = true then FSet.insert [] s else ([] : List A)) ↔
        u = s ∧ ((s = ir.zero ∧ zeroToCallee = true) ∨ (s ≠ ir.zero ∧ ir.isConst s = true ∧ globals = true)) := by
      intro u
      by_cases h1 : s = ir.zero
      · cases zeroToCallee <;> simp [h1, FSet.mem_insert]
      · cases globals <;> cases ir.isConst s <;> simp [h1, FSet.mem_insert]
    generalize hsk : (if (f.sret && !f.params.isEmpty) = true then 1 else 0) = skip
    have hskip : ∀ i, i < f.params.length → (skip ≤ i ↔ ¬ (f.sret = true ∧ i = 0)) := by
      intro i hi
      rw [← hsk]
      have hne : f.params.isEmpty = false := by
        cases hp : f.params with
        | nil => rw [hp] at hi; simp at hi
        | cons => rfl
      rw [hne]
      cases f.sret
      · simp
      · simp; omega
    have hle : skip ≤ f.params.length := by
      rw [← hsk]
      split
      · rename_i h
        cases hp : f.params with
        | nil => rw [hp] at h; simp at h
        | cons => simp
      · omega
    have hpar : (∃ p ∈ (paramArgs (f.params.drop skip) (args.drop skip)).1, prop p.2 s = true ∧ t = p.1) ↔
        ∃ i a, f.params[i]? = some t ∧ args[i]? = some a ∧ prop a s = true ∧ ¬ (f.sret = true ∧ i = 0) := by
      constructor
      · rintro ⟨p, h1, h2, h3⟩
        obtain ⟨i, h4, h5⟩ := C50.mem_zip.1 h1
        rw [List.getElem?_drop] at h4 h5
        have hlt := (List.getElem?_eq_some_iff.1 h4).1
        exact ⟨skip + i, p.2, by rw [h4, h3], h5, h2, (hskip _ hlt).1 (by omega)⟩
      · rintro ⟨i, a, h1, h2, h3, h4⟩
        have hlt := (List.getElem?_eq_some_iff.1 h1).1
        have hs := (hskip _ hlt).2 h4
        refine ⟨(t, a), C50.mem_zip.2 ⟨i - skip, ?_, ?_⟩, h3, rfl⟩
        · rw [List.getElem?_drop, show skip + (i - skip) = i by omega]; exact h1
        · rw [List.getElem?_drop, show skip + (i - skip) = i by omega]; exact h2
    have hva : (paramArgs (f.params.drop skip) (args.drop skip)).2.any (fun a => prop a s) = true ↔
        ∃ i a, f.params.length ≤ i ∧ args[i]? = some a ∧ prop a s = true := by
      rw [List.any_eq_true]
      simp only [paramArgs, List.drop_drop, List.length_drop, show skip + (f.params.length - skip) = f.params.length by omega]
      constructor
      · rintro ⟨a, h1, h2⟩
        obtain ⟨i, h3, h4⟩ := C50.mem_drop.1 h1
        exact ⟨i, a, h3, h4, h2⟩
      · rintro ⟨i, a, h1, h2, h3⟩
        exact ⟨a, C50.mem_drop.2 ⟨i, h1, h2⟩, h3⟩
    have hfold := C50.mem_fold (paramArgs (f.params.drop skip) (args.drop skip)).1 (fun p => prop p.2 s) (fun p => p.1)
      (if (zeroToCallee && decide (s = ir.zero)) = true then FSet.insert [] s
        else if (globals && decide (s ≠ ir.zero) && ir.isConst s) = true then FSet.insert [] s else ([] : List A)) t
    rw [hres, hpar] at hfold
    split
    · rename_i h
      rw [C50.mem_foldIns, hfold, or_assoc]
      have := hva.1 h
      exact or_congr_right (or_congr_right ⟨fun h' => ⟨h', this⟩, fun h' => h'.1⟩)
    · rename_i h
      rw [hfold]
      exact or_congr_right ⟨.inl, fun h' => h'.elim id fun h' => absurd (hva.2 h'.2) h⟩
  · rw [if_pos rfl]; simp

/-- C50 (partial): back to the caller flow zero and the globals as requested, the argument at position `i` if the predicate
relates the parameter at position `i` with the fact, all arguments after the parameters if it relates a variable-argument list
with the fact, and the call if the return value is related with the fact.  Missing: the zero fact is not suppressed on request
if globals are propagated (`C50_zero_false`): the flag counts only if the zero value does not count as a constant. -/
theorem C50_caller_partial (ir : IR A) (call : A) (args : List A) (f : Callee A) (rv : Option A)
    (propParam propRet : A → A → Bool) (globals zeroToCaller : Bool) (s t : A) :
    t ∈ mapFactsToCaller ir call args f rv propParam propRet globals zeroToCaller s ↔
      ((t = s ∧ ((s = ir.zero ∧ zeroToCaller = true) ∨ (ir.isConst s = true ∧ globals = true))) ∨
       (∃ (i : Nat) (p : A), f.params[i]? = some p ∧ args[i]? = some t ∧ propParam p s = true) ∨
       ((∃ a ∈ f.vaLists, propParam a s = true) ∧ ∃ i : Nat, f.params.length ≤ i ∧ args[i]? = some t) ∨
       (∃ v, rv = some v ∧ propRet v s = true ∧ t = call)) := by
  unfold mapFactsToCaller
  have hres : ∀ u, u ∈ (if (zeroToCaller && decide (s = ir.zero)) = true then FSet.insert [] s
      else if (globals && ir.isConst s) = true then FSet.insert [] s else ([] : List A)) ↔
      u = s ∧ ((s = ir.zero ∧ zeroToCaller = true) ∨ (ir.isConst s = true ∧ globals = true)) := by
    intro u
    by_cases h1 : s = ir.zero
    · cases zeroToCaller <;> cases globals <;> cases hc : ir.isConst s <;> simp [h1, FSet.mem_insert]
    · cases globals <;> cases ir.isConst s <;> simp [h1, FSet.mem_insert]
  have hfold := C50.mem_fold (paramArgs f.params args).1 (fun p => propParam p.1 s) (fun p => p.2)
    (if (zeroToCaller && decide (s = ir.zero)) = true then FSet.insert [] s
      else if (globals && ir.isConst s) = true then FSet.insert [] s else ([] : List A)) t
  have hpar : (∃ p ∈ (paramArgs f.params args).1, propParam p.1 s = true ∧ t = p.2) ↔
      ∃ (i : Nat) (p : A), f.params[i]? = some p ∧ args[i]? = some t ∧ propParam p s = true := by
    constructor
    · rintro ⟨p, h1, h2, h3⟩
      obtain ⟨i, h4, h5⟩ := C50.mem_zip.1 h1
      exact ⟨i, p.1, h4, by rw [h5, h3], h2⟩
    · rintro ⟨i, p, h1, h2, h3⟩
      exact ⟨(p, t), C50.mem_zip.2 ⟨i, h1, h2⟩, h3, rfl⟩
  rw [hres, hpar] at hfold
  have hrest : t ∈ (paramArgs f.params args).2 ↔ ∃ i : Nat, f.params.length ≤ i ∧ args[i]? = some t := C50.mem_drop
  dsimp only
  generalize hR : (paramArgs f.params args).1.foldl _ _ = R at hfold ⊢
  have hva : t ∈ (if f.vaLists.any (fun a => propParam a s) = true then (paramArgs f.params args).2.foldl FSet.insert R else R) ↔
      t ∈ R ∨ ((∃ a ∈ f.vaLists, propParam a s = true) ∧ ∃ i : Nat, f.params.length ≤ i ∧ args[i]? = some t) := by
    split
    · rename_i h
      rw [C50.mem_foldIns, hrest]
      have := List.any_eq_true.1 h
      simp [this]
    · rename_i h
      have : ¬ ∃ a ∈ f.vaLists, propParam a s = true := fun h' => h (List.any_eq_true.2 h')
      simp [this]
  cases rv with
  | none =>
    dsimp only
    rw [hva, hfold]
    simp [or_assoc]
  | some v =>
    dsimp only
    cases hp : propRet v s
    · rw [if_neg (by simp), hva, hfold]; simp [hp, or_assoc]
    · rw [if_pos rfl, FSet.mem_insert, hva, hfold]
      constructor
      · rintro (h | (h | h) | h)
        · exact .inr (.inr (.inr ⟨v, rfl, hp, h⟩))
        · exact .inl h
        · exact .inr (.inl h)
        · exact .inr (.inr (.inl h))
      · rintro (h | h | h | ⟨v', _, _, h⟩)
        · exact .inr (.inl (.inl h))
        · exact .inr (.inl (.inr h))
        · exact .inr (.inr h)
        · exact .inl h

/-- The documented `f(Λ) = {Λ} if PropagateZeroToCaller else {}` (`LLVMFlowFunctions.h:253`) is false: the zero value is a
global variable, so with `PropagateGlobals` (the default) it is propagated although `PropagateZeroToCaller` is off.
`mapFactsToCallee` excludes this case. -/
theorem C50_zero_false (ir : IR A) (hz : ir.isConst ir.zero = true) (call : A) (args : List A) (f : Callee A) (rv : Option A)
    (propParam propRet : A → A → Bool) :
    ir.zero ∈ mapFactsToCaller ir call args f rv propParam propRet true false ir.zero ∧
    ∀ prop, (∀ a, prop a ir.zero = false) → mapFactsToCallee ir args f prop true false ir.zero = [] := by
  refine ⟨(C50_caller_partial ..).2 (.inl ⟨rfl, .inr ⟨hz, rfl⟩⟩), fun prop hp => ?_⟩
  apply List.eq_nil_iff_forall_not_mem.2
  intro t ht
  obtain ⟨_, h | ⟨_, _, _, _, h, _⟩ | ⟨_, _, _, _, _, h⟩⟩ := (C50_callee ..).1 ht
  · rcases h with ⟨_, ⟨_, h⟩ | ⟨h, _⟩⟩
    · cases h
    · exact h rfl
  · rw [hp] at h; cases h
  · rw [hp] at h; cases h

/-- C50: a store kills the facts of its pointer operand (with and without casts), keeps all other facts and generates the
pointer operand (with and without casts) from the facts related with the value. -/
theorem C50_store (ptr base : A) (pred : A → Bool) (s t : A) :
    t ∈ strongUpdateStoreIf ptr base pred s ↔
      s ≠ ptr ∧ s ≠ base ∧ (t = s ∨ (pred s = true ∧ (t = ptr ∨ t = base))) := by
  unfold strongUpdateStoreIf
  by_cases hb : base = ptr
  · subst hb
    rw [if_neg (by simp)]
    by_cases h : s = base
    · simp [h]
    · rw [if_neg h]
      cases hp : pred s <;> simp [h]
  · rw [if_pos hb]
    by_cases h : s = ptr ∨ s = base
    · rw [if_pos h]; simp; intro h1 h2; exact absurd h (by simp [h1, h2])
    · rw [if_neg h]
      rw [not_or] at h
      cases hp : pred s <;> simp [h.1, h.2]

/-- C50: the store without a predicate generates from its value operand. -/
theorem C50_store_value (val ptr base : A) (s t : A) :
    t ∈ strongUpdateStore val ptr base s ↔
      s ≠ ptr ∧ s ≠ base ∧ (t = s ∨ (s = val ∧ (t = ptr ∨ t = base))) := by
  have : strongUpdateStore val ptr base s = strongUpdateStoreIf ptr base (fun x => decide (x = val)) s := by
    simp [strongUpdateStore, strongUpdateStoreIf]
  rw [this, C50_store]
  simp

/-- C50: a fact about an argument that is passed into a function and holds for the parameter at its end comes back to the
argument (default predicates). -/
theorem C50_roundtrip (ir : IR A) (call : A) (args : List A) (f : Callee A) (rv : Option A) (hd : f.decl = false) (i : Nat)
    (p a : A) (hp : f.params[i]? = some p) (ha : args[i]? = some a) (hs : ¬ (f.sret = true ∧ i = 0)) :
    p ∈ mapFactsToCallee ir args f (fun x y => decide (x = y)) true true a ∧
    a ∈ mapFactsToCaller ir call args f rv (fun x y => decide (x = y)) (fun x y => decide (x = y)) true true p :=
  ⟨(C50_callee ..).2 ⟨hd, .inr (.inl ⟨i, a, hp, ha, by simp, hs⟩)⟩,
   (C50_caller_partial ..).2 (.inr (.inl ⟨i, p, hp, ha, by simp⟩))⟩

/-- A call `7 = f(5, 9, 6)` of `f(10, 11, ...)` with variable-argument list 12; 0 is the zero value, 9 a global. -/
example :
    let ir : IR Nat := ⟨0, fun x => x == 0 || x == 9⟩
    let f : Callee Nat := ⟨false, [10, 11], false, [12]⟩
    let eq := fun x y : Nat => decide (x = y)
    mapFactsToCallee ir [5, 9, 6] f eq true true 0 = [0] ∧ mapFactsToCallee ir [5, 9, 6] f eq true true 5 = [10] ∧
    mapFactsToCallee ir [5, 9, 6] f eq true true 9 = [9, 11] ∧ mapFactsToCallee ir [5, 9, 6] f eq true true 6 = [12] ∧
    mapFactsToCallee ir [5, 9, 6] { f with sret := true } eq true true 5 = [] ∧
    mapFactsToCaller ir 7 [5, 9, 6] f (some 13) eq eq true true 12 = [6] ∧
    mapFactsToCaller ir 7 [5, 9, 6] f (some 13) eq eq true true 13 = [7] ∧
    mapFactsToCaller ir 7 [5, 9, 6] f (some 13) eq eq true false 0 = [0] ∧
    mapFactsAlongsideCallSite ir [5, 9, 6] (· != 5) false 5 = [] ∧
    mapFactsAlongsideCallSite ir [5, 9, 6] (· != 5) false 6 = [6] ∧
    mapFactsAlongsideCallSite ir [5, 9, 6] (· != 5) false 9 = [] ∧
    strongUpdateStore 5 8 8 5 = [5, 8] ∧ strongUpdateStore 5 8 8 8 = [] ∧ strongUpdateStore 5 8 4 5 = [5, 8, 4] := by decide

end Phasar.FlowFn
