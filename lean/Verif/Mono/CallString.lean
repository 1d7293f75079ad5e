/-!
# Model of `CallStringCTX`

Models `include/phasar/DataFlow/Mono/Contexts/CallStringCTX.h`.  The `std::deque` is a list, most
recent call site last.
-/
namespace Phasar.CallString

/-- The value of `KLimit - 1` in `unsigned` arithmetic (32 bits), `CallStringCTX.h:21,33`: it wraps
around for `K = 0`. -/
def limit (K : Nat) : Nat := if K = 0 then 4294967295 else K - 1

/-- `push_back`, `CallStringCTX.h:32-37`. -/
def push {N : Type} (K : Nat) (cs : List N) (n : N) : List N :=
  if cs.length > limit K then cs.tail ++ [n] else cs ++ [n]

/-- `pop_back`, `CallStringCTX.h:39-46`: the new context and the returned call site; `none` stands for
`N{}`. -/
def pop {N : Type} (cs : List N) : List N × Option N :=
  match cs.getLast? with
  | some n => (cs.dropLast, some n)
  | none => (cs, none)

/-- The constructor from an initializer list, `CallStringCTX.h:25-30`; `none` stands for the exception. -/
def ofList {N : Type} (K : Nat) (l : List N) : Option (List N) :=
  if l.length > K then none else some l

/-- `isEqual` and `operator==`, `CallStringCTX.h:48-50,56-59`. -/
def isEqual {N : Type} [DecidableEq N] (a b : List N) : Bool := a == b

/-- `std::hash<CallStringCTX>`, `CallStringCTX.h:91-100`, for given hash functions of `unsigned` and of
`std::deque<N>`, in 64-bit arithmetic. -/
def hash {N : Type} (hashU : Nat → UInt64) (hashD : List N → UInt64) (K : Nat) (cs : List N) : UInt64 :=
  hashU K ^^^ (hashD cs <<< 1)

/-- The operations on a context. -/
inductive Op (N : Type)
  | push (n : N)
  | pop

/-- A history of operations applied to a context. -/
def run {N : Type} (K : Nat) : List (Op N) → List N → List N
  | [], cs => cs
  | .push n :: os, cs => run K os (push K cs n)
  | .pop :: os, cs => run K os (pop cs).1

/-- Specification: the unbounded call stack after a history, top last; `none` when the history returns from
more calls than it made. -/
def stack {N : Type} : List (Op N) → List N → Option (List N)
  | [], s => some s
  | .push n :: os, s => stack os (s ++ [n])
  | .pop :: os, s => if s = [] then none else stack os s.dropLast

/-- Specification: the deepest call stack during a history. -/
def depth {N : Type} : List (Op N) → List N → Nat
  | [], s => s.length
  | .push n :: os, s => max s.length (depth os (s ++ [n]))
  | .pop :: os, s => max s.length (depth os s.dropLast)

theorem limit_pos {K : Nat} (h : 0 < K) : limit K = K - 1 := by
  unfold limit; rw [if_neg (by omega)]

theorem limit_zero : limit 0 = 4294967295 := rfl

theorem pop_fst {N : Type} (cs : List N) : (pop cs).1 = cs.dropLast := by
  unfold pop
  cases h : cs.getLast? with
  | some n => rfl
  | none => rw [List.getLast?_eq_none_iff.1 h]; rfl

theorem push_length {N : Type} {K : Nat} (h : 0 < K) (cs : List N) (hl : cs.length ≤ K) (n : N) :
    (push K cs n).length ≤ K := by
  unfold push
  rw [limit_pos h]
  split
  · rw [List.length_append, List.length_tail]; simp; omega
  · rw [List.length_append]; simp; omega

theorem run_length {N : Type} {K : Nat} (h : 0 < K) (os : List (Op N)) (cs : List N)
    (hl : cs.length ≤ K) : (run K os cs).length ≤ K := by
  induction os generalizing cs with
  | nil => exact hl
  | cons o os ih =>
    cases o with
    | push n =>
      simp only [run]
      exact ih _ (push_length h cs hl n)
    | pop =>
      simp only [run]
      refine ih _ ?_
      rw [pop_fst, List.length_dropLast]
      omega

theorem suffix_snoc {N : Type} {a b : List N} (h : a <:+ b) (n : N) : a ++ [n] <:+ b ++ [n] := by
  obtain ⟨t, rfl⟩ := h
  exact ⟨t, by simp⟩

theorem suffix_dropLast {N : Type} {a b : List N} (h : a <:+ b) : a.dropLast <:+ b.dropLast := by
  obtain ⟨t, rfl⟩ := h
  by_cases e : a = []
  · subst e; simp
  · rw [List.dropLast_append_of_ne_nil e]
    exact ⟨t, rfl⟩

theorem push_suffix {N : Type} (K : Nat) {cs s : List N} (h : cs <:+ s) (n : N) : push K cs n <:+ s ++ [n] := by
  unfold push
  split
  · exact suffix_snoc (List.IsSuffix.trans (List.tail_suffix cs) h) n
  · exact suffix_snoc h n

theorem run_suffix {N : Type} (K : Nat) (os : List (Op N)) (cs s : List N) (h : cs <:+ s) (t : List N)
    (ht : stack os s = some t) : run K os cs <:+ t := by
  induction os generalizing cs s with
  | nil => simp only [stack, Option.some.injEq] at ht; subst ht; exact h
  | cons o os ih =>
    cases o with
    | push n =>
      simp only [run]
      exact ih _ _ (push_suffix K h n) ht
    | pop =>
      simp only [run]
      simp only [stack] at ht
      split at ht
      · cases ht
      · refine ih _ _ ?_ ht
        rw [pop_fst]
        exact suffix_dropLast h

theorem run_exact {N : Type} {K : Nat} (h : 0 < K) (os : List (Op N)) (s t : List N)
    (ht : stack os s = some t) (hd : depth os s ≤ K) : run K os s = t := by
  induction os generalizing s with
  | nil => simpa [stack, run] using ht
  | cons o os ih =>
    cases o with
    | push n =>
      simp only [stack] at ht
      simp only [depth] at hd
      have hdeep : (s ++ [n]).length ≤ depth os (s ++ [n]) := by
        cases os with
        | nil => exact Nat.le_refl _
        | cons o os => cases o <;> exact Nat.le_max_left _ _
      simp only [run]
      have : push K s n = s ++ [n] := by
        unfold push
        rw [limit_pos h, if_neg]
        rw [List.length_append] at hdeep
        simp at hdeep
        omega
      rw [this]
      exact ih _ ht (by omega)
    | pop =>
      simp only [stack] at ht
      simp only [depth] at hd
      split at ht
      · cases ht
      · simp only [run, pop_fst]
        exact ih _ ht (by omega)

theorem run_pushes {N : Type} {K : Nat} (h : 0 < K) (ns : List N) (cs : List N) (hl : cs.length ≤ K) :
    run K (ns.map .push) cs = (cs ++ ns).drop ((cs ++ ns).length - K) := by
  induction ns generalizing cs with
  | nil =>
    have : (cs ++ []).length - K = 0 := by rw [List.append_nil]; omega
    rw [this]; simp [run]
  | cons n ns ih =>
    simp only [List.map_cons, run]
    rw [ih _ (push_length h cs hl n)]
    unfold push
    rw [limit_pos h]
    split
    · rename_i hgt
      have hk : cs.length = K := by omega
      cases cs with
      | nil => simp at hgt
      | cons c cs =>
        simp only [List.tail_cons, List.length_append, List.length_cons, List.length_nil, List.append_assoc,
          List.cons_append, List.nil_append] at hk ⊢
        have e1 : cs.length + (ns.length + 1) - K = ns.length := by omega
        have e2 : cs.length + (ns.length + 1) + 1 - K = ns.length + 1 := by omega
        rw [e1, e2, List.drop_succ_cons]
    · simp [List.append_assoc]

theorem run_append {N : Type} (K : Nat) (a b : List (Op N)) (cs : List N) :
    run K (a ++ b) cs = run K b (run K a cs) := by
  induction a generalizing cs with
  | nil => rfl
  | cons o a ih => cases o <;> simp only [List.cons_append, run] <;> exact ih _

end Phasar.CallString
