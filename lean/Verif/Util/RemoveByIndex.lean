/-!
# `remove_by_index`

Model of `include/phasar/Utils/Utilities.h:197-247`.  The elements are a list of cells; an element that has been moved
from is `none`.  Iterators are positions; forming one behind the end, or reading an element that has been moved from, is
undefined behaviour (`none`).
-/
namespace Phasar.Util

variable {α : Type}

/-- The first `k` iterations of `std::move(In, Last, Out)`. -/
def moveN : Nat → List (Option α) → Nat → Nat → Option (List (Option α) × Nat)
  | 0, a, _, o => some (a, o)
  | k + 1, a, i, o => match a[i]? with
    | some (some x) => if o < a.length then moveN k ((a.set i none).set o (some x)) (i + 1) (o + 1) else none
    | _ => none

/-- `std::move(In, Last, Out)`: moves the elements `[i, t)` to `o`; returns the end of the target range. -/
def moveRange (a : List (Option α)) (i t o : Nat) : Option (List (Option α) × Nat) :=
  if i ≤ t then moveN (t - i) a i o else none

/-- The loop of the random-access version, `Utilities.h:215-231`; `prev` is `*std::prev(FirstIndex)`. -/
def removeLoop (a : List (Option α)) (prev o i : Nat) : List Nat → Option (List (Option α) × Nat)
  | [] => moveRange a i a.length o
  | c :: cs =>
    if prev + 1 = c then (if i + 1 ≤ a.length then removeLoop a c o (i + 1) cs else none)
    else if a.length ≤ c then moveRange a i a.length o
    else (moveRange a i c o).bind (fun p => removeLoop p.1 c p.2 (c + 1) cs)

/-- `remove_by_index` for random-access iterators, `Utilities.h:200-231`. -/
def removeRA (a : List (Option α)) : List Nat → Option (List (Option α) × Nat)
  | [] => some (a, a.length)
  | c :: cs =>
    if a.length = 0 then some (a, 0)
    else if c + 1 ≤ a.length then removeLoop a c c (c + 1) cs
    else none

/-- The loop of the other version, `Utilities.h:237-244`, `k` iterations before the end is reached: `cur` is `CurrIdx`. -/
def removeFwdLoop : Nat → List (Option α) → Nat → Nat → Nat → List Nat → Option (List (Option α) × Nat)
  | 0, a, _, _, o, _ => some (a, o)
  | k + 1, a, cur, i, o, cs => match cs with
    | [] => none
    | c :: cs' =>
      if cur ≠ c then
        match moveRange a i (i + 1) o with
        | none => none
        | some p => match cs' with
          | [] => moveRange p.1 (i + 1) p.1.length p.2
          | _ => removeFwdLoop k p.1 (cur + 1) (i + 1) p.2 cs'
      else removeFwdLoop k a (cur + 1) (i + 1) o cs

/-- `remove_by_index` for other iterators, `Utilities.h:200-203, 232-246`. -/
def removeFwd (a : List (Option α)) : List Nat → Option (List (Option α) × Nat)
  | [] => some (a, a.length)
  | c :: cs =>
    if a.length = 0 then some (a, 0)
    else if c ≤ a.length then (if c = a.length then some (a, c) else removeFwdLoop (a.length - c) a c c c (c :: cs))
    else none

/-- Specification: the elements whose index is not listed, from index `k` on. -/
def kept (cs : List Nat) : Nat → List α → List α
  | _, [] => []
  | k, x :: l => if k ∈ cs then kept cs (k + 1) l else x :: kept cs (k + 1) l

end Phasar.Util
