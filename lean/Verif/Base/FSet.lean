/-!
# Finite sets as lists

Stand-in for `std::set` / `std::unordered_set` / `llvm::SmallSet`: a list without duplicates.
Nothing proved depends on the order of the elements.
-/
namespace Phasar

namespace FSet
variable {A : Type} [DecidableEq A]

/-- `Set.insert(x)`, as used e.g. in `include/phasar/DataFlow/IfdsIde/FlowFunctions.h:114`. -/
def insert (s : List A) (x : A) : List A := if x ∈ s then s else s ++ [x]

/-- `Set.insert(first, last)`, as used e.g. in `FlowFunctions.h:601`. -/
def insertAll (s : List A) (xs : List A) : List A := xs.foldl insert s

/-- Brace initialisation `{x1, x2, ...}`, as used e.g. in `FlowFunctions.h:234`. -/
def ofList (xs : List A) : List A := insertAll [] xs

@[simp] theorem mem_insert {s : List A} {x y : A} : y ∈ insert s x ↔ y = x ∨ y ∈ s := by
  unfold insert
  split
  · exact ⟨.inr, fun h => h.elim (fun h => h ▸ ‹_›) id⟩
  · simp [or_comm]

theorem nodup_insert {s : List A} (h : s.Nodup) (x : A) : (insert s x).Nodup := by
  unfold insert
  split
  · exact h
  · rename_i hx
    rw [List.nodup_append]
    refine ⟨h, by simp, ?_⟩
    intro a ha b hb hab
    rw [List.mem_singleton] at hb
    exact hx (hb ▸ hab ▸ ha)

@[simp] theorem mem_insertAll {s xs : List A} {y : A} : y ∈ insertAll s xs ↔ y ∈ xs ∨ y ∈ s := by
  unfold insertAll
  induction xs generalizing s with
  | nil => simp
  | cons x xs ih =>
    rw [List.foldl_cons, ih, mem_insert, List.mem_cons]
    constructor
    · rintro (h | h | h) <;> simp [h]
    · rintro ((h | h) | h) <;> simp [h]

theorem nodup_insertAll {s : List A} (h : s.Nodup) (xs : List A) : (insertAll s xs).Nodup := by
  unfold insertAll
  induction xs generalizing s with
  | nil => exact h
  | cons x xs ih => exact ih (nodup_insert h x)

@[simp] theorem mem_ofList {xs : List A} {y : A} : y ∈ ofList xs ↔ y ∈ xs := by
  unfold ofList; simp

theorem nodup_ofList (xs : List A) : (ofList xs).Nodup := nodup_insertAll List.nodup_nil xs

end FSet
end Phasar
