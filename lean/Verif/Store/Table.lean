import Verif.Base.AMap
/-!
# `Table` (`include/phasar/Utils/Table.h`)

`std::unordered_map<R, std::unordered_map<C, V>>` with a two-level interface.  Hash order is not
modelled; nothing below depends on the order of the entries.  `operator==`, `operator<` and the
printer are not modelled; `column` and `operator<` could not be instantiated in C++ anyway
(`column` calls the non-const `operator[]` on a const map, `Table.h:127`; `std::unordered_map` has no
`operator<`, `Table.h:235`).
-/
set_option linter.unusedSectionVars false
namespace Phasar

/-- `Table::Tab` (`Table.h:252`). -/
abbrev Table (R C V : Type) := AMap R (AMap C V)

namespace Table
variable {R C V : Type} [DecidableEq R] [DecidableEq C]

/-- `Tab[RowKey]` (`std::unordered_map::operator[]`): the mapped row, created empty if missing. The result
is the row, the updated table keeps it. Used by `insert`, `get` and `row` (`Table.h:76`, `162`, `209`). -/
def rowRef (t : Table R C V) (r : R) : AMap C V × Table R C V :=
  match t.get r with
  | some m => (m, t)
  | none => ([], t.set r [])

/-- `Table::insert` (`Table.h:74-77`): `Tab[Row][Column] = Val`. -/
def insert (t : Table R C V) (r : R) (c : C) (v : V) : Table R C V :=
  let p := rowRef t r
  p.2.set r (p.1.set c v)

/-- `Table::get`, non-const overload (`Table.h:159-163`): `Tab[RowKey][ColumnKey]`, default-creating the
cell. Returns the value behind the returned reference and the table. -/
def getRef (dflt : V) (t : Table R C V) (r : R) (c : C) : V × Table R C V :=
  let p := rowRef t r
  match p.1.get c with
  | some v => (v, p.2)
  | none => (dflt, p.2.set r (p.1.set c dflt))

/-- A caller writing through the reference returned by the non-const `get`, as
`JumpFunctions::addFunction` does (`JumpFunctions.h:90-102`). -/
def modify (dflt : V) (t : Table R C V) (r : R) (c : C) (f : V → V) : Table R C V :=
  let p := getRef dflt t r c
  insert p.2 r c (f p.1)

/-- `Table::get`, const overload (`Table.h:165-180`). -/
def getC (dflt : V) (t : Table R C V) (r : R) (c : C) : V :=
  match t.get r with
  | none => dflt
  | some m =>
    match m.get c with
    | none => dflt
    | some v => v

/-- `Table::remove(RowKey, ColumnKey)` (`Table.h:182-203`). -/
def remove (dflt : V) (t : Table R C V) (r : R) (c : C) : V × Table R C V :=
  match t.get r with
  | none => (dflt, t)
  | some m =>
    match m.get c with
    | none => (dflt, t)
    | some v =>
      let m' := m.erase c
      (v, if m'.isEmpty then t.erase r else t.set r m')

/-- `Table::remove(RowKey)` (`Table.h:205`). -/
def removeRow (t : Table R C V) (r : R) : Table R C V := t.erase r

/-- `Table::contains` (`Table.h:134-142`). -/
def contains (t : Table R C V) (r : R) (c : C) : Bool :=
  match t.get r with
  | some m => (m.get c).isSome
  | none => false

/-- `Table::containsColumn` (`Table.h:144-152`). -/
def containsColumn (t : Table R C V) (c : C) : Bool := t.any fun p => (p.2.get c).isSome

/-- `Table::containsRow` (`Table.h:154-157`). -/
def containsRow (t : Table R C V) (r : R) : Bool := (t.get r).isSome

/-- `Table::cellVec` (`Table.h:111-121`); `cellSet` (85-94) and `foreachCell` (96-109) run the same
two loops. -/
def cellVec (t : Table R C V) : List (R × C × V) :=
  t.flatMap fun p => p.2.map fun q => (p.1, q.1, q.2)

/-- `Table::row`, const overload (`Table.h:213-221`). -/
def rowC (t : Table R C V) (r : R) : AMap C V :=
  match t.get r with
  | none => []
  | some m => m

/-- `Table::column` (`Table.h:123-132`), as intended (see the note at the top of the file). -/
def column (t : Table R C V) (c : C) : AMap R V :=
  t.foldl (fun acc p => match p.2.get c with | some v => acc.set p.1 v | none => acc) []

/-- `Table::size` (`Table.h:83`): the number of rows. -/
def size (t : Table R C V) : Nat := t.length

/-- Calls of the mutating interface. -/
inductive Op (R C V : Type)
  | insert (r : R) (c : C) (v : V)
  | modify (r : R) (c : C) (f : V → V)
  | row (r : R)
  | remove (r : R) (c : C)
  | removeRow (r : R)
  | clear

/-- One mutating call. -/
def Op.run (dflt : V) (t : Table R C V) : Op R C V → Table R C V
  | .insert r c v => Table.insert t r c v
  | .modify r c f => Table.modify dflt t r c f
  | .row r => (rowRef t r).2
  | .remove r c => (Table.remove dflt t r c).2
  | .removeRow r => Table.removeRow t r
  | .clear => []

/-- A history of calls on an empty table. -/
def runOps (dflt : V) (ops : List (Op R C V)) : Table R C V := ops.foldl (Op.run dflt) []

/-! ## Specification: what a history denotes -/

/-- Specification state: a partial map of cells and the set of rows that exist. A row can exist without
cells: `row()` creates it. -/
structure Spec (R C V : Type) where
  cell : R → C → Option V
  hasRow : R → Prop

/-- The empty table. -/
def Spec.empty : Spec R C V := ⟨fun _ _ => none, fun _ => False⟩

/-- Meaning of one call on the partial map. -/
def Spec.step (dflt : V) (s : Spec R C V) : Op R C V → Spec R C V
  | .insert r c v =>
    ⟨fun r' c' => if r' = r ∧ c' = c then some v else s.cell r' c', fun r' => r' = r ∨ s.hasRow r'⟩
  | .modify r c f =>
    ⟨fun r' c' => if r' = r ∧ c' = c then some (f ((s.cell r c).getD dflt)) else s.cell r' c',
      fun r' => r' = r ∨ s.hasRow r'⟩
  | .row r => ⟨s.cell, fun r' => r' = r ∨ s.hasRow r'⟩
  | .remove r c =>
    ⟨fun r' c' => if r' = r ∧ c' = c then none else s.cell r' c',
      fun r' => s.hasRow r' ∧
        ¬ (r' = r ∧ s.cell r c ≠ none ∧ ∀ c', c' ≠ c → s.cell r c' = none)⟩
  | .removeRow r => ⟨fun r' c' => if r' = r then none else s.cell r' c', fun r' => r' ≠ r ∧ s.hasRow r'⟩
  | .clear => .empty

/-- Meaning of a history. -/
def Spec.run (dflt : V) (ops : List (Op R C V)) : Spec R C V := ops.foldl (Spec.step dflt) .empty

/-! ## Refinement -/

/-- Simulation relation. -/
structure Rel (t : Table R C V) (s : Spec R C V) : Prop where
  nodup : AMap.NodupKeys t
  nodupRow : ∀ r m, t.get r = some m → AMap.NodupKeys m
  cell : ∀ r c, (rowC t r).get c = s.cell r c
  row : ∀ r, (∃ m, t.get r = some m) ↔ s.hasRow r

theorem rowC_set (t : Table R C V) (r r' : R) (m : AMap C V) :
    rowC (t.set r m) r' = if r = r' then m else rowC t r' := by
  unfold rowC
  rw [AMap.get_set]
  by_cases h : r = r' <;> simp [h]

theorem rowC_erase (t : Table R C V) (r r' : R) :
    rowC (t.erase r) r' = if r = r' then [] else rowC t r' := by
  unfold rowC
  rw [AMap.get_erase]
  by_cases h : r = r' <;> simp [h]

theorem nodup_rowC {t : Table R C V} (h : ∀ r m, t.get r = some m → AMap.NodupKeys m) (r : R) :
    AMap.NodupKeys (rowC t r) := by
  unfold rowC
  split
  · exact AMap.nodupKeys_nil
  · exact h _ _ ‹_›

theorem rowRef_fst (t : Table R C V) (r : R) : (rowRef t r).1 = rowC t r := by
  unfold rowRef rowC
  split <;> simp_all

theorem rowRef_snd_get (t : Table R C V) (r r' : R) :
    (rowRef t r).2.get r' = if r = r' then some (rowC t r) else t.get r' := by
  unfold rowRef rowC
  split
  · rename_i m h
    by_cases h' : r = r'
    · subst h'; simp [h]
    · simp [h']
  · rename_i h
    rw [AMap.get_set, h]

theorem rowRef_nodup {t : Table R C V} (h : AMap.NodupKeys t) (r : R) : AMap.NodupKeys (rowRef t r).2 := by
  unfold rowRef
  split
  · exact h
  · exact AMap.nodupKeys_set h _ _

theorem insert_get (t : Table R C V) (r : R) (c : C) (v : V) (r' : R) :
    (insert t r c v).get r' = if r = r' then some ((rowC t r).set c v) else t.get r' := by
  unfold insert
  simp only [AMap.get_set, rowRef_fst, rowRef_snd_get]
  by_cases h : r = r' <;> simp [h]

theorem getRef_fst (dflt : V) (t : Table R C V) (r : R) (c : C) :
    (getRef dflt t r c).1 = ((rowC t r).get c).getD dflt := by
  unfold getRef
  simp only [rowRef_fst]
  cases h : (rowC t r).get c <;> simp

theorem getRef_get (dflt : V) (t : Table R C V) (r : R) (c : C) (r' : R) :
    (getRef dflt t r c).2.get r' = if r = r'
      then some (match (rowC t r).get c with | some _ => rowC t r | none => (rowC t r).set c dflt)
      else t.get r' := by
  unfold getRef
  simp only [rowRef_fst]
  cases h : (rowC t r).get c with
  | some v => simp only [rowRef_snd_get]
  | none =>
    simp only [AMap.get_set, rowRef_snd_get]
    by_cases h : r = r' <;> simp [h]

theorem getRef_nodup (dflt : V) {t : Table R C V} (h : AMap.NodupKeys t) (r : R) (c : C) :
    AMap.NodupKeys (getRef dflt t r c).2 := by
  unfold getRef
  simp only
  split
  · exact rowRef_nodup h r
  · exact AMap.nodupKeys_set (rowRef_nodup h r) _ _

theorem Rel.insert {t : Table R C V} {s : Spec R C V} (h : Rel t s) (dflt : V) (r : R) (c : C) (v : V) :
    Rel (Table.insert t r c v) (s.step dflt (.insert r c v)) := by
  constructor
  · exact AMap.nodupKeys_set (rowRef_nodup h.nodup r) _ _
  · intro r' m hm
    rw [insert_get] at hm
    split at hm
    · cases hm; exact AMap.nodupKeys_set (nodup_rowC h.nodupRow r) _ _
    · exact h.nodupRow _ _ hm
  · intro r' c'
    have : rowC (Table.insert t r c v) r' = if r = r' then (rowC t r).set c v else rowC t r' := by
      unfold rowC
      rw [insert_get]
      by_cases h : r = r' <;> simp [h, rowC]
    rw [this]
    simp only [Spec.step]
    by_cases hr : r = r'
    · subst hr
      simp only [if_true, true_and, AMap.get_set, h.cell]
      by_cases hc : c = c'
      · simp [hc]
      · simp [hc, Ne.symm hc]
    · simp [hr, Ne.symm hr, h.cell]
  · intro r'
    rw [insert_get]
    simp only [Spec.step, ← h.row]
    by_cases hr : r = r'
    · simp [hr]
    · simp [hr, Ne.symm hr]

theorem Rel.getRef {t : Table R C V} {s : Spec R C V} (h : Rel t s) (dflt : V) (r : R) (c : C) :
    Rel (Table.getRef dflt t r c).2 (s.step dflt (.modify r c id)) ∧
    (Table.getRef dflt t r c).1 = (s.cell r c).getD dflt := by
  refine ⟨?_, by rw [getRef_fst, h.cell]⟩
  constructor
  · exact getRef_nodup dflt h.nodup r c
  · intro r' m hm
    rw [getRef_get] at hm
    split at hm
    · cases hm
      split
      · exact nodup_rowC h.nodupRow r
      · exact AMap.nodupKeys_set (nodup_rowC h.nodupRow r) _ _
    · exact h.nodupRow _ _ hm
  · intro r' c'
    have : rowC (Table.getRef dflt t r c).2 r' = if r = r'
        then (match (rowC t r).get c with | some _ => rowC t r | none => (rowC t r).set c dflt)
        else rowC t r' := by
      unfold rowC
      rw [getRef_get]
      by_cases h : r = r' <;> simp [h, rowC]
    rw [this]
    simp only [Spec.step]
    by_cases hr : r = r'
    · subst hr
      simp only [if_true, true_and, id]
      have hc0 := h.cell r c
      cases hg : (rowC t r).get c with
      | some v =>
        rw [hg] at hc0
        simp only [h.cell, ← hc0, Option.getD_some]
        by_cases hc : c' = c
        · simp [hc, hc0]
        · simp [hc]
      | none =>
        rw [hg] at hc0
        simp only [AMap.get_set, h.cell, ← hc0, Option.getD_none]
        by_cases hc : c = c'
        · simp [hc]
        · simp [hc, Ne.symm hc]
    · simp [hr, Ne.symm hr, h.cell]
  · intro r'
    rw [getRef_get]
    simp only [Spec.step, ← h.row]
    by_cases hr : r = r'
    · simp [hr]
    · simp [hr, Ne.symm hr]

theorem Rel.modify {t : Table R C V} {s : Spec R C V} (h : Rel t s) (dflt : V) (r : R) (c : C) (f : V → V) :
    Rel (Table.modify dflt t r c f) (s.step dflt (.modify r c f)) := by
  obtain ⟨h1, h2⟩ := h.getRef dflt r c
  have h3 := h1.insert dflt r c (f ((s.cell r c).getD dflt))
  unfold Table.modify
  simp only [h2]
  refine ⟨h3.nodup, h3.nodupRow, ?_, ?_⟩
  · intro r' c'
    rw [h3.cell]
    simp only [Spec.step]
    split <;> rfl
  · intro r'
    rw [h3.row]
    simp only [Spec.step]
    exact ⟨fun h => h.elim .inl id, .inr⟩

theorem Rel.rowRef {t : Table R C V} {s : Spec R C V} (h : Rel t s) (dflt : V) (r : R) :
    Rel (Table.rowRef t r).2 (s.step dflt (.row r)) := by
  constructor
  · exact rowRef_nodup h.nodup r
  · intro r' m hm
    rw [rowRef_snd_get] at hm
    split at hm
    · cases hm; exact nodup_rowC h.nodupRow r
    · exact h.nodupRow _ _ hm
  · intro r' c'
    have : rowC (Table.rowRef t r).2 r' = rowC t r' := by
      conv => lhs; unfold rowC
      rw [rowRef_snd_get]
      by_cases h : r = r'
      · subst h; simp
      · simp [h, rowC]
    rw [this, h.cell]; rfl
  · intro r'
    rw [rowRef_snd_get]
    simp only [Spec.step, ← h.row]
    by_cases hr : r = r'
    · simp [hr]
    · simp [hr, Ne.symm hr]

theorem isEmpty_iff_get {m : AMap C V} : m.isEmpty = true ↔ ∀ c, m.get c = none := by
  cases m with
  | nil => simp
  | cons p m =>
    simp only [List.isEmpty_cons, Bool.false_eq_true, false_iff]
    intro h
    have := h p.1
    simp [AMap.get] at this

theorem Rel.remove {t : Table R C V} {s : Spec R C V} (h : Rel t s) (dflt : V) (r : R) (c : C) :
    Rel (Table.remove dflt t r c).2 (s.step dflt (.remove r c)) ∧
    (Table.remove dflt t r c).1 = (s.cell r c).getD dflt := by
  have hc0 := h.cell r c
  have hrow := h.row r
  unfold Table.remove
  cases hm : t.get r with
  | none =>
    have : s.cell r c = none := by rw [← hc0]; simp [rowC, hm]
    refine ⟨⟨h.nodup, h.nodupRow, ?_, ?_⟩, by simp [this]⟩
    · intro r' c'
      rw [h.cell]
      simp only [Spec.step]
      split
      · rename_i h; rw [h.1, h.2, this]
      · rfl
    · intro r'
      rw [h.row]
      simp [Spec.step, this]
  | some m =>
    have hrc : rowC t r = m := by simp [rowC, hm]
    rw [hrc] at hc0
    cases hg : m.get c with
    | none =>
      have : s.cell r c = none := by rw [← hc0]; exact hg
      simp only [hg]
      refine ⟨⟨h.nodup, h.nodupRow, ?_, ?_⟩, by simp [this]⟩
      · intro r' c'
        rw [h.cell]
        simp only [Spec.step]
        split
        · rename_i h; rw [h.1, h.2, this]
        · rfl
      · intro r'
        rw [h.row]
        simp [Spec.step, this]
    | some v =>
      have hsv : s.cell r c = some v := by rw [← hc0]; exact hg
      simp only [hg, hsv]
      refine ⟨?_, rfl⟩
      have hlast : (m.erase c).isEmpty = true ↔ ∀ c', c' ≠ c → s.cell r c' = none := by
        rw [isEmpty_iff_get]
        constructor
        · intro h1 c' hc'
          have := h1 c'
          rw [AMap.get_erase] at this
          simp only [Ne.symm hc', if_false] at this
          rw [← h.cell, hrc]; exact this
        · intro h1 c'
          rw [AMap.get_erase]
          by_cases hc' : c = c'
          · simp [hc']
          · simp only [hc', if_false]
            rw [← hrc, h.cell]; exact h1 _ (Ne.symm hc')
      by_cases he : (m.erase c).isEmpty = true
      · simp only [he, if_true]
        refine ⟨AMap.nodupKeys_erase h.nodup _, ?_, ?_, ?_⟩
        · intro r' m' hm'
          rw [AMap.get_erase] at hm'
          split at hm'
          · cases hm'
          · exact h.nodupRow _ _ hm'
        · intro r' c'
          rw [rowC_erase]
          simp only [Spec.step]
          by_cases hr : r = r'
          · subst hr
            simp only [if_true, AMap.get_nil, true_and]
            split
            · rfl
            · exact (hlast.1 he c' ‹_›).symm
          · simp [hr, Ne.symm hr, h.cell]
        · intro r'
          rw [AMap.get_erase]
          simp only [Spec.step, ← h.row]
          by_cases hr : r = r'
          · subst hr; simpa [hsv] using fun _ _ => hlast.1 he
          · simp [hr, Ne.symm hr]
      · simp only [he, Bool.false_eq_true, if_false]
        refine ⟨AMap.nodupKeys_set h.nodup _ _, ?_, ?_, ?_⟩
        · intro r' m' hm'
          rw [AMap.get_set] at hm'
          split at hm'
          · cases hm'; exact AMap.nodupKeys_erase (h.nodupRow _ _ hm) _
          · exact h.nodupRow _ _ hm'
        · intro r' c'
          rw [rowC_set]
          simp only [Spec.step]
          by_cases hr : r = r'
          · subst hr
            simp only [if_true, true_and, AMap.get_erase]
            by_cases hc : c = c'
            · simp [hc]
            · simp only [hc, Ne.symm hc, if_false]; rw [← hrc, h.cell]
          · simp [hr, Ne.symm hr, h.cell]
        · intro r'
          rw [AMap.get_set]
          simp only [Spec.step, ← h.row]
          by_cases hr : r = r'
          · subst hr
            simp only [if_true, true_and]
            refine ⟨fun _ => ⟨⟨m, hm⟩, fun hh => he (hlast.2 hh.2)⟩, fun _ => ⟨_, rfl⟩⟩
          · simp [hr, Ne.symm hr]

theorem Rel.removeRow {t : Table R C V} {s : Spec R C V} (h : Rel t s) (dflt : V) (r : R) :
    Rel (Table.removeRow t r) (s.step dflt (.removeRow r)) := by
  unfold Table.removeRow
  refine ⟨AMap.nodupKeys_erase h.nodup _, ?_, ?_, ?_⟩
  · intro r' m' hm'
    rw [AMap.get_erase] at hm'
    split at hm'
    · cases hm'
    · exact h.nodupRow _ _ hm'
  · intro r' c'
    rw [rowC_erase]
    simp only [Spec.step]
    by_cases hr : r = r'
    · simp [hr]
    · simp [hr, Ne.symm hr, h.cell]
  · intro r'
    rw [AMap.get_erase]
    simp only [Spec.step, ← h.row]
    by_cases hr : r = r'
    · simp [hr]
    · simp [hr, Ne.symm hr]

theorem Rel.empty : Rel ([] : Table R C V) .empty :=
  ⟨AMap.nodupKeys_nil, by simp, by simp [rowC, Spec.empty], by simp [Spec.empty]⟩

theorem Rel.step {t : Table R C V} {s : Spec R C V} (h : Rel t s) (dflt : V) (op : Op R C V) :
    Rel (op.run dflt t) (s.step dflt op) := by
  cases op with
  | insert r c v => exact h.insert dflt r c v
  | modify r c f => exact h.modify dflt r c f
  | row r => exact h.rowRef dflt r
  | remove r c => exact (h.remove dflt r c).1
  | removeRow r => exact h.removeRow dflt r
  | clear => exact .empty

theorem rel_run (dflt : V) (ops : List (Op R C V)) : Rel (runOps dflt ops) (Spec.run dflt ops) := by
  unfold runOps Spec.run
  have : ∀ (ops : List (Op R C V)) t s, Rel t s →
      Rel (ops.foldl (Op.run dflt) t) (ops.foldl (Spec.step dflt) s) := by
    intro ops
    induction ops with
    | nil => intro t s h; exact h
    | cons op ops ih => intro t s h; exact ih _ _ (h.step dflt op)
  exact this ops _ _ .empty

/-! ## Readers -/

theorem Rel.contains {t : Table R C V} {s : Spec R C V} (h : Rel t s) (r : R) (c : C) :
    Table.contains t r c = (s.cell r c).isSome := by
  rw [← h.cell]
  unfold Table.contains rowC
  cases t.get r <;> simp

theorem Rel.getC {t : Table R C V} {s : Spec R C V} (h : Rel t s) (dflt : V) (r : R) (c : C) :
    Table.getC dflt t r c = (s.cell r c).getD dflt := by
  rw [← h.cell]
  unfold Table.getC rowC
  cases t.get r with
  | none => rfl
  | some m => dsimp only; cases m.get c <;> rfl

theorem Rel.cellVec {t : Table R C V} {s : Spec R C V} (h : Rel t s) (r : R) (c : C) (v : V) :
    (r, c, v) ∈ Table.cellVec t ↔ s.cell r c = some v := by
  rw [← h.cell]
  unfold Table.cellVec
  simp only [List.mem_flatMap, List.mem_map, Prod.mk.injEq]
  constructor
  · rintro ⟨⟨r', m⟩, h1, ⟨c', v'⟩, h2, rfl, rfl, rfl⟩
    have hm := AMap.get_of_mem h.nodup h1
    rw [show rowC t r' = m by simp [rowC, hm]]
    exact AMap.get_of_mem (h.nodupRow _ _ hm) h2
  · intro hg
    unfold rowC at hg
    cases hm : t.get r with
    | none => simp [hm] at hg
    | some m =>
      simp only [hm] at hg
      exact ⟨(r, m), AMap.mem_of_get hm, (c, v), AMap.mem_of_get hg, rfl, rfl, rfl⟩

theorem Rel.cellVec_nodup {t : Table R C V} {s : Spec R C V} (h : Rel t s) :
    ((Table.cellVec t).map fun p => (p.1, p.2.1)).Nodup := by
  have hn := h.nodup
  have hr : ∀ p ∈ t, AMap.NodupKeys p.2 := fun p hp =>
    h.nodupRow p.1 p.2 (AMap.get_of_mem h.nodup hp)
  clear h
  unfold Table.cellVec
  induction t with
  | nil => simp
  | cons p t ih =>
    obtain ⟨r, m⟩ := p
    have hn' := List.nodup_cons.1 hn
    simp only [List.flatMap_cons, List.map_append, List.map_map]
    rw [List.nodup_append]
    refine ⟨?_, ih hn'.2 fun p hp => hr p (List.mem_cons_of_mem _ hp), ?_⟩
    · have h1 := hr _ List.mem_cons_self
      unfold AMap.NodupKeys at h1
      have : m.map ((fun p : R × C × V => (p.1, p.2.1)) ∘ fun q => (r, q.1, q.2))
          = (m.map Prod.fst).map (fun c => (r, c)) := by
        rw [List.map_map]; rfl
      rw [this]
      exact h1.map _ fun a b hab hh => hab (Prod.mk.inj hh).2
    · intro a ha b hb hab
      subst hab
      simp only [List.mem_map, Function.comp, List.mem_flatMap] at ha hb
      obtain ⟨_, _, rfl⟩ := ha
      obtain ⟨_, ⟨q, hq, _, _, rfl⟩, hb⟩ := hb
      simp only [Prod.mk.injEq] at hb
      exact hn'.1 (List.mem_map.2 ⟨q, hq, hb.1⟩)

theorem Rel.containsColumn {t : Table R C V} {s : Spec R C V} (h : Rel t s) (c : C) :
    Table.containsColumn t c = true ↔ ∃ r, s.cell r c ≠ none := by
  unfold Table.containsColumn
  rw [List.any_eq_true]
  constructor
  · rintro ⟨⟨r, m⟩, h1, h2⟩
    have hm := AMap.get_of_mem h.nodup h1
    refine ⟨r, ?_⟩
    rw [← h.cell, show rowC t r = m by simp [rowC, hm]]
    intro h3
    simp [h3] at h2
  · rintro ⟨r, hr⟩
    rw [← h.cell] at hr
    unfold rowC at hr
    cases hm : t.get r with
    | none => simp [hm] at hr
    | some m =>
      simp only [hm] at hr
      exact ⟨(r, m), AMap.mem_of_get hm, Option.isSome_iff_ne_none.2 hr⟩

theorem column_get (c : C) (r : R) : ∀ (t : Table R C V), AMap.NodupKeys t → ∀ acc : AMap R V,
    AMap.get (t.foldl (fun acc p => match p.2.get c with | some v => acc.set p.1 v | none => acc) acc) r
      = match (rowC t r).get c with | some v => some v | none => acc.get r := by
  intro t
  induction t with
  | nil => intro _ acc; rfl
  | cons p t ih =>
    obtain ⟨a, m⟩ := p
    intro hn acc
    have hn' := List.nodup_cons.1 hn
    rw [List.foldl_cons, ih hn'.2]
    have hrow : rowC ((a, m) :: t) r = if a = r then m else rowC t r := by
      unfold rowC
      simp only [AMap.get]
      by_cases h : a = r <;> simp [h]
    rw [hrow]
    by_cases h : a = r
    · subst h
      have hnone : AMap.get t a = none := by
        cases hg : AMap.get t a with
        | none => rfl
        | some m' => exact absurd (List.mem_map.2 ⟨_, AMap.mem_of_get hg, rfl⟩) hn'.1
      have h0 : rowC t a = [] := by simp [rowC, hnone]
      simp only [h0, AMap.get_nil, if_true]
      cases m.get c <;> simp
    · simp only [h, if_false]
      cases hg : (rowC t r).get c with
      | some v => rfl
      | none => cases hm : m.get c <;> simp [h]

theorem Rel.column {t : Table R C V} {s : Spec R C V} (h : Rel t s) (c : C) (r : R) :
    (Table.column t c).get r = s.cell r c := by
  unfold Table.column
  rw [column_get c r t h.nodup, h.cell]
  cases s.cell r c <;> rfl

end Table
end Phasar
