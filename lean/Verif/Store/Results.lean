import Verif.Base.Lat
import Verif.Base.FSet
import Verif.Store.Table
/-!
# Solver results (`include/phasar/DataFlow/IfdsIde/SolverResults.h`,
`include/phasar/PhasarLLVM/DataFlow/IfdsIde/LLVMSolverResults.h`)

Both `SolverResults` and `OwningSolverResults` delegate to the same base class. `dumpResults` is not
modelled.
-/
set_option linter.unusedSectionVars false
namespace Phasar.Results
open Phasar

variable {N D L : Type} [DecidableEq N] [DecidableEq D]

/-- `resultAt` (`SolverResults.h:52-55`); `dflt` is the default-constructed value returned by
`Table::get`. -/
def resultAt (dflt : L) (t : Table N D L) (n : N) (d : D) : L := Table.getC dflt t n d

/-- `resultsAt` (`SolverResults.h:57-69`), both overloads. -/
def resultsAt (zv : D) (t : Table N D L) (n : N) (stripZero : Bool) : AMap D L :=
  if stripZero then (Table.rowC t n).erase zv else Table.rowC t n

/-- `ifdsResultsAt` (`SolverResults.h:77-84`); `IFDSSolver::ifdsResultsAt` (`IFDSSolver.h:51-58`) runs the
same loop. -/
def ifdsResultsAt (t : Table N D L) (n : N) : List D :=
  (Table.rowC t n).foldl (fun s p => FSet.insert s p.1) []

/-- `getAllResultEntries` (`SolverResults.h:130-133`). -/
def getAllResultEntries (t : Table N D L) : List (N × D × L) := Table.cellVec t

/-- What `resultsAtInLLVMSSA` asks LLVM about a statement: whether its type is void, the next instruction
of its block, and for the successor blocks whether they have exactly one predecessor and their first
non-debug instruction (`LLVMSolverResults.h:38-60`). -/
structure Pos (N : Type) where
  isVoid : Bool
  next : Option N
  succs : List (Bool × N)

variable [JoinLat L] [DecidableEq L]

/-- Inner loop of the merge in `resultsAtInLLVMSSA` (`LLVMSolverResults.h:79-90`), for a value type with
`JoinLatticeTraits` (the fallback for other types is not modelled). -/
def mergeRow (ret row : AMap D L) : AMap D L :=
  row.foldl (fun ret q =>
    match ret.get q.1 with
    | none => ret.set q.1 q.2
    | some v => if q.2 ≠ v then ret.set q.1 (JoinLat.join v q.2) else ret) ret

/-- `resultsAtInLLVMSSA` (`LLVMSolverResults.h:30-99`); `none` stands for `report_fatal_error`. -/
def resultsAtSSA (zv : D) (t : Table N D L) (n : N) (p : Pos N) (allow stripZero : Bool) : Option (AMap D L) :=
  let r : Option (AMap D L) :=
    if p.isVoid then some (Table.rowC t n)
    else match p.next with
      | none =>
        match p.succs.find? (·.1) with
        | some s => some (Table.rowC t s.2)
        | none => if !allow then none else some (p.succs.foldl (fun ret s => mergeRow ret (Table.rowC t s.2)) [])
      | some n' => some (Table.rowC t n')
  if stripZero then r.map (·.erase zv) else r

/-- The loop `for (++It; It != End; ++It)` of `resultAtInLLVMSSA` (`LLVMSolverResults.h:148-163`). -/
def mergeVals (dflt : L) (t : Table N D L) (d : D) : L → List (Bool × N) → L
  | ret, [] => ret
  | ret, s :: ss =>
    let ret' := JoinLat.join ret (Table.getC dflt t s.2 d)
    if ret' = JoinLat.bottom then ret' else mergeVals dflt t d ret' ss

/-- `resultAtInLLVMSSA` (`LLVMSolverResults.h:101-170`). -/
def resultAtSSA (dflt : L) (t : Table N D L) (n : N) (p : Pos N) (d : D) (allow : Bool) : Option L :=
  if p.isVoid then some (Table.getC dflt t n d)
  else match p.next with
    | none =>
      match p.succs.find? (·.1) with
      | some s => some (Table.getC dflt t s.2 d)
      | none =>
        if !allow then none
        else match p.succs with
          | [] => some dflt
          | s :: ss => some (mergeVals dflt t d (Table.getC dflt t s.2 d) ss)
    | some n' => some (Table.getC dflt t n' d)

/-! ## Lemmas -/

omit [JoinLat L] [DecidableEq L] in
theorem getC_eq (dflt : L) (t : Table N D L) (n : N) (d : D) :
    Table.getC dflt t n d = ((Table.rowC t n).get d).getD dflt := by
  unfold Table.getC Table.rowC
  cases t.get n with
  | none => rfl
  | some m => simp only; cases m.get d <;> rfl

omit [JoinLat L] [DecidableEq L] [DecidableEq N] in
theorem mem_foldl_insert (l : List (D × L)) (acc : List D) (x : D) :
    x ∈ l.foldl (fun s p => FSet.insert s p.1) acc ↔ x ∈ acc ∨ ∃ v, (x, v) ∈ l := by
  induction l generalizing acc with
  | nil => simp
  | cons p l ih =>
    obtain ⟨a, b⟩ := p
    rw [List.foldl_cons, ih]
    simp only [FSet.mem_insert, List.mem_cons, Prod.mk.injEq]
    constructor
    · rintro ((rfl | h) | ⟨v, h⟩)
      · exact .inr ⟨b, .inl ⟨rfl, rfl⟩⟩
      · exact .inl h
      · exact .inr ⟨v, .inr h⟩
    · rintro (h | ⟨v, ⟨rfl, rfl⟩ | h⟩)
      · exact .inl (.inr h)
      · exact .inl (.inl rfl)
      · exact .inr ⟨v, h⟩

omit [JoinLat L] [DecidableEq L] [DecidableEq N] in
theorem nodup_foldl_insert (l : List (D × L)) {acc : List D} (h : acc.Nodup) :
    (l.foldl (fun s p => FSet.insert s p.1) acc).Nodup := by
  induction l generalizing acc with
  | nil => exact h
  | cons p l ih => exact ih (FSet.nodup_insert h _)

/-- Value of a fact in a row, absent facts counting as top. -/
def valTop (m : AMap D L) (d : D) : L := (m.get d).getD JoinLat.top

theorem mergeRow_val {row : AMap D L} (hn : AMap.NodupKeys row) (ret : AMap D L) (d : D) :
    valTop (mergeRow ret row) d = JoinLat.join (valTop ret d) (valTop row d) := by
  unfold mergeRow
  induction row generalizing ret with
  | nil => simp [valTop, JoinLat.join_top]
  | cons p row ih =>
    obtain ⟨a, b⟩ := p
    have hn' := List.nodup_cons.1 hn
    have hrow : a = d → valTop row d = JoinLat.top := by
      intro h; subst h
      unfold valTop
      cases hg : AMap.get row a with
      | none => rfl
      | some v => exact absurd (List.mem_map.2 ⟨_, AMap.mem_of_get hg, rfl⟩) hn'.1
    rw [List.foldl_cons, ih hn'.2]
    have hcons : valTop ((a, b) :: row : AMap D L) d = if a = d then b else valTop row d := by
      unfold valTop
      simp only [AMap.get]
      by_cases h : a = d <;> simp [h]
    rw [hcons]
    by_cases h : a = d
    · subst h
      rw [hrow rfl, JoinLat.join_top, if_pos rfl]
      cases hg : ret.get a with
      | none => simp [valTop, hg, JoinLat.top_join]
      | some v =>
        by_cases hv : b = v
        · simp [valTop, hg, hv, JoinLat.join_idem]
        · simp [valTop, hg, hv]
    · rw [if_neg h]
      congr 1
      cases hg : ret.get a with
      | none => simp [valTop, h]
      | some v =>
        by_cases hv : b = v
        · simp [hv]
        · simp [valTop, hv, h]

theorem mergeAll_val (t : Table N D L) (hr : ∀ n, AMap.NodupKeys (Table.rowC t n)) (ss : List (Bool × N)) (d : D)
    (ret : AMap D L) :
    valTop (ss.foldl (fun ret s => mergeRow ret (Table.rowC t s.2)) ret) d =
      ss.foldl (fun v s => JoinLat.join v (Table.getC JoinLat.top t s.2 d)) (valTop ret d) := by
  induction ss generalizing ret with
  | nil => rfl
  | cons s ss ih =>
    rw [List.foldl_cons, List.foldl_cons, ih, mergeRow_val (hr _), getC_eq]
    rfl

theorem foldl_join_bottom (f : Bool × N → L) (ss : List (Bool × N)) :
    ss.foldl (fun v s => JoinLat.join v (f s)) JoinLat.bottom = JoinLat.bottom := by
  induction ss with
  | nil => rfl
  | cons s ss ih => rw [List.foldl_cons, JoinLat.bottom_join, ih]

theorem mergeVals_eq (dflt : L) (t : Table N D L) (d : D) (ss : List (Bool × N)) (v : L) :
    mergeVals dflt t d v ss = ss.foldl (fun v s => JoinLat.join v (Table.getC dflt t s.2 d)) v := by
  induction ss generalizing v with
  | nil => rfl
  | cons s ss ih =>
    simp only [mergeVals, List.foldl_cons]
    split
    · rename_i h; rw [h, foldl_join_bottom (fun s => Table.getC dflt t s.2 d)]
    · exact ih _

end Phasar.Results
