import Verif.IDE.Spec
/-!
# Control-flow graphs given by tables

Used to write down example programs whose statements are numbers.  Nothing in the analysed code corresponds to this file.  The
statements without a row are functions of their own that consist of a start point only and that nobody calls; they make the
requirements on graphs, which speak about all numbers, hold.
-/
namespace Phasar.IDE

/-- A statement: its function, successors, called functions and return sites (for a call), and whether it is an exit. -/
structure Row where
  fn : Nat
  succs : List Nat := []
  call : Option (List Nat × List Nat) := none
  exit : Bool := false

/-- Row `n` of the table. -/
def tabRow (rows : List Row) (n : Nat) : Row := rows[n]?.getD { fn := n }

/-- The start points: the first statement of the function. -/
def tabStarts (rows : List Row) (f : Nat) : List Nat :=
  if f < rows.length then ((List.range rows.length).find? fun n => (tabRow rows n).fn == f).toList else [f]

/-- The graph of a table. -/
def tabICFG (rows : List Row) : ICFG Nat Nat where
  succs := fun n => (tabRow rows n).succs
  isCall := fun n => (tabRow rows n).call.isSome
  isExit := fun n => (tabRow rows n).exit
  isStart := fun n => (tabStarts rows (tabRow rows n).fn).contains n
  funOf := fun n => (tabRow rows n).fn
  starts := tabStarts rows
  callees := fun n => ((tabRow rows n).call.getD ([], [])).1
  retSites := fun n => ((tabRow rows n).call.getD ([], [])).2
  callers := fun f => (List.range rows.length).filter fun n => ((tabRow rows n).call.getD ([], [])).1.contains f
  callsIn := fun f => (List.range rows.length).filter fun n => (tabRow rows n).call.isSome && (tabRow rows n).fn == f
  nonCallStart := (List.range rows.length).filter fun n =>
    !(tabRow rows n).call.isSome && !(tabStarts rows (tabRow rows n).fn).contains n

/-- The table is consistent: successors and return sites are in the same function and are not start points. -/
def tabOk (rows : List Row) : Bool :=
  (List.range rows.length).all fun n => ((tabICFG rows).succs n ++ (tabICFG rows).retSites n).all fun n' =>
    (tabRow rows n').fn == (tabRow rows n).fn && !(tabICFG rows).isStart n'

theorem tabRow_ge {rows : List Row} {n : Nat} (h : ¬ n < rows.length) : tabRow rows n = { fn := n } := by
  unfold tabRow
  rw [List.getElem?_eq_none (by omega)]; rfl

theorem tabStart_fun {rows : List Row} {f sp : Nat} (h : sp ∈ tabStarts rows f) : (tabRow rows sp).fn = f := by
  unfold tabStarts at h
  split at h
  · rw [Option.mem_toList] at h
    have := List.find?_some h
    simpa using this
  · rename_i hf
    rw [List.mem_singleton.1 h, tabRow_ge hf]

theorem tab_next {rows : List Row} (h : tabOk rows = true) {n n' : Nat}
    (hn : n' ∈ (tabICFG rows).succs n ∨ n' ∈ (tabICFG rows).retSites n) :
    (tabRow rows n').fn = (tabRow rows n).fn ∧ (tabICFG rows).isStart n' = false := by
  by_cases hlt : n < rows.length
  · have := List.all_eq_true.1 (List.all_eq_true.1 h n (List.mem_range.2 hlt)) n' (List.mem_append.2 hn)
    rw [Bool.and_eq_true, Bool.not_eq_true'] at this
    exact ⟨by simpa using this.1, this.2⟩
  · simp [tabICFG, tabRow_ge hlt] at hn

theorem tabICFG_wfv {rows : List Row} (h : tabOk rows = true) : (tabICFG rows).WFV where
  succs_fun n n' hn := (tab_next h (.inl hn)).1
  ret_fun n n' hn := (tab_next h (.inr hn)).1
  start_fun f sp hs := tabStart_fun hs
  start_no_pred f sp hs := by
    have hst : (tabICFG rows).isStart sp = true := by
      show (tabStarts rows (tabRow rows sp).fn).contains sp = true
      rw [tabStart_fun hs]; simpa using (show sp ∈ tabStarts rows f from hs)
    refine ⟨fun n hn => ?_, fun n hn => ?_⟩
    · rw [(tab_next h (.inl hn)).2] at hst; cases hst
    · rw [(tab_next h (.inr hn)).2] at hst; cases hst
  isStart_iff n := by simp [tabICFG]
  callsIn_iff f n := by
    by_cases hlt : n < rows.length
    · simp [tabICFG, hlt]
    · simp [tabICFG, hlt, tabRow_ge hlt]
  ncs_iff n := by
    by_cases hlt : n < rows.length
    · simp [tabICFG, hlt]
    · simp [tabICFG, hlt, tabRow_ge hlt, tabStarts]

theorem tabICFG_unique (rows : List Row) : (tabICFG rows).UniqueStart := by
  intro f sp sp' h h'
  change sp ∈ tabStarts rows f at h
  change sp' ∈ tabStarts rows f at h'
  unfold tabStarts at h h'
  split at h
  · rename_i hf
    rw [if_pos hf] at h'
    rw [Option.mem_toList] at h h'
    rw [h] at h'; exact Option.some.inj h'
  · rename_i hf
    rw [if_neg hf] at h'
    rw [List.mem_singleton.1 h, List.mem_singleton.1 h']

end Phasar.IDE
