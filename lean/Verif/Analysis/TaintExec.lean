import Verif.Analysis.TaintSim
import Verif.Analysis.TaintTab
import Verif.IDE.Ifds
/-!
# Executions by computation

A function that runs a program for given choices and whose runs are executions; used to exhibit executions in the examples of
C51.
-/
namespace Phasar.Taint
open Phasar Phasar.IDE FlowFn

variable (p : Prog)

/-- `Hot` by computation. -/
def hotB (mem : Loc → Bool) : RVal → Bool
  | .sc t => t
  | .ptr ℓ => mem ℓ

theorem hotB_iff {mem : Loc → Bool} {x : RVal} : hotB mem x = true ↔ Hot mem x := by
  cases x <;> exact Iff.rfl

/-- `MovesTo` by computation. -/
def Prog.targets (f i : Nat) : List Target :=
  (if p.swift f && (decide (i = 1) || decide (i = 3)) then [.ret] else []) ++
  (if i < (p.params f).length then match p.fdff f with | some m => lookupParam m i | none => [] else [])

theorem mem_targets {f i : Nat} {t : Target} (h : t ∈ p.targets f i) : p.MovesTo f i t := by
  unfold Prog.targets at h
  rcases List.mem_append.1 h with h | h
  · split at h
    · rename_i hc
      rw [Bool.and_eq_true, Bool.or_eq_true, decide_eq_true_eq, decide_eq_true_eq] at hc
      exact .inl ⟨hc.1, hc.2, List.mem_singleton.1 h⟩
    · cases h
  · split at h
    · rename_i hi
      split at h
      · rename_i m hm
        exact .inr ⟨hi, m, hm, h⟩
      · cases h
    · cases h

/-- The arguments that hold tainted data, with the places the function moves it to. -/
def Prog.moved (n f : Nat) (regs : Nat → RVal) (mem : Loc → Bool) : List Target :=
  (List.range (p.args n).length).flatMap fun i => match (p.args n)[i]? with
    | some a => if hotB mem (p.val regs a) then p.targets f i else []
    | none => []

theorem mem_moved {n f : Nat} {regs : Nat → RVal} {mem : Loc → Bool} {t : Target} (h : t ∈ p.moved n f regs mem) :
    ∃ (i : Nat) (a : Val), p.MovesTo f i t ∧ (p.args n)[i]? = some a ∧ p.Tainted regs mem a := by
  unfold Prog.moved at h
  obtain ⟨i, _, h⟩ := List.mem_flatMap.1 h
  split at h
  · rename_i a ha
    split at h
    · rename_i ht
      exact ⟨i, a, mem_targets p h, ha, hotB_iff.1 ht⟩
    · cases h
  · cases h

/-- Memory after an external call. -/
def Prog.extMem (n f : Nat) (regs : Nat → RVal) (mem : Loc → Bool) (next : Nat) : Loc → Bool := fun ℓ =>
  decide (ℓ ≠ .obj next) &&
  ((mem ℓ && !(p.collectSani n f).any fun v => decide (p.val regs v = .ptr ℓ)) ||
   ((match ℓ with | .glob g => !p.constData g | .obj _ => true) &&
    ((p.collectGen n f).any (fun v => decide (v ≠ .node n) && decide (p.val regs v = .ptr ℓ)) ||
     (p.moved n f regs mem).any fun t => match t with
       | .param j => match (p.args n)[j]? with
         | some b => decide (p.val regs b = .ptr ℓ)
         | none => false
       | .ret => false)))

/-- Registers after an external call. -/
def Prog.extRegs (n f : Nat) (regs : Nat → RVal) (mem : Loc → Bool) : Nat → RVal := fun k =>
  if k = n then .sc (decide (.node n ∈ p.collectGen n f) || decide (.ret ∈ p.moved n f regs mem))
  else match regs k with
    | .sc t => .sc (t && !decide (.node k ∈ p.collectSani n f))
    | .ptr ℓ => .ptr ℓ

theorem ext_effect (n f : Nat) (regs : Nat → RVal) (mem : Loc → Bool) (next : Nat) :
    p.ExtEffect n f regs mem next (p.extRegs n f regs mem) (p.extMem n f regs mem next) where
  cell ℓ h _ := by
    unfold Prog.extMem at h
    rw [Bool.and_eq_true, Bool.or_eq_true, Bool.and_eq_true, Bool.and_eq_true, Bool.or_eq_true] at h
    rcases h.2 with ⟨h1, h2⟩ | ⟨_, h1 | h1⟩
    · refine .inl ⟨h1, fun v hv e => ?_⟩
      rw [Bool.not_eq_true', List.any_eq_false] at h2
      exact h2 v (mem_collectSani.2 hv) (decide_eq_true e)
    · obtain ⟨v, hv, h1⟩ := List.any_eq_true.1 h1
      rw [Bool.and_eq_true, decide_eq_true_eq, decide_eq_true_eq] at h1
      exact .inr (.inl ⟨v, mem_collectGen.1 hv, h1.1, h1.2⟩)
    · obtain ⟨t, ht, h1⟩ := List.any_eq_true.1 h1
      obtain ⟨i, a, h3, h4, h5⟩ := mem_moved p ht
      cases t with
      | ret => cases h1
      | param j =>
        simp only at h1
        split at h1
        · rename_i b hb
          exact .inr (.inr ⟨i, j, a, b, h3, h4, hb, h5, of_decide_eq_true h1⟩)
        · cases h1
  const g h := by
    unfold Prog.extMem at h
    rw [Bool.and_eq_true, Bool.or_eq_true, Bool.and_eq_true, Bool.and_eq_true] at h
    rcases h.2 with ⟨h1, _⟩ | ⟨h1, _⟩
    · exact .inl h1
    · exact .inr (by simpa using h1)
  addr k ℓ hk := by
    unfold Prog.extRegs
    rw [if_neg hk]
    cases regs k <;> simp
  bit k hk h := by
    unfold Prog.extRegs at h
    rw [if_neg hk] at h
    cases hr : regs k with
    | ptr ℓ => rw [hr] at h; cases h
    | sc t =>
      rw [hr] at h
      simp only [RVal.sc.injEq, Bool.and_eq_true, Bool.not_eq_true', decide_eq_false_iff_not] at h
      exact .inl ⟨by rw [h.1], fun hs => h.2 (mem_collectSani.2 hs)⟩
  result := .inl ⟨_, by unfold Prog.extRegs; rw [if_pos rfl]⟩
  result_hot h := by
    rcases h with h | h
    · unfold Prog.extRegs at h
      rw [if_pos rfl] at h
      simp only [RVal.sc.injEq, Bool.or_eq_true, decide_eq_true_eq] at h
      rcases h with h | h
      · exact .inl (mem_collectGen.1 h)
      · exact .inr (mem_moved p h)
    · unfold Prog.extMem at h
      simp at h

/-- `External` by computation. -/
def Prog.extB (n f : Nat) : Bool :=
  p.isDecl f || p.swift f || (p.fdff f).isSome || !(p.collectGen n f).isEmpty || !(p.collectLeak n f).isEmpty ||
    !(p.collectSani n f).isEmpty

theorem extB_iff {n f : Nat} : p.extB n f = true ↔ p.External n f := by
  have hne : ∀ (l : List Val) (q : Val → Prop), (∀ v, v ∈ l ↔ q v) → ((!l.isEmpty) = true ↔ ∃ v, q v) := by
    intro l q h
    cases l with
    | nil => simp only [List.isEmpty_nil, Bool.not_true, Bool.false_eq_true, false_iff]; rintro ⟨v, hv⟩; cases (h v).2 hv
    | cons a l => simp only [List.isEmpty_cons, Bool.not_false, true_iff]; exact ⟨a, (h a).1 List.mem_cons_self⟩
  unfold Prog.extB Prog.External
  rw [Bool.or_eq_true, Bool.or_eq_true, Bool.or_eq_true, Bool.or_eq_true, Bool.or_eq_true,
    hne _ _ fun v => mem_collectGen, hne _ _ fun v => mem_collectLeak, hne _ _ fun v => mem_collectSani]
  rw [← Option.isSome_iff_ne_none]
  constructor
  · rintro (((((h | h) | h) | ⟨v, h⟩) | ⟨v, h⟩) | ⟨v, h⟩)
    · exact .inl h
    · exact .inr (.inl h)
    · exact .inr (.inr (.inl h))
    · exact .inr (.inr (.inr ⟨v, .inl h⟩))
    · exact .inr (.inr (.inr ⟨v, .inr (.inl h)⟩))
    · exact .inr (.inr (.inr ⟨v, .inr (.inr h)⟩))
  · rintro (h | h | h | ⟨v, h | h | h⟩)
    · exact .inl (.inl (.inl (.inl (.inl h))))
    · exact .inl (.inl (.inl (.inl (.inr h))))
    · exact .inl (.inl (.inl (.inr h)))
    · exact .inl (.inl (.inr ⟨v, h⟩))
    · exact .inl (.inr ⟨v, h⟩)
    · exact .inr ⟨v, h⟩

/-- `Effect` by computation; `j` selects the operand an `op` copies (with `deep`). -/
def Prog.effB (deep : Bool) (j : Nat) (n : Nat) (regs : Nat → RVal) (mem : Loc → Bool) (next : Nat) :
    Option (RVal × (Loc → Bool) × Nat) := match p.inst n with
  | .alloca => some (.ptr (.obj next), updM mem (.obj next) false, next + 1)
  | .store v ptr => match p.val regs ptr, p.val regs v with
    | .ptr (.glob g), .sc t => if p.constData g then none else some (.sc false, updM mem (.glob g) t, next)
    | .ptr (.obj i), .sc t => some (.sc false, updM mem (.obj i) t, next)
    | _, _ => none
  | .load ptr => match p.val regs ptr with
    | .ptr ℓ => some (.sc (mem ℓ), mem, next)
    | .sc _ => none
  | .gep v => some (p.val regs v, mem, next)
  | .extract v => some (p.val regs v, mem, next)
  | .insert a v => match p.val regs a, p.val regs v with
    | .sc s, .sc t => some (.sc (s || t), mem, next)
    | _, _ => none
  | .cast v => some (p.val regs v, mem, next)
  | .op ops => if deep then match ops[j]? with
      | some v => some (p.val regs v, mem, next)
      | none => some (.sc false, mem, next)
    else some (.sc false, mem, next)
  | _ => none

theorem effB_sound {deep : Bool} {j n : Nat} {regs : Nat → RVal} {mem : Loc → Bool} {next : Nat} {x : RVal} {mem' : Loc → Bool}
    {next' : Nat} (h : p.effB deep j n regs mem next = some (x, mem', next')) : p.Effect deep n regs mem next x mem' next' := by
  unfold Prog.effB at h
  split at h
  · rename_i hi; cases h; exact .alloca hi
  · rename_i v ptr hi
    split at h
    · rename_i g t hp hv
      split at h
      · cases h
      · rename_i hc; cases h; exact .store hi hp hv fun g' e => by cases e; simpa using hc
    · rename_i i t hp hv; cases h; exact .store hi hp hv fun g' e => by cases e
    · cases h
  · rename_i ptr hi
    split at h
    · rename_i ℓ hp; cases h; exact .load hi hp
    · cases h
  · rename_i v hi; cases h; exact .gep hi
  · rename_i v hi; cases h; exact .extract hi
  · rename_i a v hi
    split at h
    · rename_i s t ha hv; cases h; exact .insert hi ha hv
    · cases h
  · rename_i v hi; cases h; exact .cast hi
  · rename_i ops hi
    split at h
    · rename_i hd
      split at h
      · rename_i v hv; cases h; exact .opDeep hi hd (List.mem_of_getElem? hv)
      · cases h; exact .op hi
    · cases h; exact .op hi
  · cases h

/-- Registers of a new activation. -/
def Prog.callRegs (n f : Nat) (regs : Nat → RVal) : Nat → RVal := fun k =>
  match ((p.params f).zip (p.args n)).find? fun x => decide (x.1 = k) with
  | some x => p.val regs x.2
  | none => .sc false

theorem find_zip : ∀ {ps : List Nat} {as : List Val} (_ : ps.Nodup) {i k : Nat} {a : Val}, ps[i]? = some k → as[i]? = some a →
    (ps.zip as).find? (fun x => decide (x.1 = k)) = some (k, a)
  | [], _, _, i, k, a, h, _ => by simp at h
  | _ :: _, [], _, i, k, a, _, h => by simp at h
  | q :: ps, b :: as, hn, 0, k, a, h1, h2 => by
    simp only [List.getElem?_cons_zero, Option.some.injEq] at h1 h2
    subst h1; subst h2
    simp
  | q :: ps, b :: as, hn, i + 1, k, a, h1, h2 => by
    rw [List.getElem?_cons_succ] at h1 h2
    rw [List.nodup_cons] at hn
    have : q ≠ k := by rintro rfl; exact hn.1 (List.mem_of_getElem? h1)
    rw [List.zip_cons_cons, List.find?_cons_of_neg (by simpa using this)]
    exact find_zip hn.2 h1 h2

/-- One step: `i` selects the successor or the callee, `j` the operand of an `op`. -/
def Prog.exec1 (deep : Bool) (i j : Nat) (s : CState) : Option CState :=
  if p.icf.isCall s.n then
    match (p.icf.callees s.n)[i]? with
    | none => none
    | some f =>
      if p.extB s.n f then
        match p.icf.retSites s.n with
        | r :: _ => some ⟨s.stk, r, p.extRegs s.n f s.regs s.mem, p.extMem s.n f s.regs s.mem s.next, s.next + 1⟩
        | [] => none
      else
        match p.icf.starts f with
        | sp :: _ =>
          if (p.params f).Nodup ∧ (p.args s.n).all (fun a => match p.val s.regs a with
              | .sc t => !(p.ptrTy a && t)
              | .ptr _ => p.ptrTy a) = true then
            some ⟨⟨s.n, s.regs, s.mem, s.next⟩ :: s.stk, sp, p.callRegs s.n f s.regs, s.mem, s.next⟩
          else none
        | [] => none
  else if p.icf.isExit s.n then
    match s.stk with
    | fr :: stk => match p.icf.retSites fr.c with
      | r :: _ => some ⟨stk, r, updR fr.regs fr.c (match p.retVal s.n with | some v => p.val s.regs v | none => .sc false),
          s.mem, s.next⟩
      | [] => none
    | [] => none
  else
    match (p.icf.succs s.n)[i]? with
    | none => none
    | some n' => match p.effB deep j s.n s.regs s.mem s.next with
      | some (x, mem', next') => some ⟨s.stk, n', updR s.regs s.n x, mem', next'⟩
      | none => none

theorem exec1_sound {deep : Bool} {i j : Nat} {s t : CState} (h : p.exec1 deep i j s = some t) : p.CStep deep s t := by
  obtain ⟨stk, n, regs, mem, next⟩ := s
  unfold Prog.exec1 at h
  dsimp only at h
  split at h
  · rename_i hc
    split at h
    · cases h
    · rename_i f hf
      have hf := List.mem_of_getElem? hf
      split at h
      · rename_i hx
        split at h
        · rename_i r rs hr
          cases h
          exact .ext hc hf ((extB_iff p).1 hx) (by rw [hr]; exact List.mem_cons_self) (ext_effect p n f regs mem next)
        · cases h
      · rename_i hx
        split at h
        · rename_i sp sps hsp
          split at h
          · rename_i hok
            cases h
            refine .call hc hf (fun h => hx ((extB_iff p).2 h)) (by rw [hsp]; exact List.mem_cons_self) ?_ ?_ ?_ ?_
            · intro i k a hk ha
              unfold Prog.callRegs
              rw [find_zip hok.1 hk ha]
            · intro k hk
              unfold Prog.callRegs
              rw [List.find?_eq_none.2]
              intro x hx' e
              have e' : x.1 = k := of_decide_eq_true e
              exact hk (e' ▸ (List.of_mem_zip hx').1)
            · intro a ha hty
              have := List.all_eq_true.1 hok.2 a ha
              cases hv : p.val regs a with
              | sc t => exact ⟨t, rfl⟩
              | ptr ℓ => rw [hv, hty] at this; cases this
            · intro a ha hty hv
              have := List.all_eq_true.1 hok.2 a ha
              rw [hv, hty] at this; cases this
          · cases h
        · cases h
  · rename_i hc
    have hc : p.icf.isCall n = false := by simpa using hc
    split at h
    · rename_i he
      split at h
      · rename_i fr stk' 
        split at h
        · rename_i r rs hr
          cases h
          exact .ret hc he (by rw [hr]; exact List.mem_cons_self)
        · cases h
      · cases h
    · split at h
      · cases h
      · rename_i n' hn
        split at h
        · rename_i x mem' next' he
          cases h
          exact .normal hc (List.mem_of_getElem? hn) (effB_sound p he)
        · cases h

/-- A run for a list of choices. -/
def Prog.exec (deep : Bool) : List (Nat × Nat) → CState → Option CState
  | [], s => some s
  | c :: cs, s => match p.exec1 deep c.1 c.2 s with
    | some t => Prog.exec deep cs t
    | none => none

theorem exec_sound {deep : Bool} : ∀ {cs : List (Nat × Nat)} {s0 s t : CState}, p.CSteps deep s0 s → p.exec deep cs s = some t →
    p.CSteps deep s0 t
  | [], _, _, _, h0, h => by cases h; exact h0
  | c :: cs, s0, s, t, h0, h => by
    unfold Prog.exec at h
    split at h
    · rename_i u hu
      exact exec_sound (.tail h0 (exec1_sound p hu)) h
    · cases h

namespace Tab

/-- Does the run with the choices `cs` end at `n` with `v` leaking there? -/
def leaks (t : Tab) (deep : Bool) (cs : List (Nat × Nat)) (n : Nat) (v : Val) : Bool :=
  match t.prog.exec deep cs (start 0) with
  | some s => decide (s.n = n) && t.prog.icf.isCall s.n && decide (v ∈ t.prog.args s.n) && hotB s.mem (t.prog.val s.regs v) &&
      (t.prog.icf.callees s.n).any fun f => decide (v ∈ t.prog.collectLeak s.n f)
  | none => false

theorem leaks_sound {t : Tab} {deep : Bool} {cs : List (Nat × Nat)} {n : Nat} {v : Val} (h0 : 0 ∈ t.entries)
    (h : t.leaks deep cs n v = true) : ∃ s, t.prog.Reached deep s ∧ s.n = n ∧ t.prog.Leak s v := by
  unfold leaks at h
  split at h
  · rename_i s hs
    rw [Bool.and_eq_true, Bool.and_eq_true, Bool.and_eq_true, Bool.and_eq_true, decide_eq_true_eq, decide_eq_true_eq] at h
    obtain ⟨⟨⟨⟨h1, h2⟩, h3⟩, h4⟩, h5⟩ := h
    obtain ⟨f, hf, h5⟩ := List.any_eq_true.1 h5
    exact ⟨s, ⟨start 0, t.init h0, exec_sound _ (.refl _) hs⟩, h1, h2, h3, hotB_iff.1 h4, f, hf,
      mem_collectLeak.1 (of_decide_eq_true h5)⟩
  · cases h

/-- Does the solver end without a result for `v` at `n`? -/
def misses (t : Tab) (fuel n : Nat) (v : Val) : Bool :=
  (solve t.prog.problem fuel).any fun r => decide (r.2.tab.get (n, v) = none)

theorem misses_sound {t : Tab} {fuel n : Nat} {v : Val} (h : t.misses fuel n v = true) :
    ∃ st w, solve t.prog.problem fuel = some (st, w) ∧ ¬ ifdsResultsAt w n v ∧ ¬ t.prog.Reported w n v := by
  unfold misses at h
  cases hs : solve t.prog.problem fuel with
  | none => rw [hs] at h; cases h
  | some r =>
    obtain ⟨st, w⟩ := r
    rw [hs] at h
    have h : w.tab.get (n, v) = none := by simpa using h
    have hn : ¬ ifdsResultsAt w n v := by
      rintro ⟨l, hl⟩
      rw [h] at hl; cases hl
    exact ⟨st, w, rfl, hn, fun hr => hn hr.2.2.1⟩

/-- Does the solver end with `v` reported at `n`? -/
def finds (t : Tab) (fuel n : Nat) (v : Val) : Bool :=
  (solve t.prog.problem fuel).any fun r => t.prog.icf.isCall n && !(t.prog.icf.retSites n).isEmpty &&
    (r.2.tab.get (n, v)).isSome && (t.prog.icf.callees n).any fun f => t.prog.records n f v

theorem finds_sound {t : Tab} {fuel n : Nat} {v : Val} (h : t.finds fuel n v = true) :
    ∃ st w, solve t.prog.problem fuel = some (st, w) ∧ t.prog.Reported w n v := by
  unfold finds at h
  cases hs : solve t.prog.problem fuel with
  | none => rw [hs] at h; cases h
  | some r =>
    obtain ⟨st, w⟩ := r
    rw [hs] at h
    simp only [Option.any_some, Bool.and_eq_true, Bool.not_eq_true', List.isEmpty_eq_false_iff] at h
    obtain ⟨⟨⟨h1, h2⟩, h3⟩, h4⟩ := h
    obtain ⟨l, hl⟩ := Option.isSome_iff_exists.1 h3
    obtain ⟨f, hf, h4⟩ := List.any_eq_true.1 h4
    exact ⟨st, w, rfl, h1, h2, ⟨l, hl⟩, f, hf, h4⟩

end Tab

end Phasar.Taint
