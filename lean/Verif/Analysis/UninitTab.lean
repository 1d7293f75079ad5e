import Verif.Analysis.UninitPlain
import Verif.IDE.Table
/-!
# Programs for the analysis of uninitialized variables given by tables, and executions by computation

Used to write down the example programs of C58, with checks by computation that they are well-formed and of what they do.
Nothing in the analysed code corresponds to this file.
-/
namespace Phasar.Uninit
open Phasar Phasar.IDE

/-- A program in tables.  Statements are the numbers below `rows.length`; other nodes are globals (`consts`) or parameters.
Functions without a body are those in `decls`; they initialize nothing.  Calls are by name unless listed in `indirect`. -/
structure Tab where
  rows : List Row
  insts : List Inst
  consts : List Nat := []
  ptrs : List Nat := []
  params : List (Nat × List Nat) := []
  decls : List Nat := []
  indirect : List Nat := []
  callbr : List Nat := []
  entries : List Nat := [0]

namespace Tab
variable (t : Tab)

def inst (n : Nat) : Inst := t.insts[n]?.getD (.op [])
def paramsOf (f : Nat) : List Nat := ((t.params.find? fun e => e.1 == f).map Prod.snd).getD []

def prog : Prog where
  inst := t.inst
  icf := tabICFG t.rows
  isConst := fun k => t.consts.contains k
  isPtr := fun v => match v with
    | .zero => true
    | .node k => t.ptrs.contains k
    | _ => false
  params := t.paramsOf
  called := fun n => if t.indirect.contains n then none else ((tabICFG t.rows).callees n)[0]?
  callOrInvoke := fun n => !t.callbr.contains n
  isDecl := fun f => t.decls.contains f
  inits := fun _ => false
  entries := t.entries

/-- The table describes a well-formed program (`Prog.WF`). -/
def okWF : Bool :=
  tabOk t.rows && decide (t.insts.length = t.rows.length) && t.entries.all (fun sp => decide (sp ∈ tabStarts t.rows (tabRow t.rows sp).fn)) &&
  t.consts.all (fun k => decide (t.rows.length ≤ k)) &&
  t.params.all (fun e => decide e.2.Nodup && e.2.all fun k => decide (t.rows.length ≤ k) && !t.consts.contains k) &&
  (List.range t.rows.length).all fun n =>
    decide (t.prog.icf.isCall n = match t.inst n with | .call _ => true | _ => false) &&
    decide (Val.zero ∉ t.prog.operands n) &&
    (t.prog.icf.callees n).all fun f => t.prog.isDecl f ||
      (decide ((t.paramsOf f).length ≤ (t.prog.args n).length) &&
        ((t.paramsOf f).zip (t.prog.args n)).all fun x => decide (t.prog.isPtr x.2 = t.prog.isPtr (.node x.1)))

/-- The program obeys the restriction (`Prog.Obeys`). -/
def okRestr (r : Restr) : Bool :=
  decide (t.insts.length = t.rows.length) && (List.range t.rows.length).all fun n => match r with
    | .types => match t.inst n with | .alloca ty => ty.tracked | _ => true
    | .ret => !t.prog.icf.isExit n || match (t.prog.operands n)[0]? with | some v => !v.isUndef | none => true
    | _ => (t.prog.icf.callees n).all fun f => match r with
      | .direct => t.prog.isDecl f || decide (t.prog.called n = some f)
      | .noCallBr => t.prog.isDecl f || t.prog.callOrInvoke n
      | .noVarArg => t.prog.isDecl f || decide ((t.prog.args n).length ≤ (t.prog.params f).length)
      | .args => t.prog.isDecl f || (t.prog.args n).all fun a => !a.isUndef
      | _ => !t.prog.isDecl f || t.prog.inits f

/-- The program is plain (`Prog.Plain`). -/
def okPlain : Bool :=
  decide (t.insts.length = t.rows.length) && t.consts.all (fun g => t.ptrs.contains g) &&
  (List.range t.rows.length).all fun n =>
    (match t.inst n with
      | .store v ptr => !t.prog.isPtr v && match ptr with
        | .node g => !t.prog.isConst g || match v with | .lit _ => true | _ => false
        | _ => true
      | .gep base _ => !t.prog.isPtr base
      | .cast v => !t.prog.isPtr v
      | .phi ops => ops.all fun v => !t.prog.isPtr v
      | .op ops => ops.all fun v => !t.prog.isPtr v
      | .alloca _ => t.prog.isPtr (.node n)
      | .call as => t.consts.all (fun g => decide (Val.node g ∉ as)) && decide ((as.filter fun a => t.prog.isPtr a).Nodup)
      | _ => true) &&
    (!t.prog.icf.isExit n || match (t.prog.operands n)[0]? with | some v => !t.prog.isPtr v | none => true) &&
    (t.prog.icf.callees n).all fun f => !t.prog.isDecl f

theorem mem_paramsOf {f k : Nat} (h : k ∈ t.paramsOf f) : ∃ e ∈ t.params, e.1 = f ∧ e.2 = t.paramsOf f := by
  unfold paramsOf at h ⊢
  cases he : t.params.find? (fun e => e.1 == f) with
  | none => rw [he] at h; cases h
  | some e => exact ⟨e, List.mem_of_find?_eq_some he, by simpa using List.find?_some he, rfl⟩

theorem row_ge {n : Nat} (h : ¬ n < t.rows.length) : t.prog.icf.isCall n = false ∧ t.prog.icf.isExit n = false ∧
    t.prog.icf.succs n = [] ∧ t.prog.icf.retSites n = [] ∧ t.prog.icf.callees n = [] := by
  simp [prog, tabICFG, tabRow_ge h]

theorem inst_ge (hl : t.insts.length = t.rows.length) {n : Nat} (h : ¬ n < t.rows.length) : t.inst n = .op [] := by
  unfold inst
  rw [List.getElem?_eq_none (by omega)]; rfl

theorem not_stmt {k : Nat} (h : t.rows.length ≤ k) : ¬ t.prog.Stmt k := by
  obtain ⟨h1, h2, h3, _⟩ := t.row_ge (n := k) (by omega)
  rintro (h | h | h)
  · rw [h1] at h; cases h
  · rw [h2] at h; cases h
  · exact h h3

theorem call_lt {n f : Nat} (h : f ∈ t.prog.icf.callees n) : n < t.rows.length := Classical.byContradiction fun h' => by
  rw [(t.row_ge h').2.2.2.2] at h; cases h

theorem wf (h : t.okWF = true) : t.prog.WF := by
  unfold okWF at h
  rw [Bool.and_eq_true, Bool.and_eq_true, Bool.and_eq_true, Bool.and_eq_true, Bool.and_eq_true, decide_eq_true_eq] at h
  obtain ⟨⟨⟨⟨⟨h1, h2⟩, h3⟩, h4⟩, h5⟩, h6⟩ := h
  have row : ∀ n, n < t.rows.length → _ := fun n hn => List.all_eq_true.1 h6 n (List.mem_range.2 hn)
  simp only [Bool.and_eq_true, decide_eq_true_eq] at row
  have call : ∀ n f, f ∈ t.prog.icf.callees n → t.prog.isDecl f = false →
      (t.paramsOf f).length ≤ (t.prog.args n).length ∧
      ∀ x ∈ (t.paramsOf f).zip (t.prog.args n), t.prog.isPtr x.2 = t.prog.isPtr (.node x.1) := by
    intro n f hf hd
    have := List.all_eq_true.1 (row n (t.call_lt hf)).2 f hf
    rw [hd, Bool.false_or, Bool.and_eq_true, decide_eq_true_eq] at this
    exact ⟨this.1, fun x hx => of_decide_eq_true (List.all_eq_true.1 this.2 x hx)⟩
  have param : ∀ f k, k ∈ t.paramsOf f → t.rows.length ≤ k ∧ t.consts.contains k = false := by
    intro f k hk
    obtain ⟨e, he, _, e2⟩ := t.mem_paramsOf hk
    have := List.all_eq_true.1 h5 e he
    rw [Bool.and_eq_true] at this
    have := List.all_eq_true.1 this.2 k (e2 ▸ hk)
    rw [Bool.and_eq_true, decide_eq_true_eq, Bool.not_eq_true'] at this
    exact this
  have nodup : ∀ f, (t.paramsOf f).Nodup := by
    intro f
    cases hl : t.paramsOf f with
    | nil => exact List.nodup_nil
    | cons a l =>
      obtain ⟨e, he, _, e2⟩ := t.mem_paramsOf (f := f) (k := a) (by rw [hl]; exact List.mem_cons_self)
      have := List.all_eq_true.1 h5 e he
      rw [Bool.and_eq_true, decide_eq_true_eq] at this
      rw [← hl, ← e2]
      exact this.1
  refine ⟨tabICFG_wfv h1, ?_, ?_, ?_, nodup, ?_, ?_, fun n f hf hd => (call n f hf hd).1, ?_⟩
  · intro sp hsp
    exact of_decide_eq_true (List.all_eq_true.1 h3 sp hsp)
  · intro n
    by_cases hlt : n < t.rows.length
    · have := (row n hlt).1.1
      rw [this]
      show _ ↔ ∃ as, t.inst n = .call as
      cases t.inst n <;> simp
    · rw [(t.row_ge hlt).1]
      show _ ↔ ∃ as, t.inst n = .call as
      rw [t.inst_ge h2 hlt]
      simp
  · intro f k hk
    obtain ⟨h7, h8⟩ := param f k hk
    exact ⟨t.not_stmt h7, h8⟩
  · intro k hk
    exact t.not_stmt (of_decide_eq_true (List.all_eq_true.1 h4 k (by simpa [prog] using hk)))
  · intro n
    by_cases hlt : n < t.rows.length
    · exact (row n hlt).1.2
    · have : t.prog.inst n = .op [] := t.inst_ge h2 hlt
      unfold Prog.operands
      rw [this]
      exact List.not_mem_nil
  · intro n f i k a hf hd hk ha
    exact (call n f hf hd).2 (k, a) (mem_zip_iff.2 ⟨i, hk, ha⟩)

theorem obeys {r : Restr} (h : t.okRestr r = true) : t.prog.Obeys r := by
  unfold okRestr at h
  rw [Bool.and_eq_true, decide_eq_true_eq] at h
  obtain ⟨hl, h⟩ := h
  have row : ∀ n, n < t.rows.length → _ := fun n hn => List.all_eq_true.1 h n (List.mem_range.2 hn)
  cases r with
  | types =>
    intro n ty hi
    by_cases hlt : n < t.rows.length
    · have := row n hlt
      have hi : t.inst n = .alloca ty := hi
      dsimp only at this
      rw [hi] at this
      revert this
      cases ty <;> simp [Ty.tracked]
    · have hi : t.inst n = .alloca ty := hi
      rw [t.inst_ge hl hlt] at hi; cases hi
  | ret =>
    intro n he v hv
    have hlt : n < t.rows.length := Classical.byContradiction fun h' => by rw [(t.row_ge h').2.1] at he; cases he
    have := row n hlt
    dsimp only at this
    rw [he, hv] at this
    simpa using this
  | direct =>
    intro n f hf hd
    have := List.all_eq_true.1 (row n (t.call_lt hf)) f hf
    dsimp only at this
    rw [hd] at this
    simpa using this
  | noCallBr =>
    intro n f hf hd
    have := List.all_eq_true.1 (row n (t.call_lt hf)) f hf
    dsimp only at this
    rw [hd] at this
    simpa using this
  | noVarArg =>
    intro n f hf hd
    have := List.all_eq_true.1 (row n (t.call_lt hf)) f hf
    dsimp only at this
    rw [hd] at this
    simpa using this
  | args =>
    intro n f hf hd a ha
    have := List.all_eq_true.1 (row n (t.call_lt hf)) f hf
    dsimp only at this
    rw [hd] at this
    rw [Bool.false_or] at this
    simpa using List.all_eq_true.1 this a ha
  | inits =>
    intro n f hf hd
    have := List.all_eq_true.1 (row n (t.call_lt hf)) f hf
    dsimp only at this
    rw [hd] at this
    simpa using this

theorem once_of_nodup {q : Val → Bool} {as : List Val} (h : (as.filter q).Nodup) {i j : Nat} {a : Val} (hi : as[i]? = some a)
    (hj : as[j]? = some a) (hq : q a = true) : i = j := by
  induction as generalizing i j with
  | nil => simp at hi
  | cons b l ih =>
    have hmem : ∀ {m : Nat}, l[m]? = some a → a ∈ l.filter q := fun hm => List.mem_filter.2 ⟨List.mem_of_getElem? hm, hq⟩
    cases hb : q b
    · rw [List.filter_cons_of_neg (by simp [hb])] at h
      cases i with
      | zero => simp at hi; rw [hi] at hb; rw [hq] at hb; cases hb
      | succ i => cases j with
        | zero => simp at hj; rw [hj] at hb; rw [hq] at hb; cases hb
        | succ j => exact congrArg (· + 1) (ih h (by simpa using hi) (by simpa using hj))
    · rw [List.filter_cons_of_pos (by simp [hb]), List.nodup_cons] at h
      cases i with
      | zero =>
        simp at hi
        cases j with
        | zero => rfl
        | succ j => exact absurd (hi ▸ hmem (by simpa using hj)) h.1
      | succ i => cases j with
        | zero => simp at hj; exact absurd (hj ▸ hmem (by simpa using hi)) h.1
        | succ j => exact congrArg (· + 1) (ih h.2 (by simpa using hi) (by simpa using hj))

theorem plain (h : t.okPlain = true) : t.prog.Plain := by
  unfold okPlain at h
  rw [Bool.and_eq_true, Bool.and_eq_true, decide_eq_true_eq] at h
  obtain ⟨⟨hl, hg⟩, h⟩ := h
  have row : ∀ n, n < t.rows.length → _ := fun n hn => List.all_eq_true.1 h n (List.mem_range.2 hn)
  simp only [Bool.and_eq_true] at row
  have lt : ∀ {n}, t.inst n ≠ .op [] → n < t.rows.length := fun hne =>
    Classical.byContradiction fun h' => hne (t.inst_ge hl h')
  have inst : ∀ n, t.prog.inst n = t.inst n := fun _ => rfl
  have args : ∀ n as, t.inst n = .call as → t.consts.all (fun g => decide (Val.node g ∉ as)) = true ∧
      (as.filter fun a => t.prog.isPtr a).Nodup := by
    intro n as hi
    have := (row n (lt (by rw [hi]; intro e; cases e))).1.1
    rw [hi] at this
    simpa using this
  refine ⟨?_, ?_, ?_, ?_, ?_, ?_, ?_, ?_, ?_, ?_, ?_⟩
  · intro n v ptr hi
    rw [inst] at hi
    have := (row n (lt (by rw [hi]; intro e; cases e))).1.1
    rw [hi] at this
    dsimp only at this
    rw [Bool.and_eq_true, Bool.not_eq_true'] at this
    refine ⟨this.1, ?_⟩
    rintro g rfl hc
    have := this.2
    dsimp only at this
    rw [hc] at this
    cases v with
    | lit c => exact ⟨c, rfl⟩
    | _ => cases this
  · intro n b idx hi
    rw [inst] at hi
    have := (row n (lt (by rw [hi]; intro e; cases e))).1.1
    rw [hi] at this
    simpa using this
  · intro n v hi
    rw [inst] at hi
    have := (row n (lt (by rw [hi]; intro e; cases e))).1.1
    rw [hi] at this
    simpa using this
  · intro n ops hi v hv
    rw [inst] at hi
    have := (row n (lt (by rw [hi]; intro e; cases e))).1.1
    rw [hi] at this
    simpa using List.all_eq_true.1 this v hv
  · intro n ops hi v hv
    rw [inst] at hi
    have hne : t.inst n ≠ .op [] := by rintro e; rw [hi] at e; cases e; cases hv
    have := (row n (lt hne)).1.1
    rw [hi] at this
    simpa using List.all_eq_true.1 this v hv
  · intro n he v hv
    have hlt : n < t.rows.length := Classical.byContradiction fun h' => by rw [(t.row_ge h').2.1] at he; cases he
    have := (row n hlt).1.2
    rw [he, hv] at this
    simpa using this
  · intro n ty hi
    rw [inst] at hi
    have := (row n (lt (by rw [hi]; intro e; cases e))).1.1
    rw [hi] at this
    exact this
  · intro g hc
    exact List.all_eq_true.1 hg g (by simpa [prog] using hc)
  · intro n g hc hm
    unfold Prog.args at hm
    rw [inst] at hm
    cases hi : t.inst n with
    | call as =>
      rw [hi] at hm
      have := List.all_eq_true.1 (args n as hi).1 g (by simpa [prog] using hc)
      exact of_decide_eq_true this hm
    | _ => rw [hi] at hm; cases hm
  · intro n i j a hi hj hp
    unfold Prog.args at hi hj
    rw [inst] at hi hj
    cases hin : t.inst n with
    | call as =>
      rw [hin] at hi hj
      exact once_of_nodup (args n as hin).2 hi hj hp
    | _ => rw [hin] at hi; simp at hi
  · intro n f hf
    have := List.all_eq_true.1 (row n (t.call_lt hf)).2 f hf
    simpa using this

/-- The state in which an execution starts. -/
def start (n : Nat) : CState := ⟨[], n, fun _ => .data, fun _ => .data, 0⟩

theorem init {n : Nat} (h : n ∈ t.entries) : t.prog.Init (start n) where
  stk := rfl
  entry := h
  regs _ := not_bad_data
  regsOld _ := trivial
  memOld _ := trivial

theorem plainStart (n : Nat) : PlainStart (start n) := ⟨fun _ => rfl, fun _ => rfl⟩

end Tab

/-! ## Executions by computation -/

variable (p : Prog)

/-- Effect of a statement, `j` selects the operand of an `op` or `phi` (0: data for `op`). -/
def Prog.effB (j n : Nat) (regs : Nat → RVal) (mem : Loc → RVal) (next : Nat) : Option (RVal × (Loc → RVal) × Nat) :=
  match p.inst n with
  | .alloca _ => some (.ptr (.obj next), updM mem (.obj next) .undef, next + 1)
  | .store v ptr => match p.val regs ptr with
    | .ptr ℓ => some (.data, updM mem ℓ (p.val regs v), next)
    | _ => none
  | .load ptr => match p.val regs ptr with
    | .ptr ℓ => some (mem ℓ, mem, next)
    | _ => none
  | .gep base _ => some (p.val regs base, mem, next)
  | .cast v => some (p.val regs v, mem, next)
  | .phi ops => (ops[j]?).map fun v => (p.val regs v, mem, next)
  | .op ops => match j with
    | 0 => some (.data, mem, next)
    | j + 1 => (ops[j]?).map fun v => (p.val regs v, mem, next)
  | _ => none

theorem effB_sound {j n : Nat} {regs : Nat → RVal} {mem : Loc → RVal} {next : Nat} {x : RVal} {mem' : Loc → RVal} {next' : Nat}
    (h : p.effB j n regs mem next = some (x, mem', next')) : p.Effect n regs mem next x mem' next' := by
  unfold Prog.effB at h
  split at h
  · rename_i hi; cases h; exact .alloca hi
  · rename_i hi
    split at h
    · rename_i hp; cases h; exact .store hi hp
    · cases h
  · rename_i hi
    split at h
    · rename_i hp; cases h; exact .load hi hp
    · cases h
  · rename_i hi; cases h; exact .gep hi
  · rename_i hi; cases h; exact .cast hi
  · rename_i hi
    obtain ⟨v, hv, e⟩ := Option.map_eq_some_iff.1 h
    cases e
    exact .phi hi (List.mem_of_getElem? hv)
  · rename_i hi
    split at h
    · cases h; exact .opData hi
    · obtain ⟨v, hv, e⟩ := Option.map_eq_some_iff.1 h
      cases e
      exact .op hi (List.mem_of_getElem? hv)
  · cases h

/-- Registers of a new activation. -/
def Prog.callRegs (n f : Nat) (regs : Nat → RVal) : Nat → RVal := fun k =>
  match ((p.params f).zip (p.args n)).find? fun x => decide (x.1 = k) with
  | some x => p.val regs x.2
  | none => .data

theorem find_zip : ∀ {ps : List Nat} {as : List Val} (_ : ps.Nodup) {i k : Nat} {a : Val}, ps[i]? = some k → as[i]? = some a →
    (ps.zip as).find? (fun x => decide (x.1 = k)) = some (k, a)
  | [], _, _, i, k, a, h, _ => by simp at h
  | _ :: _, [], _, i, k, a, _, h => by simp at h
  | q :: ps, b :: as, hn, 0, k, a, h1, h2 => by
    simp only [List.getElem?_cons_zero, Option.some.injEq] at h1 h2
    subst h1; subst h2
    simp
  | q :: ps, b :: as, hn, i + 1, k, a, h1, h2 => by
    rw [List.getElem?_cons_succ] at h1 h2
    rw [List.nodup_cons] at hn
    have : q ≠ k := by rintro rfl; exact hn.1 (List.mem_of_getElem? h1)
    rw [List.zip_cons_cons, List.find?_cons_of_neg (by simpa using this)]
    exact find_zip hn.2 h1 h2

/-- One step: `i` selects the successor or the callee, `j` the operand.  Functions without a body do nothing. -/
def Prog.exec1 (i j : Nat) (s : CState) : Option CState :=
  if p.icf.isCall s.n then
    match (p.icf.callees s.n)[i]? with
    | none => none
    | some f =>
      if p.isDecl f then
        match p.icf.retSites s.n with
        | r :: _ => if p.inits f then none else some ⟨s.stk, r, updR s.regs s.n .data, s.mem, s.next⟩
        | [] => none
      else
        match p.icf.starts f with
        | sp :: _ => if (p.params f).Nodup then some ⟨⟨s.n, s.regs⟩ :: s.stk, sp, p.callRegs s.n f s.regs, s.mem, s.next⟩ else none
        | [] => none
  else if p.icf.isExit s.n then
    match s.stk with
    | fr :: stk => match p.icf.retSites fr.c with
      | r :: _ => some ⟨stk, r, updR fr.regs fr.c (match (p.operands s.n)[0]? with | some v => p.val s.regs v | none => .data),
          s.mem, s.next⟩
      | [] => none
    | [] => none
  else
    match (p.icf.succs s.n)[i]? with
    | none => none
    | some n' => match p.effB j s.n s.regs s.mem s.next with
      | some (x, mem', next') => some ⟨s.stk, n', updR s.regs s.n x, mem', next'⟩
      | none => none

theorem exec1_sound {i j : Nat} {s t : CState} (h : p.exec1 i j s = some t) : p.CStep s t := by
  obtain ⟨stk, n, regs, mem, next⟩ := s
  unfold Prog.exec1 at h
  dsimp only at h
  split at h
  · rename_i hc
    split at h
    · cases h
    · rename_i f hf
      have hf := List.mem_of_getElem? hf
      split at h
      · rename_i hx
        split at h
        · rename_i r rs hr
          split at h
          · cases h
          · rename_i hin
            cases h
            exact .ext hc hf hx (by rw [hr]; exact List.mem_cons_self)
              ⟨Nat.le_refl _, fun _ _ h => h, fun h => h, not_bad_data, trivial, fun h => absurd h hin⟩
        · cases h
      · rename_i hx
        have hx : p.isDecl f = false := by simpa using hx
        split at h
        · rename_i sp sps hsp
          split at h
          · rename_i hok
            cases h
            refine .call hc hf hx (by rw [hsp]; exact List.mem_cons_self) ?_ ?_
            · intro i k a hk ha
              unfold Prog.callRegs
              rw [find_zip hok hk ha]
            · intro k hk
              unfold Prog.callRegs
              rw [List.find?_eq_none.2]
              intro x hx' e
              have e' : x.1 = k := of_decide_eq_true e
              exact hk (e' ▸ (List.of_mem_zip hx').1)
          · cases h
        · cases h
  · rename_i hc
    have hc : p.icf.isCall n = false := by simpa using hc
    split at h
    · rename_i he
      split at h
      · rename_i fr stk'
        split at h
        · rename_i r rs hr
          cases h
          exact .ret hc he (by rw [hr]; exact List.mem_cons_self)
        · cases h
      · cases h
    · split at h
      · cases h
      · rename_i n' hn
        split at h
        · rename_i x mem' next' he
          cases h
          exact .normal hc (List.mem_of_getElem? hn) (effB_sound p he)
        · cases h

/-- A run for a list of choices. -/
def Prog.exec : List (Nat × Nat) → CState → Option CState
  | [], s => some s
  | c :: cs, s => match p.exec1 c.1 c.2 s with
    | some t => Prog.exec cs t
    | none => none

theorem exec_sound : ∀ {cs : List (Nat × Nat)} {s0 s t : CState}, p.CSteps s0 s → p.exec cs s = some t → p.CSteps s0 t
  | [], _, _, _, h0, h => by cases h; exact h0
  | c :: cs, s0, s, t, h0, h => by
    unfold Prog.exec at h
    split at h
    · rename_i u hu
      exact exec_sound (.tail h0 (exec1_sound p hu)) h
    · cases h

/-- `ReadsUndef` by computation. -/
def Prog.readsB (t : CState) : Bool := match p.inst t.n with
  | .op ops => ops.any fun v => decide (p.val t.regs v = .undef)
  | .load ptr => match p.val t.regs ptr with
    | .undef => true
    | .ptr ℓ => decide (t.mem ℓ = .undef)
    | .data => false
  | _ => false

theorem readsB_sound {t : CState} (h : p.readsB t = true) : p.ReadsUndef t := by
  unfold Prog.readsB at h
  split at h
  · rename_i ops hi
    obtain ⟨v, hv, h⟩ := List.any_eq_true.1 h
    exact .inl ⟨ops, hi, v, hv, of_decide_eq_true h⟩
  · rename_i ptr hi
    refine .inr ⟨ptr, hi, ?_⟩
    split at h
    · rename_i e; exact .inl e
    · rename_i ℓ e; exact .inr ⟨ℓ, e, of_decide_eq_true h⟩
    · cases h
  · cases h

namespace Tab

/-- Does the run with the choices `cs` end at `n`, reading something undefined? -/
def reads (t : Tab) (cs : List (Nat × Nat)) (n : Nat) : Bool :=
  match t.prog.exec cs (start 0) with
  | some s => decide (s.n = n) && t.prog.readsB s
  | none => false

theorem reads_sound {t : Tab} {cs : List (Nat × Nat)} {n : Nat} (h : t.reads cs n = true) :
    ∃ s, t.prog.CSteps (start 0) s ∧ s.n = n ∧ t.prog.ReadsUndef s := by
  unfold reads at h
  split at h
  · rename_i s hs
    rw [Bool.and_eq_true, decide_eq_true_eq] at h
    exact ⟨s, exec_sound _ (.refl _) hs, h.1, readsB_sound _ h.2⟩
  · cases h

/-- Does the solver end with nothing to report at `n`? -/
def misses (t : Tab) (fuel n : Nat) : Bool :=
  (solve t.prog.problem fuel).any fun r => (t.prog.operands n).all fun o => !o.isUndef && decide (r.2.tab.get (n, o) = none)

theorem misses_sound {t : Tab} {fuel n : Nat} (h : t.misses fuel n = true) :
    ∃ st w, solve t.prog.problem fuel = some (st, w) ∧ ∀ v, ¬ t.prog.Reported w n v := by
  unfold misses at h
  cases hs : solve t.prog.problem fuel with
  | none => rw [hs] at h; cases h
  | some r =>
    obtain ⟨st, w⟩ := r
    rw [hs] at h
    refine ⟨st, w, rfl, ?_⟩
    rintro v ⟨_, _, _, s, ⟨l, hl⟩, hf⟩
    have h1 := List.find?_some hf
    have h2 := List.all_eq_true.1 (show _ = true from h) v (List.mem_of_find?_eq_some hf)
    rw [Bool.and_eq_true, Bool.not_eq_true', decide_eq_true_eq] at h2
    rw [h2.1, Bool.or_false, decide_eq_true_eq] at h1
    subst h1
    rw [h2.2] at hl; cases hl

/-- Does the solver end with `v` reported at `n`, because of the fact `s`? -/
def finds (t : Tab) (fuel n : Nat) (s v : Val) : Bool :=
  (solve t.prog.problem fuel).any fun r => !t.prog.icf.isCall n && !(t.prog.icf.succs n).isEmpty && t.prog.records n &&
    (r.2.tab.get (n, s)).isSome && decide (t.prog.firstUse n s = some v)

theorem finds_sound {t : Tab} {fuel n : Nat} {s v : Val} (h : t.finds fuel n s v = true) :
    ∃ st w, solve t.prog.problem fuel = some (st, w) ∧ t.prog.Reported w n v := by
  unfold finds at h
  cases hs : solve t.prog.problem fuel with
  | none => rw [hs] at h; cases h
  | some r =>
    obtain ⟨st, w⟩ := r
    rw [hs] at h
    simp only [Option.any_some, Bool.and_eq_true, Bool.not_eq_true', List.isEmpty_eq_false_iff, decide_eq_true_eq] at h
    obtain ⟨⟨⟨⟨h1, h2⟩, h3⟩, h4⟩, h5⟩ := h
    obtain ⟨l, hl⟩ := Option.isSome_iff_exists.1 h4
    exact ⟨st, w, rfl, h1, h2, h3, s, ⟨l, hl⟩, h5⟩

end Tab
end Phasar.Uninit
