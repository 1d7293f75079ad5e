import Verif.Analysis.TaintInv
import Verif.IDE.Table
/-!
# Programs for the taint analysis given by tables

Used to write down the example programs of C51, with a check by computation that they are well-formed.  Nothing in the analysed
code corresponds to this file.
-/
namespace Phasar.Taint
open Phasar Phasar.IDE

/-- A program in tables.  Statements are the numbers below `rows.length`; other nodes are globals (`consts`) or parameters. -/
structure Tab where
  rows : List Row
  insts : List Inst
  blocks : List Nat := []
  consts : List Nat := []
  ptrs : List Nat := []
  params : List (Nat × List Nat) := []
  decls : List Nat := []
  sret : List Nat := []
  sretCS : List Nat := []
  aliases : List (List Nat) := []
  sources : List Nat := []
  sinks : List Nat := []
  sanis : List Nat := []
  fdff : List (Nat × List (Nat × List Target)) := []
  swift : List Nat := []
  entries : List Nat := [0]
  taintMain : Bool := false

namespace Tab
variable (t : Tab)

def size : Nat := t.rows.length
def inst (n : Nat) : Inst := t.insts[n]?.getD (.op [])
def paramsOf (f : Nat) : List Nat := ((t.params.find? fun e => e.1 == f).map Prod.snd).getD []

/-- Operands, as in `Prog.operands`. -/
def opsOf : Inst → List Val
  | .alloca => []
  | .store v ptr => [v, ptr]
  | .load v => [v]
  | .gep v => [v]
  | .extract v => [v]
  | .insert a v => [a, v]
  | .cast v => [v]
  | .op ops => ops
  | .call as => as
  | .ret v => v.toList

/-- The program; two nodes are aliases if a class of `aliases` contains both, the number of uses is counted. -/
def prog : Prog where
  inst := t.inst
  icf := tabICFG t.rows
  isConst := fun k => t.consts.contains k
  constData := fun _ => false
  isPtr := fun k => t.ptrs.contains k
  params := t.paramsOf
  isDecl := fun f => t.decls.contains f
  sret := fun f => t.sret.contains f
  sretCS := fun n => t.sretCS.contains n
  uses2 := fun k => decide (2 ≤ ((t.insts.flatMap opsOf).filter fun v => decide (v = .node k)).length)
  aliases := fun v => v :: (t.aliases.filter fun c => c.any fun k => decide (v = .node k)).flatMap (·.map .node)
  isInst := fun k => decide (k < t.rows.length)
  argOf := fun k => (t.params.find? fun e => e.2.contains k).map Prod.fst
  block := fun k => t.blocks[k]?.getD (tabRow t.rows k).fn
  before := fun n k => decide (n < k)
  strip := id
  isSource := fun k => t.sources.contains k
  isSink := fun k => t.sinks.contains k
  isSani := fun k => t.sanis.contains k
  srcCB := none
  sinkCB := none
  fdff := fun f => (t.fdff.find? fun e => e.1 == f).map Prod.snd
  swift := fun f => t.swift.contains f
  entries := t.entries
  mainStarts := t.entries
  taintMain := t.taintMain

/-- The table describes a well-formed program (`Prog.WF`). -/
def okWF : Bool :=
  tabOk t.rows && decide (t.insts.length = t.rows.length) && t.entries.all (fun sp => decide (sp ∈ tabStarts t.rows (tabRow t.rows sp).fn)) &&
  t.consts.all (fun k => decide (t.rows.length ≤ k) && decide (t.prog.argOf k = none)) &&
  t.params.all (fun e => decide e.2.Nodup && e.2.all fun k => decide (t.rows.length ≤ k) && !t.consts.contains k &&
    decide (t.prog.argOf k = some e.1)) &&
  (List.range t.rows.length).all fun n =>
    decide (t.prog.icf.isCall n = match t.inst n with | .call _ => true | _ => false) &&
    (!t.prog.icf.isExit n || match t.inst n with | .ret _ => true | _ => false) &&
    decide (Val.zero ∉ opsOf (t.inst n)) &&
    (opsOf (t.inst n)).all (fun v => match v with
      | .node k => !(decide (k < t.rows.length) && decide (t.prog.block k = t.prog.block n) && decide (n ≤ k)) &&
        (t.prog.uses2 k || (List.range t.rows.length).all fun n' => !decide (Val.node k ∈ opsOf (t.inst n')) || decide (n = n'))
      | _ => true) &&
    (List.range t.rows.length).all fun k => !decide (t.prog.block k = t.prog.block n) || !decide (n < k) ||
      (t.prog.icf.succs n ++ t.prog.icf.retSites n).all fun n' => decide (t.prog.block k = t.prog.block n') && decide (n' ≤ k)

/-- The calls are well-formed (`Prog.WFCalls`). -/
def okCalls : Bool :=
  (List.range t.rows.length).all fun n =>
    (!t.prog.icf.isCall n || !(t.prog.icf.retSites n).isEmpty) &&
    (t.prog.icf.callees n).all fun f => t.prog.isDecl f ||
      decide ((t.prog.args n).length = (t.paramsOf f).length) &&
      ((t.paramsOf f).zip (t.prog.args n)).all fun x => decide (t.prog.ptrTy x.2 = t.prog.isPtr x.1)

/-- The program satisfies the restrictions (`Prog.Fit`). -/
def okFit : Bool :=
  t.sretCS.isEmpty && t.sret.isEmpty && t.consts.all t.prog.uses2 &&
  t.params.all (fun e => e.2.all fun k => !t.prog.isPtr k || t.prog.uses2 k || decide (Val.node k ∉ t.insts.flatMap opsOf)) &&
  (List.range t.rows.length).all (fun n => (t.prog.icf.callees n).all fun f =>
    !(t.swift.contains f || (t.prog.fdff f).isSome) ||
      (!t.sources.contains n && (t.paramsOf f).all fun k => !t.sources.contains k && !t.sinks.contains k && !t.sanis.contains k)) &&
  t.swift.all fun f => decide (t.prog.fdff f = none)

theorem operands_eq (n : Nat) : t.prog.operands n = opsOf (t.inst n) := by
  unfold Prog.operands opsOf
  show (match t.inst n with | .alloca => _ | .store _ _ => _ | .load _ => _ | .gep _ => _ | .extract _ => _ | .insert _ _ => _ | .cast _ => _ | .op _ => _ | .call _ => _ | .ret _ => _) = _
  cases t.inst n <;> rfl

theorem mem_paramsOf {f k : Nat} (h : k ∈ t.paramsOf f) : ∃ e ∈ t.params, e.1 = f ∧ e.2 = t.paramsOf f := by
  unfold paramsOf at h ⊢
  cases he : t.params.find? (fun e => e.1 == f) with
  | none => rw [he] at h; cases h
  | some e => exact ⟨e, List.mem_of_find?_eq_some he, by simpa using List.find?_some he, rfl⟩

theorem row_ge {n : Nat} (h : ¬ n < t.rows.length) : t.prog.icf.isCall n = false ∧ t.prog.icf.isExit n = false ∧
    t.prog.icf.succs n = [] ∧ t.prog.icf.retSites n = [] ∧ t.prog.icf.callees n = [] := by
  simp [prog, tabICFG, tabRow_ge h]

theorem inst_ge (hl : t.insts.length = t.rows.length) {n : Nat} (h : ¬ n < t.rows.length) : t.inst n = .op [] := by
  unfold inst
  rw [List.getElem?_eq_none (by omega)]; rfl

theorem wf (h : t.okWF = true) : t.prog.WF := by
  unfold okWF at h
  rw [Bool.and_eq_true, Bool.and_eq_true, Bool.and_eq_true, Bool.and_eq_true, Bool.and_eq_true, decide_eq_true_eq] at h
  obtain ⟨⟨⟨⟨⟨h1, h2⟩, h3⟩, h4⟩, h5⟩, h6⟩ := h
  have row : ∀ n, n < t.rows.length → _ := fun n hn => List.all_eq_true.1 h6 n (List.mem_range.2 hn)
  simp only [Bool.and_eq_true, decide_eq_true_eq] at row
  have hconst : ∀ k, t.prog.isConst k = true → t.rows.length ≤ k ∧ t.prog.argOf k = none := by
    intro k hk
    have hk : k ∈ t.consts := by simpa [prog] using hk
    have := List.all_eq_true.1 h4 k hk
    rwa [Bool.and_eq_true, decide_eq_true_eq, decide_eq_true_eq] at this
  have hparams : ∀ f k, k ∈ t.paramsOf f → t.rows.length ≤ k ∧ t.prog.isConst k = false ∧ t.prog.argOf k = some f := by
    intro f k hk
    obtain ⟨e, he, rfl, e2⟩ := t.mem_paramsOf hk
    have := (Bool.and_eq_true _ _ ▸ List.all_eq_true.1 h5 e he :).2
    have := List.all_eq_true.1 this k (e2 ▸ hk)
    rw [Bool.and_eq_true, Bool.and_eq_true, decide_eq_true_eq, decide_eq_true_eq, Bool.not_eq_true'] at this
    exact ⟨this.1.1, this.1.2, this.2⟩
  have hinst : ∀ k, t.prog.isInst k = true ↔ k < t.rows.length := fun k => by simp [prog]
  constructor
  · exact tabICFG_wfv h1
  · intro sp hsp
    exact of_decide_eq_true (List.all_eq_true.1 h3 sp hsp)
  · intro n hn
    have hlt : n < t.rows.length := Classical.byContradiction fun hlt => by
      obtain ⟨r1, r2, r3, _⟩ := t.row_ge hlt
      rw [r1, r2, r3] at hn; simp at hn
    refine ⟨(hinst n).2 hlt, ?_⟩
    cases hc : t.prog.isConst n
    · rfl
    · have := (hconst n hc).1; omega
  · intro n
    by_cases hlt : n < t.rows.length
    · rw [(row n hlt).1.1.1.1]
      show _ ↔ ∃ as, t.inst n = .call as
      cases t.inst n <;> simp
    · rw [(t.row_ge hlt).1]
      show _ ↔ ∃ as, t.inst n = .call as
      rw [t.inst_ge h2 hlt]; simp
  · intro n he
    by_cases hlt : n < t.rows.length
    · have := (row n hlt).1.1.1.2
      rw [he] at this
      show ∃ v, t.inst n = .ret v
      cases hi : t.inst n <;> rw [hi] at this <;> simp at this ⊢
    · rw [(t.row_ge hlt).2.1] at he; cases he
  · intro f k hk
    obtain ⟨e1, e2, e3⟩ := hparams f k hk
    refine ⟨?_, e2, e3⟩
    cases hi : t.prog.isInst k
    · rfl
    · have := (hinst k).1 hi; omega
  · intro f
    show (t.paramsOf f).Nodup
    cases hp : t.paramsOf f with
    | nil => exact List.nodup_nil
    | cons a l =>
      obtain ⟨e, he, rfl, e2⟩ := t.mem_paramsOf (f := f) (k := a) (by rw [hp]; exact List.mem_cons_self)
      have := (Bool.and_eq_true _ _ ▸ List.all_eq_true.1 h5 e he :).1
      rw [← hp, ← e2]; exact of_decide_eq_true this
  · intro k hk
    obtain ⟨e1, e2⟩ := hconst k hk
    refine ⟨?_, e2⟩
    cases hi : t.prog.isInst k
    · rfl
    · have := (hinst k).1 hi; omega
  · intro k hk; cases hk
  · intro n
    rw [operands_eq]
    by_cases hlt : n < t.rows.length
    · exact (row n hlt).1.1.2
    · rw [t.inst_ge h2 hlt]; simp [opsOf]
  · intro n k hk hp
    rw [operands_eq] at hk
    by_cases hlt : n < t.rows.length
    · have := List.all_eq_true.1 (row n hlt).1.2 _ hk
      rw [Bool.and_eq_true, Bool.not_eq_true'] at this
      have hle : n ≤ k := by
        rcases hp.2.2.2 with h | h
        · omega
        · have : n < k := of_decide_eq_true h
          omega
      simp [(hinst k).1 hp.1, hp.2.2.1, hle] at this
    · rw [t.inst_ge h2 hlt] at hk; cases hk
  · intro n k n' hi hb hlt hn
    have hn' : n' ∈ t.prog.icf.succs n ++ t.prog.icf.retSites n := List.mem_append.2 hn
    have hnlt : n < t.rows.length := Classical.byContradiction fun h => by
      obtain ⟨_, _, r3, r4, _⟩ := t.row_ge h
      rw [r3, r4] at hn'; cases hn'
    have := List.all_eq_true.1 (row n hnlt).2 k (List.mem_range.2 ((hinst k).1 hi))
    have hlt' : n < k := of_decide_eq_true hlt
    simp only [hb, hlt', decide_true, Bool.not_true, Bool.false_or] at this
    have := List.all_eq_true.1 this n' hn'
    rw [Bool.and_eq_true, decide_eq_true_eq, decide_eq_true_eq] at this
    refine ⟨by rw [hb]; exact this.1, ?_⟩
    by_cases e : k = n'
    · exact .inl e
    · exact .inr (decide_eq_true (show n' < k by omega))
  · intro n n' k hu hk hk'
    rw [operands_eq] at hk hk'
    have lt : ∀ {m}, Val.node k ∈ opsOf (t.inst m) → m < t.rows.length := fun {m} hm => Classical.byContradiction fun h => by
      rw [t.inst_ge h2 h] at hm; cases hm
    have := List.all_eq_true.1 (row n (lt hk)).1.2 _ hk
    rw [Bool.and_eq_true, hu, Bool.false_or] at this
    have := List.all_eq_true.1 this.2 n' (List.mem_range.2 (lt hk'))
    simpa [hk'] using this

theorem wfCalls (h : t.okCalls = true) : t.prog.WFCalls := by
  unfold okCalls at h
  have row : ∀ n, n < t.rows.length → _ := fun n hn => List.all_eq_true.1 h n (List.mem_range.2 hn)
  simp only [Bool.and_eq_true] at row
  have call : ∀ n f, f ∈ t.prog.icf.callees n → t.prog.isDecl f = false →
      (t.prog.args n).length = (t.paramsOf f).length ∧
      ∀ x ∈ (t.paramsOf f).zip (t.prog.args n), t.prog.ptrTy x.2 = t.prog.isPtr x.1 := by
    intro n f hf hd
    have hlt : n < t.rows.length := Classical.byContradiction fun h => by
      rw [(t.row_ge h).2.2.2.2] at hf; cases hf
    have := List.all_eq_true.1 (row n hlt).2 f hf
    rw [hd, Bool.false_or, Bool.and_eq_true, decide_eq_true_eq] at this
    exact ⟨this.1, fun x hx => of_decide_eq_true (List.all_eq_true.1 this.2 x hx)⟩
  refine ⟨fun n hc => ?_, fun n f hf hd => (call n f hf hd).1, fun n f i k a hf hd hk ha => ?_⟩
  · have hlt : n < t.rows.length := Classical.byContradiction fun h => by
      rw [(t.row_ge h).1] at hc; cases hc
    have := (row n hlt).1
    rw [hc] at this
    intro e
    rw [e] at this; cases this
  · refine (call n f hf hd).2 (k, a) ?_
    refine List.mem_iff_getElem?.2 ⟨i, ?_⟩
    rw [List.getElem?_zip_eq_some]
    exact ⟨hk, ha⟩

theorem fit (h : t.okFit = true) : t.prog.Fit := by
  unfold okFit at h
  rw [Bool.and_eq_true, Bool.and_eq_true, Bool.and_eq_true, Bool.and_eq_true, Bool.and_eq_true] at h
  obtain ⟨⟨⟨⟨⟨h1, h2⟩, h3⟩, h4⟩, h5⟩, h6⟩ := h
  rw [List.isEmpty_iff] at h1 h2
  refine ⟨fun n => ⟨?_, fun f _ => ?_⟩, fun n k hk => ⟨?_, fun f hf => ?_⟩, fun n f v hc hf hlib => ?_, fun f hf => ?_⟩
  · show t.sretCS.contains n = false
    rw [h1]; rfl
  · show t.sret.contains f = false
    rw [h2]; rfl
  · cases hc : t.prog.isConst k
    · rfl
    · have := List.all_eq_true.1 h3 k (by simpa [prog] using hc)
      rw [hk.1] at this; cases this
  · obtain ⟨e, he, rfl, e2⟩ := t.mem_paramsOf hf
    have := List.all_eq_true.1 (List.all_eq_true.1 h4 e he) k (e2 ▸ hf)
    have hin : Val.node k ∈ t.insts.flatMap opsOf := by
      have := lastUse_operand hk
      rw [operands_eq] at this
      unfold inst at this
      cases hi : t.insts[n]? with
      | none => rw [hi] at this; cases this
      | some i => rw [hi] at this; exact List.mem_flatMap.2 ⟨i, List.mem_of_getElem? hi, this⟩
    rw [hk.1, Bool.or_false, Bool.or_eq_true, Bool.not_eq_true', decide_eq_true_eq] at this
    exact this.resolve_right fun h => h hin
  · have hlt : n < t.rows.length := Classical.byContradiction fun h => by
      rw [(t.row_ge h).1] at hc; cases hc
    have := List.all_eq_true.1 (List.all_eq_true.1 h5 n (List.mem_range.2 hlt)) f hf
    have hs : (t.swift.contains f || (t.prog.fdff f).isSome) = true := by
      rcases hlib with h | h
      · have : t.swift.contains f = true := h
        rw [this]; rfl
      · rw [Option.isSome_iff_ne_none.2 h]; simp
    rw [hs, Bool.not_true, Bool.false_or, Bool.and_eq_true, Bool.not_eq_true'] at this
    have hp : ∀ k ∈ t.paramsOf f, t.sources.contains k = false ∧ t.sinks.contains k = false ∧ t.sanis.contains k = false := by
      intro k hk
      have := List.all_eq_true.1 this.2 k hk
      rw [Bool.and_eq_true, Bool.and_eq_true, Bool.not_eq_true', Bool.not_eq_true', Bool.not_eq_true'] at this
      exact ⟨this.1.1, this.1.2, this.2⟩
    refine ⟨?_, ?_, ?_⟩
    · rintro (⟨g, hg, _⟩ | ⟨hsrc, _⟩ | ⟨i, k, hk, hsrc, _⟩)
      · cases hg
      · have hsrc : t.sources.contains n = true := hsrc
        rw [this.1] at hsrc; cases hsrc
      · have hsrc : t.sources.contains k = true := hsrc
        rw [(hp k (List.mem_of_getElem? hk)).1] at hsrc; cases hsrc
    · rintro (⟨g, hg, _⟩ | ⟨i, k, hk, hsrc, _⟩)
      · cases hg
      · have hsrc : t.sinks.contains k = true := hsrc
        rw [(hp k (List.mem_of_getElem? hk)).2.1] at hsrc; cases hsrc
    · rintro ⟨i, k, hk, hsrc, _⟩
      have hsrc : t.sanis.contains k = true := hsrc
      rw [(hp k (List.mem_of_getElem? hk)).2.2] at hsrc; cases hsrc
  · exact of_decide_eq_true (List.all_eq_true.1 h6 f (by simpa [prog] using hf))

/-- The state in which an execution starts. -/
def start (n : Nat) : CState := ⟨[], n, fun _ => .sc false, fun _ => false, 0⟩

theorem init {n : Nat} (h : n ∈ t.entries) : t.prog.Init (start n) where
  stk := rfl
  entry := h
  regs _ _ := rfl
  old _ _ h := by cases h
  glob _ _ h := by cases h
  params _ _ h := by cases h
  globals _ := rfl

end Tab
end Phasar.Taint
