import Verif.Analysis.GLCAFlowProps
/-!
# Executions and the runs of the generalized constant analysis (specification and lemmas for C85)

Specification.  A cell is the value of a variable, or the content of a memory location, which has the name of its alloca or
global variable and is accessed by this name only.  A cell is tracked if its value stems from sources the analysis knows.
Arguments and parameters are no pointers to memory.
-/
namespace Phasar.GLCA
open IDE

variable {P : FP}

/-- Spec: a value, and whether it is tracked. -/
structure Cell (P : FP) where
  v : EV P
  tracked : Bool

/-- Spec: pending calls with the cells of the caller at the call, next statement, local cells, global cells. -/
structure CState (P : FP) where
  stk : List (Nat × (Nat → Cell P) × (Nat → Cell P))
  n : Nat
  loc : Nat → Cell P
  glob : Nat → Cell P

/-- Spec: function update. -/
def gupd (f : Nat → Cell P) (k : Nat) (c : Cell P) : Nat → Cell P := fun j => if j = k then c else f j

namespace GProg
variable (p : GProg P) (fixed : Nat → Bool)

/-- Spec: what a constant stands for.  A pointer to the first character of a string that never changes (`fixed`) stands for
the string; nothing is said about other pointers. -/
def conVal (i : Nat) : Option (EV P) :=
  match p.const i with
  | .int w v => some (.int w v)
  | .fp x => some (.fp x)
  | .gep g true true => if fixed g then (match p.init g with | some (.str s) => some (.str s) | _ => none) else none
  | _ => none

/-- Spec: the cell of a variable or memory location. -/
def cell (loc glob : Nat → Cell P) (k : Nat) : Cell P := if p.isGlobal k then glob k else loc k

/-- Spec: the operand has the value and the tracking of the cell `c`.  Pointers that the analysis takes for constants but that
`conVal` does not explain may have any value and are not tracked; GEP instructions that it takes for constants are tracked
(their value is unknown to the analysis). -/
def OpCell (loc glob : Nat → Cell P) (v : Val) (c : Cell P) : Prop :=
  match v with
  | .zero => False
  | .const i => (∀ x, p.conVal fixed i = some x → c.v = x) ∧ (c.tracked = true → (p.conVal fixed i).isSome = true)
  | .node k => c.v = (p.cell loc glob k).v ∧
      (c.tracked = true → (p.cell loc glob k).tracked = true ∨ p.isConstant (.node k) = true)

/-- Spec: the integer value of an operand of an arithmetic instruction. -/
def OpInt (loc glob : Nat → Cell P) (v : Val) (w : Nat) (x : BitVec w) : Prop :=
  match v with
  | .zero => False
  | .const i => p.const i = .int w x
  | .node k => (p.cell loc glob k).v = .int w x

/-- Spec: the operand is a tracked variable. -/
def opTracked (loc glob : Nat → Cell P) : Val → Bool
  | .node k => (p.cell loc glob k).tracked
  | _ => false

/-- Spec: the result of an arithmetic instruction is tracked: both operands are constant or none is (then the analysis takes it
for unknown), or the operand that is not constant is tracked. -/
def binTracked (loc glob : Nat → Cell P) (l r : Val) : Bool :=
  if p.isConstant l then p.isConstant r || p.opTracked loc glob r else !p.isConstant r || p.opTracked loc glob l

/-- Spec: change the content of a memory location. -/
def write (loc glob : Nat → Cell P) (k : Nat) (c : Cell P) : (Nat → Cell P) × (Nat → Cell P) :=
  if p.isGlobal k then (loc, gupd glob k c) else (gupd loc k c, glob)

/-- Spec: executing the statement `n`, which is no call, may change the cells in this way.  Casts, address computations and
floating-point arithmetic give results that are not tracked. -/
inductive Effect (n : Nat) (loc glob : Nat → Cell P) : (Nat → Cell P) → (Nat → Cell P) → Prop
  | store {v k c} : p.inst n = .store v (.node k) → p.OpCell fixed loc glob v c →
      Effect n loc glob (p.write loc glob k c).1 (p.write loc glob k c).2
  | load {k} : p.inst n = .load (.node k) → Effect n loc glob (gupd loc n (p.cell loc glob k)) glob
  | bin {op l r w} {x y z : BitVec w} : p.inst n = .bin op l r → p.OpInt loc glob l w x → p.OpInt loc glob r w y →
      LLVM op x y z → Effect n loc glob (gupd loc n ⟨.int w z, p.binTracked loc glob l r⟩) glob
  | binOther {op l r v} : p.inst n = .bin op l r →
      (∀ (w : Nat) (x y : BitVec w), ¬ (p.OpInt loc glob l w x ∧ p.OpInt loc glob r w y)) →
      Effect n loc glob (gupd loc n ⟨v, false⟩) glob
  | other {v} : (p.inst n = .other ∨ (∃ b q, p.inst n = .gep b q) ∨ (∃ a b q, p.inst n = .cast a b q) ∨
      ∃ q, p.inst n = .ret q) → Effect n loc glob (gupd loc n ⟨v, false⟩) glob

/-- Spec: one step of the program.  During a call of a function with a body, global variables are not tracked; after a call, a
global variable is tracked if it was before and its value has not changed. -/
inductive CStep : CState P → CState P → Prop
  | normal {stk n loc glob n' loc' glob'} : p.icf.isCall n = false → n' ∈ p.icf.succs n →
      p.Effect fixed n loc glob loc' glob' → CStep ⟨stk, n, loc, glob⟩ ⟨stk, n', loc', glob'⟩
  | call {stk n loc glob as f sp loc' glob'} : p.icf.isCall n = true → p.inst n = .call as → f ∈ p.icf.callees n →
      sp ∈ p.icf.starts f →
      (∀ (i k : Nat) (a : Val), (p.params f)[i]? = some k → as[i]? = some a → p.OpCell fixed loc glob a (loc' k)) →
      (∀ k, (∀ i : Nat, (p.params f)[i]? = some k → as.length ≤ i) → (loc' k).tracked = false) →
      (∀ k, (glob' k).v = (glob k).v ∧ (glob' k).tracked = false) →
      CStep ⟨stk, n, loc, glob⟩ ⟨(n, loc, glob) :: stk, sp, loc', glob'⟩
  | ret {stk c locc globc n loc glob r v x glob'} : p.icf.isCall n = false → p.icf.isExit n = true → p.inst n = .ret v →
      r ∈ p.icf.retSites c → (∀ a, v = some a → p.OpCell fixed loc glob a x) → (v = none → x.tracked = false) →
      (∀ k, (glob' k).v = (glob k).v ∧ ((glob' k).tracked = true → (globc k).tracked = true ∧ (globc k).v = (glob k).v)) →
      CStep ⟨(c, locc, globc) :: stk, n, loc, glob⟩ ⟨stk, r, gupd locc c x, glob'⟩
  | extern {stk n loc glob as r v glob'} : p.icf.isCall n = true → p.inst n = .call as →
      (∀ f ∈ p.icf.callees n, p.isDecl f = true) → r ∈ p.icf.retSites n →
      (∀ k, (glob' k).tracked = true → (glob k).tracked = true ∧ (glob' k).v = (glob k).v) →
      CStep ⟨stk, n, loc, glob⟩ ⟨stk, r, gupd loc n ⟨v, false⟩, glob'⟩

/-- Spec: zero or more steps. -/
inductive CSteps : CState P → CState P → Prop
  | refl (s : CState P) : CSteps s s
  | tail {a b c : CState P} : CSteps a b → p.CStep fixed b c → CSteps a c

/-- Spec: the value of a global variable at program start. -/
def InitVal (g : Nat) (v : EV P) : Prop :=
  match p.init g with
  | some (.int w x) => v = .int w x
  | some (.str s) => v = .str s
  | _ => False

/-- Spec: initial states: an entry point, no local cell tracked; global variables that are integers or strings may be tracked
and have their initial value. -/
def Start (s : CState P) : Prop :=
  s.stk = [] ∧ s.n ∈ p.entries ∧ (∀ k, (s.loc k).tracked = false) ∧
    ∀ k, p.isGlobal k = true → (s.glob k).tracked = true → k ∈ p.globals ∧ p.InitVal k (s.glob k).v

/-- What is required of the program: subtractions have no constant
operand (C39_sub_false); variables that the analysis takes for constants are no operands of arithmetic; calls do not have more
arguments than the called function has parameters, also of external functions (`C85_printf_false`); parameters are different
from each other and no pointers; no string constructors are called; global variables are no instructions; stores do not store
a pointer into itself. -/
structure WF : Prop where
  max : 1 ≤ p.max
  sub : ∀ n l r, p.inst n = .bin .sub l r → p.isConstant l = false ∧ p.isConstant r = false
  operands : ∀ n op l r, p.inst n = .bin op l r → ∀ k, l = .node k ∨ r = .node k → p.isConstant (.node k) = false
  arity : ∀ n, ∀ f ∈ p.icf.callees n, (p.args n).length ≤ (p.params f).length
  params : ∀ f, (p.params f).Nodup ∧ ∀ k ∈ p.params f, p.isGlobal k = false ∧ p.isPtr k = false
  noStr : ∀ n, p.callsStrCtor n = false ∧ ∀ f ∈ p.icf.callees n, p.strCtor f = false
  globals : ∀ g, p.isGlobal g = true → p.inst g = .other
  store : ∀ n v ptr, p.inst n = .store v ptr → v ≠ ptr ∧ ptr ≠ .zero

variable {p} {fixed}

/-! ## Lemmas -/

theorem conVal_const {i : Nat} {x : EV P} (h : p.conVal fixed i = some x) :
    p.isConstant (.const i) = true ∧ p.evOf (.const i) = some x := by
  unfold conVal at h
  unfold isConstant evOf isCDA
  cases hc : p.const i with
  | int w v => rw [hc] at h; cases h; simp [hc]
  | fp x => rw [hc] at h; cases h; simp [hc]
  | null => rw [hc] at h; cases h
  | other _ => rw [hc] at h; cases h
  | gep g first ofInt =>
    rw [hc] at h
    cases first <;> cases ofInt <;> simp only at h
    · cases h
    · cases h
    · cases h
    · split at h
      · cases hg : p.init g with
        | none => rw [hg] at h; cases h
        | some y =>
          rw [hg] at h
          cases y <;> simp at h
          subst h
          simp [hc, hg]
      · cases h

/-- What `EdgeValue` makes of a tracked operand that the analysis takes for a constant. -/
theorem op_const {loc glob : Nat → Cell P} {v : Val} {c : Cell P} (h : p.OpCell fixed loc glob v c) (ht : c.tracked = true)
    (hc : p.isConstant v = true) : ∃ e, p.evOf v = some e ∧ (e = .top ∨ e = c.v) := by
  cases v with
  | zero => exact h.elim
  | const i =>
    obtain ⟨x, hx⟩ := Option.isSome_iff_exists.1 (h.2 ht)
    exact ⟨x, (conVal_const hx).2, .inr (h.1 x hx).symm⟩
  | node k => exact ⟨.top, rfl, .inl rfl⟩

/-- A tracked operand that is no constant for the analysis is a tracked variable. -/
theorem op_node {loc glob : Nat → Cell P} {v : Val} {c : Cell P} (h : p.OpCell fixed loc glob v c) (ht : c.tracked = true)
    (hc : p.isConstant v = false) : ∃ k, v = .node k ∧ (p.cell loc glob k).tracked = true ∧ c.v = (p.cell loc glob k).v := by
  cases v with
  | zero => exact h.elim
  | const i =>
    obtain ⟨x, hx⟩ := Option.isSome_iff_exists.1 (h.2 ht)
    rw [(conVal_const hx).1] at hc; cases hc
  | node k =>
    refine ⟨k, rfl, (h.2 ht).resolve_right (by rw [hc]; nofun), h.1⟩

/-- The singleton case of `performBinOp`. -/
theorem performBinOp_one {op : Op} {a b z : EV P} {max : Nat} (hm : 1 ≤ max) (ha : a ≠ .top) (hb : b ≠ .top)
    (h : binOp1 op a b = some z) : performBinOp op [a] [b] max = some [z] := by
  unfold performBinOp
  have h1 : isTopValue [a] = false := by cases a <;> first | exact absurd rfl ha | rfl
  have h2 : isTopValue [b] = false := by cases b <;> first | exact absurd rfl hb | rfl
  rw [h1, h2]
  simp only [List.isEmpty_cons, Bool.or_self, Bool.false_eq_true, if_false, List.flatMap_cons, List.map_cons, List.map_nil,
    List.flatMap_nil, List.append_nil, binLoop, h, insert, has, List.nil_append, List.length_cons, List.length_nil]
  rw [if_neg (by omega)]

/-- The edge value of a variable: known exactly, or unknown. -/
def Knows (p : GProg P) (stk : List Nat) (n : Nat) (d : Val) (v : EV P) : Prop :=
  ∃ e, Run p stk n d (some [e]) ∧ (e = .top ∨ e = v)

/-- The tracked cells are known here, and the zero fact arrives with the unknown value. -/
structure Covered (p : GProg P) (stk : List Nat) (n : Nat) (loc glob : Nat → Cell P) : Prop where
  zero : Run p stk n .zero (some [.top])
  cells : ∀ k, (p.cell loc glob k).tracked = true → Knows p stk n (.node k) (p.cell loc glob k).v

/-- The same at the pending calls. -/
def Frames (p : GProg P) : List (Nat × (Nat → Cell P) × (Nat → Cell P)) → Prop
  | [] => True
  | (c, loc, glob) :: rest => p.icf.isCall c = true ∧ Covered p (rest.map (·.1)) c loc glob ∧ Frames p rest

/-- At a start point, tracked global variables have their initial value. -/
def AtStart (p : GProg P) (n : Nat) (glob : Nat → Cell P) : Prop :=
  p.icf.isStart n = true → ∀ k, p.isGlobal k = true → (glob k).tracked = true → p.InitVal k (glob k).v

/-- The invariant. -/
def Inv (p : GProg P) (s : CState P) : Prop :=
  Covered p (s.stk.map (·.1)) s.n s.loc s.glob ∧ AtStart p s.n s.glob ∧ Frames p s.stk

theorem not_start (hicf : p.icf.WFV) {n' : Nat} (h : (∃ n, n' ∈ p.icf.succs n) ∨ ∃ c, n' ∈ p.icf.retSites c)
    (glob : Nat → Cell P) : AtStart p n' glob := by
  intro hs
  have := hicf.start_no_pred _ _ ((hicf.isStart_iff n').1 hs)
  rcases h with ⟨n, h⟩ | ⟨c, h⟩
  · exact absurd h (this.1 n)
  · exact absurd h (this.2 c)

theorem apply_id (v : Option (List (EV P))) : apply (some .id) v = v := by
  cases v <;> rfl

/-- The edge of a fact to itself, for a variable that `n` does not define. -/
theorem instEdge_self {n k : Nat} (h : k ≠ n ∨ p.inst n = .other ∨ ∃ v q, p.inst n = .store v q) : p.instEdge n (.node k) (.node k) = some .id := by
  unfold instEdge
  rw [if_neg (fun h => by cases h.1)]
  rcases h with h | h | ⟨v, q, h⟩
  · have hk : (Val.node k = Val.node n) = False := by simp [h]
    cases p.inst n <;> simp [hk]
  · rw [h]
  · rw [h]; simp

/-- A known variable stays known along an edge that keeps it. -/
theorem Knows.keep (hwf : p.WF) {stk : List Nat} {n n' k : Nat} {loc glob : Nat → Cell P} (hc : p.icf.isCall n = false)
    (hn : n' ∈ p.icf.succs n) (hst : AtStart p n glob) (hk : k ≠ n ∨ p.inst n = .other ∨ ∃ v q, p.inst n = .store v q)
    (hs : ∀ v, p.inst n ≠ .store v (.node k)) (ht : (p.cell loc glob k).tracked = true)
    (h : Knows p stk n (.node k) (p.cell loc glob k).v) : Knows p stk n' (.node k) (p.cell loc glob k).v := by
  obtain ⟨e, hr, he⟩ := h
  have hd : Val.node k ∈ zeroed .zero (p.normalFlow n) (.node k) :=
    (C85_normal n _ _ fun v h => (hwf.store _ _ _ h).2 rfl).2 (.inl ⟨rfl, hs⟩)
  have hr' := Run.normal hr hc hn hd
  have hid := instEdge_self (p := p) hk
  by_cases hg : p.isGlobal k = true ∧ p.icf.isStart n = true ∧ p.isMain (p.icf.funOf n) = true
  · have hcell : p.cell loc glob k = glob k := by unfold cell; rw [if_pos hg.1]
    have hv := hst hg.2.1 k hg.1 (hcell ▸ ht)
    have he' : p.normalEdge n (.node k) (.node k) = some .id ∨
        p.normalEdge n (.node k) (.node k) = some (.const [(glob k).v]) := by
      unfold normalEdge
      simp only
      rw [if_pos ⟨hg.1, hg.2.1, hg.2.2, trivial⟩]
      unfold initEdge
      unfold InitVal at hv
      split
      · rename_i h1
        split at h1
        · cases h1
        · cases hi : p.init k with
          | none => rw [hi] at hv; exact hv.elim
          | some y => rw [hi] at h1 hv; cases y <;> first | exact hv.elim | cases h1
      · rename_i h1
        split at h1
        · cases h1
        · cases hi : p.init k with
          | none => rw [hi] at hv; exact hv.elim
          | some y =>
            rw [hi] at h1 hv
            cases y <;> first | exact hv.elim | (cases h1; rw [hv]; exact .inr rfl)
      · exact .inl hid
    rcases he' with he' | he'
    · rw [he', apply_id] at hr'
      exact ⟨e, hr', he⟩
    · rw [he'] at hr'
      exact ⟨_, hr', .inr (by rw [hcell])⟩
  · have he' : p.normalEdge n (.node k) (.node k) = some .id := by
      unfold normalEdge
      simp only
      rw [if_neg fun h => hg ⟨h.1, h.2.1, h.2.2.1⟩]
      exact hid
    rw [he', apply_id] at hr'
    exact ⟨e, hr', he⟩

theorem zero_keep {stk : List Nat} {n n' : Nat} (hc : p.icf.isCall n = false) (hn : n' ∈ p.icf.succs n)
    (h : Run p stk n .zero (some [.top])) : Run p stk n' .zero (some [.top]) := by
  have := Run.normal h hc hn (d' := .zero) (C85.mem_zeroed.2 (.inr ⟨rfl, rfl⟩))
  have he : p.normalEdge n .zero .zero = some .id := by simp [normalEdge, instEdge]
  rwa [he, apply_id] at this

theorem cell_gupd (loc glob : Nat → Cell P) (n k : Nat) (c : Cell P) :
    p.cell (gupd loc n c) glob k = if p.isGlobal k = false ∧ k = n then c else p.cell loc glob k := by
  unfold cell gupd
  cases p.isGlobal k <;> simp

/-- Edges between different facts. -/
theorem normalEdge_ne {n : Nat} {d d' : Val} (h : d ≠ d') : p.normalEdge n d d' = p.instEdge n d d' := by
  unfold normalEdge
  cases d with
  | node g => simp only; rw [if_neg (fun hh => h hh.2.2.2)]
  | _ => rfl

/-- Instructions with a result. -/
theorem covered_result (hwf : p.WF) {stk : List Nat} {n n' : Nat} {loc glob : Nat → Cell P} {c : Cell P}
    (hcov : Covered p stk n loc glob) (hst : AtStart p n glob) (hc : p.icf.isCall n = false) (hn : n' ∈ p.icf.succs n)
    (hns : ∀ v k, p.inst n ≠ .store v k) (hx : c.tracked = true → Knows p stk n' (.node n) c.v) :
    Covered p stk n' (gupd loc n c) glob := by
  refine ⟨zero_keep hc hn hcov.zero, fun k hk => ?_⟩
  rw [cell_gupd] at hk ⊢
  split
  · rename_i h
    rw [if_pos h] at hk
    obtain ⟨_, rfl⟩ := h
    exact hx hk
  · rename_i h
    rw [if_neg h] at hk
    refine Knows.keep hwf hc hn hst ?_ (fun v => hns v _) hk (hcov.cells k hk)
    by_cases hkn : k = n
    · subst hkn
      cases hg : p.isGlobal k with
      | true => exact .inr (.inl (hwf.globals k hg))
      | false => exact absurd ⟨hg, rfl⟩ h
    · exact .inl hkn

/-- The result of integer arithmetic. -/
theorem bin_knows (hwf : p.WF) {stk : List Nat} {n n' : Nat} {loc glob : Nat → Cell P} (hcov : Covered p stk n loc glob)
    (hc : p.icf.isCall n = false) (hn : n' ∈ p.icf.succs n) {op : Op} {l r : Val} {w : Nat} {x y z : BitVec w}
    (hi : p.inst n = .bin op l r) (hl : p.OpInt loc glob l w x) (hr : p.OpInt loc glob r w y) (hz : LLVM op x y z)
    (ht : p.binTracked loc glob l r = true) : Knows p stk n' (.node n) (.int w z) := by
  have hng : p.isGlobal n = false := by
    cases h : p.isGlobal n with
    | false => rfl
    | true => have := hwf.globals n h; rw [hi] at this; cases this
  have hnz : ∀ v, p.inst n ≠ .store v .zero := fun v h => by rw [hi] at h; cases h
  have edge : ∀ d, p.normalEdge n d (.node n) = p.binEdge op l r d := by
    intro d
    have h1 : p.normalEdge n d (.node n) = p.instEdge n d (.node n) := by
      by_cases hd : d = .node n
      · subst hd; unfold normalEdge; simp only; rw [if_neg (fun h => by rw [hng] at h; cases h.1)]
      · exact normalEdge_ne hd
    rw [h1]
    unfold instEdge
    rw [if_neg (fun h => by cases h.2), hi]
    simp
  have step : ∀ {d v}, Run p stk n d v → Gen p n d (.node n) → Run p stk n' (.node n) (apply (p.binEdge op l r d) v) := by
    intro d v hrun hg
    have := Run.normal hrun hc hn ((C85_normal n _ _ hnz).2 (.inr hg))
    rwa [edge] at this
  have hsub : p.isConstant l = true ∨ p.isConstant r = true → op ≠ .sub := by
    rintro h rfl
    obtain ⟨h1, h2⟩ := hwf.sub _ _ _ hi
    rcases h with h | h
    · rw [h1] at h; cases h
    · rw [h2] at h; cases h
  have cst : ∀ {v : Val} {u : BitVec w}, p.OpInt loc glob v w u → p.isConstant v = true → (∀ k, v = .node k → False) →
      p.evOf v = some (.int w u) := by
    intro v u hv _ hnode
    cases v with
    | zero => exact hv.elim
    | const i => have hv : p.const i = .int w u := hv; simp only [evOf, hv]
    | node k => exact (hnode k rfl).elim
  have hlnode : ∀ k, l = .node k → p.isConstant l = true → False := by
    rintro k rfl h; rw [hwf.operands _ _ _ _ hi k (.inl rfl)] at h; cases h
  have hrnode : ∀ k, r = .node k → p.isConstant r = true → False := by
    rintro k rfl h; rw [hwf.operands _ _ _ _ hi k (.inr rfl)] at h; cases h
  unfold binTracked at ht
  cases hcl : p.isConstant l with
  | true =>
    rw [hcl] at ht
    have hel := cst hl hcl (fun k h => hlnode k h hcl)
    cases hcr : p.isConstant r with
    | true =>
      have her := cst hr hcr (fun k h => hrnode k h hcr)
      have := step hcov.zero (.both hi (by rw [hcl, hcr]))
      have hb : p.binEdge op l r .zero = some (.const [.int w z]) := by
        unfold binEdge
        rw [hcl, if_pos rfl, hel, Option.bind_some, if_pos ⟨hcr, rfl⟩, her, Option.bind_some,
          performBinOp_one (a := .int w x) (b := .int w y) hwf.max nofun nofun (C39_intop_partial (hsub (.inl hcl)) hz)]
        rfl
      rw [hb] at this
      exact ⟨_, this, .inr rfl⟩
    | false =>
      rw [hcr] at ht
      simp only [if_true, Bool.false_or] at ht
      cases r with
      | zero => cases ht
      | const i => cases ht
      | node k =>
        obtain ⟨e, hrun, he⟩ := hcov.cells k ht
        have := step hrun (.right hi)
        have hb : p.binEdge op l (.node k) (.node k) = some (.bin op [.int w x] true) := by
          unfold binEdge
          rw [hcl, if_pos rfl, hel, Option.bind_some, if_neg (fun h => by cases h.2)]
        rw [hb] at this
        have hr : (p.cell loc glob k).v = .int w y := hr
        rcases he with rfl | rfl
        · exact ⟨.top, this, .inl rfl⟩
        · rw [hr] at this
          refine ⟨.int w z, ?_, .inr rfl⟩
          have hp := performBinOp_one (a := .int w x) (b := .int w y) (max := domainMax) (by decide) nofun nofun
            (C39_intop_partial (P := P) (hsub (.inl hcl)) hz)
          have : Run p stk n' (.node n) (performBinOp op [.int w x] [.int w y] domainMax) := this
          rwa [hp] at this
  | false =>
    rw [hcl] at ht
    simp only [Bool.false_eq_true, if_false] at ht
    cases hcr : p.isConstant r with
    | true =>
      rw [hcr] at ht
      simp only [Bool.not_true, Bool.false_or] at ht
      have her := cst hr hcr (fun k h => hrnode k h hcr)
      cases l with
      | zero => cases ht
      | const i => cases ht
      | node k =>
        obtain ⟨e, hrun, he⟩ := hcov.cells k ht
        have := step hrun (.left hi)
        have hb : p.binEdge op (.node k) r (.node k) = some (.bin op [.int w y] false) := by
          unfold binEdge
          rw [hcl, if_neg nofun, hcr, if_pos rfl, her]
          rfl
        rw [hb] at this
        have hl : (p.cell loc glob k).v = .int w x := hl
        rcases he with rfl | rfl
        · exact ⟨.top, this, .inl rfl⟩
        · rw [hl] at this
          refine ⟨.int w z, ?_, .inr rfl⟩
          have hp := performBinOp_one (a := .int w x) (b := .int w y) (max := domainMax) (by decide) nofun nofun
            (C39_intop_partial (P := P) (hsub (.inr hcr)) hz)
          have : Run p stk n' (.node n) (performBinOp op [.int w x] [.int w y] domainMax) := this
          rwa [hp] at this
    | false =>
      have := step hcov.zero (.both hi (by rw [hcl, hcr]))
      have hb : p.binEdge op l r .zero = some (.const [.top]) := by
        unfold binEdge
        rw [hcl, if_neg nofun, hcr, if_neg nofun]
      rw [hb] at this
      exact ⟨.top, this, .inl rfl⟩

theorem covered_effect (hwf : p.WF) {stk : List Nat} {n n' : Nat} {loc glob loc' glob' : Nat → Cell P}
    (hcov : Covered p stk n loc glob) (hst : AtStart p n glob) (hc : p.icf.isCall n = false) (hn : n' ∈ p.icf.succs n)
    (he : p.Effect fixed n loc glob loc' glob') : Covered p stk n' loc' glob' := by
  cases he with
  | @store v k c hi hop =>
    have hw := hwf.store _ _ _ hi
    have hnz : ∀ v, p.inst n ≠ .store v .zero := fun v h => by rw [hi] at h; cases h
    have hcell : ∀ j, p.cell (p.write loc glob k c).1 (p.write loc glob k c).2 j = if j = k then c else p.cell loc glob j := by
      intro j
      unfold write cell gupd
      by_cases hjk : j = k
      · subst hjk; cases hg : p.isGlobal j <;> simp
      · cases p.isGlobal k <;> simp [hjk]
    refine ⟨zero_keep hc hn hcov.zero, fun j hj => ?_⟩
    rw [hcell] at hj ⊢
    split
    · rename_i hjk
      rw [if_pos hjk] at hj
      subst hjk
      cases hcv : p.isConstant v with
      | true =>
        obtain ⟨e, h1, h2⟩ := op_const hop hj hcv
        have := Run.normal hcov.zero hc hn ((C85_normal n _ _ hnz).2 (.inr (.storeConst hi hcv)))
        rw [normalEdge_ne (d := .zero) (d' := .node j) nofun] at this
        have hb : p.instEdge n .zero (.node j) = some (.const [e]) := by
          unfold instEdge
          rw [if_neg (fun h => by cases h.2), hi]
          simp [hcv, h1]
        rw [hb] at this
        exact ⟨e, this, h2⟩
      | false =>
        obtain ⟨i, rfl, h1, h2⟩ := op_node hop hj hcv
        obtain ⟨e, h3, h4⟩ := hcov.cells i h1
        have := Run.normal h3 hc hn ((C85_normal n _ _ hnz).2 (.inr (.store hi hcv hw.1)))
        rw [normalEdge_ne hw.1] at this
        have hb : p.instEdge n (.node i) (.node j) = some .id := by
          unfold instEdge
          rw [if_neg (fun h => by cases h.2), hi]
          simp
        rw [hb, apply_id] at this
        exact ⟨e, this, h2 ▸ h4⟩
    · rename_i hjk
      rw [if_neg hjk] at hj
      refine Knows.keep hwf hc hn hst ?_ (fun v h => ?_) hj (hcov.cells j hj)
      · exact .inr (.inr ⟨_, _, hi⟩)
      · rw [hi] at h; cases h; exact hjk rfl
  | @load k hi =>
    refine covered_result hwf hcov hst hc hn (fun _ _ h => by rw [hi] at h; cases h) fun ht => ?_
    obtain ⟨e, h1, h2⟩ := hcov.cells k ht
    have := Run.normal h1 hc hn ((C85_normal n _ _ (fun v h => by rw [hi] at h; cases h)).2 (.inr (.load hi)))
    have hb : p.normalEdge n (.node k) (.node n) = some .id := by
      have : p.instEdge n (.node k) (.node n) = some .id := by
        unfold instEdge; rw [if_neg (fun h => by cases h.2), hi]
      by_cases hkn : k = n
      · subst hkn
        unfold normalEdge
        simp only
        rw [if_neg (fun h => by have := hwf.globals k h.1; rw [hi] at this; cases this)]
        exact this
      · rw [normalEdge_ne (by simpa using hkn)]; exact this
    rw [hb, apply_id] at this
    exact ⟨e, this, h2⟩
  | bin hi hl hr hz =>
    exact covered_result hwf hcov hst hc hn (fun _ _ h => by rw [hi] at h; cases h) fun ht =>
      bin_knows hwf hcov hc hn hi hl hr hz ht
  | binOther hi _ => exact covered_result hwf hcov hst hc hn (fun _ _ h => by rw [hi] at h; cases h) nofun
  | other hi =>
    refine covered_result hwf hcov hst hc hn (fun _ _ h => ?_) nofun
    rw [h] at hi
    rcases hi with h | ⟨_, _, h⟩ | ⟨_, _, _, h⟩ | ⟨_, h⟩ <;> cases h

/-! ## Calls -/

theorem ctr_run (hwf : p.WF) {stk : List Nat} {c r : Nat} {d : Val} {v : Option (List (EV P))} (h : Run p stk c d v)
    (hc : p.icf.isCall c = true) (hr : r ∈ p.icf.retSites c) : Run p stk r d v := by
  have hs := (hwf.noStr c).1
  have hf : p.ctrFlow c d = some [d] := by unfold ctrFlow; rw [hs]; rfl
  have := Run.ctr h hc hr hf (C85.mem_zeroed.2 (.inl (List.mem_singleton.2 rfl)))
  have he : p.ctrEdge c d d = some .id := by unfold ctrEdge; rw [hs]; rfl
  rwa [he, apply_id] at this

theorem callEdgeLoop_at : ∀ {ks : List Nat} {as : List Val} {i k : Nat} {a : Val}, ks.Nodup → ks[i]? = some k → as[i]? = some a →
    p.callEdgeLoop (.node k) ks as = (p.evOf a).map fun x => .const [x] := by
  intro ks
  induction ks with
  | nil => intro as i k a _ h; simp at h
  | cons k' ks ih =>
    intro as i k a hnd hk ha
    cases as with
    | nil => simp at ha
    | cons a' as =>
      cases i with
      | zero =>
        simp only [List.getElem?_cons_zero, Option.some.injEq] at hk ha
        subst hk; subst ha
        simp [callEdgeLoop]
      | succ i =>
        simp only [List.getElem?_cons_succ] at hk ha
        have hne : k ≠ k' := by
          rintro rfl
          exact (List.nodup_cons.1 hnd).1 (List.mem_of_getElem? hk)
        rw [callEdgeLoop, if_neg (by simpa using hne)]
        exact ih (List.nodup_cons.1 hnd).2 hk ha

theorem callEdge_zero : ∀ {ks : List Nat} {as : List Val}, p.callEdgeLoop .zero ks as = some .id := by
  intro ks
  induction ks with
  | nil => intro as; rfl
  | cons k ks ih =>
    intro as
    cases as with
    | nil => rfl
    | cons a as => rw [callEdgeLoop, if_neg nofun]; exact ih

theorem covered_call (hwf : p.WF) {stk : List Nat} {n f sp : Nat} {as : List Val} {loc glob loc' glob' : Nat → Cell P}
    (hcov : Covered p stk n loc glob) (hc : p.icf.isCall n = true) (hi : p.inst n = .call as) (hf : f ∈ p.icf.callees n)
    (hsp : sp ∈ p.icf.starts f)
    (hp : ∀ (i k : Nat) (a : Val), (p.params f)[i]? = some k → as[i]? = some a → p.OpCell fixed loc glob a (loc' k))
    (ho : ∀ k, (∀ i : Nat, (p.params f)[i]? = some k → as.length ≤ i) → (loc' k).tracked = false)
    (hg : ∀ k, (glob' k).v = (glob k).v ∧ (glob' k).tracked = false) : Covered p (n :: stk) sp loc' glob' := by
  have hargs : p.args n = as := by unfold args; rw [hi]
  have har : as.length ≤ (p.params f).length := hargs ▸ hwf.arity n f hf
  have hstr := (hwf.noStr n).2 f hf
  have hdef : ∀ d, ∃ ts, p.callFlow n f d = some ts := by
    intro d
    cases h : p.callFlow n f d with
    | some ts => exact ⟨ts, rfl⟩
    | none =>
      obtain ⟨_, i, a, h1, _, h2, _⟩ := (C85_callee_undefined n f d).1 h
      rw [hargs] at h1
      obtain ⟨h3, _⟩ := List.getElem?_eq_some_iff.1 h1
      omega
  constructor
  · obtain ⟨ts, hts⟩ := hdef .zero
    have := Run.call hcov.zero hc hf hsp hts (d' := .zero) (C85.mem_zeroed.2 (.inr ⟨rfl, rfl⟩))
    have he : p.callEdge n .zero f .zero = some .id := by
      unfold callEdge; rw [if_pos rfl]; exact callEdge_zero
    rwa [he, apply_id] at this
  · intro k hk
    have hkg : p.isGlobal k = false := by
      cases h : p.isGlobal k with
      | false => rfl
      | true => unfold cell at hk; rw [if_pos h, (hg k).2] at hk; cases hk
    have hcell : p.cell loc' glob' k = loc' k := by unfold cell; rw [hkg]; rfl
    rw [hcell] at hk ⊢
    by_cases hex : ∃ i : Nat, (p.params f)[i]? = some k ∧ i < as.length
    · obtain ⟨i, hik, hlt⟩ := hex
      have hia : as[i]? = some as[i] := List.getElem?_eq_getElem hlt
      generalize as[i] = a at hia
      have hop := hp i k a hik hia
      have hvar : ¬ Variadic p f i := fun h => by have := h.2.1; omega
      have hto : ∀ {d ts}, p.callFlow n f d = some ts → Passes p d a → Val.node k ∈ zeroed .zero (fun _ => ts) d := by
        intro d ts hts hpass
        refine C85.mem_zeroed.2 (.inl ((C85_callee hts).2 ⟨hstr, .inr ⟨i, a, by rw [hargs]; exact hia, hpass, .inr ⟨hvar, k, hik, rfl⟩⟩⟩))
      cases hca : p.isConstant a with
      | true =>
        obtain ⟨e, h1, h2⟩ := op_const hop hk hca
        obtain ⟨ts, hts⟩ := hdef .zero
        have := Run.call hcov.zero hc hf hsp hts (hto hts (.inr ⟨rfl, hca⟩))
        have he : p.callEdge n .zero f (.node k) = some (.const [e]) := by
          unfold callEdge
          rw [if_pos rfl, hargs, callEdgeLoop_at (hwf.params f).1 hik hia, h1]
          rfl
        rw [he] at this
        exact ⟨e, this, h2⟩
      | false =>
        obtain ⟨j, rfl, h1, h2⟩ := op_node hop hk hca
        obtain ⟨e, h3, h4⟩ := hcov.cells j h1
        obtain ⟨ts, hts⟩ := hdef (.node j)
        have := Run.call h3 hc hf hsp hts (hto hts (.inl rfl))
        have he : p.callEdge n (.node j) f (.node k) = some .id := by unfold callEdge; rw [if_neg nofun]
        rw [he, apply_id] at this
        exact ⟨e, this, h2 ▸ h4⟩
    · rw [ho k (fun i hi => by
        by_cases hlt : i < as.length
        · exact absurd ⟨i, hi, hlt⟩ hex
        · omega)] at hk
      cases hk

theorem covered_ret (hwf : p.WF) {stk : List Nat} {c n r : Nat} {v : Option Val} {x : Cell P}
    {locc globc loc glob glob' : Nat → Cell P} (hcov : Covered p (c :: stk) n loc glob) (hfr : Covered p stk c locc globc)
    (hcc : p.icf.isCall c = true) (hc : p.icf.isCall n = false) (hex : p.icf.isExit n = true) (hi : p.inst n = .ret v)
    (hr : r ∈ p.icf.retSites c) (hx : ∀ a, v = some a → p.OpCell fixed loc glob a x) (hx' : v = none → x.tracked = false)
    (hg : ∀ k, (glob' k).v = (glob k).v ∧ ((glob' k).tracked = true → (globc k).tracked = true ∧ (globc k).v = (glob k).v)) :
    Covered p stk r (gupd locc c x) glob' := by
  refine ⟨ctr_run hwf hfr.zero hcc hr, fun k hk => ?_⟩
  have old : ∀ {y}, (p.cell locc globc k).tracked = true → y = (p.cell locc globc k).v → Knows p stk r (.node k) y := by
    rintro _ ht rfl
    obtain ⟨e, h1, h2⟩ := hfr.cells k ht
    exact ⟨e, ctr_run hwf h1 hcc hr, h2⟩
  rw [cell_gupd] at hk ⊢
  split
  · rename_i h
    rw [if_pos h] at hk
    obtain ⟨_, rfl⟩ := h
    cases v with
    | none => rw [hx' rfl] at hk; cases hk
    | some a =>
      have hop := hx a rfl
      have hdef : ∀ d, ∃ ts, p.retFlow k (p.icf.funOf n) n d = some ts := by
        intro d
        cases h : p.retFlow k (p.icf.funOf n) n d with
        | some ts => exact ⟨ts, rfl⟩
        | none =>
          rcases (C85_caller_undefined _ _ _ _).1 h with h | ⟨i, j, h1, _, h2, _⟩
          · exact absurd hi (h _)
          · rw [((hwf.params _).2 j (List.mem_of_getElem? h1)).2] at h2; cases h2
      have hto : ∀ {d ts}, p.retFlow k (p.icf.funOf n) n d = some ts → Passes p d a →
          Val.node k ∈ zeroed .zero (fun _ => ts) d := fun hts hpass =>
        C85.mem_zeroed.2 (.inl ((C85_caller hts).2 (.inr (.inl ⟨a, hi, hpass, rfl⟩))))
      cases hca : p.isConstant a with
      | true =>
        obtain ⟨e, h1, h2⟩ := op_const hop hk hca
        obtain ⟨ts, hts⟩ := hdef .zero
        have := Run.ret hcov.zero hc hex hr hts (hto hts (.inr ⟨rfl, hca⟩))
        have he : p.retEdge n .zero = some (.const [e]) := by
          unfold retEdge
          rw [if_pos rfl, hi]
          simp [hca, h1]
        rw [he] at this
        exact ⟨e, this, h2⟩
      | false =>
        obtain ⟨j, rfl, h1, h2⟩ := op_node hop hk hca
        obtain ⟨e, h3, h4⟩ := hcov.cells j h1
        obtain ⟨ts, hts⟩ := hdef (.node j)
        have := Run.ret h3 hc hex hr hts (hto hts (.inl rfl))
        have he : p.retEdge n (.node j) = some .id := by unfold retEdge; rw [if_neg nofun]
        rw [he, apply_id] at this
        exact ⟨e, this, h2 ▸ h4⟩
  · rename_i h
    rw [if_neg h] at hk
    have hcell : (p.cell locc globc k).tracked = true ∧ (p.cell locc glob' k).v = (p.cell locc globc k).v := by
      unfold cell at hk ⊢
      cases hgk : p.isGlobal k with
      | true =>
        rw [hgk] at hk
        obtain ⟨h1, h2⟩ := (hg k).2 hk
        exact ⟨h1, (hg k).1.trans h2.symm⟩
      | false => rw [hgk] at hk; exact ⟨hk, rfl⟩
    exact old hcell.1 hcell.2

theorem covered_extern (hwf : p.WF) {stk : List Nat} {n r : Nat} {v : EV P} {loc glob glob' : Nat → Cell P}
    (hcov : Covered p stk n loc glob) (hc : p.icf.isCall n = true) (hr : r ∈ p.icf.retSites n)
    (hg : ∀ k, (glob' k).tracked = true → (glob k).tracked = true ∧ (glob' k).v = (glob k).v) :
    Covered p stk r (gupd loc n ⟨v, false⟩) glob' := by
  refine ⟨ctr_run hwf hcov.zero hc hr, fun k hk => ?_⟩
  rw [cell_gupd] at hk ⊢
  split
  · rename_i h
    rw [if_pos h] at hk
    cases hk
  · rename_i h
    rw [if_neg h] at hk
    have hcell : (p.cell loc glob k).tracked = true ∧ (p.cell loc glob' k).v = (p.cell loc glob k).v := by
      unfold cell at hk ⊢
      cases hgk : p.isGlobal k with
      | true => rw [hgk] at hk; exact hg k hk
      | false => rw [hgk] at hk; exact ⟨hk, rfl⟩
    obtain ⟨e, h1, h2⟩ := hcov.cells k hcell.1
    exact ⟨e, ctr_run hwf h1 hc hr, hcell.2 ▸ h2⟩

/-! ## The invariant -/

theorem inv_start {s : CState P} (h : p.Start s) : Inv p s := by
  obtain ⟨hs, hn, hl, hg⟩ := h
  obtain ⟨stk, n, loc, glob⟩ := s
  subst hs
  refine ⟨⟨.seed hn (List.mem_cons_self ..), fun k hk => ?_⟩, fun _ k h1 h2 => (hg k h1 h2).2, trivial⟩
  have hk : (p.cell loc glob k).tracked = true := hk
  show Knows p [] n (.node k) (p.cell loc glob k).v
  unfold cell at hk ⊢
  cases hgk : p.isGlobal k with
  | false => rw [hgk] at hk; exact absurd hk (by rw [if_neg nofun]; exact fun h => by rw [hl k] at h; cases h)
  | true =>
    rw [hgk] at hk
    obtain ⟨h1, h2⟩ := hg k hgk hk
    refine ⟨.top, .seed hn (List.mem_cons_of_mem _ (List.mem_map.2 ⟨k, List.mem_filter.2 ⟨h1, ?_⟩, rfl⟩)), .inl rfl⟩
    unfold InitVal at h2
    cases hi : p.init k with
    | none => rw [hi] at h2; exact h2.elim
    | some y => rw [hi] at h2; cases y <;> first | exact h2.elim | rfl

theorem inv_step (hwf : p.WF) (hicf : p.icf.WFV) {s t : CState P} (h : Inv p s) (hst : p.CStep fixed s t) : Inv p t := by
  obtain ⟨hcov, hat, hfr⟩ := h
  cases hst with
  | normal hc hn he => exact ⟨covered_effect hwf hcov hat hc hn he, not_start hicf (.inl ⟨_, hn⟩) _, hfr⟩
  | call hc hi hf hsp hp ho hg =>
    exact ⟨covered_call hwf hcov hc hi hf hsp hp ho hg, (fun _ k _ h => absurd (((hg k).2).symm.trans h) nofun), hc, hcov, hfr⟩
  | ret hc hex hi hr hx hx' hg =>
    obtain ⟨hcc, hfc, hrest⟩ := hfr
    exact ⟨covered_ret hwf hcov hfc hcc hc hex hi hr hx hx' hg, not_start hicf (.inr ⟨_, hr⟩) _, hrest⟩
  | extern hc hi _ hr hg => exact ⟨covered_extern hwf hcov hc hr hg, not_start hicf (.inr ⟨_, hr⟩) _, hfr⟩

theorem inv_steps (hwf : p.WF) (hicf : p.icf.WFV) {s t : CState P} (h : Inv p s) (hst : p.CSteps fixed s t) : Inv p t := by
  induction hst with
  | refl => exact h
  | tail _ hs ih => exact inv_step hwf hicf ih hs

end GProg
end Phasar.GLCA
