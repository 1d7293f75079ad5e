import Verif.Analysis.XFlowSem
import Verif.Analysis.AMLProps
import Verif.Analysis.XTaintProps
import Verif.IDE.Table
/-!
# C66: the flow functions and edge functions of the extended taint analysis, its leaks and what it drops
-/
namespace Phasar.XFlow
open Phasar AML

/-! ### Example programs -/

/-- A sequence of calls of the factory whose arguments are in the pool. -/
def C66.runOps (ir : Nat → IR) (bound : Nat) : Fac → List Op → Option Fac
  | F, [] => some F
  | F, op :: r =>
    if op.args.all F.pool.contains then
      match exec ir bound F op with
      | some (_, F') => C66.runOps ir bound F' r
      | none => none
    else none

theorem C66.runOps_reached {ir : Nat → IR} {bound : Nat} (ops : List Op) : ∀ {F F' : Fac},
    C66.runOps ir bound F ops = some F' → Reached ir bound F → Reached ir bound F' := by
  induction ops with
  | nil => intro F F' h hF; cases h; exact hF
  | cons op r ih =>
    intro F F' h hF
    unfold C66.runOps at h
    by_cases ha : op.args.all F.pool.contains = true
    · rw [if_pos ha] at h
      cases he : exec ir bound F op with
      | none => rw [he] at h; cases h
      | some y =>
        rw [he] at h
        refine ih h (.step hF (fun a hm => ?_) he)
        simpa using List.all_eq_true.1 ha a hm
    · rw [if_neg ha] at h; cases h

/-- The values of the examples: each is its own base (for arithmetic too, `AbstractMemoryLocationFactory.cpp:182-225`). -/
def C66.ir : Nat → IR := IR.self

/-- The calls of the factory in the examples. -/
def C66.ops : List Op :=
  [.create 0, .create 1, .create 2, .create 3, .create 7, .create 30, .indirection ⟨0, [0], 2⟩ [0], .indirection ⟨7, [0], 2⟩ [0]]

/-- The factory after an analysis of one of the examples. -/
def C66.fac : Fac := (C66.runOps C66.ir 3 Fac.empty C66.ops).getD Fac.empty

/-- The answers of that factory. -/
def C66.q : Asks := Asks.of C66.ir 3 C66.fac

/-- An empty program. -/
def C66.base (rows : List IDE.Row) : Prog where
  ir := C66.ir
  bound := 3
  inst := fun _ => .other
  icf := { IDE.tabICFG rows with starts := fun f => if f < rows.length then IDE.tabStarts rows f else [] }
  fnOf := fun _ => some 0
  isGlobal := fun v => v == 99
  isConst := fun v => v == 99
  isConstVar := fun v => v == 99
  isPtr := fun v => v == 0 || v == 7 || v == 30
  params := fun _ => []
  isDecl := fun f => decide (20 ≤ f)
  isIntrinsic := fun _ => false
  vaTag := fun _ => none
  size := fun _ => 4
  alias := fun v _ => [v]
  must := fun a b => a == b
  genAt := fun _ _ => []
  leakAt := fun _ _ => []
  saniAt := fun _ _ => []
  isSource := fun _ _ => false
  isSink := fun _ _ => false
  op0 := fun _ => none
  loadOrCall := fun _ => false
  bbo := ⟨fun _ => 0, fun i => [i + 1], fun i j => decide (i < j)⟩
  strong := true
  zeroV := 99
  autoSeed := fun _ => []
  entry := [0]

/-- `p = alloca; source(p); strlen(p); sink(p); ret` -/
def C66.exDecl : Prog :=
  { C66.base [⟨0, [1], none, false⟩, ⟨0, [2], some ([20], [2]), false⟩, ⟨0, [3], some ([21], [3]), false⟩,
      ⟨0, [4], some ([22], [4]), false⟩, ⟨0, [], none, true⟩] with
    inst := fun n => match n with | 1 | 2 | 3 => .call [0] | 4 => .ret none | _ => .other
    genAt := fun n f => if n = 1 ∧ f = some 20 then [0] else []
    leakAt := fun n f => if n = 3 ∧ f = some 22 then [0] else [] }

/-- `p = alloca; v = read(); source(p); store v, p; sink(p); ret` -/
def C66.exPost : Prog :=
  { C66.base [⟨0, [1], none, false⟩, ⟨0, [2], some ([20], [2]), false⟩, ⟨0, [3], some ([21], [3]), false⟩,
      ⟨0, [4], none, false⟩, ⟨0, [5], some ([22], [5]), false⟩, ⟨0, [], none, true⟩] with
    inst := fun n => match n with | 1 => .call [] | 2 => .call [0] | 3 => .store 1 0 | 4 => .call [0] | 5 => .ret none | _ => .other
    genAt := fun n f => if n = 1 ∧ f = some 20 then [1] else if n = 2 ∧ f = some 21 then [0] else []
    leakAt := fun n f => if n = 4 ∧ f = some 22 then [0] else [] }

/-- `v = read(); w = v + 1; sink(w); ret`, with an instruction before. -/
def C66.exArith : Prog :=
  { C66.base [⟨0, [1], none, false⟩, ⟨0, [2], some ([20], [2]), false⟩, ⟨0, [3], none, false⟩,
      ⟨0, [4], some ([22], [4]), false⟩, ⟨0, [], none, true⟩] with
    inst := fun n => match n with | 1 => .call [] | 3 => .call [2] | 4 => .ret none | _ => .other
    op0 := fun n => if n = 2 then some 1 else none
    genAt := fun n f => if n = 1 ∧ f = some 20 then [1] else []
    leakAt := fun n f => if n = 3 ∧ f = some 22 then [2] else [] }

/-- `p = alloca; source(p); clean(p); sink(p); ret`, where the sanitizer `clean` has a body that does nothing visible. -/
def C66.exClean : Prog :=
  { C66.base [⟨0, [1], none, false⟩, ⟨0, [2], some ([20], [2]), false⟩, ⟨0, [3], some ([1], [3]), false⟩,
      ⟨0, [4], some ([22], [4]), false⟩, ⟨0, [], none, true⟩, ⟨1, [6], none, false⟩, ⟨1, [], none, true⟩] with
    inst := fun n => match n with | 1 | 2 | 3 => .call [0] | 4 | 6 => .ret none | _ => .other
    params := fun f => if f = 1 then [30] else []
    genAt := fun n f => if n = 1 ∧ f = some 20 then [0] else []
    saniAt := fun n f => if n = 2 ∧ f = some 1 then [0] else []
    leakAt := fun n f => if n = 3 ∧ f = some 22 then [0] else [] }

/-- `p = alloca; source(p); store c, p; store p, out; ret`, where `out` is a sink. -/
def C66.exPrint : Prog :=
  { C66.base [⟨0, [1], none, false⟩, ⟨0, [2], some ([20], [2]), false⟩, ⟨0, [3], none, false⟩, ⟨0, [4], none, false⟩,
      ⟨0, [], none, true⟩] with
    inst := fun n => match n with | 1 => .call [0] | 2 => .store 3 0 | 3 => .store 0 7 | 4 => .ret none | _ => .other
    genAt := fun n f => if n = 1 ∧ f = some 20 then [0] else []
    isSink := fun n v => n == 3 && v == 7 }

/-- `fp(); v = read(); sink(v); ret`, where no function is known for `fp`. -/
def C66.exCall : Prog :=
  { C66.base [⟨0, [1], none, false⟩, ⟨0, [2], some ([], [2]), false⟩, ⟨0, [3], some ([20], [3]), false⟩,
      ⟨0, [4], some ([22], [4]), false⟩, ⟨0, [], none, true⟩] with
    inst := fun n => match n with | 1 | 2 => .call [] | 3 => .call [2] | 4 => .ret none | _ => .other
    genAt := fun n f => if n = 2 ∧ f = some 20 then [2] else []
    leakAt := fun n f => if n = 3 ∧ f = some 22 then [2] else [] }

/-- The load of a value in the examples: pointers have none, other values are their own. -/
def C66.load (v : Nat) : Option Nat := if v = 0 ∨ v = 7 ∨ v = 30 then none else some v

/-- The factory of the examples is one that calls lead to. -/
theorem C66.fac_reached : Reached C66.ir 3 C66.fac :=
  C66.runOps_reached C66.ops (by decide +kernel) .empty

/-! ### The answers of the factory -/

/-- What the analysis was told by the factory is what the factory at a later time answers, so the answers during an analysis are those at
its end. -/
theorem C66_answers (ir : Nat → IR) (B : Nat) (F F1 F2 : Fac) (l : Loc) (hid : ∀ i, (ir i).id = i) (hF : Reached ir B F)
    (hlater : C65.Later ir B F1 F2) :
    (∀ v, exec ir B F (.create v) = some (l, F1) → (Asks.of ir B F2).fact v = l) ∧
    (∀ a o, a ∈ F.pool → exec ir B F (.indirection a o) = some (l, F1) → (Asks.of ir B F2).ind a o = l) ∧
    (∀ a o, a ∈ F.pool → exec ir B F (.offsets a o) = some (l, F1) → (Asks.of ir B F2).offs a o = l) ∧
    (∀ a f t, a ∈ F.pool → f ∈ F.pool → exec ir B F (.transferTo a f t) = some (l, F1) → (Asks.of ir B F2).to a f t = l) ∧
    (∀ a t, a ∈ F.pool → t ∈ F.pool → exec ir B F (.transferFrom a t) = some (l, F1) → (Asks.of ir B F2).frm a t = l) := by
  have none_in : ∀ v, ∀ a ∈ (Op.create v).args, a ∈ F.pool := fun v a h => absurd h (by simp [Op.args])
  have key : ∀ op : Op, (∀ a ∈ op.args, a ∈ F.pool) → exec ir B F op = some (l, F1) →
      ∀ d, ((exec ir B F2 op).map Prod.fst).getD d = l := by
    intro op ha h d
    rw [C65_repeat ir B F F1 F2 op l hid hF ha h hlater]; rfl
  refine ⟨fun v h => key _ (none_in v) h _, fun a o ha h => key _ ?_ h _, fun a o ha h => key _ ?_ h _,
    fun a f t ha hf h => key _ ?_ h _, fun a t ha ht h => key _ ?_ h _⟩
  · intro b hb; rw [List.mem_singleton.1 hb]; exact ha
  · intro b hb; rw [List.mem_singleton.1 hb]; exact ha
  · intro b hb; rcases List.mem_cons.1 hb with rfl | hb
    · exact ha
    · rw [List.mem_singleton.1 hb]; exact hf
  · intro b hb; rcases List.mem_cons.1 hb with rfl | hb
    · exact ha
    · rw [List.mem_singleton.1 hb]; exact ht

example : C66.q.fact 0 = ⟨0, [0], 2⟩ ∧ C66.q.ind ⟨0, [0], 2⟩ [0] = ⟨0, [0, 0], 1⟩ := by decide +kernel

/-! ### Flow functions -/

section
variable (p : Prog) (q : Asks)

/-- An alias of `ptr` at `n` that is considered: no constant, and not another location of the same base. -/
def C66.Alias (n ptr a : Nat) : Prop :=
  a ∈ p.alias ptr n ∧ p.isConstVar a = false ∧ ((q.fact a).base = (q.fact ptr).base → q.fact a = q.fact ptr)

theorem C66.mem_aliasesOf (n ptr a : Nat) : a ∈ p.aliasesOf q n ptr ↔ C66.Alias p q n ptr a := by
  unfold Prog.aliasesOf C66.Alias
  simp only [List.mem_filter, Bool.and_eq_true, Bool.not_eq_true', Bool.and_eq_false_iff, beq_eq_false_iff_ne,
    decide_eq_false_iff_not, Decidable.not_not, ne_eq]
  constructor
  · rintro ⟨h1, h2, h3⟩; exact ⟨h1, h2, fun h => h3.resolve_left (fun h' => h' h)⟩
  · rintro ⟨h1, h2, h3⟩
    refine ⟨h1, h2, ?_⟩
    by_cases h : (q.fact a).base = (q.fact ptr).base
    · exact .inr (h3 h)
    · exact .inl h

theorem C66.equivPA_of_equiv {a b : Loc} {k : Nat} (h : equiv a b = true) : equivPA a b k = true := by
  rw [C65_equivalent] at h
  rw [C65_equivalent_pa]
  refine ⟨h.1, fun i h1 h2 => ?_⟩
  rcases h.2 with ⟨t, ht⟩ | ⟨t, ht⟩
  · rw [← ht, List.getElem?_append_left (by omega)]
  · rw [← ht, List.getElem?_append_left (by omega)]

theorem C66.mem_storeLeaks (n ptr v : Nat) (x : Nat × Nat) : x ∈ p.storeLeaks q n ptr v ↔
    x = (n, v) ∧ ∃ k, (k = ptr ∨ C66.Alias p q n ptr k) ∧ p.isSink n k = true := by
  unfold Prog.storeLeaks
  simp only [List.mem_map, List.mem_filter, List.mem_cons, C66.mem_aliasesOf]
  constructor
  · rintro ⟨k, ⟨h1, h2⟩, rfl⟩; exact ⟨rfl, k, h1, h2⟩
  · rintro ⟨rfl, k, h1, h2⟩; exact ⟨k, ⟨h1, h2⟩, rfl⟩

/-- What a store (and a memory intrinsic) makes of a fact: it keeps the fact; for the zero fact it taints the pointer if the stored value
is a source; a fact that is the stored value but for the last offsets taints the pointer and its aliases in the function with one more
indirection.  It records (and prints) a leak of the stored value if the pointer or an alias is a sink and the fact is equivalent to the
value or the value is a source. -/
theorem C66_store (n ptr v lvl : Nat) (s : Loc) :
    (∀ d, d ∈ (p.storeFlow q n ptr v lvl s).facts ↔ d = s ∨
      (s.base = p.zeroV ∧ p.isSource n v = true ∧ d = q.fact ptr) ∨
      (s.base ≠ p.zeroV ∧ equivPA (q.fact v) s lvl = true ∧
        (d = q.ind (q.fact ptr) (sub s (q.fact v)) ∨
         ∃ a, C66.Alias p q n ptr a ∧ (p.isConst a = true → p.isGlobal a = true) ∧ d = q.ind (q.fact a) (sub s (q.fact v)) ∧
           (p.isGlobal d.base = true ∨ p.fnOf d.base = some (p.icf.funOf n))))) ∧
    (∀ x, x ∈ (p.storeFlow q n ptr v lvl s).leaks ↔ x = (n, v) ∧
      (∃ k, (k = ptr ∨ C66.Alias p q n ptr k) ∧ p.isSink n k = true) ∧
      ((s.base = p.zeroV ∧ p.isSource n v = true ∧ q.fact ptr ≠ s) ∨ (s.base ≠ p.zeroV ∧ equiv (q.fact v) s = true))) ∧
    (p.storeFlow q n ptr v lvl s).printed = (p.storeFlow q n ptr v lvl s).leaks := by
  unfold Prog.storeFlow Prog.isZero
  by_cases hz : s.base = p.zeroV
  · rw [if_pos (by simpa using hz)]
    by_cases hs : p.isSource n v = true
    · rw [if_pos hs]
      by_cases he : q.fact ptr = s
      · rw [if_pos he]
        refine ⟨fun d => ?_, fun x => ?_, rfl⟩
        · simp only [List.mem_singleton, hz, hs, he, true_and, ne_eq, not_true_eq_false, false_and, or_false, or_self]
        · simp [hz, hs, he]
      · rw [if_neg he]
        refine ⟨fun d => ?_, fun x => ?_, rfl⟩
        · simp [hz, hs]
        · rw [C66.mem_storeLeaks]; simp [hz, hs, he]
    · rw [if_neg hs]
      refine ⟨fun d => ?_, fun x => ?_, rfl⟩
      · simp [hz, hs]
      · simp [hz, hs]
  · rw [if_neg (by simpa using hz)]
    by_cases hq : equivPA (q.fact v) s lvl = true
    · rw [if_pos hq]
      refine ⟨fun d => ?_, fun x => ?_, rfl⟩
      · simp only [Prog.storeFacts, List.mem_cons, List.mem_filter, List.mem_map, C66.mem_aliasesOf, hz, false_and, false_or,
          ne_eq, not_false_eq_true, true_and, hq, Prog.inScope, Bool.or_eq_true, beq_iff_eq, Bool.not_eq_true',
          Bool.and_eq_false_iff, Bool.not_eq_false']
        refine or_congr Iff.rfl (or_congr Iff.rfl ?_)
        constructor
        · rintro ⟨⟨a, ⟨h1, h2⟩, rfl⟩, h3⟩
          refine ⟨a, h1, fun h => ?_, rfl, h3⟩
          rcases h2 with h2 | h2
          · rw [h] at h2; cases h2
          · exact h2
        · rintro ⟨a, h1, h2, rfl, h3⟩
          refine ⟨⟨a, ⟨h1, ?_⟩, rfl⟩, h3⟩
          cases hc : p.isConst a with
          | false => exact .inl rfl
          | true => exact .inr (h2 hc)
      · by_cases he : equiv (q.fact v) s = true
        · rw [if_pos he, C66.mem_storeLeaks]
          simp only [hz, he, false_and, false_or, ne_eq, not_false_eq_true, and_self, and_true]
        · simp [he, hz]
    · rw [if_neg hq]
      have he : ¬ equiv (q.fact v) s = true := fun h => hq (C66.equivPA_of_equiv h)
      refine ⟨fun d => ?_, fun x => ?_, rfl⟩
      · simp [hz, hq]
      · simp [hz, he]

/-- A configured source taints its values when the zero fact reaches it; a configured sink records a leak for each leaked value that is
equivalent to the fact. -/
theorem C66_config (n : Nat) (gen leak : List Nat) (s : Loc) :
    (∀ d, d ∈ (p.configFlow q n gen leak s).facts ↔ d = s ∨ (s.base = p.zeroV ∧ ∃ v ∈ gen, d = q.fact v)) ∧
    (∀ x, x ∈ (p.configFlow q n gen leak s).leaks ↔
      s.base ≠ p.zeroV ∧ ∃ v ∈ leak, equiv s (q.fact v) = true ∧ x = (n, v)) ∧
    (p.configFlow q n gen leak s).printed = [] := by
  unfold Prog.configFlow Prog.isZero
  by_cases hz : s.base = p.zeroV
  · rw [if_pos (by simpa using hz)]
    refine ⟨fun d => ?_, fun x => ?_, rfl⟩
    · simp only [List.mem_cons, List.mem_map, hz, true_and]
      refine or_congr Iff.rfl ⟨?_, ?_⟩
      · rintro ⟨a, h, rfl⟩; exact ⟨a, h, rfl⟩
      · rintro ⟨a, h, rfl⟩; exact ⟨a, h, rfl⟩
    · simp [hz]
  · rw [if_neg (by simpa using hz)]
    refine ⟨fun d => ?_, fun x => ?_, rfl⟩
    · simp [hz]
    · simp only [List.mem_map, List.mem_filter, hz, ne_eq, not_false_eq_true, true_and]
      constructor
      · rintro ⟨a, ⟨h1, h2⟩, rfl⟩; exact ⟨a, h1, h2, rfl⟩
      · rintro ⟨a, h1, h2, rfl⟩; exact ⟨a, ⟨h1, h2⟩, rfl⟩

/-- At an instruction that is no call: a store behaves as a store even if it is configured; another configured instruction as configured;
a phi is tainted by the facts equivalent to an incoming value; anything else changes nothing. -/
theorem C66_normal (n : Nat) (s : Loc) :
    (∀ v ptr, p.inst n = .store v ptr → p.normalFlow q n s = p.storeFlow q n ptr v 1 s) ∧
    ((∀ v ptr, p.inst n ≠ .store v ptr) →
      ((p.genAt n none ≠ [] ∨ p.leakAt n none ≠ []) →
        p.normalFlow q n s = p.configFlow q n (p.genAt n none) (p.leakAt n none) s) ∧
      (p.genAt n none = [] → p.leakAt n none = [] →
        (p.normalFlow q n s).leaks = [] ∧ (p.normalFlow q n s).printed = [] ∧
        ∀ d, d ∈ (p.normalFlow q n s).facts ↔ d = s ∨
          (d = q.fact n ∧ ∃ ins, p.inst n = .phi ins ∧ ∃ v ∈ ins, equiv s (q.fact v) = true))) := by
  unfold Prog.normalFlow
  refine ⟨fun v ptr h => by rw [h], fun hs => ⟨fun h => ?_, fun h1 h2 => ?_⟩⟩
  · cases hi : p.inst n with
    | store v ptr => exact absurd hi (hs v ptr)
    | _ => exact if_pos h
  · have hno : ¬ (p.genAt n none ≠ [] ∨ p.leakAt n none ≠ []) := by simp [h1, h2]
    cases hi : p.inst n with
    | store v ptr => exact absurd hi (hs v ptr)
    | phi ins =>
      simp only [if_neg hno]
      by_cases ha : ins.any (fun v => equiv s (q.fact v)) = true
      · rw [if_pos ha]
        have ha' : ∃ v ∈ ins, equiv s (q.fact v) = true := by simpa using ha
        refine ⟨rfl, rfl, fun d => ?_⟩
        simp only [List.mem_cons, List.not_mem_nil, or_false, Inst.phi.injEq]
        refine or_congr Iff.rfl ⟨fun h => ⟨h, ins, rfl, ha'⟩, fun h => h.1⟩
      · rw [if_neg ha]
        refine ⟨rfl, rfl, fun d => ?_⟩
        simp only [List.mem_singleton, Inst.phi.injEq]
        refine ⟨.inl, fun h => h.elim id ?_⟩
        rintro ⟨-, ins', rfl, v, hv, he⟩
        exact absurd (List.any_eq_true.2 ⟨v, hv, he⟩) ha
    | _ => simp only [if_neg hno]; exact ⟨trivial, trivial, fun d => by simp⟩

theorem C66.mem_varFacts (va : Nat) (s d : Loc) : ∀ (as : List Nat) (k : Int), d ∈ p.varFacts q va s as k ↔
    ∃ (i : Nat) (a : Nat), as[i]? = some a ∧ equivPA (q.fact a) s 1 = true ∧
      d = q.ind (q.to s (q.fact a) va) [k + ((as.take i).map p.size).sum] := by
  intro as
  induction as with
  | nil => intro k; simp [Prog.varFacts]
  | cons b r ih =>
    intro k
    unfold Prog.varFacts
    rw [List.mem_append, ih]
    constructor
    · rintro (h | ⟨i, a, h1, h2, h3⟩)
      · by_cases hb : equivPA (q.fact b) s 1 = true
        · rw [if_pos hb] at h
          exact ⟨0, b, rfl, hb, by simpa using h⟩
        · rw [if_neg hb] at h; cases h
      · refine ⟨i + 1, a, by simpa using h1, h2, ?_⟩
        rw [h3, List.take_succ_cons, List.map_cons, List.sum_cons, Int.add_assoc]
    · rintro ⟨i, a, h1, h2, h3⟩
      cases i with
      | zero =>
        simp only [List.getElem?_cons_zero, Option.some.injEq] at h1
        subst h1
        left
        rw [if_pos h2]
        simpa using h3
      | succ i =>
        right
        refine ⟨i, a, by simpa using h1, h2, ?_⟩
        rw [h3, List.take_succ_cons, List.map_cons, List.sum_cons, Int.add_assoc]

/-- What enters a called function: everything if it has no body, else the zero fact, globals, the parameters whose argument is the fact but
for the last offset, and elements of the variable arguments at the sum of the sizes of the arguments before. -/
theorem C66_call (n f : Nat) (s d : Loc) :
    d ∈ p.callFlow q n f s ↔
      (d = s ∧ (p.isDecl f = true ∨ s.base = p.zeroV ∨ p.isGlobal s.base = true)) ∨
      (p.isDecl f = false ∧ s.base ≠ p.zeroV ∧
        ((∃ (i : Nat) (a x : Nat), (p.args n)[i]? = some a ∧ (p.params f)[i]? = some x ∧ equivPA (q.fact a) s 1 = true ∧
            d = q.to s (q.fact a) x) ∨
         (∃ (va i a : Nat), p.vaTag f = some va ∧ (p.params f).length ≤ i ∧ (p.args n)[i]? = some a ∧
            equivPA (q.fact a) s 1 = true ∧
            d = q.ind (q.to s (q.fact a) va) [((((p.args n).take i).drop (p.params f).length).map p.size).sum]))) := by
  unfold Prog.callFlow Prog.isZero
  by_cases hd : p.isDecl f = true
  · rw [if_pos hd]; simp [hd]
  rw [if_neg hd]
  by_cases hz : s.base = p.zeroV
  · rw [if_pos (by simpa using hz)]; simp [hz]
  rw [if_neg (by simpa using hz)]
  rw [Bool.not_eq_true] at hd
  simp only [hd, hz, Bool.false_eq_true, false_or, ne_eq, not_false_eq_true, true_and, List.mem_append, or_assoc]
  refine or_congr ?_ (or_congr ?_ ?_)
  · by_cases hg : p.isGlobal s.base = true
    · rw [if_pos hg]; simp [hg]
    · rw [if_neg hg]; simp [hg]
  · rw [List.mem_filterMap]
    constructor
    · rintro ⟨⟨x, a⟩, h1, h2⟩
      obtain ⟨i, hi⟩ := List.mem_iff_getElem?.1 h1
      rw [List.getElem?_zip_eq_some] at hi
      by_cases he : equivPA (q.fact a) s 1 = true
      · rw [if_pos he] at h2; cases h2
        exact ⟨i, a, x, hi.2, hi.1, he, rfl⟩
      · rw [if_neg he] at h2; cases h2
    · rintro ⟨i, a, x, h1, h2, h3, rfl⟩
      refine ⟨(x, a), List.mem_iff_getElem?.2 ⟨i, List.getElem?_zip_eq_some.2 ⟨h2, h1⟩⟩, if_pos h3⟩
  · by_cases hl : (p.args n).length > (p.params f).length
    · rw [if_pos hl]
      cases hv : p.vaTag f with
      | none => simp
      | some va =>
        simp only [C66.mem_varFacts, Int.zero_add, Option.some.injEq]
        constructor
        · rintro ⟨i, a, h1, h2, h3⟩
          refine ⟨va, (p.params f).length + i, a, rfl, by omega, by simpa [List.getElem?_drop] using h1, h2, ?_⟩
          rw [h3, List.drop_take, Nat.add_sub_cancel_left]
        · rintro ⟨va', i, a, rfl, h0, h1, h2, h3⟩
          refine ⟨i - (p.params f).length, a, ?_, h2, ?_⟩
          · rw [List.getElem?_drop, Nat.add_sub_cancel' h0]; exact h1
          · rw [h3, List.drop_take]
    · rw [if_neg hl]
      simp only [List.not_mem_nil, false_iff]
      rintro ⟨va, i, a, -, h0, h1, -⟩
      have := (List.getElem?_eq_some_iff.1 h1).1
      omega

/-- What comes back from a called function at a return: the zero fact; for another fact the argument of each pointer parameter it is
equivalent to, the call for an equivalent returned value, and globals.  Another exit statement fails a cast.  Without call site only
globals (the zero value is one) remain. -/
theorem C66_ret (c f e : Nat) (s : Loc) :
    (∀ rv, p.inst e = .ret rv → ∃ l, p.retFlow? q (some c) f e s = some l ∧ ∀ d, d ∈ l ↔
      (d = s ∧ (s.base = p.zeroV ∨ p.isGlobal s.base = true)) ∨
      (s.base ≠ p.zeroV ∧
        ((∃ (i : Nat) (x a : Nat), (p.params f)[i]? = some x ∧ (p.args c)[i]? = some a ∧ p.isPtr x = true ∧
            equiv s (q.fact x) = true ∧ d = q.frm s (q.fact a)) ∨
         (∃ r, rv = some r ∧ equiv s (q.fact r) = true ∧ d = q.offs (q.fact c) (sub s (q.fact r)))))) ∧
    ((∀ rv, p.inst e ≠ .ret rv) → p.retFlow? q (some c) f e s = none) ∧
    (∃ l, p.retFlow? q none f e s = some l ∧ ∀ d, d ∈ l ↔ d = s ∧ p.isGlobal s.base = true) := by
  refine ⟨fun rv hi => ?_, fun hi => ?_, ?_⟩
  · unfold Prog.retFlow?
    simp only [hi]
    unfold Prog.isZero
    by_cases hz : s.base = p.zeroV
    · rw [if_pos (by simpa using hz)]
      exact ⟨_, rfl, fun d => by simp [hz]⟩
    rw [if_neg (by simpa using hz)]
    refine ⟨_, rfl, fun d => ?_⟩
    simp only [List.mem_append, hz, false_or, ne_eq, not_false_eq_true, true_and]
    have h1 : d ∈ ((p.params f).zip (p.args c)).filterMap
          (fun x => if p.isPtr x.1 && equiv s (q.fact x.1) then some (q.frm s (q.fact x.2)) else none) ↔
        ∃ (i : Nat) (x a : Nat), (p.params f)[i]? = some x ∧ (p.args c)[i]? = some a ∧ p.isPtr x = true ∧
            equiv s (q.fact x) = true ∧ d = q.frm s (q.fact a) := by
      rw [List.mem_filterMap]
      constructor
      · rintro ⟨⟨x, a⟩, h1, h2⟩
        obtain ⟨i, hi⟩ := List.mem_iff_getElem?.1 h1
        rw [List.getElem?_zip_eq_some] at hi
        by_cases he : (p.isPtr x && equiv s (q.fact x)) = true
        · rw [if_pos he] at h2; cases h2
          rw [Bool.and_eq_true] at he
          exact ⟨i, x, a, hi.1, hi.2, he.1, he.2, rfl⟩
        · rw [if_neg he] at h2; cases h2
      · rintro ⟨i, x, a, h1, h2, h3, h4, rfl⟩
        exact ⟨(x, a), List.mem_iff_getElem?.2 ⟨i, List.getElem?_zip_eq_some.2 ⟨h1, h2⟩⟩, if_pos (by simp [h3, h4])⟩
    have h2 : d ∈ (match rv with
          | some r => if equiv s (q.fact r) then [q.offs (q.fact c) (sub s (q.fact r))] else []
          | none => []) ↔
        ∃ r, rv = some r ∧ equiv s (q.fact r) = true ∧ d = q.offs (q.fact c) (sub s (q.fact r)) := by
      cases rv with
      | none => simp
      | some r =>
        by_cases he : equiv s (q.fact r) = true
        · simp [he]
        · simp [he]
    have h3 : d ∈ (if p.isGlobal s.base then [s] else []) ↔ d = s ∧ p.isGlobal s.base = true := by
      by_cases hg : p.isGlobal s.base = true
      · simp [hg]
      · simp [hg]
    refine (or_congr (or_congr h1 h2) h3).trans ?_
    constructor
    · rintro ((h | h) | h)
      · exact .inr (.inl h)
      · exact .inr (.inr h)
      · exact .inl h
    · rintro (h | h | h)
      · exact .inr h
      · exact .inl (.inl h)
      · exact .inl (.inr h)
  · unfold Prog.retFlow?
    cases hj : p.inst e with
    | ret rv => exact absurd hj (hi rv)
    | _ => rfl
  · refine ⟨_, rfl, fun d => ?_⟩
    by_cases hg : p.isGlobal s.base = true
    · simp [hg]
    · simp [hg]

/-- Past a call every fact stays, but the zero fact only if some callee has no body. -/
theorem C66_over (n : Nat) (s d : Loc) :
    d ∈ p.ctrFlow n s ↔ d = s ∧ (s ≠ ⟨p.zeroV, [], 0⟩ ∨ ∃ f ∈ p.icf.callees n, p.isDecl f = true) := by
  unfold Prog.ctrFlow
  by_cases h : (p.icf.callees n).any p.isDecl = true
  · rw [if_pos h]
    have : ∃ f ∈ p.icf.callees n, p.isDecl f = true := by simpa using h
    simp [this]
  · rw [if_neg h]
    have : ¬ ∃ f ∈ p.icf.callees n, p.isDecl f = true := by simpa using h
    by_cases hs : s = p.zero
    · rw [if_pos hs]
      simp only [this, or_false]
      constructor
      · intro h; cases h
      · rintro ⟨-, h⟩; exact absurd hs h
    · rw [if_neg hs]
      simp only [this, or_false, List.mem_singleton]
      exact ⟨fun h => ⟨h, hs⟩, fun h => h.1⟩

/-- A call has a summary if the callee is configured as source or sink there or is a memory intrinsic; a sanitizer is none. -/
theorem C66_summary (n f : Nat) :
    (p.summaryFlow q n f = none ↔ p.genAt n (some f) = [] ∧ p.leakAt n (some f) = [] ∧
      (∀ d v, p.inst n ≠ .memset d v) ∧ ∀ d v, p.inst n ≠ .memcpy d v) ∧
    (∀ g, p.summaryFlow q n f = some g →
      ((p.genAt n (some f) ≠ [] ∨ p.leakAt n (some f) ≠ []) ∧
        g = p.configFlow q n (p.genAt n (some f)) (p.leakAt n (some f))) ∨
      (p.genAt n (some f) = [] ∧ p.leakAt n (some f) = [] ∧
        ((∃ d v, p.inst n = .memset d v ∧ g = p.storeFlow q n d v 1) ∨
         (∃ d v, p.inst n = .memcpy d v ∧ g = p.storeFlow q n d v 2)))) := by
  unfold Prog.summaryFlow
  by_cases h : p.genAt n (some f) ≠ [] ∨ p.leakAt n (some f) ≠ []
  · rw [if_pos h]
    refine ⟨⟨fun h' => (nomatch h'), fun h' => ?_⟩, fun g hg => .inl ⟨h, by cases hg; rfl⟩⟩
    rcases h with h | h
    · exact absurd h'.1 h
    · exact absurd h'.2.1 h
  · rw [if_neg h]
    have h1 : p.genAt n (some f) = [] := Decidable.not_not.1 fun h' => h (.inl h')
    have h2 : p.leakAt n (some f) = [] := Decidable.not_not.1 fun h' => h (.inr h')
    cases hi : p.inst n with
    | memset d v =>
      refine ⟨⟨fun h' => (nomatch h'), fun h' => absurd rfl (h'.2.2.1 d v)⟩, fun g hg => .inr ⟨h1, h2, .inl ⟨d, v, rfl, ?_⟩⟩⟩
      cases hg; rfl
    | memcpy d v =>
      refine ⟨⟨fun h' => (nomatch h'), fun h' => absurd rfl (h'.2.2.2 d v)⟩, fun g hg => .inr ⟨h1, h2, .inr ⟨d, v, rfl, ?_⟩⟩⟩
      cases hg; rfl
    | _ => exact ⟨⟨fun _ => ⟨h1, h2, fun _ _ h => (nomatch h), fun _ _ h => (nomatch h)⟩, fun _ => rfl⟩, fun g hg => (nomatch hg)⟩

end

/-- A tainted value stored through a pointer. -/
example : (C66.exPost.normalFlow C66.q 3 ⟨1, [0], 2⟩).facts = [⟨1, [0], 2⟩, ⟨0, [0, 0], 1⟩, ⟨0, [0, 0], 1⟩] := by decide +kernel

/-- A source and a sink. -/
example : (C66.exDecl.configFlow C66.q 1 [0] [] C66.exDecl.zero).facts = [⟨99, [], 0⟩, ⟨0, [0], 2⟩] ∧
    (C66.exDecl.configFlow C66.q 3 [] [0] ⟨0, [0], 2⟩).leaks = [(3, 0)] := by decide +kernel

/-- An argument and a parameter. -/
example : C66.exClean.callFlow C66.q 2 1 ⟨0, [0], 2⟩ = [⟨30, [0], 2⟩] ∧
    C66.exClean.retFlow? C66.q (some 2) 1 6 ⟨30, [0], 2⟩ = some [⟨0, [0], 2⟩] := by decide +kernel

/-- Variable arguments: the third argument of a function with one parameter. -/
example : ({ C66.exClean with inst := fun _ => .call [0, 1, 2], vaTag := fun _ => some 7 } : Prog).callFlow C66.q 2 1 ⟨2, [0], 2⟩ =
    [⟨7, [0, 4], 1⟩] := by decide +kernel

/-- A call past a function without body and past one with a body. -/
example : C66.exClean.ctrFlow 1 C66.exClean.zero = [C66.exClean.zero] ∧ C66.exClean.ctrFlow 2 C66.exClean.zero = [] := by
  decide +kernel

/-- The sanitizer has no summary. -/
example : (C66.exClean.summaryFlow C66.q 2 1).isNone = true ∧ (C66.exClean.summaryFlow C66.q 1 20).isSome = true := by
  decide +kernel

/-! ### Edge functions -/

section
variable (p : Prog) (q : Asks) (load : Nat → Option Nat)

/-- The edge function of an instruction that is no call: a fact made from zero has no sanitizer; with strong updates a store is the
sanitizer of the facts that must alias what it overwrites and of those the configuration names there; the identity otherwise. -/
theorem C66_normal_edge (n : Nat) (d d' : Loc) :
    (p.normalEdge q n d d' = .gen none ↔ d.base = p.zeroV ∧ d'.base ≠ p.zeroV) ∧
    (∀ i, p.normalEdge q n d d' = .gen (some i) ↔ i = n ∧ d.base ≠ p.zeroV ∧ p.strong = true ∧
      ∃ v ptr, p.inst n = .store v ptr ∧
        (mustAlias p.fnOf p.must d (q.fact ptr) = true ∨ ∃ k ∈ p.saniAt n none, equiv (q.fact k) d = true)) ∧
    (p.normalEdge q n d d' = .id ∨ ∃ i, p.normalEdge q n d d' = .gen i) := by
  unfold Prog.normalEdge Prog.isZero
  by_cases h1 : d.base = p.zeroV
  · by_cases h2 : d'.base = p.zeroV
    · rw [if_pos (by simp [h1, h2])]; simp [h1, h2]
    · rw [if_neg (by simp [h2]), if_pos (by simp [h1, h2])]; simp [h1, h2]
  · rw [if_neg (by simp [h1]), if_neg (by simp [h1])]
    cases hi : p.inst n with
    | store v ptr =>
      simp only [Inst.store.injEq]
      by_cases hst : p.strong = true
      · rw [if_pos hst]
        by_cases ha : p.mustAl d (q.fact ptr) = true
        · rw [if_pos ha]
          refine ⟨by simp [h1], fun i => ⟨?_, ?_⟩, .inr ⟨_, rfl⟩⟩
          · intro h; cases h; exact ⟨rfl, h1, hst, v, ptr, ⟨rfl, rfl⟩, .inl ha⟩
          · rintro ⟨rfl, -⟩; rfl
        · rw [if_neg ha]
          by_cases hs : Prog.sanitizes q (p.saniAt n none) d = true
          · rw [if_pos hs]
            refine ⟨by simp [h1], fun i => ⟨?_, ?_⟩, .inr ⟨_, rfl⟩⟩
            · intro h; cases h
              exact ⟨rfl, h1, hst, v, ptr, ⟨rfl, rfl⟩, .inr (by simpa [Prog.sanitizes] using hs)⟩
            · rintro ⟨rfl, -⟩; rfl
          · rw [if_neg hs]
            refine ⟨by simp [h1], fun i => ⟨fun h => (nomatch h), ?_⟩, .inl rfl⟩
            rintro ⟨-, -, -, v', ptr', ⟨rfl, rfl⟩, h | h⟩
            · exact absurd h ha
            · exact absurd (by simpa [Prog.sanitizes] using h) hs
      · rw [if_neg hst]
        exact ⟨by simp [h1], fun i => ⟨fun h => (nomatch h), fun h => absurd h.2.2.1 hst⟩, .inl rfl⟩
    | _ => exact ⟨by simp [h1], fun i => ⟨fun h => (nomatch h), fun ⟨_, _, _, v, ptr, h, _⟩ => (nomatch h)⟩, .inl rfl⟩

/-- The edge function into a callee: the sanitizers of the first argument equivalent to the fact are checked against its load. -/
theorem C66_call_edge (n : Nat) (d d' : Loc) :
    p.callEdge q load n d d' = .id ∨
    ∃ (i : Nat) (a : Nat), p.callEdge q load n d d' = .kill (load a) ∧ p.strong = true ∧ ¬ (d.base = p.zeroV ∧ d'.base = p.zeroV) ∧
      (p.args n)[i]? = some a ∧ equiv (q.fact a) d = true ∧
      ∀ (j : Nat) (b : Nat), j < i → (p.args n)[j]? = some b → equiv (q.fact b) d = false := by
  unfold Prog.callEdge Prog.isZero
  by_cases h0 : p.strong = false
  · rw [if_pos h0]; exact .inl rfl
  rw [if_neg h0]
  by_cases hz : d.base = p.zeroV ∧ d'.base = p.zeroV
  · rw [if_pos (by simpa using hz)]; exact .inl rfl
  rw [if_neg (by simpa using hz)]
  cases hf : (p.args n).find? fun a => equiv (q.fact a) d with
  | none => exact .inl rfl
  | some a =>
    obtain ⟨h1, i, hi, h2, h3⟩ := List.find?_eq_some_iff_getElem.1 hf
    refine .inr ⟨i, a, rfl, by simpa using h0, hz, by rw [List.getElem?_eq_some_iff]; exact ⟨hi, h2⟩, h1, fun j b hj hb => ?_⟩
    obtain ⟨hb1, hb2⟩ := List.getElem?_eq_some_iff.1 hb
    have := h3 j hj
    rw [hb2] at this
    simpa using this

/-- It is the identity only without strong updates, for the zero fact, or if no argument is equivalent to the fact. -/
theorem C66_call_edge_id (n : Nat) (d d' : Loc) :
    p.callEdge q load n d d' = .id ↔ p.strong = false ∨ (d.base = p.zeroV ∧ d'.base = p.zeroV) ∨
      ∀ a ∈ p.args n, equiv (q.fact a) d = false := by
  unfold Prog.callEdge Prog.isZero
  by_cases h0 : p.strong = false
  · rw [if_pos h0]; simp [h0]
  rw [if_neg h0]
  by_cases hz : d.base = p.zeroV ∧ d'.base = p.zeroV
  · rw [if_pos (by simpa using hz)]; simp [hz]
  rw [if_neg (by simpa using hz)]
  cases hf : (p.args n).find? fun a => equiv (q.fact a) d with
  | none =>
    have := List.find?_eq_none.1 hf
    exact ⟨fun _ => .inr (.inr fun a ha => by simpa using this a ha), fun _ => rfl⟩
  | some a =>
    refine ⟨fun h => (nomatch h), ?_⟩
    rintro (h | h | h)
    · exact absurd h h0
    · exact absurd h hz
    · have h1 := h a (List.mem_of_find?_eq_some hf)
      have h2 := List.find?_some hf
      rw [h1] at h2; cases h2

/-- The edge function back from a callee: a sanitized fact gets the call site as sanitizer; for a fact equivalent to the call's value the
sanitizer is checked against the load of the returned value. -/
theorem C66_ret_edge (c e : Nat) (d d' : Loc) :
    ((p.strong = false ∨ (d.base = p.zeroV ∧ d'.base = p.zeroV)) → p.retEdge q load c e d d' = .id) ∧
    (p.strong = true → ¬ (d.base = p.zeroV ∧ d'.base = p.zeroV) →
      (∀ r, p.inst e = .ret (some r) → equiv d' (q.fact c) = true → p.retEdge q load c e d d' = .transfer (load r) (some c)) ∧
      (equiv d' (q.fact c) = false → p.retEdge q load c e d d' = .transfer none (some c)) ∧
      ∃ l, p.retEdge q load c e d d' = .transfer l (some c)) := by
  unfold Prog.retEdge Prog.isZero
  refine ⟨?_, fun hs hz => ?_⟩
  · rintro (h | h)
    · rw [if_pos h]
    · by_cases hs : p.strong = false
      · rw [if_pos hs]
      · rw [if_neg hs, if_pos (by simpa using h)]
  · rw [if_neg (by simp [hs]), if_neg (by simpa using hz)]
    refine ⟨fun r hr he => ?_, fun he => ?_, ?_⟩
    · simp only [hr, if_pos he]; rfl
    · cases hi : p.inst e with
      | ret rv => simp [he]
      | _ => rfl
    · cases hi : p.inst e with
      | ret rv =>
        by_cases he : equiv d' (q.fact c) = true
        · exact ⟨_, if_pos he⟩
        · exact ⟨_, if_neg he⟩
      | _ => exact ⟨_, rfl⟩

/-- The edge function past a call: with strong updates, and unless all callees are intrinsics, the call is the sanitizer of the facts
equivalent to a pointer argument. -/
theorem C66_over_edge (n : Nat) (d d' : Loc) :
    (∀ i, p.ctrEdge q n d d' = .gen i ↔ i = some n ∧ p.strong = true ∧ (∃ f ∈ p.icf.callees n, p.isIntrinsic f = false) ∧ d = d' ∧
      ∃ a ∈ p.args n, p.isPtr a = true ∧ equiv d (q.fact a) = true) ∧
    (p.ctrEdge q n d d' = .id ∨ p.ctrEdge q n d d' = .gen (some n)) := by
  unfold Prog.ctrEdge
  by_cases h : (p.strong && !(p.icf.callees n).all p.isIntrinsic && decide (d = d')) = true
  · rw [if_pos h]
    have h' : (p.strong = true ∧ ∃ f ∈ p.icf.callees n, p.isIntrinsic f = false) ∧ d = d' := by simpa using h
    by_cases ha : ((p.args n).any fun a => p.isPtr a && equiv d (q.fact a)) = true
    · rw [if_pos ha]
      have ha' : ∃ a ∈ p.args n, p.isPtr a = true ∧ equiv d (q.fact a) = true := by simpa using ha
      refine ⟨fun i => ⟨?_, ?_⟩, .inr rfl⟩
      · intro hi; cases hi; exact ⟨rfl, h'.1.1, h'.1.2, h'.2, ha'⟩
      · rintro ⟨rfl, -⟩; rfl
    · rw [if_neg ha]
      refine ⟨fun i => ⟨fun h => (nomatch h), fun hi => absurd ?_ ha⟩, .inl rfl⟩
      simpa using hi.2.2.2.2
  · rw [if_neg h]
    refine ⟨fun i => ⟨fun h => (nomatch h), fun hi => absurd ?_ h⟩, .inl rfl⟩
    have : (p.strong = true ∧ ∃ f ∈ p.icf.callees n, p.isIntrinsic f = false) ∧ d = d' := ⟨⟨hi.2.1, hi.2.2.1⟩, hi.2.2.2.1⟩
    simpa using this

theorem C66.mem_saniAll (n k : Nat) : k ∈ p.saniAll n ↔ p.icf.callees n ≠ [] ∧ ∀ f ∈ p.icf.callees n, k ∈ p.saniAt n (some f) := by
  unfold Prog.saniAll
  cases hc : p.icf.callees n with
  | nil => simp
  | cons f fs => simp

/-- The edge function of a call with a summary: a fact made from zero has no sanitizer; with strong updates the call is the sanitizer of the
facts equivalent to a value that every callee sanitizes and of those that must alias what a memory intrinsic overwrites. -/
theorem C66_summary_edge (n : Nat) (d d' : Loc) :
    (p.sumEdge q n d d' = .gen none ↔ d.base = p.zeroV ∧ d'.base ≠ p.zeroV) ∧
    (∀ i, p.sumEdge q n d d' = .gen (some i) ↔ i = n ∧ ¬ (d.base = p.zeroV ∧ d'.base ≠ p.zeroV) ∧ p.strong = true ∧
      ((p.icf.callees n ≠ [] ∧ ∃ k, (∀ f ∈ p.icf.callees n, k ∈ p.saniAt n (some f)) ∧ equiv (q.fact k) d = true) ∨
       ∃ dst v, (p.inst n = .memset dst v ∨ p.inst n = .memcpy dst v) ∧ mustAlias p.fnOf p.must d (q.fact dst) = true)) ∧
    (p.sumEdge q n d d' = .id ∨ ∃ i, p.sumEdge q n d d' = .gen i) := by
  unfold Prog.sumEdge Prog.isZero
  by_cases hz : d.base = p.zeroV ∧ d'.base ≠ p.zeroV
  · rw [if_pos (by simp [hz])]; simp [hz]
  rw [if_neg (by simpa using hz)]
  have hn : ∀ i : Option Nat, i ≠ none → (EFn.gen i = .gen none ↔ d.base = p.zeroV ∧ d'.base ≠ p.zeroV) := by
    intro i hi; exact ⟨fun h => by cases h; exact absurd rfl hi, fun h => absurd h hz⟩
  have hnid : EFn.id = .gen none ↔ d.base = p.zeroV ∧ d'.base ≠ p.zeroV := ⟨fun h => (nomatch h), fun h => absurd h hz⟩
  by_cases hs : p.strong = false
  · rw [if_pos hs]
    exact ⟨hnid, fun i => ⟨fun h => (nomatch h), fun h => by rw [hs] at h; cases h.2.2.1⟩, .inl rfl⟩
  rw [if_neg hs]
  have hs' : p.strong = true := by simpa using hs
  by_cases ha : Prog.sanitizes q (p.saniAll n) d = true
  · rw [if_pos ha]
    have ha' : ∃ k, (p.icf.callees n ≠ [] ∧ ∀ f ∈ p.icf.callees n, k ∈ p.saniAt n (some f)) ∧ equiv (q.fact k) d = true := by
      obtain ⟨k, hk, he⟩ := List.any_eq_true.1 ha
      exact ⟨k, (C66.mem_saniAll p n k).1 hk, he⟩
    obtain ⟨k, ⟨hk1, hk2⟩, he⟩ := ha'
    refine ⟨hn _ (by simp), fun i => ⟨?_, ?_⟩, .inr ⟨_, rfl⟩⟩
    · intro h; cases h; exact ⟨rfl, hz, hs', .inl ⟨hk1, k, hk2, he⟩⟩
    · rintro ⟨rfl, -⟩; rfl
  rw [if_neg ha]
  have hno : ¬ (p.icf.callees n ≠ [] ∧ ∃ k, (∀ f ∈ p.icf.callees n, k ∈ p.saniAt n (some f)) ∧ equiv (q.fact k) d = true) := by
    rintro ⟨h1, k, h2, h3⟩
    exact ha (List.any_eq_true.2 ⟨k, (C66.mem_saniAll p n k).2 ⟨h1, h2⟩, h3⟩)
  have mem : ∀ dst v, (p.inst n = .memset dst v ∨ p.inst n = .memcpy dst v) →
      ((if p.mustAl d (q.fact dst) = true then EFn.gen (some n) else .id) = .gen none ↔ d.base = p.zeroV ∧ d'.base ≠ p.zeroV) ∧
      (∀ i, (if p.mustAl d (q.fact dst) = true then EFn.gen (some n) else .id) = .gen (some i) ↔
        i = n ∧ ¬ (d.base = p.zeroV ∧ d'.base ≠ p.zeroV) ∧ p.strong = true ∧
        ((p.icf.callees n ≠ [] ∧ ∃ k, (∀ f ∈ p.icf.callees n, k ∈ p.saniAt n (some f)) ∧ equiv (q.fact k) d = true) ∨
         ∃ dst v, (p.inst n = .memset dst v ∨ p.inst n = .memcpy dst v) ∧ mustAlias p.fnOf p.must d (q.fact dst) = true)) ∧
      ((if p.mustAl d (q.fact dst) = true then EFn.gen (some n) else .id) = .id ∨
        ∃ i, (if p.mustAl d (q.fact dst) = true then EFn.gen (some n) else .id) = .gen i) := by
    intro dst v hi
    by_cases hm : p.mustAl d (q.fact dst) = true
    · rw [if_pos hm]
      refine ⟨hn _ (by simp), fun i => ⟨?_, ?_⟩, .inr ⟨_, rfl⟩⟩
      · intro h; cases h; exact ⟨rfl, hz, hs', .inr ⟨dst, v, hi, hm⟩⟩
      · rintro ⟨rfl, -⟩; rfl
    · rw [if_neg hm]
      refine ⟨hnid, fun i => ⟨fun h => (nomatch h), ?_⟩, .inl rfl⟩
      rintro ⟨-, -, -, h | ⟨dst', v', h', hm'⟩⟩
      · exact absurd h hno
      · have : dst' = dst := by
          rcases hi with hi | hi <;> rw [hi] at h' <;> rcases h' with h' | h' <;> cases h' <;> rfl
        subst this
        exact absurd hm' hm
  cases hi : p.inst n with
  | memset dst v => simpa only [hi] using mem dst v (.inl hi)
  | memcpy dst v => simpa only [hi] using mem dst v (.inr hi)
  | _ =>
    refine ⟨hnid, fun i => ⟨fun h => (nomatch h), ?_⟩, .inl rfl⟩
    rintro ⟨-, -, -, h | ⟨dst', v', h' | h', -⟩⟩
    · exact absurd h hno
    · cases h'
    · cases h'

end

/-- A store sanitizes what it overwrites, a call what it is given, a return makes the call the sanitizer. -/
example : C66.exPost.normalEdge C66.q 3 ⟨0, [0], 2⟩ ⟨0, [0], 2⟩ = .gen (some 3) ∧
    C66.exPost.normalEdge C66.q 3 ⟨1, [0], 2⟩ ⟨0, [0, 0], 1⟩ = .id ∧
    C66.exDecl.ctrEdge C66.q 2 ⟨0, [0], 2⟩ ⟨0, [0], 2⟩ = .gen (some 2) ∧
    C66.exClean.callEdge C66.q C66.load 2 ⟨0, [0], 2⟩ ⟨30, [0], 2⟩ = .kill none ∧
    C66.exClean.retEdge C66.q C66.load 2 6 ⟨30, [0], 2⟩ ⟨0, [0], 2⟩ = .transfer none (some 2) ∧
    C66.exDecl.sumEdge C66.q 1 C66.exDecl.zero ⟨0, [0], 2⟩ = .gen none := by decide +kernel

/-! ### Values along paths -/

section
variable (p : Prog) (q : Asks) (load : Nat → Option Nat)

/-- Within a function a fact is never lost: it passes every instruction, every call with a summary and every call; only the zero fact does
not pass calls whose callees all have bodies (or that have no callees). -/
theorem C66_kept (n : Nat) (s : Loc) :
    s ∈ (p.normalFlow q n s).facts ∧ (∀ f g, p.summaryFlow q n f = some g → s ∈ (g s).facts) ∧
    (s ≠ ⟨p.zeroV, [], 0⟩ → s ∈ p.ctrFlow n s) := by
  refine ⟨?_, fun f g hg => ?_, fun h => (C66_over p n s s).2 ⟨rfl, .inl h⟩⟩
  · cases hi : p.inst n with
    | store v ptr =>
      rw [(C66_normal p q n s).1 v ptr hi]
      exact ((C66_store p q n ptr v 1 s).1 s).2 (.inl rfl)
    | _ =>
      have hs : ∀ v ptr, p.inst n ≠ .store v ptr := by intro v ptr h; rw [hi] at h; cases h
      by_cases hc : p.genAt n none ≠ [] ∨ p.leakAt n none ≠ []
      · rw [((C66_normal p q n s).2 hs).1 hc]
        exact ((C66_config p q n _ _ s).1 s).2 (.inl rfl)
      · have h1 : p.genAt n none = [] := Decidable.not_not.1 fun h' => hc (.inl h')
        have h2 : p.leakAt n none = [] := Decidable.not_not.1 fun h' => hc (.inr h')
        exact ((((C66_normal p q n s).2 hs).2 h1 h2).2.2 s).2 (.inl rfl)
  · rcases (C66_summary p q n f).2 g hg with ⟨-, rfl⟩ | ⟨-, -, ⟨d, v, -, rfl⟩ | ⟨d, v, -, rfl⟩⟩
    · exact ((C66_config p q n _ _ s).1 s).2 (.inl rfl)
    · exact ((C66_store p q n d v 1 s).1 s).2 (.inl rfl)
    · exact ((C66_store p q n d v 2 s).1 s).2 (.inl rfl)

/-- The edge functions along an edge: the identity, one that sets no sanitizer for a fact made from zero, one that names the statement itself
as sanitizer, the check at a call, the transfer to the call site at a return. -/
theorem C66.step_cases {n d n' d' e} (h : Step p q load n d n' d' e) {x} (hx : Val p q load n d x) :
    e = .id ∨ e = .gen none ∨ (e = .gen (some n) ∧ Cause p q load n) ∨ (∃ l, e = .kill l) ∨
    ∃ l c, e = .transfer l (some c) ∧ p.icf.isExit n = true ∧ c ∈ p.icf.callers (p.icf.funOf n) := by
  cases h with
  | normal h1 h2 h3 =>
    rcases (C66_normal_edge p q n d d').2.2 with h | ⟨i, h⟩
    · exact .inl h
    · cases i with
      | none => exact .inr (.inl h)
      | some i =>
        obtain ⟨rfl, -, -, v, ptr, hi, hc⟩ := ((C66_normal_edge p q n d d').2.1 i).1 h
        exact .inr (.inr (.inl ⟨h, .store hi hx hc⟩))
  | call h1 h2 h3 h4 h5 =>
    rcases C66_call_edge p q load n d d' with h | ⟨i, a, h, -⟩
    · exact .inl h
    · exact .inr (.inr (.inr (.inl ⟨_, h⟩)))
  | summary h1 h2 h3 h4 h5 =>
    rcases (C66_summary_edge p q n d d').2.2 with h | ⟨i, h⟩
    · exact .inl h
    · cases i with
      | none => exact .inr (.inl h)
      | some i =>
        obtain ⟨rfl, -, -, ⟨hc1, k, hc2, hc3⟩ | ⟨dst, v, hi, hm⟩⟩ := ((C66_summary_edge p q n d d').2.1 i).1 h
        · exact .inr (.inr (.inl ⟨h, .config hc1 hc2 hx hc3⟩))
        · exact .inr (.inr (.inl ⟨h, .memory ⟨v, hi⟩ hx hm⟩))
  | @ret c x' r d d' l h1 h2 h3 h4 h5 h6 =>
    by_cases hz : p.strong = false ∨ (d.base = p.zeroV ∧ d'.base = p.zeroV)
    · exact .inl ((C66_ret_edge p q load c n d d').1 hz)
    · have hs : p.strong = true := by
        cases hs : p.strong with
        | true => rfl
        | false => exact absurd (.inl hs) hz
      obtain ⟨l, hl⟩ := ((C66_ret_edge p q load c n d d').2 hs (fun h => hz (.inr h))).2.2
      exact .inr (.inr (.inr (.inr ⟨l, c, hl, h1, h2⟩)))
  | over h1 h2 h3 =>
    rcases (C66_over_edge p q n d d').2 with h | h
    · exact .inl h
    · obtain ⟨-, -, ⟨f, hf1, hf2⟩, -, a, ha1, ha2, ha3⟩ := ((C66_over_edge p q n d d').1 _).1 h
      exact .inr (.inr (.inl ⟨h, .passed hf1 hf2 ha1 ha2 hx ha3⟩))

/-- Every sanitizer in a value has a cause: it overwrites the fact, is configured to sanitize it, is a call that is given a pointer to it, or
is the call site of a callee that had a cause.  A value that says sanitized without naming a sanitizer has a cause too. -/
theorem C66_cause (n : Nat) (d : Loc) (x : XTaint.Dom Nat) (h : Val p q load n d x) :
    (∀ i, x = .sani i → Cause p q load i) ∧ (x = .sanitized → ∃ i, Cause p q load i) ∧ x ≠ .top := by
  induction h with
  | entry _ => exact ⟨fun i h => (nomatch h), fun h => (nomatch h), fun h => (nomatch h)⟩
  | auto _ => exact ⟨fun i h => (nomatch h), fun h => (nomatch h), fun h => (nomatch h)⟩
  | @step n d n' d' x e hv hst ih =>
    rcases C66.step_cases p q load hst hv with rfl | rfl | ⟨rfl, hc⟩ | ⟨l, rfl⟩ | ⟨l, c, rfl, he, hc⟩
    · exact ih
    · exact ⟨fun i h => (nomatch h), fun h => (nomatch h), fun h => (nomatch h)⟩
    · refine ⟨fun i h => ?_, fun h => (nomatch h), fun h => (nomatch h)⟩
      cases h; exact hc
    · have key : ∀ y : XTaint.Dom Nat, EFn.ap p.bbo (.kill l) x = y → (y = x ∨ ((∃ s, x = .sani s) ∧ (y = .sanitized ∨ y = .unsani))) := by
        intro y hy
        subst hy
        cases x with
        | sani s =>
          refine .inr ⟨⟨s, rfl⟩, ?_⟩
          cases l with
          | none => exact .inl rfl
          | some l =>
            by_cases hb : p.bbo.fn s = p.bbo.fn l ∧ p.bbo.before s l = true
            · exact .inl (by simp [EFn.ap, XTaint.kill, XTaint.Dom.sanitizer, hb])
            · exact .inr (by simp [EFn.ap, XTaint.kill, XTaint.Dom.sanitizer, hb])
        | _ => exact .inl rfl
      rcases key _ rfl with h | ⟨⟨s, hs⟩, h | h⟩
      · rw [h]; exact ih
      · rw [h]; exact ⟨fun i h => (nomatch h), fun _ => ⟨s, ih.1 s hs⟩, fun h => (nomatch h)⟩
      · rw [h]; exact ⟨fun i h => (nomatch h), fun h => (nomatch h), fun h => (nomatch h)⟩
    · have key : EFn.ap p.bbo (.transfer l (some c)) x = .unsani ∨
          (EFn.ap p.bbo (.transfer l (some c)) x = .sani c ∧ (x = .sanitized ∨ ∃ s, x = .sani s)) := by
        cases x with
        | sani s =>
          cases l with
          | none => exact .inr ⟨rfl, .inr ⟨s, rfl⟩⟩
          | some l =>
            by_cases hb : p.bbo.before s l = true
            · exact .inr ⟨by simp [EFn.ap, XTaint.transfer, XTaint.Dom.sanitizer, hb, XTaint.ofPtr], .inr ⟨s, rfl⟩⟩
            · exact .inl (by simp [EFn.ap, XTaint.transfer, XTaint.Dom.sanitizer, hb])
        | sanitized => exact .inr ⟨rfl, .inl rfl⟩
        | _ => exact .inl rfl
      rcases key with h | ⟨h, hx⟩
      · rw [h]; exact ⟨fun i h => (nomatch h), fun h => (nomatch h), fun h => (nomatch h)⟩
      · rw [h]
        refine ⟨fun i h => ?_, fun h => (nomatch h), fun h => (nomatch h)⟩
        cases h
        rcases hx with hx | ⟨s, hs⟩
        · obtain ⟨j, hj⟩ := ih.2.1 hx
          exact .back hj he hc
        · exact .back (ih.1 s hs) he hc

/-- On a path without an edge that sets a sanitizer the value says that the fact is not sanitized. -/
theorem C66_clean (n : Nat) (d : Loc) (h : Clean p q load n d) : ∃ x, Val p q load n d x ∧ XTaint.Unsanitized x := by
  induction h with
  | entry h => exact ⟨_, .entry h, by simp [XTaint.Unsanitized]⟩
  | auto h => exact ⟨_, .auto h, by simp [XTaint.Unsanitized]⟩
  | @step n d n' d' e _ hst hne ih =>
    obtain ⟨x, hx, hu⟩ := ih
    refine ⟨_, .step hx hst, ?_⟩
    rcases C66.step_cases p q load hst hx with rfl | rfl | ⟨rfl, -⟩ | ⟨l, rfl⟩ | ⟨l, c, rfl, -, -⟩
    · exact hu
    · simp [EFn.ap, XTaint.ofPtr, XTaint.Unsanitized]
    · exact absurd rfl (hne n)
    · exact (XTaint.C40_functions_unsanitized p.bbo l none x hu).1
    · exact (XTaint.C40_functions_unsanitized p.bbo l (some c) x hu).2

/-- Without strong updates no value has a sanitizer. -/
theorem C66_weak (hs : p.strong = false) (n : Nat) (d : Loc) (x : XTaint.Dom Nat) (h : Val p q load n d x) :
    XTaint.Unsanitized x := by
  have gen : ∀ n d n' d' e, Step p q load n d n' d' e → e = .id ∨ e = .gen none := by
    intro n d n' d' e h
    cases h with
    | normal h1 h2 h3 =>
      rcases (C66_normal_edge p q n d d').2.2 with h | ⟨i, h⟩
      · exact .inl h
      · cases i with
        | none => exact .inr h
        | some i => have := (((C66_normal_edge p q n d d').2.1 i).1 h).2.2.1; rw [hs] at this; cases this
    | call h1 h2 h3 h4 h5 => exact .inl ((C66_call_edge_id p q load n d d').2 (.inl hs))
    | summary h1 h2 h3 h4 h5 =>
      rcases (C66_summary_edge p q n d d').2.2 with h | ⟨i, h⟩
      · exact .inl h
      · cases i with
        | none => exact .inr h
        | some i => have := (((C66_summary_edge p q n d d').2.1 i).1 h).2.2.1; rw [hs] at this; cases this
    | ret h1 h2 h3 h4 h5 h6 => exact .inl ((C66_ret_edge p q load _ n d d').1 (.inl hs))
    | over h1 h2 h3 =>
      rcases (C66_over_edge p q n d d').2 with h | h
      · exact .inl h
      · have := (((C66_over_edge p q n d d').1 _).1 h).2.1; rw [hs] at this; cases this
  induction h with
  | entry _ => simp [XTaint.Unsanitized]
  | auto _ => simp [XTaint.Unsanitized]
  | step hv hst ih =>
    rcases gen _ _ _ _ _ hst with rfl | rfl
    · exact ih
    · simp [EFn.ap, XTaint.ofPtr, XTaint.Unsanitized]

/-! ### Leaks -/

theorem C66.mem_pairs (L : Leaks) (n v : Nat) : (n, v) ∈ L.pairs ↔ ∃ e ∈ L.map, e.1 = n ∧ v ∈ e.2 := by
  unfold Leaks.pairs
  simp only [List.mem_flatMap, List.mem_map, Prod.mk.injEq]
  constructor
  · rintro ⟨e, he, w, hw, rfl, rfl⟩; exact ⟨e, he, rfl, hw⟩
  · rintro ⟨e, he, rfl, hw⟩; exact ⟨e, he, v, hw, rfl, rfl⟩

/-- Recording a leak adds it and nothing else. -/
theorem C66_insert (L : Leaks) (x y : Nat × Nat) : y ∈ (L.insert x).pairs ↔ y = x ∨ y ∈ L.pairs := by
  obtain ⟨n, v⟩ := x
  obtain ⟨m, w⟩ := y
  rw [C66.mem_pairs, C66.mem_pairs]
  unfold Leaks.insert
  by_cases h : L.map.any (fun e => e.1 == n) = true
  · simp only [if_pos h, List.mem_map, Prod.mk.injEq]
    obtain ⟨e0, he0, hn0⟩ := List.any_eq_true.1 h
    have hn0 : e0.1 = n := by simpa using hn0
    constructor
    · rintro ⟨e, ⟨e', he', rfl⟩, h1, h2⟩
      by_cases hen : e'.1 = n
      · rw [if_pos hen] at h1 h2
        by_cases hv : v ∈ e'.2
        · rw [if_pos hv] at h2
          exact .inr ⟨e', he', h1, h2⟩
        · rw [if_neg hv] at h2
          rcases List.mem_append.1 h2 with h2 | h2
          · exact .inr ⟨e', he', h1, h2⟩
          · exact .inl ⟨h1.symm.trans hen, List.mem_singleton.1 h2⟩
      · rw [if_neg hen] at h1 h2
        exact .inr ⟨e', he', h1, h2⟩
    · rintro (⟨rfl, rfl⟩ | ⟨e, he, h1, h2⟩)
      · refine ⟨_, ⟨e0, he0, rfl⟩, ?_, ?_⟩
        · rw [if_pos hn0]; exact hn0
        · rw [if_pos hn0]
          by_cases hv : w ∈ e0.2
          · simp [hv]
          · simp [hv]
      · refine ⟨_, ⟨e, he, rfl⟩, ?_, ?_⟩
        · by_cases hen : e.1 = n
          · rw [if_pos hen]; exact h1
          · rw [if_neg hen]; exact h1
        · by_cases hen : e.1 = n
          · rw [if_pos hen]
            by_cases hv : v ∈ e.2
            · simp [hv, h2]
            · simp [hv, h2]
          · rw [if_neg hen]; exact h2
  · simp only [if_neg h, List.mem_append, List.mem_singleton, Prod.mk.injEq]
    constructor
    · rintro ⟨e, he | rfl, h1, h2⟩
      · exact .inr ⟨e, he, h1, h2⟩
      · exact .inl ⟨h1.symm, List.mem_singleton.1 h2⟩
    · rintro (⟨rfl, rfl⟩ | ⟨e, he, h1, h2⟩)
      · exact ⟨_, .inr rfl, rfl, List.mem_singleton.2 rfl⟩
      · exact ⟨e, .inl he, h1, h2⟩

/-- What `getAllLeaks` returns: the recorded leaks, without those that are sanitized at the leaking instruction before their load, if this
is the first call of a run with strong updates; otherwise the leaks as they are.  No instruction is left without leaks, and a second call
changes nothing. -/
theorem C66_post (res : Nat → Loc → Option (XTaint.Dom Nat)) (L : Leaks) :
    (∀ n v, (n, v) ∈ (L.all p q load res).pairs ↔ (n, v) ∈ L.pairs ∧ (L.done = true ∨
      ¬ ∃ y, res n (q.fact v) = some y ∧
        (y = .sanitized ∨ ∃ s, y = .sani s ∧ (load v = none ∨ ∃ l, load v = some l ∧ p.bbo.before s l = true)))) ∧
    (L.done = false → ∀ e ∈ (L.all p q load res).map, e.2 ≠ []) ∧
    (∀ res', (L.all p q load res).all p q load res' = L.all p q load res) ∧
    (L.all p q load res).done = true ∧
    ((Leaks.init p).done = true ↔ p.strong = false) := by
  have hdone : (L.all p q load res).done = true := by
    unfold Leaks.all
    cases hd : L.done with
    | true => rw [if_pos rfl]; exact hd
    | false => rfl
  refine ⟨fun n v => ?_, fun hd e he => ?_, fun res' => ?_, hdone, by simp [Leaks.init]⟩
  · unfold Leaks.all
    cases hd : L.done with
    | true => rw [if_pos rfl]; simp
    | false =>
      rw [if_neg (by simp), C66.mem_pairs, C66.mem_pairs]
      simp only [Leaks.post, List.mem_filter, List.mem_map, Bool.false_eq_true, false_or]
      have hdr : dropped p q load res n v = false ↔ ¬ ∃ y, res n (q.fact v) = some y ∧
          (y = .sanitized ∨ ∃ s, y = .sani s ∧ (load v = none ∨ ∃ l, load v = some l ∧ p.bbo.before s l = true)) := by
        rw [← XTaint.C40_suppressed, ← Bool.not_eq_true]; rfl
      rw [← hdr]
      constructor
      · rintro ⟨e, ⟨⟨e', he', rfl⟩, -⟩, rfl, h2⟩
        have h2' := List.mem_filter.1 h2
        exact ⟨⟨e', he', rfl, h2'.1⟩, by simpa using h2'.2⟩
      · rintro ⟨⟨e, he, rfl, h1⟩, h2⟩
        have hm : v ∈ e.2.filter fun v => !dropped p q load res e.1 v := List.mem_filter.2 ⟨h1, by simp [h2]⟩
        refine ⟨_, ⟨⟨e, he, rfl⟩, ?_⟩, rfl, hm⟩
        cases hf : e.2.filter fun v => !dropped p q load res e.1 v with
        | nil => rw [hf] at hm; cases hm
        | cons a r => rfl
  · unfold Leaks.all at he
    rw [if_neg (by simp [hd])] at he
    have := (List.mem_filter.1 he).2
    intro h
    rw [h] at this
    cases this
  · rw [Leaks.all, if_pos hdone]

/-- A recorded leak whose value reaches the sink on a path without an edge that sets a sanitizer stays, whatever the solver joins the values
of that path with. -/
theorem C66_reported (res : Nat → Loc → Option (XTaint.Dom Nat)) (L : Leaks) (n v : Nat) (bbo : Bool)
    (hrec : (n, v) ∈ L.pairs) (hclean : Clean p q load n (q.fact v))
    (hres : ∃ (start : XTaint.Dom Nat) (vs : List (XTaint.Dom Nat)), res n (q.fact v) = some (vs.foldl (XTaint.join p.bbo bbo) start) ∧
      ∀ x, Val p q load n (q.fact v) x → x = start ∨ x ∈ vs) :
    (n, v) ∈ (L.all p q load res).pairs := by
  refine ((C66_post p q load res L).1 n v).2 ⟨hrec, .inr fun hdrop => ?_⟩
  have hsup := (XTaint.C40_suppressed p.bbo (res n (q.fact v)) (load v)).2 hdrop
  obtain ⟨start, vs, hr, hall⟩ := hres
  obtain ⟨x, hx, hu⟩ := C66_clean p q load n (q.fact v) hclean
  have hk := XTaint.C40_leak_kept p.bbo bbo start vs (load v) (by
    rcases hall x hx with rfl | h
    · exact .inl hu
    · exact .inr ⟨x, h, hu⟩)
  rw [hr] at hsup
  rw [hk] at hsup
  cases hsup

end

/-! ### The load of a value -/

/-- Walking from a value through first operands to the first load or call, or to an instruction whose first operand is no instruction. -/
inductive C66.Chain (p : Prog) : Nat → Nat → Prop where
  | here {v} : p.loadOrCall v = true → C66.Chain p v v
  | last {v} : p.loadOrCall v = false → p.op0 v = none → C66.Chain p v v
  | next {v o w} : p.loadOrCall v = false → p.op0 v = some o → C66.Chain p o w → C66.Chain p v w

/-- `getApproxLoadFrom` ends exactly if the walk through first operands does, and then with the instruction at its end; a pointer and a value
that is no instruction have no load. -/
theorem C66_load (p : Prog) (isInst : Nat → Bool) (v : Nat) :
    (∀ w, (∃ fuel, p.approxInst fuel v = some w) ↔ C66.Chain p v w) ∧
    (p.isPtr v = true ∨ isInst v = false → ∀ fuel, p.approx isInst fuel v = some none) ∧
    (p.isPtr v = false → isInst v = true → ∀ fuel, p.approx isInst fuel v = (p.approxInst fuel v).map some) := by
  refine ⟨fun w => ⟨?_, ?_⟩, ?_, fun h1 h2 fuel => by simp [Prog.approx, h1, h2]⟩
  · rintro ⟨fuel, h⟩
    induction fuel generalizing v with
    | zero => cases h
    | succ fuel ih =>
      unfold Prog.approxInst at h
      by_cases hl : p.loadOrCall v = true
      · rw [if_pos hl] at h; cases h; exact .here hl
      · rw [if_neg hl] at h
        have hl' : p.loadOrCall v = false := by simpa using hl
        cases ho : p.op0 v with
        | none => rw [ho] at h; cases h; exact .last hl' ho
        | some o => rw [ho] at h; exact .next hl' ho (ih o h)
  · intro h
    induction h with
    | here h => exact ⟨1, by simp [Prog.approxInst, h]⟩
    | last h h' => exact ⟨1, by simp [Prog.approxInst, h, h']⟩
    | next h h' _ ih =>
      obtain ⟨fuel, hf⟩ := ih
      exact ⟨fuel + 1, by simp [Prog.approxInst, h, h', hf]⟩
  · rintro (h | h) fuel
    · simp [Prog.approx, h]
    · by_cases hp : p.isPtr v = true
      · simp [Prog.approx, hp]
      · simp [Prog.approx, hp, h]

example : C66.Chain { C66.exArith with loadOrCall := fun v => v == 1 } 2 1 :=
  .next rfl rfl (.here rfl)

/-- It does not end for the counter of a loop whose first incoming value is the incremented counter: the walk goes round. -/
theorem C66_load_false : ∃ (p : Prog) (v w : Nat), p.op0 v = some w ∧ p.op0 w = some v ∧ p.inst v = .phi [w, 3] ∧
    ∀ fuel, p.approx (fun _ => true) fuel v = none := by
  refine ⟨{ C66.base [] with
    op0 := fun v => if v = 1 then some 2 else if v = 2 then some 1 else none
    inst := fun v => if v = 1 then .phi [2, 3] else .other }, 1, 2, rfl, rfl, rfl, fun fuel => ?_⟩
  have key : ∀ fuel v, (v = 1 ∨ v = 2) → Prog.approxInst { C66.base [] with
    op0 := fun v => if v = 1 then some 2 else if v = 2 then some 1 else none
    inst := fun v => if v = 1 then .phi [2, 3] else .other } fuel v = none := by
    intro fuel
    induction fuel with
    | zero => intro v _; rfl
    | succ fuel ih =>
      rintro v (rfl | rfl)
      · exact ih 2 (.inr rfl)
      · exact ih 1 (.inl rfl)
  show ((Prog.approxInst _ fuel 1).map some) = none
  rw [key fuel 1 (.inl rfl)]
  rfl

/-! ### All values of the examples -/

/-- Adds the targets of all edges, some times. -/
def C66.grow (p : Prog) (q : Asks) (load : Nat → Option Nat) :
    Nat → List (Nat × Loc × XTaint.Dom Nat) → List (Nat × Loc × XTaint.Dom Nat)
  | 0, S => S
  | k + 1, S => C66.grow p q load k (((S.flatMap fun s => (nexts p q load s.1 s.2.1).map fun t => (t.1, t.2.1, t.2.2.ap p.bbo s.2.2)).foldl
      (fun S t => if t ∈ S then S else S ++ [t])) S)

/-- The values that paths of at most eight edges give. -/
def C66.vals (p : Prog) : List (Nat × Loc × XTaint.Dom Nat) := C66.grow p C66.q C66.load 8 [(0, p.zero, .bot)]

theorem C66.grow_val {p : Prog} {q : Asks} {load : Nat → Option Nat} (k : Nat) :
    ∀ {S : List (Nat × Loc × XTaint.Dom Nat)}, (∀ s ∈ S, Val p q load s.1 s.2.1 s.2.2) →
      ∀ s ∈ C66.grow p q load k S, Val p q load s.1 s.2.1 s.2.2 := by
  induction k with
  | zero => intro S h; exact h
  | succ k ih =>
    intro S h
    refine ih ?_
    have key : ∀ (l S' : List (Nat × Loc × XTaint.Dom Nat)), (∀ s ∈ l, Val p q load s.1 s.2.1 s.2.2) →
        (∀ s ∈ S', Val p q load s.1 s.2.1 s.2.2) →
        ∀ s ∈ l.foldl (fun S t => if t ∈ S then S else S ++ [t]) S', Val p q load s.1 s.2.1 s.2.2 := by
      intro l
      induction l with
      | nil => intro S' _ h; exact h
      | cons t r ihl =>
        intro S' hl hS
        refine ihl _ (fun s hs => hl s (by simp [hs])) ?_
        by_cases ht : t ∈ S'
        · simp only [if_pos ht]; exact hS
        · simp only [if_neg ht]
          intro s hs
          rcases List.mem_append.1 hs with hs | hs
          · exact hS s hs
          · rw [List.mem_singleton.1 hs]; exact hl t (by simp)
    refine key _ _ (fun s hs => ?_) h
    obtain ⟨u, hu, hs⟩ := List.mem_flatMap.1 hs
    obtain ⟨t, ht, rfl⟩ := List.mem_map.1 hs
    exact .step (h u hu) (step_of_nexts ht)

theorem C66.vals_val {p : Prog} (he : p.entry = [0]) {n d x} (h : (n, d, x) ∈ C66.vals p) : Val p C66.q C66.load n d x := by
  refine C66.grow_val 8 (fun s hs => ?_) _ h
  rw [List.mem_singleton.1 hs]
  exact .entry (by simp [he])

theorem C66.val_vals {p : Prog} (he : p.entry = [0]) (ha : p.autoSeed = fun _ => [])
    (hs : (C66.vals p).all (fun s => (nexts p C66.q C66.load s.1 s.2.1).all fun t =>
      (C66.vals p).contains (t.1, t.2.1, t.2.2.ap p.bbo s.2.2)) = true)
    (h0 : (C66.vals p).contains (0, p.zero, XTaint.Dom.bot) = true)
    {n d x} (h : Val p C66.q C66.load n d x) : (n, d, x) ∈ C66.vals p := by
  refine Val.closed (fun n => by rw [ha]) (fun n hn => ?_) (fun s hm t ht => ?_) h
  · rw [he, List.mem_singleton] at hn
    subst hn
    simpa using h0
  · have := List.all_eq_true.1 (List.all_eq_true.1 hs s hm) t ht
    simpa using this

theorem C66.exDecl_vals {n d x} (h : Val C66.exDecl C66.q C66.load n d x) : (n, d, x) ∈ C66.vals C66.exDecl :=
  C66.val_vals rfl rfl (by decide +kernel) (by decide +kernel) h

theorem C66.exPost_vals {n d x} (h : Val C66.exPost C66.q C66.load n d x) : (n, d, x) ∈ C66.vals C66.exPost :=
  C66.val_vals rfl rfl (by decide +kernel) (by decide +kernel) h

theorem C66.exArith_vals {n d x} (h : Val C66.exArith C66.q C66.load n d x) : (n, d, x) ∈ C66.vals C66.exArith :=
  C66.val_vals rfl rfl (by decide +kernel) (by decide +kernel) h

theorem C66.exCall_vals {n d x} (h : Val C66.exCall C66.q C66.load n d x) : (n, d, x) ∈ C66.vals C66.exCall :=
  C66.val_vals rfl rfl (by decide +kernel) (by decide +kernel) h

/-- A leak of `v` at `n` is recorded. -/
def C66.Records (p : Prog) (q : Asks) (load : Nat → Option Nat) (n v : Nat) : Prop :=
  ∃ d x, Val p q load n d x ∧ (n, v) ∈ leaksAt p q n d

/-- The leak of `v` at `n` is dropped: paths reach its fact there, and whatever value they give, it is one that is dropped. -/
def C66.Drops (p : Prog) (q : Asks) (load : Nat → Option Nat) (n v : Nat) : Prop :=
  (∃ y, Val p q load n (q.fact v) y) ∧
  ∀ y, Val p q load n (q.fact v) y → XTaint.suppressed p.bbo (some y) (load v) = true

/-- A leak that is recorded, and kept on a clean path. -/
example : C66.Records C66.exClean C66.q C66.load 3 0 ∧ Clean C66.exClean C66.q C66.load 3 (C66.q.fact 0) := by
  refine ⟨⟨⟨0, [0], 2⟩, .unsani, C66.vals_val rfl (by decide +kernel), by decide +kernel⟩, ?_⟩
  refine .step (n := 6) (d := ⟨30, [0], 2⟩) (e := .transfer none (some 2)) ?_ (step_of_nexts (by decide +kernel)) (by simp)
  refine .step (n := 5) (d := ⟨30, [0], 2⟩) (e := .id) ?_ (step_of_nexts (by decide +kernel)) (by simp)
  refine .step (n := 2) (d := ⟨0, [0], 2⟩) (e := .kill none) ?_ (step_of_nexts (by decide +kernel)) (by simp)
  refine .step (n := 1) (d := C66.exClean.zero) (e := .gen none) ?_ (step_of_nexts (by decide +kernel)) (by simp)
  refine .step (n := 0) (d := C66.exClean.zero) (e := .id) (.entry (by decide)) (step_of_nexts (by decide +kernel)) (by simp)

/-- Sanitizers with a cause. -/
example : Val C66.exPost C66.q C66.load 4 ⟨0, [0], 2⟩ (.sani 3) ∧ Cause C66.exPost C66.q C66.load 3 :=
  ⟨C66.vals_val rfl (by decide +kernel),
   .store (v := 1) (ptr := 0) (d := ⟨0, [0], 2⟩) (x := .unsani) rfl (C66.vals_val rfl (by decide +kernel)) (.inl (by decide +kernel))⟩

/-- Without strong updates the store does not sanitize. -/
example : Val { C66.exPost with strong := false } C66.q C66.load 4 ⟨0, [0], 2⟩ .unsani :=
  C66.vals_val rfl (by decide +kernel)

/-- Two leaks of one instruction, one of them sanitized. -/
example : (((((Leaks.init C66.exPost).insert (4, 0)).insert (4, 1)).insert (4, 0)).all C66.exPost C66.q C66.load
    fun n d => if n = 4 ∧ d = ⟨0, [0], 2⟩ then some (.sani 3) else none).pairs = [(4, 1)] := by decide +kernel

/-! ### What does not hold -/

/-- A leak is dropped though nothing overwrites or sanitizes the value: after a call of any function without body that is given the tainted
pointer (`strlen`) the pointer counts as sanitized. -/
theorem C66_declaration_false : ¬ ∀ (p : Prog) (q : Asks) (load : Nat → Option Nat) (n v : Nat),
    (∀ i, (∀ a b, p.inst i ≠ .store a b) ∧ (∀ a b, p.inst i ≠ .memset a b) ∧ ∀ a b, p.inst i ≠ .memcpy a b) →
    (∀ i f, p.saniAt i f = []) → C66.Records p q load n v → ¬ C66.Drops p q load n v := by
  intro h
  refine h C66.exDecl C66.q C66.load 3 0 (fun i => ?_) (fun i f => rfl)
    ⟨⟨0, [0], 2⟩, .sani 2, C66.vals_val rfl (by decide +kernel), by decide +kernel⟩
    ⟨⟨.sani 2, C66.vals_val rfl (by decide +kernel)⟩, fun y hy => ?_⟩
  · have : C66.exDecl.inst i = .call [0] ∨ C66.exDecl.inst i = .ret none ∨ C66.exDecl.inst i = .other := by
      show (match i with | 1 | 2 | 3 => Inst.call [0] | 4 => .ret none | _ => .other) = _ ∨ _
      split
      · exact .inl rfl
      · exact .inl rfl
      · exact .inl rfl
      · exact .inr (.inl rfl)
      · refine .inr (.inr ?_)
        show (match i with | 1 | 2 | 3 => Inst.call [0] | 4 => .ret none | _ => .other) = _
        split
        · contradiction
        · contradiction
        · contradiction
        · contradiction
        · rfl
    refine ⟨fun a b hab => ?_, fun a b hab => ?_, fun a b hab => ?_⟩ <;>
      (rw [hab] at this; rcases this with h | h | h <;> cases h)
  · have hm := C66.exDecl_vals hy
    have hall : ∀ s ∈ C66.vals C66.exDecl, s.1 = 3 → s.2.1 = C66.q.fact 0 → s.2.2 = .sani 2 := by decide +kernel
    have hy2 : y = .sani 2 := hall _ hm rfl rfl
    subst hy2; rfl

/-- A leak is dropped though a fact that is equivalent to the leaked value reaches the sink unsanitized: only the value of the fact made for
the leaked value is looked at.  In `exPost` the overwritten pointer hides the tainted value that was stored. -/
theorem C66_post_false : ¬ ∀ (p : Prog) (q : Asks) (load : Nat → Option Nat) (n v : Nat) (d : Loc) (x : XTaint.Dom Nat),
    Val p q load n d x → XTaint.Unsanitized x → (n, v) ∈ leaksAt p q n d → ¬ C66.Drops p q load n v := by
  intro h
  refine h C66.exPost C66.q C66.load 4 0 ⟨0, [0, 0], 1⟩ .unsani (C66.vals_val rfl (by decide +kernel)) (.inl rfl) (by decide +kernel)
    ⟨⟨.sani 3, C66.vals_val rfl (by decide +kernel)⟩, fun y hy => ?_⟩
  have hm := C66.exPost_vals hy
  have hall : ∀ s ∈ C66.vals C66.exPost, s.1 = 4 → s.2.1 = C66.q.fact 0 → s.2.2 = .sani 3 := by decide +kernel
  have hy2 : y = .sani 3 := hall _ hm rfl rfl
  subst hy2; rfl

/-- A value computed from a tainted one (`v + 1`) is not tainted: no leak is recorded. -/
theorem C66_arith_false : ¬ ∀ (p : Prog) (q : Asks) (load : Nat → Option Nat) (n f v w : Nat) (x : XTaint.Dom Nat),
    Val p q load w (q.fact v) x → XTaint.Unsanitized x → p.op0 w = some v → n ∈ p.icf.succs w →
    p.icf.isCall n = true → f ∈ p.icf.callees n → w ∈ p.leakAt n (some f) → C66.Records p q load n w := by
  intro h
  obtain ⟨d, x, hv, hl⟩ := h C66.exArith C66.q C66.load 3 22 1 2 .unsani (C66.vals_val rfl (by decide +kernel)) (.inl rfl) rfl
    (by decide) rfl (by decide) (by decide)
  have hm := C66.exArith_vals hv
  have hall : ∀ s ∈ C66.vals C66.exArith, s.1 = 3 → (leaksAt C66.exArith C66.q 3 s.2.1).contains (3, 2) = false := by decide +kernel
  have := hall _ hm rfl
  rw [← Bool.not_eq_true, List.contains_iff_mem] at this
  exact this hl

/-- A call that every callee sanitizes a fact at does not sanitize it if the callees have bodies: without source or sink there is no
summary, and the fact comes back unsanitized. -/
theorem C66_sanitizer_false : ¬ ∀ (p : Prog) (q : Asks) (load : Nat → Option Nat) (i k r : Nat) (d : Loc) (x : XTaint.Dom Nat),
    p.strong = true → p.icf.callees i ≠ [] → (∀ f ∈ p.icf.callees i, k ∈ p.saniAt i (some f)) → equiv (q.fact k) d = true →
    Val p q load i d x → (∀ m, r ∉ p.icf.succs m ∨ m = i) → (∀ m, r ∈ p.icf.retSites m → m = i) →
    ∀ y, Val p q load r d y → ¬ XTaint.Unsanitized y := by
  intro h
  have hrow : ∀ m, 7 ≤ m → IDE.tabRow [⟨0, [1], none, false⟩, ⟨0, [2], some ([20], [2]), false⟩, ⟨0, [3], some ([1], [3]), false⟩,
      ⟨0, [4], some ([22], [4]), false⟩, ⟨0, [], none, true⟩, ⟨1, [6], none, false⟩, ⟨1, [], none, true⟩] m = { fn := m } :=
    fun m hm => IDE.tabRow_ge (by simp; omega)
  refine h C66.exClean C66.q C66.load 2 0 3 ⟨0, [0], 2⟩ .unsani rfl (by decide) ?_ (by decide +kernel)
    (C66.vals_val rfl (by decide +kernel)) (fun m => ?_) (fun m hm => ?_) .unsani (C66.vals_val rfl (by decide +kernel)) (.inl rfl)
  · decide +kernel
  · by_cases h7 : m < 7
    · have : ∀ m < 7, 3 ∉ C66.exClean.icf.succs m ∨ m = 2 := by decide +kernel
      exact this m h7
    · left
      show 3 ∉ (IDE.tabRow _ m).succs
      rw [hrow m (by omega)]; simp
  · by_cases h7 : m < 7
    · have : ∀ m < 7, 3 ∈ C66.exClean.icf.retSites m → m = 2 := by decide +kernel
      exact this m h7 hm
    · have hm' : 3 ∈ ((IDE.tabRow _ m).call.getD ([], [])).2 := hm
      rw [hrow m (by omega)] at hm'; cases hm'

/-- The report has leaks that were dropped: those found at stores are printed when they are found. -/
theorem C66_printed_false : ¬ ∀ (p : Prog) (q : Asks) (load : Nat → Option Nat) (res : Nat → Loc → Option (XTaint.Dom Nat)) (L : Leaks)
    (n v : Nat) (d : Loc) (x : XTaint.Dom Nat), Val p q load n d x → (∀ l, l ∈ L.pairs ↔ l ∈ (p.normalFlow q n d).leaks) →
    (∀ n d y, res n d = some y → Val p q load n d y) → L.done = false →
    (n, v) ∈ report p q load res (p.normalFlow q n d).printed L → (n, v) ∈ (L.all p q load res).pairs := by
  intro h
  have := h C66.exPrint C66.q C66.load (fun n d => if n = 3 ∧ d = ⟨0, [0], 2⟩ then some (.sani 2) else none) ⟨[(3, [0])], false⟩ 3 0
    ⟨0, [0], 2⟩ (.sani 2) (C66.vals_val rfl (by decide +kernel)) (fun l => ?_) (fun n d y hy => ?_) rfl (by decide +kernel)
  · have hn : (3, 0) ∉ (Leaks.all C66.exPrint C66.q C66.load
      (fun n d => if n = 3 ∧ d = ⟨0, [0], 2⟩ then some (.sani 2) else none) ⟨[(3, [0])], false⟩).pairs := by decide +kernel
    exact hn this
  · have e1 : (⟨[(3, [0])], false⟩ : Leaks).pairs = [(3, 0)] := by decide +kernel
    have e2 : (C66.exPrint.normalFlow C66.q 3 ⟨0, [0], 2⟩).leaks = [(3, 0), (3, 0)] := by decide +kernel
    rw [e1, e2]; simp
  · by_cases hc : n = 3 ∧ d = ⟨0, [0], 2⟩
    · simp only [if_pos hc] at hy
      cases hy
      obtain ⟨rfl, rfl⟩ := hc
      exact C66.vals_val rfl (by decide +kernel)
    · simp only [if_neg hc] at hy
      cases hy

/-- Control flow from the entries, past calls too. -/
inductive C66.Flow (p : Prog) : Nat → Prop where
  | entry {n} : n ∈ p.entry → C66.Flow p n
  | next {n m} : C66.Flow p n → m ∈ p.icf.succs n ∨ m ∈ p.icf.retSites n → C66.Flow p m

/-- A source is not seen after a call without known callees: the zero fact does not pass it. -/
theorem C66_no_callee_false : ¬ ∀ (p : Prog) (q : Asks) (load : Nat → Option Nat) (n f v r : Nat),
    C66.Flow p n → p.icf.isCall n = true → f ∈ p.icf.callees n → v ∈ p.genAt n (some f) → r ∈ p.icf.retSites n →
    ∃ x, Val p q load r (q.fact v) x := by
  intro h
  obtain ⟨x, hx⟩ := h C66.exCall C66.q C66.load 2 20 2 3
    (.next (n := 1) (.next (n := 0) (.entry (by decide)) (.inl (by decide))) (.inr (by decide))) rfl (by decide) (by decide) (by decide)
  have hm := C66.exCall_vals hx
  have hall : ∀ s ∈ C66.vals C66.exCall, s.1 ≠ 3 := by decide +kernel
  exact hall _ hm rfl

end Phasar.XFlow
