import Verif.Analysis.GLCAFlow
import Verif.Analysis.GLCAProps
/-!
# C85: the generalized constant analysis follows the constants of an execution

Specification.  The flow functions are described instruction by instruction.  Programs are executed on cells: the value of a
variable, or the content of a named memory location (alloca or global variable), which is accessed by its name only.  A cell is
tracked if its value stems from sources the analysis knows.
-/
namespace Phasar.GLCA
open IDE

variable {P : FP}

/-! ## Helper lemmas -/

theorem C85.mem_zeroed {z d d' : Val} {f : Val → List Val} : d' ∈ zeroed z f d ↔ d' ∈ f d ∨ (d = z ∧ d' = z) := by
  unfold zeroed
  by_cases h : d = z
  · subst h
    rw [if_pos rfl]
    by_cases hz : d ∈ f d
    · rw [if_pos hz]
      exact ⟨.inl, fun h => h.elim id fun h => h.2 ▸ hz⟩
    · rw [if_neg hz, List.mem_append, List.mem_singleton]
      simp
  · rw [if_neg h]
    simp [h]

namespace GProg
variable {p : GProg P}

/-! ## The flow functions -/

/-- Spec: the instruction `n` makes a fact about `d` one about `d'`. -/
inductive Gen (p : GProg P) (n : Nat) : Val → Val → Prop
  /-- A constant is stored. -/
  | storeConst {v ptr} : p.inst n = .store v ptr → p.isConstant v = true → Gen p n .zero ptr
  /-- Another value is stored. -/
  | store {v ptr} : p.inst n = .store v ptr → p.isConstant v = false → v ≠ ptr → Gen p n v ptr
  | load {ptr} : p.inst n = .load ptr → Gen p n ptr (.node n)
  | gep {b ptr} : p.inst n = .gep b ptr → Gen p n ptr (.node n)
  /-- A cast between integer and floating-point types. -/
  | cast {dest op} : p.inst n = .cast true (some dest) op → Gen p n op (.node n)
  | left {op l r} : p.inst n = .bin op l r → Gen p n l (.node n)
  | right {op l r} : p.inst n = .bin op l r → Gen p n r (.node n)
  /-- Both operands are constants, or none. -/
  | both {op l r} : p.inst n = .bin op l r → (p.isConstant l = true ↔ p.isConstant r = true) → Gen p n .zero (.node n)

/-- The same by instruction. -/
theorem gen_iff {n : Nat} {d d' : Val} : Gen p n d d' ↔
    match p.inst n with
    | .store v ptr => d' = ptr ∧ ((p.isConstant v = true ∧ d = .zero) ∨ (p.isConstant v = false ∧ d = v ∧ v ≠ ptr))
    | .load ptr => d = ptr ∧ d' = .node n
    | .gep _ ptr => d = ptr ∧ d' = .node n
    | .cast num dest op => (num = true ∧ dest.isSome = true) ∧ d = op ∧ d' = .node n
    | .bin _ l r => d' = .node n ∧ (d = l ∨ d = r ∨ (p.isConstant l = p.isConstant r ∧ d = .zero))
    | _ => False := by
  constructor
  · intro h
    cases h with
    | storeConst h1 h2 => rw [h1]; exact ⟨rfl, .inl ⟨h2, rfl⟩⟩
    | store h1 h2 h3 => rw [h1]; exact ⟨rfl, .inr ⟨h2, rfl, h3⟩⟩
    | load h1 => rw [h1]; exact ⟨rfl, rfl⟩
    | gep h1 => rw [h1]; exact ⟨rfl, rfl⟩
    | cast h1 => rw [h1]; exact ⟨⟨rfl, rfl⟩, rfl, rfl⟩
    | left h1 => rw [h1]; exact ⟨rfl, .inl rfl⟩
    | right h1 => rw [h1]; exact ⟨rfl, .inr (.inl rfl)⟩
    | both h1 h2 => rw [h1]; exact ⟨rfl, .inr (.inr ⟨Bool.eq_iff_iff.2 h2, rfl⟩)⟩
  · cases hi : p.inst n with
    | store v ptr =>
      rintro ⟨rfl, ⟨h1, rfl⟩ | ⟨h1, rfl, h2⟩⟩
      · exact .storeConst hi h1
      · exact .store hi h1 h2
    | load ptr => rintro ⟨rfl, rfl⟩; exact .load hi
    | gep b ptr => rintro ⟨rfl, rfl⟩; exact .gep hi
    | cast num dest op =>
      rintro ⟨⟨rfl, h⟩, rfl, rfl⟩
      obtain ⟨x, hx⟩ := Option.isSome_iff_exists.1 h
      subst hx
      exact .cast hi
    | bin op l r =>
      rintro ⟨rfl, rfl | rfl | ⟨h, rfl⟩⟩
      · exact .left hi
      · exact .right hi
      · exact .both hi (by rw [h])
    | _ => exact fun h => h.elim

/-- C85: the flow functions of the intra-procedural edges, as the solver uses them: a fact is kept unless its location is
stored to, and it generates exactly what `Gen` says. -/
theorem C85_normal (n : Nat) (d d' : Val) (hz : ∀ v, p.inst n ≠ .store v .zero) :
    d' ∈ zeroed .zero (p.normalFlow n) d ↔ (d' = d ∧ ∀ v, p.inst n ≠ .store v d) ∨ Gen p n d d' := by
  rw [C85.mem_zeroed, gen_iff]
  unfold normalFlow
  cases hi : p.inst n with
  | store v ptr =>
    have hz' : ptr ≠ .zero := fun h => hz v (by rw [hi, h])
    have keep : (∀ v', Inst.store v ptr ≠ .store v' d) ↔ d ≠ ptr :=
      ⟨fun h e => h v (by rw [e]), fun h v' e => h (by cases e; rfl)⟩
    rw [keep]
    cases hc : p.isConstant v with
    | true =>
      simp only [hc, if_true]
      by_cases h1 : d = ptr
      · subst h1; simp [hz']
      · by_cases h2 : d = .zero
        · subst h2; simp [h1, or_comm]
        · simp [h1, h2]
    | false =>
      simp only [hc, Bool.false_eq_true, if_false]
      by_cases h1 : d = ptr
      · subst h1
        simp only [if_true, List.not_mem_nil, false_or, ne_eq, not_true, and_false, false_and, true_and]
        constructor
        · rintro ⟨rfl, _⟩; exact absurd rfl hz'
        · rintro ⟨_, rfl, h⟩; exact absurd rfl h
      · by_cases h2 : d = v
        · subst h2
          simp only [h1, if_false, if_true, List.mem_cons, List.not_mem_nil, or_false, ne_eq, not_false_eq_true, and_true,
            false_and, false_or]
          constructor
          · rintro ((h | h) | ⟨h, h'⟩)
            · exact .inr h
            · exact .inl h
            · exact .inl (h'.trans h.symm)
          · rintro (h | h)
            · exact .inl (.inr h)
            · exact .inl (.inl h)
        · simp only [h1, h2, if_false, List.mem_singleton, ne_eq, not_false_eq_true, and_true, false_and, and_false, or_false]
          constructor
          · rintro (h | ⟨h, h'⟩)
            · exact h
            · exact h'.trans h.symm
          · exact .inl
  | load ptr =>
    by_cases h1 : d = ptr
    · subst h1; simp
      rintro rfl rfl; exact .inl rfl
    · simp [h1]
      rintro rfl rfl; rfl
  | gep b ptr =>
    by_cases h1 : d = ptr
    · subst h1; simp
      rintro rfl rfl; exact .inl rfl
    · simp [h1]
      rintro rfl rfl; rfl
  | cast num dest op =>
    by_cases hn : num = true ∧ dest.isSome = true
    · simp only [hn, Bool.and_self, if_true]
      by_cases h1 : d = op
      · subst h1; simp
        rintro rfl rfl; exact .inl rfl
      · simp [h1]
        rintro rfl rfl; rfl
    · have : (num && dest.isSome) = false := by
        cases h : (num && dest.isSome) with
        | false => rfl
        | true => exact absurd (by simpa using h) hn
      simp only [this, hn]
      simp
      rintro rfl rfl; rfl
  | bin op l r =>
    simp only
    split
    · rename_i h
      rw [List.mem_cons, List.mem_singleton]
      constructor
      · rintro ((rfl | rfl) | ⟨rfl, rfl⟩)
        · exact .inl ⟨rfl, nofun⟩
        · exact .inr ⟨rfl, h⟩
        · exact .inl ⟨rfl, nofun⟩
      · rintro (⟨rfl, _⟩ | ⟨rfl, _⟩)
        · exact .inl (.inl rfl)
        · exact .inl (.inr rfl)
    · rename_i h
      rw [List.mem_singleton]
      constructor
      · rintro (rfl | ⟨rfl, rfl⟩)
        · exact .inl ⟨rfl, nofun⟩
        · exact .inl ⟨rfl, nofun⟩
      · rintro (⟨rfl, _⟩ | ⟨rfl, h'⟩)
        · exact .inl rfl
        · exact absurd h' h
  | _ =>
    simp
    rintro rfl rfl; rfl

/-- Spec: argument `a` passes the fact `d`. -/
def Passes (p : GProg P) (d a : Val) : Prop := d = a ∨ (d = .zero ∧ p.isConstant a = true)

/-- Spec: argument number `i` is one of the variable arguments of a function with a body. -/
def Variadic (p : GProg P) (f i : Nat) : Prop := p.vararg f = true ∧ (p.params f).length ≤ i ∧ p.isDecl f = false

theorem C85.calleeLoop_mem {f : Nat} {d d' : Val} : ∀ {as : List Val} {i : Nat} {ts : List Val},
    p.calleeLoop f d i as = some ts → (d' ∈ ts ↔ ∃ (j : Nat) (a : Val), as[j]? = some a ∧ Passes p d a ∧
      ((Variadic p f (i + j) ∧ ∃ k ∈ p.vaLists f, d' = .node k) ∨
        (¬ Variadic p f (i + j) ∧ ∃ k, (p.params f)[i + j]? = some k ∧ d' = .node k))) := by
  intro as
  induction as with
  | nil => intro i ts h; cases h; simp
  | cons a as ih =>
    intro i ts h
    have shift : ∀ {us}, p.calleeLoop f d (i + 1) as = some us → (d' ∈ us ↔ ∃ (j : Nat) (b : Val), as[j]? = some b ∧ Passes p d b ∧
      ((Variadic p f (i + (j + 1)) ∧ ∃ k ∈ p.vaLists f, d' = .node k) ∨
        (¬ Variadic p f (i + (j + 1)) ∧ ∃ k, (p.params f)[i + (j + 1)]? = some k ∧ d' = .node k))) := by
      intro us hu
      have := ih hu
      simp only [Nat.add_assoc, Nat.add_comm 1] at this
      exact this
    have split0 : ∀ {Q : Nat → Val → Prop}, (∃ (j : Nat) (b : Val), (a :: as)[j]? = some b ∧ Q j b) ↔
        Q 0 a ∨ ∃ (j : Nat) (b : Val), as[j]? = some b ∧ Q (j + 1) b := by
      intro Q
      constructor
      · rintro ⟨j, b, h, hq⟩
        cases j with
        | zero => cases h; exact .inl hq
        | succ j => exact .inr ⟨j, b, h, hq⟩
      · rintro (h | ⟨j, b, h, hq⟩)
        · exact ⟨0, a, rfl, h⟩
        · exact ⟨j + 1, b, h, hq⟩
    rw [split0]
    unfold calleeLoop at h
    split at h
    · rename_i hp
      have hp : Passes p d a := hp
      split at h
      · rename_i hv
        have hv : Variadic p f i := hv
        obtain ⟨us, hu, rfl⟩ := Option.map_eq_some_iff.1 h
        rw [List.mem_append, List.mem_map, shift hu]
        constructor
        · rintro (⟨k, hk, rfl⟩ | h)
          · exact .inl ⟨hp, .inl ⟨hv, k, hk, rfl⟩⟩
          · exact .inr h
        · rintro (⟨_, ⟨_, k, hk, rfl⟩ | ⟨h, _⟩⟩ | h)
          · exact .inl ⟨k, hk, rfl⟩
          · exact absurd hv h
          · exact .inr h
      · rename_i hv
        have hv : ¬ Variadic p f i := hv
        split at h
        · rename_i k hk
          obtain ⟨us, hu, rfl⟩ := Option.map_eq_some_iff.1 h
          rw [List.mem_cons, shift hu]
          constructor
          · rintro (rfl | h)
            · exact .inl ⟨hp, .inr ⟨hv, k, hk, rfl⟩⟩
            · exact .inr h
          · rintro (⟨_, ⟨h, _⟩ | ⟨_, k', hk', rfl⟩⟩ | h)
            · exact absurd h hv
            · rw [Nat.add_zero, hk] at hk'; cases hk'; exact .inl rfl
            · exact .inr h
        · cases h
    · rename_i hp
      have hp : ¬ Passes p d a := hp
      rw [shift h]
      exact ⟨.inr, fun h => h.resolve_left fun h => hp h.1⟩

theorem C85.calleeLoop_none {f : Nat} {d : Val} : ∀ {as : List Val} {i : Nat},
    p.calleeLoop f d i as = none ↔ ∃ (j : Nat) (a : Val), as[j]? = some a ∧ Passes p d a ∧
      ¬ Variadic p f (i + j) ∧ (p.params f).length ≤ i + j := by
  intro as
  induction as with
  | nil => intro i; simp [calleeLoop]
  | cons a as ih =>
    intro i
    have shift : p.calleeLoop f d (i + 1) as = none ↔ ∃ (j : Nat) (b : Val), as[j]? = some b ∧ Passes p d b ∧
      ¬ Variadic p f (i + (j + 1)) ∧ (p.params f).length ≤ i + (j + 1) := by
      have := ih (i := i + 1)
      simp only [Nat.add_assoc, Nat.add_comm 1] at this
      exact this
    have split0 : ∀ {Q : Nat → Val → Prop}, (∃ (j : Nat) (b : Val), (a :: as)[j]? = some b ∧ Q j b) ↔
        Q 0 a ∨ ∃ (j : Nat) (b : Val), as[j]? = some b ∧ Q (j + 1) b := by
      intro Q
      constructor
      · rintro ⟨j, b, h, hq⟩
        cases j with
        | zero => cases h; exact .inl hq
        | succ j => exact .inr ⟨j, b, h, hq⟩
      · rintro (h | ⟨j, b, h, hq⟩)
        · exact ⟨0, a, rfl, h⟩
        · exact ⟨j + 1, b, h, hq⟩
    rw [split0]
    unfold calleeLoop
    split
    · rename_i hp
      have hp : Passes p d a := hp
      split
      · rename_i hv
        have hv : Variadic p f i := hv
        rw [Option.map_eq_none_iff, shift]
        exact ⟨.inr, fun h => h.resolve_left fun h => h.2.1 hv⟩
      · rename_i hv
        have hv : ¬ Variadic p f i := hv
        split
        · rename_i k hk
          rw [Option.map_eq_none_iff, shift]
          have : i < (p.params f).length := (List.getElem?_eq_some_iff.1 hk).1
          exact ⟨.inr, fun h => h.resolve_left fun h => by have := h.2.2; omega⟩
        · rename_i hk
          have : (p.params f).length ≤ i := List.getElem?_eq_none_iff.1 hk
          exact ⟨fun _ => .inl ⟨hp, hv, this⟩, fun _ => rfl⟩
    · rename_i hp
      have hp : ¬ Passes p d a := hp
      rw [shift]
      exact ⟨.inr, fun h => h.resolve_left fun h => hp h.1⟩

/-- C85: a fact reaches the parameters whose arguments it is about, constants reach theirs from zero, variable arguments reach
the argument lists allocated in the function; nothing else passes, in particular no fact about a global variable. -/
theorem C85_callee {n f : Nat} {d d' : Val} {ts : List Val} (h : p.callFlow n f d = some ts) :
    d' ∈ ts ↔ p.strCtor f = false ∧ ((d = .zero ∧ d' = .zero) ∨ ∃ (i : Nat) (a : Val), (p.args n)[i]? = some a ∧ Passes p d a ∧
      ((Variadic p f i ∧ ∃ k ∈ p.vaLists f, d' = .node k) ∨
        (¬ Variadic p f i ∧ ∃ k, (p.params f)[i]? = some k ∧ d' = .node k))) := by
  unfold callFlow at h
  split at h
  · rename_i hs
    cases h
    simp [hs]
  · rename_i hs
    obtain ⟨us, hu, rfl⟩ := Option.map_eq_some_iff.1 h
    have key := C85.calleeLoop_mem (d' := d') hu
    simp only [Nat.zero_add] at key
    rw [← key]
    have hs : p.strCtor f = false := by simpa using hs
    by_cases hz : d = .zero
    · rw [if_pos hz, List.mem_append, List.mem_singleton]
      exact ⟨fun h => ⟨hs, h.elim .inr fun h => .inl ⟨hz, h⟩⟩, fun h => h.2.elim (fun h => .inr h.2) .inl⟩
    · rw [if_neg hz]
      exact ⟨fun h => ⟨hs, .inr h⟩, fun h => h.2.elim (fun h => absurd h.1 hz) id⟩

/-- C85: exactly the calls that pass something beyond the parameters are undefined, unless the function has a body and
variable arguments. -/
theorem C85_callee_undefined (n f : Nat) (d : Val) : p.callFlow n f d = none ↔ p.strCtor f = false ∧
    ∃ (i : Nat) (a : Val), (p.args n)[i]? = some a ∧ Passes p d a ∧ (p.params f).length ≤ i ∧
      (p.vararg f = false ∨ p.isDecl f = true) := by
  unfold callFlow
  split
  · rename_i hs
    simp [hs]
  · rename_i hs
    have hs : p.strCtor f = false := by simpa using hs
    rw [Option.map_eq_none_iff, C85.calleeLoop_none]
    simp only [Nat.zero_add, hs, true_and]
    constructor
    · rintro ⟨j, a, h1, h2, h3, h4⟩
      refine ⟨j, a, h1, h2, h4, ?_⟩
      cases hv : p.vararg f with
      | false => exact .inl rfl
      | true =>
        cases hd : p.isDecl f with
        | true => exact .inr rfl
        | false => exact absurd ⟨hv, h4, hd⟩ h3
    · rintro ⟨j, a, h1, h2, h4, h5⟩
      refine ⟨j, a, h1, h2, fun hv => ?_, h4⟩
      rcases h5 with h | h
      · rw [hv.1] at h; cases h
      · rw [hv.2.2] at h; cases h

theorem C85.callerLoop_mem {as : List Val} {d d' : Val} : ∀ {ks : List Nat} {i : Nat} {ts : List Val},
    p.callerLoop as d i ks = some ts → (d' ∈ ts ↔ ∃ (j k : Nat), ks[j]? = some k ∧ d = .node k ∧ p.isPtr k = true ∧
      as[i + j]? = some d') := by
  intro ks
  induction ks with
  | nil => intro i ts h; cases h; simp
  | cons k ks ih =>
    intro i ts h
    have shift : ∀ {us}, p.callerLoop as d (i + 1) ks = some us → (d' ∈ us ↔ ∃ (j k : Nat), ks[j]? = some k ∧ d = .node k ∧
        p.isPtr k = true ∧ as[i + (j + 1)]? = some d') := by
      intro us hu
      have := ih hu
      simp only [Nat.add_assoc, Nat.add_comm 1] at this
      exact this
    have split0 : ∀ {Q : Nat → Nat → Prop}, (∃ (j b : Nat), (k :: ks)[j]? = some b ∧ Q j b) ↔
        Q 0 k ∨ ∃ (j b : Nat), ks[j]? = some b ∧ Q (j + 1) b := by
      intro Q
      constructor
      · rintro ⟨j, b, h, hq⟩
        cases j with
        | zero => cases h; exact .inl hq
        | succ j => exact .inr ⟨j, b, h, hq⟩
      · rintro (h | ⟨j, b, h, hq⟩)
        · exact ⟨0, k, rfl, h⟩
        · exact ⟨j + 1, b, h, hq⟩
    rw [split0]
    unfold callerLoop at h
    split at h
    · rename_i hp
      split at h
      · rename_i a ha
        obtain ⟨us, hu, rfl⟩ := Option.map_eq_some_iff.1 h
        rw [List.mem_cons, shift hu]
        constructor
        · rintro (rfl | h)
          · exact .inl ⟨hp.1, hp.2, ha⟩
          · exact .inr h
        · rintro (⟨_, _, h⟩ | h)
          · rw [Nat.add_zero, ha] at h; cases h; exact .inl rfl
          · exact .inr h
      · cases h
    · rename_i hp
      rw [shift h]
      exact ⟨.inr, fun h => h.resolve_left fun h => hp ⟨h.1, h.2.1⟩⟩

theorem C85.callerLoop_none {as : List Val} {d : Val} : ∀ {ks : List Nat} {i : Nat},
    p.callerLoop as d i ks = none ↔ ∃ (j k : Nat), ks[j]? = some k ∧ d = .node k ∧ p.isPtr k = true ∧ as.length ≤ i + j := by
  intro ks
  induction ks with
  | nil => intro i; simp [callerLoop]
  | cons k ks ih =>
    intro i
    have shift : p.callerLoop as d (i + 1) ks = none ↔ ∃ (j k : Nat), ks[j]? = some k ∧ d = .node k ∧ p.isPtr k = true ∧
        as.length ≤ i + (j + 1) := by
      have := ih (i := i + 1)
      simp only [Nat.add_assoc, Nat.add_comm 1] at this
      exact this
    have split0 : ∀ {Q : Nat → Nat → Prop}, (∃ (j b : Nat), (k :: ks)[j]? = some b ∧ Q j b) ↔
        Q 0 k ∨ ∃ (j b : Nat), ks[j]? = some b ∧ Q (j + 1) b := by
      intro Q
      constructor
      · rintro ⟨j, b, h, hq⟩
        cases j with
        | zero => cases h; exact .inl hq
        | succ j => exact .inr ⟨j, b, h, hq⟩
      · rintro (h | ⟨j, b, h, hq⟩)
        · exact ⟨0, k, rfl, h⟩
        · exact ⟨j + 1, b, h, hq⟩
    rw [split0]
    unfold callerLoop
    split
    · rename_i hp
      split
      · rename_i a ha
        rw [Option.map_eq_none_iff, shift]
        have : i < as.length := (List.getElem?_eq_some_iff.1 ha).1
        exact ⟨.inr, fun h => h.resolve_left fun h => by have := h.2.2; omega⟩
      · rename_i ha
        have : as.length ≤ i := List.getElem?_eq_none_iff.1 ha
        exact ⟨fun _ => .inl ⟨hp.1, hp.2, this⟩, fun _ => rfl⟩
    · rename_i hp
      rw [shift]
      exact ⟨.inr, fun h => h.resolve_left fun h => hp ⟨h.1, h.2.1⟩⟩

/-- C85: on return, facts about pointer parameters become facts about their arguments, those about the last argument list
facts about all variable arguments, and the returned value, or zero if it is constant, becomes a fact about the call; nothing
else returns, in particular no fact about a global variable. -/
theorem C85_caller {c f e : Nat} {d d' : Val} {ts : List Val} (h : p.retFlow c f e d = some ts) :
    d' ∈ ts ↔
      (∃ (i k : Nat), (p.params f)[i]? = some k ∧ d = .node k ∧ p.isPtr k = true ∧ (p.args c)[i]? = some d') ∨
      (∃ v, p.inst e = .ret (some v) ∧ Passes p d v ∧ d' = .node c) ∨
      (∃ k, p.vararg f = true ∧ p.isDecl f = false ∧ (p.vaLists f).getLast? = some k ∧ d = .node k ∧ p.isPtr k = true ∧
        ∃ i, (p.params f).length ≤ i ∧ (p.args c)[i]? = some d') := by
  unfold retFlow at h
  split at h
  · rename_i rv hi
    obtain ⟨us, hu, rfl⟩ := Option.map_eq_some_iff.1 h
    have key := C85.callerLoop_mem (d' := d') hu
    simp only [Nat.zero_add] at key
    rw [← key, List.mem_append, List.mem_append]
    have e1 : (d' ∈ (match rv with
        | some v => if d = v ∨ (d = Val.zero ∧ p.isConstant v = true) then [Val.node c] else []
        | none => [])) ↔ ∃ v, p.inst e = .ret (some v) ∧ Passes p d v ∧ d' = .node c := by
      rw [hi]
      cases rv with
      | none => exact ⟨fun h => absurd h List.not_mem_nil, fun ⟨_, h, _⟩ => by cases h⟩
      | some v =>
        by_cases hp : Passes p d v
        · have : (if d = v ∨ (d = Val.zero ∧ p.isConstant v = true) then [Val.node c] else []) = [.node c] := if_pos hp
          simp only [this, List.mem_singleton]
          exact ⟨fun h => ⟨v, rfl, hp, h⟩, fun ⟨_, _, _, h⟩ => h⟩
        · have : (if d = v ∨ (d = Val.zero ∧ p.isConstant v = true) then [Val.node c] else []) = [] := if_neg hp
          simp only [this, List.not_mem_nil, false_iff]
          rintro ⟨v', h1, h2, _⟩
          cases h1; exact hp h2
    have e2 : (d' ∈ (if p.vararg f = true ∧ p.isDecl f = false then
        match (p.vaLists f).getLast? with
        | some k => if d = .node k ∧ p.isPtr k = true then (p.args c).drop (p.params f).length else []
        | none => []
      else [])) ↔ (∃ k, p.vararg f = true ∧ p.isDecl f = false ∧ (p.vaLists f).getLast? = some k ∧ d = .node k ∧
        p.isPtr k = true ∧ ∃ i, (p.params f).length ≤ i ∧ (p.args c)[i]? = some d') := by
      have hdrop : d' ∈ (p.args c).drop (p.params f).length ↔ ∃ i, (p.params f).length ≤ i ∧ (p.args c)[i]? = some d' := by
        rw [List.mem_iff_getElem?]
        simp only [List.getElem?_drop]
        exact ⟨fun ⟨i, h⟩ => ⟨_, Nat.le_add_right _ i, h⟩, fun ⟨i, h1, h2⟩ => ⟨i - (p.params f).length, by
          rw [Nat.add_sub_cancel' h1]; exact h2⟩⟩
      by_cases hv : p.vararg f = true ∧ p.isDecl f = false
      · rw [if_pos hv]
        cases hl : (p.vaLists f).getLast? with
        | none => exact ⟨fun h => absurd h List.not_mem_nil, fun ⟨_, _, _, h, _⟩ => by cases h⟩
        | some k =>
          by_cases hk : d = .node k ∧ p.isPtr k = true
          · simp only [hk, and_self, if_true, hdrop]
            constructor
            · exact fun h => ⟨k, hv.1, hv.2, rfl, rfl, hk.2, h⟩
            · rintro ⟨_, _, _, _, _, _, h⟩; exact h
          · simp only [hk, if_false, List.not_mem_nil, false_iff]
            rintro ⟨k', _, _, h1, h2, h3, _⟩
            cases h1; exact hk ⟨h2, h3⟩
      · rw [if_neg hv]
        exact ⟨fun h => absurd h List.not_mem_nil, fun ⟨_, h1, h2, _⟩ => absurd ⟨h1, h2⟩ hv⟩
    constructor
    · rintro ((h | h) | h)
      · exact .inr (.inr (e2.1 h))
      · exact .inl h
      · exact .inr (.inl (e1.1 h))
    · rintro (h | h | h)
      · exact .inl (.inr h)
      · exact .inr (e1.2 h)
      · exact .inl (.inl (e2.2 h))
  · cases h

/-- C85: returning is undefined exactly from a `resume`, or if an argument for a pointer parameter is missing. -/
theorem C85_caller_undefined (c f e : Nat) (d : Val) : p.retFlow c f e d = none ↔ (∀ v, p.inst e ≠ .ret v) ∨
    ∃ (i k : Nat), (p.params f)[i]? = some k ∧ d = .node k ∧ p.isPtr k = true ∧ (p.args c).length ≤ i := by
  have key := C85.callerLoop_none (p := p) (as := p.args c) (d := d) (ks := p.params f) (i := 0)
  simp only [Nat.zero_add] at key
  rw [← key]
  unfold retFlow
  cases hi : p.inst e with
  | ret rv =>
    simp only [Option.map_eq_none_iff]
    exact ⟨.inr, fun h => h.resolve_left fun h => h rv rfl⟩
  | _ => exact ⟨fun _ => .inl nofun, fun _ => rfl⟩

end GProg
end Phasar.GLCA
