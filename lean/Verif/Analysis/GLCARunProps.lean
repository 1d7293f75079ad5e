import Verif.Analysis.GLCARun
import Verif.IDE.Table
/-!
# C85: what the generalized constant analysis computes along the executions
-/
namespace Phasar.GLCA
open IDE
namespace GProg

variable {P : FP} {p : GProg P} {fixed : Nat → Bool}

/-! ## Soundness -/

/-- For every execution and every tracked variable or memory location there is a realizable run to it along which the edge
functions compute exactly its value, or "unknown".
Missing: the results of casts, address computations and floating-point arithmetic are not tracked; memory is accessed by names
only; the requirements `WF`. -/
theorem C85_sound_partial (hwf : p.WF) (hicf : p.icf.WFV) {s t : CState P} (hs : p.Start s) (he : p.CSteps fixed s t) {k : Nat}
    (hk : (p.cell t.loc t.glob k).tracked = true) :
    ∃ e, Run p (t.stk.map (·.1)) t.n (.node k) (some [e]) ∧ (e = .top ∨ e = (p.cell t.loc t.glob k).v) :=
  (inv_steps hwf hicf (inv_start hs) he).1.cells k hk

/-- Every statement that is executed is reached by zero with "unknown". -/
theorem C85_reached (hwf : p.WF) (hicf : p.icf.WFV) {s t : CState P} (hs : p.Start s) (he : p.CSteps fixed s t) :
    Run p (t.stk.map (·.1)) t.n .zero (some [.top]) :=
  (inv_steps hwf hicf (inv_start hs) he).1.zero

/-- Spec: the values of several runs joined in some order with the join of the analysis. -/
def joinAll : List (EV P) → List (List (EV P)) → Option (List (EV P))
  | S, [] => some S
  | S, L :: Ls => (join S L domainMax).bind fun T => joinAll T Ls

theorem C85.same_eq {e v : EV P} (hv : ∀ x, v ≠ .fp x) (h : same e v = some true) : e = v := by
  cases v with
  | top => exact C39.same_top h
  | int w x => exact C39.same_int h
  | fp x => exact absurd rfl (hv x)
  | str s =>
    cases e with
    | str s' => simp only [same, Option.some.injEq, decide_eq_true_eq] at h; rw [h]
    | _ => simp [same] at h

theorem C85.joinAll_covers {v : EV P} (hv : ∀ x, v ≠ .fp x) : ∀ {Ls : List (List (EV P))} {S T : List (EV P)},
    joinAll S Ls = some T → (EV.top ∈ S ∨ v ∈ S) ∨ (∃ L ∈ Ls, EV.top ∈ L ∨ v ∈ L) → EV.top ∈ T ∨ v ∈ T := by
  have red : ∀ {T : List (EV P)} {u}, (∀ x, u ≠ .fp x) → Covers T u → EV.top ∈ T ∨ u ∈ T := by
    rintro T u hu (h | ⟨e, he, rfl | h⟩)
    · exact .inl h
    · exact .inr he
    · exact .inr (C85.same_eq hu h ▸ he)
  have red' : ∀ {T : List (EV P)}, Covers T .top → EV.top ∈ T := fun h => (red (u := .top) nofun h).elim id id
  intro Ls
  induction Ls with
  | nil =>
    intro S T h hc
    cases h
    rcases hc with h | ⟨_, h, _⟩
    · exact h
    · cases h
  | cons L Ls ih =>
    intro S T hj hc
    obtain ⟨U, hU, hT⟩ := Option.bind_eq_some_iff.1 hj
    apply ih hT
    rcases hc with h | ⟨M, hM, h⟩
    · rcases h with h | h
      · exact .inl (.inl (red' (C39_join_covers hU (.inl h))))
      · exact .inl (red hv (C39_join_covers hU (.inl h)))
    · rcases List.mem_cons.1 hM with rfl | hM
      · rcases h with h | h
        · exact .inl (.inl (red' (C39_join_covers hU (.inr h))))
        · exact .inl (red hv (C39_join_covers hU (.inr h)))
      · exact .inr ⟨M, hM, h⟩

/-- Whatever is joined, in whatever order: if the values of all runs to a tracked cell are among it, the result contains the
value of the cell, or is unknown.
Missing: besides what is missing above, that the join of the solver is this one is not shown (sets of values form no lattice
with this join, C39). -/
theorem C85_result_partial (hwf : p.WF) (hicf : p.icf.WFV) {s t : CState P} (hs : p.Start s) (he : p.CSteps fixed s t) {k : Nat}
    (hk : (p.cell t.loc t.glob k).tracked = true) (hv : ∀ x, (p.cell t.loc t.glob k).v ≠ .fp x)
    {Ls : List (List (EV P))} (hall : ∀ stk v, Run p stk t.n (.node k) (some v) → v ∈ Ls) {T : List (EV P)}
    (hT : joinAll [] Ls = some T) : EV.top ∈ T ∨ (p.cell t.loc t.glob k).v ∈ T := by
  obtain ⟨e, hr, he⟩ := C85_sound_partial hwf hicf hs he hk
  refine C85.joinAll_covers hv hT (.inr ⟨[e], hall _ _ hr, ?_⟩)
  rcases he with rfl | rfl
  · exact .inl (List.mem_singleton.2 rfl)
  · exact .inr (List.mem_singleton.2 rfl)

/-! ## Edges, exactly -/

/-- The initial value of a global variable, at the first statement of `main`. -/
theorem C85_edge_initial {n g : Nat} {e : EV P} (hg : p.isGlobal g = true) (hs : p.icf.isStart n = true)
    (hm : p.isMain (p.icf.funOf n) = true) (hc : p.common g = false)
    (hi : p.init g = some (match e with | .int w x => .int w x | .fp x => .fp x | .str s => .str s | .top => .other))
    (he : e ≠ .top) (v : List (EV P)) : apply (p.normalEdge n (.node g) (.node g)) (some v) = some [e] := by
  unfold normalEdge
  simp only
  rw [if_pos ⟨hg, hs, hm, trivial⟩]
  unfold initEdge
  rw [hc, hi]
  cases e with
  | top => exact absurd rfl he
  | _ => rfl

/-- Everything else: what is not mentioned keeps its value. -/
theorem C85_edge_keep {n : Nat} {d d' : Val} (hd : d ≠ .zero) (hn : d' ≠ .node n)
    (hg : ∀ g, d = .node g → d = d' → p.isGlobal g = true → p.icf.isStart n = true → p.isMain (p.icf.funOf n) = false)
    (v : Option (List (EV P))) : apply (p.normalEdge n d d') v = v := by
  have h1 : p.instEdge n d d' = some .id := by
    unfold instEdge
    rw [if_neg fun h => hd h.1]
    cases p.inst n <;> simp [hd, hn]
  have h2 : p.normalEdge n d d' = some .id := by
    unfold normalEdge
    cases d with
    | node g =>
      simp only
      rw [if_neg fun h => ?_]
      · exact h1
      · rw [hg g rfl h.2.2.2 h.1 h.2.1] at h; exact absurd h.2.2.1 nofun
    | _ => exact h1
  rw [h2, apply_id]

/-- Loads and address computations pass the value on, also to themselves. -/
theorem C85_edge_copy {n : Nat} {d d' : Val} (h : (∃ q, p.inst n = .load q) ∨ ∃ b q, p.inst n = .gep b q)
    (hg : ∀ g, d = .node g → d = d' → p.isGlobal g = true → p.icf.isStart n = true → p.isMain (p.icf.funOf n) = false)
    (v : Option (List (EV P))) : apply (p.normalEdge n d d') v = v := by
  have h1 : p.instEdge n d d' = some .id := by
    unfold instEdge
    split
    · rfl
    · rcases h with ⟨_, h⟩ | ⟨_, _, h⟩ <;> rw [h]
  have h2 : p.normalEdge n d d' = some .id := by
    unfold normalEdge
    cases d with
    | node g =>
      simp only
      rw [if_neg fun h => ?_]
      · exact h1
      · rw [hg g rfl h.2.2.2 h.1 h.2.1] at h; exact absurd h.2.2.1 nofun
    | _ => exact h1
  rw [h2, apply_id]

/-- A stored constant. -/
theorem C85_edge_store {n k : Nat} {a : Val} {e : EV P} (h : p.inst n = .store a (.node k)) (hc : p.isConstant a = true)
    (he : p.evOf a = some e) (v : List (EV P)) : apply (p.normalEdge n .zero (.node k)) (some v) = some [e] := by
  simp [normalEdge, instEdge, h, hc, he, apply, GEF.ap]

/-- Casts between numbers, for any fact (also for the result itself). -/
theorem C85_edge_cast {n bits : Nat} {dest : Dest} {num : Bool} {q : Val} (h : p.inst n = .cast num (some (dest, bits)) q)
    {d : Val} (hd : d = .node n → p.isGlobal n = false) (v : List (EV P)) :
    apply (p.normalEdge n d (.node n)) (some v) = performTypecast v dest bits := by
  have h1 : p.instEdge n d (.node n) = some (.cast dest bits) := by simp [instEdge, h]
  have h2 : p.normalEdge n d (.node n) = some (.cast dest bits) := by
    unfold normalEdge
    cases d with
    | node g =>
      simp only
      rw [if_neg fun h => by have h3 := h.2.2.2; cases h3; rw [hd rfl] at h; cases h.1]
      exact h1
    | _ => exact h1
  rw [h2]; rfl

/-- Integer arithmetic with a constant integer on the left, on the right, on both sides and with none. -/
theorem C85_edge_bin {n : Nat} {op : Op} {l r : Val} (h : p.inst n = .bin op l r) (hng : p.isGlobal n = false) (d : Val)
    (v : List (EV P)) {a b : EV P} (hl : p.isConstant l = true → p.evOf l = some a) (hr : p.isConstant r = true → p.evOf r = some b) :
    apply (p.normalEdge n d (.node n)) (some v) =
      if p.isConstant l = true ∧ p.isConstant r = true ∧ d = .zero then performBinOp op [a] [b] p.max
      else if p.isConstant l = true then performBinOp op [a] v 2
      else if p.isConstant r = true then performBinOp op v [b] 2
      else some [.top] := by
  have h1 : p.normalEdge n d (.node n) = p.binEdge op l r d := by
    have h0 : p.instEdge n d (.node n) = p.binEdge op l r d := by simp [instEdge, h]
    unfold normalEdge
    cases d with
    | node g =>
      simp only
      rw [if_neg fun h => by have h3 := h.2.2.2; cases h3; rw [hng] at h; cases h.1]
      exact h0
    | _ => exact h0
  rw [h1]
  unfold binEdge
  cases hcl : p.isConstant l with
  | true =>
    have hl' := hl hcl
    cases hcr : p.isConstant r with
    | true =>
      have hr' := hr hcr
      by_cases hd : d = .zero
      · simp only [hl', hr', hd, Option.bind_some, and_self, if_true]
        cases performBinOp op [a] [b] p.max <;> rfl
      · simp only [hl', hd, Option.bind_some, and_false, if_false, if_true]; rfl
    | false => simp only [hl', Option.bind_some, false_and, Bool.false_eq_true, and_false, if_false, if_true]; rfl
  | false =>
    cases hcr : p.isConstant r with
    | true => simp only [hr hcr, Bool.false_eq_true, false_and, if_false, if_true]; rfl
    | false => simp only [Bool.false_eq_true, false_and, if_false]; rfl

/-- Into a function: a parameter that gets its fact from zero has the value of the argument; the other facts keep theirs. -/
theorem C85_edge_call {n f : Nat} {as : List Val} (h : p.inst n = .call as) (hnd : (p.params f).Nodup) (v : List (EV P)) :
    (∀ d d', d ≠ .zero → apply (p.callEdge n d f d') (some v) = some v) ∧
    apply (p.callEdge n .zero f .zero) (some v) = some v ∧
    ∀ (i k : Nat) (a : Val), (p.params f)[i]? = some k → as[i]? = some a →
      apply (p.callEdge n .zero f (.node k)) (some v) = (p.evOf a).map fun e => [e] := by
  have hargs : p.args n = as := by unfold args; rw [h]
  refine ⟨fun d d' hd => ?_, ?_, fun i k a hk ha => ?_⟩
  · unfold callEdge; rw [if_neg hd]; rfl
  · unfold callEdge; rw [if_pos rfl, callEdge_zero]; rfl
  · unfold callEdge
    rw [if_pos rfl, hargs, callEdgeLoop_at hnd hk ha]
    cases p.evOf a <;> rfl

/-- Out of a function: what comes from zero has the value of the returned constant (also zero itself); the rest keeps its
value. -/
theorem C85_edge_ret {n : Nat} {r : Option Val} (h : p.inst n = .ret r) (d : Val) (v : List (EV P)) :
    apply (p.retEdge n d) (some v) =
      match (generalizing := false) r with
      | some a => if d = .zero ∧ p.isConstant a = true then (p.evOf a).map fun e => [e] else some v
      | none => some v := by
  unfold retEdge
  rw [h]
  cases r with
  | none => simp only [ite_self]; rfl
  | some a =>
    by_cases hd : d = .zero
    · cases hc : p.isConstant a with
      | true => simp only [hd, hc, if_true, and_self]; cases p.evOf a <;> rfl
      | false => simp only [hd, hc, if_true, Bool.false_eq_true, and_false, if_false]; rfl
    · simp only [hd, if_false, false_and]; rfl

/-- Past a call: nothing changes, except that a call of a string constructor sets the string: flows and values. -/
theorem C85_call_to_return (n : Nat) (d : Val) (hs : ∀ f, p.called n = some f → p.strCtor f = false) (d' : Val)
    (v : Option (List (EV P))) :
    (∃ ts, p.ctrFlow n d = some ts ∧ (d' ∈ ts ↔ d' = d)) ∧ apply (p.ctrEdge n d d') v = v := by
  replace hs : p.callsStrCtor n = false := by
    unfold callsStrCtor
    cases h : p.called n with
    | none => rfl
    | some f => exact hs f h
  refine ⟨⟨[d], by unfold ctrFlow; rw [hs]; rfl, by simp⟩, ?_⟩
  have : p.ctrEdge n d d' = some .id := by unfold ctrEdge; rw [hs]; rfl
  rw [this, apply_id]

theorem C85_string_constructor {n g f : Nat} {a b : Val} {rest : List Val} {s : String} (hf : p.called n = some f)
    (hs : p.strCtor f = true)
    (hi : p.inst n = .call (a :: b :: rest)) (hb : p.op0 b = some g) (hg : p.init g = some (.str s)) (d d' : Val)
    (v : List (EV P)) :
    (∃ ts, p.ctrFlow n d = some ts ∧ (d' ∈ ts ↔ d' = d ∨ (d = .zero ∧ d' = a))) ∧
    apply (p.ctrEdge n d d') (some v) = some (if d = .zero ∧ d' = a then [.str s] else v) := by
  replace hs : p.callsStrCtor n = true := by unfold callsStrCtor; rw [hf]; exact hs
  have hargs : p.args n = a :: b :: rest := by unfold args; rw [hi]
  refine ⟨⟨if d = .zero then [d, a] else [d], by unfold ctrFlow; rw [hs, hargs]; rfl, ?_⟩, ?_⟩
  · by_cases h : d = .zero <;> simp [h]
  · unfold ctrEdge
    rw [hs, hargs]
    by_cases h : d = .zero ∧ d' = a
    · simp [h, hb, hg, apply, GEF.ap]
    · simp [h, apply, GEF.ap]

/-- A string constructor whose argument is not a string literal: the value is unknown if the argument is a global variable without
initializer; otherwise the new string gets the value of the zero fact. -/
theorem C85_string_unknown {n f : Nat} {a b : Val} {rest : List Val} (hf : p.called n = some f) (hs : p.strCtor f = true)
    (hi : p.inst n = .call (a :: b :: rest)) (hb : ∀ g s, p.op0 b = some g → p.init g ≠ some (.str s)) (d d' : Val)
    (v : List (EV P)) :
    apply (p.ctrEdge n d d') (some v) =
      some (if d = .zero ∧ d' = a ∧ ∃ g, p.op0 b = some g ∧ p.init g = none then [.top] else v) := by
  replace hs : p.callsStrCtor n = true := by unfold callsStrCtor; rw [hf]; exact hs
  have hargs : p.args n = a :: b :: rest := by unfold args; rw [hi]
  unfold ctrEdge
  rw [hs, hargs]
  by_cases h : d = .zero ∧ d' = a
  · cases hg : p.op0 b with
    | none => simp [h, hg, apply, GEF.ap]
    | some g =>
      cases hx : p.init g with
      | none => simp [h, hg, hx, apply, GEF.ap]
      | some y =>
        cases y with
        | str s => exact absurd hx (hb g s hg)
        | _ => simp [h, hg, hx, apply, GEF.ap]
  · have h' : ¬ (d = .zero ∧ d' = a ∧ ∃ g, p.op0 b = some g ∧ p.init g = none) := fun ⟨x, y, _⟩ => h ⟨x, y⟩
    simp [h, h', apply, GEF.ap]

/-- A call of a string constructor adds no fact to the called function. -/
theorem C85_string_callee {n f : Nat} (h : p.strCtor f = true) (d : Val) : p.callFlow n f d = some [] := by
  unfold callFlow; rw [h]; rfl

/-- The seeds: zero, and the global variables that have a constant integer or array as initializer, with "unknown". -/
theorem C85_seeds (d : Val) (v : List (EV P)) : (d, v) ∈ p.seedFacts ↔ v = [.top] ∧
    (d = .zero ∨ ∃ g ∈ p.globals, d = .node g ∧
      ((∃ w x, p.init g = some (.int w x)) ∨ (∃ s, p.init g = some (.str s)) ∨ p.init g = some .data)) := by
  unfold seedFacts
  rw [List.mem_cons, List.mem_map]
  constructor
  · rintro (h | ⟨g, hg, h⟩)
    · cases h; exact ⟨rfl, .inl rfl⟩
    · cases h
      obtain ⟨h1, h2⟩ := List.mem_filter.1 hg
      refine ⟨rfl, .inr ⟨g, h1, rfl, ?_⟩⟩
      split at h2
      · rename_i h; exact .inl ⟨_, _, h⟩
      · rename_i h; exact .inr (.inl ⟨_, h⟩)
      · rename_i h; exact .inr (.inr h)
      · cases h2
  · rintro ⟨rfl, rfl | ⟨g, hg, rfl, h⟩⟩
    · exact .inl rfl
    · refine .inr ⟨g, List.mem_filter.2 ⟨hg, ?_⟩, rfl⟩
      rcases h with ⟨_, _, h⟩ | ⟨_, h⟩ | h <;> rw [h]

/-! ## Constants -/

/-- What the analysis takes for a constant. -/
theorem C85_constant (v : Val) : p.isConstant v = true ↔
    (∃ i, v = .const i ∧ ((∃ w x, p.const i = .int w x) ∨ (∃ x, p.const i = .fp x) ∨ p.const i = .null ∨
      ∃ g b, p.const i = .gep g b true ∧ ((∃ s, p.init g = some (.str s)) ∨ p.init g = some .data))) ∨
    ∃ k g, v = .node k ∧ p.inst k = .gep true (.node g) ∧ p.isGlobal g = true ∧
      ((∃ s, p.init g = some (.str s)) ∨ p.init g = some .data) := by
  have hcda : ∀ g, p.isCDA g = true ↔ ((∃ s, p.init g = some (.str s)) ∨ p.init g = some .data) := by
    intro g
    unfold isCDA
    cases hi : p.init g with
    | none => simp
    | some y => cases y <;> simp
  cases v with
  | zero => simp [isConstant]
  | const i =>
    unfold isConstant
    simp only [Val.const.injEq, exists_eq_left', reduceCtorEq, false_and, exists_false, or_false]
    cases hc : p.const i with
    | gep g b ofInt =>
      simp only [← hcda, Bool.and_eq_true]
      constructor
      · rintro ⟨rfl, h⟩; exact .inr (.inr (.inr ⟨g, b, rfl, h⟩))
      · rintro (⟨_, _, h⟩ | ⟨_, h⟩ | h | ⟨g', b', h, h'⟩) <;> cases h
        exact ⟨rfl, h'⟩
    | _ => simp
  | node k =>
    unfold isConstant
    simp only [reduceCtorEq, false_and, exists_false, false_or, Val.node.injEq]
    simp only [← hcda]
    cases hi : p.inst k with
    | gep ofInt q =>
      cases q with
      | node g =>
        simp only [Bool.and_eq_true]
        constructor
        · rintro ⟨⟨rfl, h2⟩, h3⟩; exact ⟨k, g, rfl, hi, h2, h3⟩
        · rintro ⟨k', g', rfl, h1, h2, h3⟩
          rw [hi] at h1; cases h1; exact ⟨⟨rfl, h2⟩, h3⟩
      | _ => simp [hi]
    | _ => simp [hi]

/-- Integers, floating-point numbers and strings that never change have their value. -/
theorem C85_constant_value {i : Nat} {e : EV P} (h : p.conVal fixed i = some e) :
    p.isConstant (.const i) = true ∧ p.evOf (.const i) = some e := conVal_const h

/-- The value that is taken from an operand, and when the program is stopped instead: at a pointer into a global array that has no string
as initializer and at a constant expression of integer type.  Everything else is unknown. -/
theorem C85_constant_read (v : Val) (e : EV P) :
    (p.evOf v = some e ↔
      (∃ i, v = .const i ∧ ∃ w x, p.const i = .int w x ∧ e = .int w x) ∨
      (∃ i, v = .const i ∧ ∃ x, p.const i = .fp x ∧ e = .fp x) ∨
      (∃ i, v = .const i ∧ p.const i = .null ∧ e = .str "") ∨
      (∃ i, v = .const i ∧ ∃ g b s, p.const i = .gep g b true ∧ p.init g = some (.str s) ∧ e = .str s) ∨
      (e = .top ∧ ∀ i, v = .const i → (∃ g b, p.const i = .gep g b false) ∨ p.const i = .other false)) ∧
    (p.evOf v = none ↔ ∃ i, v = .const i ∧
      (p.const i = .other true ∨ ∃ g b, p.const i = .gep g b true ∧ ∀ s, p.init g ≠ some (.str s))) := by
  cases v with
  | zero => simp [evOf, eq_comm]
  | node k => simp [evOf, eq_comm]
  | const i =>
    unfold evOf
    simp only [Val.const.injEq, exists_eq_left', forall_eq']
    generalize p.const i = c
    cases c with
    | gep g b ofInt =>
      cases ofInt with
      | false => simp [eq_comm]
      | true =>
        simp only [CKind.gep.injEq]
        cases hi : p.init g with
        | none => simp [hi]
        | some y => cases y <;> simp [hi, eq_comm]
    | other isInt => cases isInt <;> simp [eq_comm]
    | int w x =>
      simp only [Option.some.injEq, CKind.int.injEq]
      constructor
      · constructor
        · rintro rfl; exact .inl ⟨_, _, ⟨rfl, .rfl⟩, rfl⟩
        · rintro (⟨_, _, ⟨rfl, h⟩, rfl⟩ | h)
          · cases h; rfl
          · simp at h
      · simp
    | _ => simp [eq_comm]

/-! ## An example

```
int g = 3;
int f(int a) { return a * 2; }
main: store 5, x; y = load x; z = y + 7; r = f(z); store r, g; ret r
```
Statements 0 to 5 are `main`, 6 and 7 `f`; 20 is `g`, 30 is `x`, 31 is `a`. -/

/-- Instructions of the example. -/
def C85.exInst : Nat → Inst
  | 0 => .store (.const 5) (.node 30)
  | 1 => .load (.node 30)
  | 2 => .bin .add (.node 1) (.const 7)
  | 3 => .call [.node 2]
  | 4 => .store (.node 3) (.node 20)
  | 5 => .ret (some (.node 3))
  | 6 => .bin .mul (.node 31) (.const 2)
  | 7 => .ret (some (.node 6))
  | _ => .other

/-- A program with constants named by their value, the function 1 with the parameter 31, and the global variable 20. -/
def C85.prog (rows : List Row) (inst : Nat → Inst) (ini : Init C39.P0) (decl : Nat → Bool := fun _ => false) : GProg C39.P0 where
  inst := inst
  icf := tabICFG rows
  const := fun i => .int 32 (BitVec.ofNat 32 i)
  isGlobal := fun k => k == 20
  init := fun k => if k = 20 then some ini else none
  common := fun _ => false
  globals := [20]
  isPtr := fun _ => false
  params := fun f => if f = 1 then [31] else []
  isDecl := decl
  vararg := fun _ => false
  vaLists := fun _ => []
  strCtor := fun _ => false
  called := fun _ => none
  op0 := fun _ => none
  isMain := fun f => f == 0
  entries := [0]
  max := 2

/-- The example. -/
def C85.ex : GProg C39.P0 := C85.prog
  [{ fn := 0, succs := [1] }, { fn := 0, succs := [2] }, { fn := 0, succs := [3] }, { fn := 0, call := some ([1], [4]) },
    { fn := 0, succs := [5] }, { fn := 0, exit := true }, { fn := 1, succs := [7] }, { fn := 1, exit := true }]
  C85.exInst (.int 32 3)

theorem C85.ex_wfv : C85.ex.icf.WFV := tabICFG_wfv (by decide)

theorem C85.ex_callees {n f : Nat} (h : f ∈ C85.ex.icf.callees n) : n = 3 ∧ f = 1 := by
  by_cases hn : n < 8
  · have : ∀ n < 8, ∀ f ∈ C85.ex.icf.callees n, n = 3 ∧ f = 1 := by decide
    exact this n hn f h
  · have : C85.ex.icf.callees n = [] := by
      show ((tabRow _ n).call.getD ([], [])).1 = []
      rw [tabRow_ge (by simpa using hn)]; rfl
    rw [this] at h; cases h

theorem C85.ex_wf : C85.ex.WF where
  max := by decide
  sub n l r h := by
    simp only [C85.ex, C85.prog, C85.exInst] at h; split at h <;> cases h
  operands n op l r h k hk := by
    simp only [C85.ex, C85.prog, C85.exInst] at h
    split at h <;> cases h <;> rcases hk with hk | hk <;> cases hk <;> decide
  arity n f h := by obtain ⟨rfl, rfl⟩ := C85.ex_callees h; decide
  params f := by
    by_cases h : f = 1
    · subst h; decide
    · have : C85.ex.params f = [] := if_neg h
      rw [this]; exact ⟨.nil, nofun⟩
  noStr n := ⟨rfl, fun _ _ => rfl⟩
  globals g h := by
    have : g = 20 := by simpa [C85.ex, C85.prog] using h
    subst this; rfl
  store n v q h := by
    simp only [C85.ex, C85.prog, C85.exInst] at h; split at h <;> cases h <;> decide

/-- An execution of it, through the call, to the end, with `r` and `g` tracked with the value 24. -/
theorem C85.ex_run : ∃ s t : CState C39.P0, C85.ex.Start s ∧ C85.ex.CSteps (fun _ => true) s t ∧ t.n = 5 ∧ t.stk = [] ∧
    (C85.ex.cell t.loc t.glob 3).tracked = true ∧ (C85.ex.cell t.loc t.glob 3).v = C39.i 24 ∧
    (C85.ex.cell t.loc t.glob 20).tracked = true ∧ (C85.ex.cell t.loc t.glob 20).v = C39.i 24 := by
  let l0 : Nat → Cell C39.P0 := fun _ => ⟨.top, false⟩
  let g0 : Nat → Cell C39.P0 := fun k => if k = 20 then ⟨C39.i 3, true⟩ else ⟨.top, false⟩
  let l1 := gupd l0 30 ⟨C39.i 5, true⟩
  let l2 := gupd l1 1 ⟨C39.i 5, true⟩
  let l3 := gupd l2 2 ⟨C39.i 12, true⟩
  let m0 : Nat → Cell C39.P0 := gupd l0 31 ⟨C39.i 12, true⟩
  let g1 : Nat → Cell C39.P0 := fun k => ⟨(g0 k).v, false⟩
  let m1 := gupd m0 6 ⟨C39.i 24, true⟩
  let l4 := gupd l3 3 ⟨C39.i 24, true⟩
  let g2 := gupd g0 20 ⟨C39.i 24, true⟩
  refine ⟨⟨[], 0, l0, g0⟩, ⟨[], 5, l4, g2⟩, ⟨rfl, by decide, fun _ => rfl, fun k hk _ => ?_⟩, ?_, rfl, rfl, rfl, rfl, rfl, rfl⟩
  · have : k = 20 := by simpa [C85.ex, C85.prog] using hk
    subst this; exact ⟨by decide, rfl⟩
  refine .tail (b := ⟨[], 4, l4, g0⟩) (.tail (b := ⟨[(3, l3, g0)], 7, m1, g1⟩) (.tail (b := ⟨[(3, l3, g0)], 6, m0, g1⟩)
    (.tail (b := ⟨[], 3, l3, g0⟩) (.tail (b := ⟨[], 2, l2, g0⟩) (.tail (b := ⟨[], 1, l1, g0⟩) (.tail (.refl _) ?_) ?_) ?_) ?_) ?_)
    ?_) ?_
  · exact .normal rfl (by decide) (.store (k := 30) (c := ⟨C39.i 5, true⟩) rfl ⟨fun x h => by cases h; rfl, fun _ => rfl⟩)
  · exact .normal rfl (by decide) (.load (k := 30) rfl)
  · exact .normal rfl (by decide) (.bin (op := .add) (l := .node 1) (r := .const 7) (w := 32) (x := 5#32) (y := 7#32)
      (z := 12#32) rfl rfl rfl (show (12#32).toNat = _ by decide))
  · refine .call (f := 1) (as := [.node 2]) rfl rfl (by decide) (by decide) (fun i k a hk ha => ?_) (fun k hk => ?_)
      fun k => ⟨rfl, rfl⟩
    · cases i with
      | zero => cases hk; cases ha; exact ⟨rfl, fun _ => .inl rfl⟩
      | succ i => cases ha
    · by_cases h : k = 31
      · subst h; exact absurd (hk 0 rfl) (by decide)
      · show (gupd l0 31 _ k).tracked = false
        unfold gupd; rw [if_neg h]
  · exact .normal rfl (by decide) (.bin (op := .mul) (l := .node 31) (r := .const 2) (w := 32) (x := 12#32) (y := 2#32)
      (z := 24#32) rfl rfl rfl (show (24#32).toNat = _ by decide))
  · exact .ret (v := some (.node 6)) rfl rfl rfl (by decide) (fun a h => by cases h; exact ⟨rfl, fun _ => .inl rfl⟩) nofun
      fun k => ⟨rfl, fun h => ⟨h, rfl⟩⟩
  · exact .normal rfl (by decide) (.store (k := 20) (v := .node 3) (c := ⟨C39.i 24, true⟩) rfl ⟨rfl, fun _ => .inl rfl⟩)

/-- `C85_sound_partial` on this execution: a run computes 24, or "unknown", for `r`. -/
example : ∃ e, Run C85.ex [] 5 (.node 3) (some [e]) ∧ (e = .top ∨ e = C39.i 24) := by
  obtain ⟨s, t, hs, ht, hn, hstk, h3, hv, _⟩ := C85.ex_run
  have := C85_sound_partial C85.ex_wf C85.ex_wfv hs ht h3
  rwa [hn, hstk, hv] at this

/-- The hypotheses of `C85_result_partial` in the same case: 24 is in the join of all runs. -/
example {Ls : List (List (EV C39.P0))} (hall : ∀ stk v, Run C85.ex stk 5 (.node 20) (some v) → v ∈ Ls) {T : List (EV C39.P0)}
    (hT : joinAll [] Ls = some T) : EV.top ∈ T ∨ C39.i 24 ∈ T := by
  obtain ⟨s, t, hs, ht, hn, _, _, _, h20, hv⟩ := C85.ex_run
  rw [← hv]
  exact C85_result_partial C85.ex_wf C85.ex_wfv hs ht h20 (fun x h => by rw [hv] at h; cases h) (by rw [hn]; exact hall) hT

/-- The flows of the example (`C85_normal`, `C85_callee`, `C85_caller`): the stored constant comes from zero, and `g` stays;
the argument becomes the parameter; the returned variable becomes the result; only zero stays zero on the way out. -/
example : Val.node 30 ∈ zeroed .zero (C85.ex.normalFlow 0) .zero ∧ Val.node 20 ∈ zeroed .zero (C85.ex.normalFlow 0) (.node 20) ∧
    Val.node 30 ∉ zeroed .zero (C85.ex.normalFlow 0) (.node 30) :=
  have h0 : ∀ d, d = Val.zero ∨ d = .node 20 → ∀ v, C85.ex.inst 0 ≠ .store v d := fun d hd v h => by cases h; revert hd; decide
  ⟨(C85_normal 0 _ _ (h0 _ (.inl rfl))).2 (.inr (.storeConst (v := .const 5) rfl rfl)),
    (C85_normal 0 _ _ (h0 _ (.inl rfl))).2 (.inl ⟨rfl, h0 _ (.inr rfl)⟩), by decide⟩
example : Val.node 31 ∈ [Val.node 31] :=
  (C85_callee (p := C85.ex) (n := 3) (f := 1) (d := .node 2) rfl).2
    ⟨rfl, .inr ⟨0, .node 2, rfl, .inl rfl, .inr ⟨fun h => absurd h.1 nofun, 31, rfl, rfl⟩⟩⟩
example : Val.node 3 ∈ [Val.node 3] :=
  (C85_caller (p := C85.ex) (c := 3) (f := 1) (e := 7) (d := .node 6) rfl).2 (.inr (.inl ⟨.node 6, rfl, .inl rfl, rfl⟩))
example : C85.ex.callFlow 3 1 (.node 2) = some [.node 31] ∧ C85.ex.retFlow 3 1 7 (.node 6) = some [.node 3] ∧
    C85.ex.retFlow 3 1 7 .zero = some [] := ⟨rfl, rfl, rfl⟩

/-- The edges of the example: initial value of `g`, stored 5, unchanged `g` later, addition of 7, argument and result. -/
example : apply (C85.ex.normalEdge 0 (.node 20) (.node 20)) (some [.top]) = some [C39.i 3] :=
  C85_edge_initial (e := C39.i 3) rfl rfl rfl rfl rfl nofun _
example : apply (C85.ex.normalEdge 1 (.node 20) (.node 20)) (some [C39.i 3]) = some [C39.i 3] :=
  C85_edge_keep (p := C85.ex) (n := 1) (d := .node 20) (d' := .node 20) nofun (by decide) (fun _ _ _ _ h => by cases h) _
example : apply (C85.ex.normalEdge 1 (.node 30) (.node 1)) (some [C39.i 5]) = some [C39.i 5] :=
  C85_edge_copy (.inl ⟨_, rfl⟩) (fun _ _ h => by cases h) _
example : apply (C85.ex.normalEdge 0 .zero (.node 30)) (some [.top]) = some [C39.i 5] :=
  C85_edge_store (a := .const 5) rfl rfl rfl _
example : apply (C85.ex.normalEdge 2 (.node 1) (.node 2)) (some [C39.i 5]) = some [C39.i 12] := by
  rw [C85_edge_bin (p := C85.ex) (op := .add) (l := .node 1) (r := .const 7) (a := .top) (b := C39.i 7) rfl rfl _ _
    (fun h => by cases h) (fun _ => rfl)]
  decide
example : apply (C85.ex.callEdge 3 (.node 2) 1 (.node 31)) (some [C39.i 12]) = some [C39.i 12] :=
  (C85_edge_call (as := [.node 2]) rfl (by decide) _).1 _ _ nofun
example : apply (C85.ex.retEdge 7 (.node 6)) (some [C39.i 24]) = some [C39.i 24] :=
  (C85_edge_ret (r := some (.node 6)) rfl _ _).trans rfl

/-- The example with a cast of 300 to 8 bits as statement 2, and a call of a string constructor as statement 3. -/
def C85.ex2 : GProg C39.P0 :=
  { C85.ex with
    inst := fun n => if n = 2 then .cast true (some (.integer, 8)) (.node 1) else if n = 3 then .call [.node 30, .const 0] else .other
    called := fun _ => some 1
    strCtor := fun _ => true
    op0 := fun _ => some 20
    init := fun _ => some (.str "abc") }

example : apply (C85.ex2.normalEdge 2 (.node 1) (.node 2)) (some [C39.i 300]) = some [C39.i 44] :=
  (C85_edge_cast (p := C85.ex2) (n := 2) (d := .node 1) (v := [C39.i 300]) (dest := .integer) (bits := 8) (num := true) (q := .node 1) rfl (fun h => by cases h)).trans (by decide)
example : apply (C85.ex2.ctrEdge 3 .zero (.node 30)) (some [.top]) = some [.str "abc"] :=
  (C85_string_constructor (n := 3) (g := 20) (a := .node 30) (b := .const 0) (rest := []) (f := 1) rfl rfl rfl rfl rfl .zero (.node 30) _).2
example : apply (({ C85.ex2 with init := fun _ => none } : GProg C39.P0).ctrEdge 3 .zero (.node 30)) (some [C39.i 1]) = some [.top] :=
  (C85_string_unknown (p := { C85.ex2 with init := fun _ => none }) (n := 3) (f := 1) (a := .node 30) (b := .const 0) (rest := [])
    rfl rfl rfl (fun _ _ _ h => by cases h) _ _ _).trans (by rw [if_pos ⟨rfl, rfl, 20, rfl, rfl⟩])
example : C85.ex.evOf (.const 3) = some (C39.i 3) :=
  ((C85_constant_read (p := C85.ex) (.const 3) _).1).2 (.inl ⟨3, rfl, 32, 3, rfl, rfl⟩)

/-! ## All runs of a finite program -/

/-- Spec: the continuations of a run by one edge. -/
def C85.next (p : GProg P) : List Nat × Nat × Val × Option (List (EV P)) → List (List Nat × Nat × Val × Option (List (EV P)))
  | (stk, n, d, v) =>
    if p.icf.isCall n then
      ((p.icf.callees n).flatMap fun f => (p.icf.starts f).flatMap fun sp =>
        ((p.callFlow n f d).toList.flatMap fun ts => (zeroed .zero (fun _ => ts) d).map fun d' =>
          (n :: stk, sp, d', apply (p.callEdge n d f d') v))) ++
      ((p.icf.retSites n).flatMap fun r => (p.ctrFlow n d).toList.flatMap fun ts =>
        (zeroed .zero (fun _ => ts) d).map fun d' => (stk, r, d', apply (p.ctrEdge n d d') v))
    else
      ((p.icf.succs n).flatMap fun n' => (zeroed .zero (p.normalFlow n) d).map fun d' =>
        (stk, n', d', apply (p.normalEdge n d d') v)) ++
      (if p.icf.isExit n then
        match stk with
        | [] => []
        | c :: rest => (p.icf.retSites c).flatMap fun r => (p.retFlow c (p.icf.funOf n) n d).toList.flatMap fun ts =>
          (zeroed .zero (fun _ => ts) d).map fun d' => (rest, r, d', apply (p.retEdge n d) v)
      else [])

/-- A set that contains the seeds and is closed contains all runs. -/
theorem C85.closed {L : List (List Nat × Nat × Val × Option (List (EV P)))}
    (h0 : ∀ sp ∈ p.entries, ∀ s ∈ p.seedFacts, ([], sp, s.1, some s.2) ∈ L) (h1 : ∀ c ∈ L, ∀ c' ∈ C85.next p c, c' ∈ L)
    {stk : List Nat} {n : Nat} {d : Val} {v : Option (List (EV P))} (h : Run p stk n d v) : (stk, n, d, v) ∈ L := by
  induction h with
  | seed hs hd => exact h0 _ hs _ hd
  | @normal stk n d v n' d' _ hc hn hd ih =>
    refine h1 _ ih _ ?_
    unfold C85.next
    simp only [hc, Bool.false_eq_true, if_false]
    exact List.mem_append_left _ (List.mem_flatMap.2 ⟨n', hn, List.mem_map.2 ⟨d', hd, rfl⟩⟩)
  | @call stk n d v f sp ts d' _ hc hf hsp hts hd ih =>
    refine h1 _ ih _ ?_
    unfold C85.next
    simp only [hc, if_true]
    exact List.mem_append_left _ (List.mem_flatMap.2 ⟨f, hf, List.mem_flatMap.2 ⟨sp, hsp, List.mem_flatMap.2 ⟨ts,
      by rw [hts]; simp, List.mem_map.2 ⟨d', hd, rfl⟩⟩⟩⟩)
  | @ret stk c n d v r ts d' _ hc hex hr hts hd ih =>
    refine h1 _ ih _ ?_
    unfold C85.next
    simp only [hc, hex, Bool.false_eq_true, if_false, if_true]
    exact List.mem_append_right _ (List.mem_flatMap.2 ⟨r, hr, List.mem_flatMap.2 ⟨ts, by rw [hts]; simp,
      List.mem_map.2 ⟨d', hd, rfl⟩⟩⟩)
  | @ctr stk n d v r ts d' _ hc hr hts hd ih =>
    refine h1 _ ih _ ?_
    unfold C85.next
    simp only [hc, if_true]
    exact List.mem_append_right _ (List.mem_flatMap.2 ⟨r, hr, List.mem_flatMap.2 ⟨ts, by rw [hts]; simp,
      List.mem_map.2 ⟨d', hd, rfl⟩⟩⟩)

/-- Spec: everything found by following edges from the seeds, a given number of rounds. -/
def C85.explore (p : GProg C39.P0) : Nat → List (List Nat × Nat × Val × Option (List (EV C39.P0)))
  | 0 => p.entries.flatMap fun sp => p.seedFacts.map fun s => ([], sp, s.1, some s.2)
  | k + 1 => (C85.explore p k ++ (C85.explore p k).flatMap (C85.next p)).eraseDups

/-! ## What is false -/

/-- `int g = 3; void f() { g = 4; } main: f(); y = g`: after the call, every run says that `g` is 3. -/
def C85.glob : GProg C39.P0 := C85.prog
  [{ fn := 0, succs := [1] }, { fn := 0, call := some ([1], [2]) }, { fn := 0, exit := true }, { fn := 1, succs := [4] },
    { fn := 1, exit := true }]
  (fun | 1 => .call [] | 2 => .ret none | 3 => .store (.const 4) (.node 20) | 4 => .ret none | _ => .other) (.int 32 3)

/-- The value of a global variable that a called function changes is reported as before the call: all runs to the statement
after the call give 3 for `g`, and an execution reaches it with 4. -/
theorem C85_global_false : (∀ stk v, Run C85.glob stk 2 (.node 20) v → v = some [C39.i 3]) ∧
    (∃ v, Run C85.glob [] 2 (.node 20) v) ∧
    ∃ s t : CState C39.P0, C85.glob.Start s ∧ C85.glob.CSteps (fun _ => true) s t ∧ t.n = 2 ∧ (t.glob 20).v = C39.i 4 := by
  have hclosed : ∀ {stk n d v}, Run C85.glob stk n d v → (stk, n, d, v) ∈ C85.explore C85.glob 8 :=
    C85.closed (by decide +kernel) (by decide +kernel)
  refine ⟨fun stk v h => ?_, ?_, ?_⟩
  · have key : ∀ c ∈ C85.explore C85.glob 8, c.2.1 = 2 → c.2.2.1 = .node 20 → c.2.2.2 = some [C39.i 3] := by decide +kernel
    exact key _ (hclosed h) rfl rfl
  · have h0 : Run C85.glob [] 0 (.node 20) _ := .seed (by decide) (List.mem_cons_of_mem _ (List.mem_singleton.2 rfl))
    have h1 := Run.normal h0 rfl (n' := 1) (by decide) (d' := .node 20) (by decide)
    exact ⟨_, .ctr h1 rfl (r := 2) (by decide) rfl (d' := .node 20) (by decide)⟩
  · let l0 : Nat → Cell C39.P0 := fun _ => ⟨.top, false⟩
    let g0 : Nat → Cell C39.P0 := fun k => if k = 20 then ⟨C39.i 3, true⟩ else ⟨.top, false⟩
    let g1 : Nat → Cell C39.P0 := fun k => ⟨(g0 k).v, false⟩
    let g2 := gupd g1 20 ⟨C39.i 4, true⟩
    let g3 : Nat → Cell C39.P0 := fun k => ⟨(g2 k).v, false⟩
    let l1 := gupd l0 0 ⟨.top, false⟩
    let l2 := gupd l1 1 ⟨.top, false⟩
    refine ⟨⟨[], 0, l0, g0⟩, ⟨[], 2, l2, g3⟩, ⟨rfl, by decide, fun _ => rfl, fun k hk _ => ?_⟩, ?_, rfl, rfl⟩
    · have : k = 20 := by simpa [C85.glob, C85.prog] using hk
      subst this; exact ⟨by decide, rfl⟩
    refine .tail (b := ⟨[(1, l1, g0)], 4, l0, g2⟩) (.tail (b := ⟨[(1, l1, g0)], 3, l0, g1⟩) (.tail (b := ⟨[], 1, l1, g0⟩)
      (.tail (.refl _) ?_) ?_) ?_) ?_
    · exact .normal rfl (by decide) (.other (.inl rfl))
    · exact .call (f := 1) (as := []) rfl rfl (by decide) (by decide) (fun i k a _ ha => by cases ha) (fun _ _ => rfl)
        fun k => ⟨rfl, rfl⟩
    · exact .normal rfl (by decide) (.store (k := 20) (c := ⟨C39.i 4, true⟩) rfl ⟨fun x h => by cases h; rfl, fun _ => rfl⟩)
    · exact .ret (v := none) rfl rfl rfl (by decide) nofun (fun _ => rfl) fun k => ⟨rfl, nofun⟩

/-- `if (c) x = 5; else x = u;` with an unknown `u`. -/
def C85.merge : GProg C39.P0 := C85.prog
  [{ fn := 0, succs := [1, 2] }, { fn := 0, succs := [3] }, { fn := 0, succs := [3] }, { fn := 0, exit := true }]
  (fun | 1 => .store (.const 5) (.node 30) | 2 => .store (.node 40) (.node 30) | 3 => .ret none | _ => .other) .other

/-- "Unknown" is also the absence of facts: after the branch, all runs say that `x` is 5; it can be 9. -/
theorem C85_merge_false : (∀ stk v, Run C85.merge stk 3 (.node 30) v → v = some [C39.i 5]) ∧
    (∃ v, Run C85.merge [] 3 (.node 30) v) ∧
    ∃ s t : CState C39.P0, C85.merge.Start s ∧ C85.merge.CSteps (fun _ => true) s t ∧ t.n = 3 ∧ (t.loc 30).v = C39.i 9 := by
  have hclosed : ∀ {stk n d v}, Run C85.merge stk n d v → (stk, n, d, v) ∈ C85.explore C85.merge 4 :=
    C85.closed (by decide +kernel) (by decide +kernel)
  refine ⟨fun stk v h => ?_, ?_, ?_⟩
  · have key : ∀ c ∈ C85.explore C85.merge 4, c.2.1 = 3 → c.2.2.1 = .node 30 → c.2.2.2 = some [C39.i 5] := by decide +kernel
    exact key _ (hclosed h) rfl rfl
  · have h0 : Run C85.merge [] 0 .zero _ := .seed (by decide) (List.mem_cons_self ..)
    have h1 := Run.normal h0 rfl (n' := 1) (by decide) (d' := .zero) (by decide)
    exact ⟨_, .normal h1 rfl (n' := 3) (by decide) (d' := .node 30) (by decide)⟩
  · let l0 : Nat → Cell C39.P0 := fun k => ⟨if k = 40 then C39.i 9 else .top, false⟩
    let g0 : Nat → Cell C39.P0 := fun _ => ⟨.top, false⟩
    let l1 := gupd l0 0 ⟨.top, false⟩
    refine ⟨⟨[], 0, l0, g0⟩, ⟨[], 3, gupd l1 30 ⟨C39.i 9, false⟩, g0⟩, ⟨rfl, by decide, fun _ => rfl, nofun⟩, ?_, rfl, rfl⟩
    refine .tail (b := ⟨[], 2, l1, g0⟩) (.tail (.refl _) ?_) ?_
    · exact .normal rfl (by decide) (.other (.inl rfl))
    · exact .normal rfl (by decide) (.store (k := 30) (v := .node 40) (c := ⟨C39.i 9, false⟩) rfl ⟨rfl, nofun⟩)

/-- `loop: a = v + 1` with `v = 5` stored and loaded before. -/
def C85.loop : GProg C39.P0 := C85.prog
  [{ fn := 0, succs := [1] }, { fn := 0, succs := [2] }, { fn := 0, succs := [2, 3] }, { fn := 0, exit := true }]
  (fun | 0 => .store (.const 5) (.node 30) | 1 => .load (.node 30) | 2 => .bin .add (.node 1) (.const 1) | 3 => .ret none
       | _ => .other) .other

/-- Arithmetic in a loop is applied to its own old result: for every `k`, a run gives `6 + k` for `a`, whose value is 6. -/
theorem C85_loop_false (k : Nat) : Run C85.loop [] 2 (.node 2) (some [.int 32 (BitVec.ofNat 32 (6 + k))]) := by
  induction k with
  | zero =>
    have h0 : Run C85.loop [] 0 .zero _ := .seed (by decide) (List.mem_cons_self ..)
    have h1 := Run.normal h0 rfl (n' := 1) (by decide) (d' := .node 30) (by decide)
    have h2 := Run.normal h1 rfl (n' := 2) (by decide) (d' := .node 1) (by decide)
    exact Run.normal h2 rfl (n' := 2) (by decide) (d' := .node 2) (by decide)
  | succ k ih =>
    have := Run.normal ih rfl (n' := 2) (by decide) (d' := .node 2) (by decide)
    have hb : apply (C85.loop.normalEdge 2 (.node 2) (.node 2)) (some [.int 32 (BitVec.ofNat 32 (6 + k))]) =
        some [.int 32 (BitVec.ofNat 32 (6 + (k + 1)))] := by
      rw [C85_edge_bin (p := C85.loop) (n := 2) (op := .add) (l := .node 1) (r := .const 1) (a := .top)
        (b := .int 32 1#32) rfl rfl _ _ (fun h => by cases h) (fun _ => rfl)]
      have h1 : C85.loop.isConstant (.node 1) = false := rfl
      have h2 : C85.loop.isConstant (.const 1) = true := rfl
      simp only [h1, h2, Bool.false_eq_true, false_and, if_false, if_true]
      exact performBinOp_one (a := .int 32 (BitVec.ofNat 32 (6 + k))) (b := .int 32 1#32) (by decide) nofun nofun
        (by simp [binOp1, intOp, ← BitVec.ofNat_add]; congr 1)
    rwa [hb] at this

/-- A call of an external variadic function with one parameter. -/
def C85.printf : GProg C39.P0 :=
  { C85.ex with
    inst := fun n => if n = 3 then .call [.node 2, .const 5] else .other
    vararg := fun _ => true
    isDecl := fun _ => true }

/-- `printf("..", 5)`: the analysis reads the formal parameters of the external variadic function beyond their end. -/
theorem C85_printf_false : C85.printf.callFlow 3 1 .zero = none := rfl

/-- A global array that is no string, e.g. `int a[] = {1, 2}`, which is a seed: at the first statement of `main`, and for
pointers to its elements, the analysis fails an assertion (`getAsCString`). -/
theorem C85_array_false : let p := C85.prog [{ fn := 0, succs := [1] }, { fn := 0, exit := true }] (fun _ => .other) .data
    (Val.node 20, [EV.top]) ∈ p.seedFacts ∧ p.normalEdge 0 (.node 20) (.node 20) = none ∧
    ({ p with const := fun _ => .gep 20 true true } : GProg C39.P0).isConstant (.const 0) = true ∧
    ({ p with const := fun _ => .gep 20 true true } : GProg C39.P0).evOf (.const 0) = none := by
  refine ⟨List.mem_cons_of_mem _ (List.mem_singleton.2 rfl), rfl, rfl, rfl⟩

/-- A pointer into a string, not to its first character, has the whole string as its value; the null pointer is the empty
string. -/
theorem C85_offset_false : let p := C85.prog [{ fn := 0, exit := true }] (fun _ => .other) (.str "abc")
    ({ p with const := fun _ => .gep 20 false true } : GProg C39.P0).evOf (.const 0) = some (.str "abc") ∧
    ({ p with const := fun _ => .null } : GProg C39.P0).isConstant (.const 0) = true ∧
    ({ p with const := fun _ => .null } : GProg C39.P0).evOf (.const 0) = some (.str "") := ⟨rfl, rfl, rfl⟩

/-- A function that is left by an exception (`resume`): the return flow function fails its cast. -/
theorem C85_resume_false : ∃ p : GProg C39.P0, p.icf.isExit 4 = true ∧ ∀ d, p.retFlow 1 1 4 d = none :=
  ⟨{ C85.glob with inst := fun _ => .other }, rfl, fun _ => rfl⟩

/-- `p[0] = 5; q = &p[1]`. -/
def C85.elem : GProg C39.P0 := C85.prog [{ fn := 0, succs := [1] }, { fn := 0, succs := [2] }, { fn := 0, exit := true }]
  (fun | 0 => .store (.const 5) (.node 30) | 1 => .gep true (.node 30) | _ => .ret none) .other

/-- `p[1]` has the value that was stored to `p[0]`: stores through `p` give a fact of `p`, which every address computed from
`p` inherits with its value. -/
theorem C85_element_false : Run C85.elem [] 2 (.node 1) (some [C39.i 5]) := by
  have h0 : Run C85.elem [] 0 .zero _ := .seed (by decide) (List.mem_cons_self ..)
  have h1 := Run.normal h0 rfl (n' := 1) (by decide) (d' := .node 30) (by decide)
  exact Run.normal h1 rfl (n' := 2) (by decide) (d' := .node 1) (by decide)

end GProg
end Phasar.GLCA
