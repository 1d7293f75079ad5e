import Verif.Analysis.IIAFlowExec
/-!
# C74: which labels the instruction interaction analysis reports
-/
set_option linter.unusedSectionVars false
set_option linter.unusedSimpArgs false
namespace Phasar.IIA
open Phasar JoinLat IDE Prog

variable {p : Prog}

/-! ## No fatal errors -/

/-- No edge function that the solver asks for is a fatal error: `getNormalEdgeFunction` has an answer for every pair of facts
that the flow function relates, for every kind of instruction. -/
theorem C74_defined (wf : p.WF) {n n' : Nat} {d d' : Val} (h : d' ∈ p.problem.normalFlow n n' d) : (p.normalEdge n d d').isSome := by
  rcases (normal_iff wf).1 h with ⟨rfl, rfl⟩ | ⟨rfl, s, hf⟩ | ⟨hz, s, hp⟩
  · simp [Prog.normalEdge]
  · rw [fresh_edge wf hf]; rfl
  · obtain ⟨e, h1, _⟩ := pass_edge wf hz hp
    rw [h1]; rfl

/-! ## From chains to results -/

/-- Edge functions without fatal errors whose labels are in `M`. -/
def C74.Small (M : Nat → Prop) (e : EF) : Prop := e = .id ∨ ∃ s, M s ∧ (e = .kill (.set s) ∨ e = .add (.set s))

theorem C74.small (wf : p.WF) {M : Nat → Prop} (h0 : M 0) (hM : ∀ n, M (p.gen n)) : p.problem.OkEdges (C74.Small M) where
  normal := by
    intro n d n' d' _ h
    show C74.Small M ((p.normalEdge n d d').getD .allBottom)
    rcases (normal_iff wf).1 h with ⟨rfl, rfl⟩ | ⟨rfl, s, hf⟩ | ⟨hz, s, hp⟩
    · exact .inl (by simp [Prog.normalEdge])
    · refine .inr ⟨s, ?_, .inl (by rw [fresh_edge wf hf]; rfl)⟩
      cases hf <;> exact hM n
    · obtain ⟨e, h1, h2⟩ := pass_edge wf hz hp
      rcases h2 with rfl | ⟨rfl, _⟩
      · refine .inr ⟨s, ?_, .inr (by rw [h1]; rfl)⟩
        cases hp with
        | keep =>
          unfold Prog.extra
          repeat' split
          · exact hM n
          all_goals exact h0
        | read => exact hM n
        | write => exact hM n
        | branch => exact h0
      · exact .inl (by rw [h1]; rfl)
  call := by
    intro n d g d' _ _
    show C74.Small M (p.callEdge n d d')
    unfold Prog.callEdge
    split
    · exact .inr ⟨0, h0, .inl rfl⟩
    · exact .inl rfl
  ret := by
    intro c g e d r d' _ _
    show C74.Small M (p.retEdge c e d d')
    unfold Prog.retEdge
    repeat' split
    · exact .inr ⟨_, hM e, .inl rfl⟩
    all_goals exact .inl rfl
  ctr := by
    intro n d r d' _ _
    show C74.Small M (p.ctrEdge n d d')
    unfold Prog.ctrEdge
    repeat' split
    · exact .inr ⟨_, hM n, .inl rfl⟩
    · exact .inr ⟨_, hM n, .inr rfl⟩
    · exact .inl rfl
  sum := by intro _ _ _ _ _ _ h; cases h

theorem C74.bot_join (a b : Labels) : joinImpl a b = .bottom ↔ a = .bottom ∨ b = .bottom := by
  cases a <;> cases b <;> simp [joinImpl]

theorem C74.combine_cases {M : Nat → Prop} (hM : ∀ a b, M a → M b → M (a ||| b)) {f g : EF} (hf : C74.Small M f)
    (hg : C74.Small M g) :
    let h := (f.combine g).getD .allBottom
    C74.Small M h ∧
    ∀ x, h.ap x = f.ap x ∨ h.ap x = g.ap x ∨ h.ap x = joinImpl (f.ap x) (g.ap x) := by
  have hka : ∀ (a b : Nat) (x : Labels), joinImpl x (.set (a ||| b)) = joinImpl (.set a) (joinImpl x (.set b)) := by
    intro a b x; cases x <;> simp [joinImpl]
    rw [← Nat.or_assoc, ← Nat.or_assoc, Nat.or_comm a]
  have hak : ∀ (a b : Nat) (x : Labels), joinImpl x (.set (a ||| b)) = joinImpl (joinImpl x (.set a)) (.set b) := by
    intro a b x; cases x <;> simp [joinImpl, Nat.or_assoc]
  have haa : ∀ (a b : Nat) (x : Labels), joinImpl x (.set (a ||| b)) = joinImpl (joinImpl x (.set a)) (joinImpl x (.set b)) := by
    intro a b x
    show join x (join (.set a) (.set b)) = join (join x (.set a)) (join x (.set b))
    rw [join_assoc, ← join_assoc (.set a) x, join_comm (.set a) x, join_assoc x, ← join_assoc x x, join_idem]
  rcases hf with rfl | ⟨a, ha, rfl | rfl⟩ <;> rcases hg with rfl | ⟨b, hb, rfl | rfl⟩ <;> dsimp only
  · exact ⟨.inl rfl, fun x => .inl rfl⟩
  · exact ⟨.inr ⟨_, hb, .inl rfl⟩, fun x => .inr (.inl rfl)⟩
  · exact ⟨.inr ⟨_, hb, .inr rfl⟩, fun x => .inr (.inl rfl)⟩
  · exact ⟨.inr ⟨_, ha, .inl rfl⟩, fun x => .inl rfl⟩
  · rw [comb_kill]; exact ⟨.inr ⟨_, hM _ _ ha hb, .inl rfl⟩, fun x => .inr (.inr rfl)⟩
  · rw [comb_ka]; exact ⟨.inr ⟨_, hM _ _ ha hb, .inr rfl⟩, fun x => .inr (.inr (hka _ _ _))⟩
  · exact ⟨.inr ⟨_, ha, .inr rfl⟩, fun x => .inl rfl⟩
  · rw [comb_ak]; exact ⟨.inr ⟨_, hM _ _ ha hb, .inr rfl⟩, fun x => .inr (.inr (hak _ _ _))⟩
  · rw [comb_add]; exact ⟨.inr ⟨_, hM _ _ ha hb, .inr rfl⟩, fun x => .inr (.inr (haa _ _ _))⟩

theorem C74.extend_cases {M : Nat → Prop} (hM : ∀ a b, M a → M b → M (a ||| b)) {f g : EF} (hf : C74.Small M f)
    (hg : C74.Small M g) :
    let h := (f.extend g).getD .allBottom
    C74.Small M h := by
  rcases hf with rfl | ⟨a, ha, rfl | rfl⟩ <;> rcases hg with rfl | ⟨b, hb, rfl | rfl⟩ <;> dsimp only
  all_goals first
    | exact .inl rfl
    | exact .inr ⟨_, hb, .inl rfl⟩
    | exact .inr ⟨_, hb, .inr rfl⟩
    | exact .inr ⟨_, ha, .inl rfl⟩
    | exact .inr ⟨_, ha, .inr rfl⟩
    | exact .inr ⟨_, hM _ _ ha hb, .inl rfl⟩
    | exact .inr ⟨_, hM _ _ ha hb, .inr rfl⟩

theorem C74.closed {M : Nat → Prop} (hM : ∀ a b, M a → M b → M (a ||| b)) : OkClosed Prog.alg (C74.Small M) where
  ok_id := .inl rfl
  ok_extend := fun _ _ hf hg => C74.extend_cases hM hf hg
  ok_combine := fun _ _ hf hg => (C74.combine_cases hM hf hg).1
  ok_first := by
    rintro f (rfl | ⟨s, hs, rfl | rfl⟩)
    · exact .inl rfl
    · exact .inr ⟨s, hs, .inl rfl⟩
    · exact .inr ⟨s, hs, .inr rfl⟩

/-- The edge functions respect a set of values that is closed under joins, if each of them does. -/
theorem C74.stays {M : Nat → Prop} (hM : ∀ a b, M a → M b → M (a ||| b)) {Q : Labels → Prop}
    (hj : ∀ a b, Q a → Q b → Q (joinImpl a b))
    (hadd : ∀ s, M s → (∀ x, Q (joinImpl x (.set s)) ↔ Q x) ∨ ∀ x, ¬ Q (joinImpl x (.set s))) :
    Prog.alg.StaysIn (fun (_ _ : Val) => C74.Small M) Q where
  ok_id := fun _ => .inl rfl
  ok_extend := fun _ _ _ => (C74.closed hM).ok_extend
  ok_combine := fun _ _ => (C74.closed hM).ok_combine
  ok_first := fun _ _ => (C74.closed hM).ok_first
  ap_id := fun _ => rfl
  extend_eq := by
    rintro _ _ _ f g (rfl | ⟨s, _, rfl | rfl⟩) _ x <;> exact ext_eq _ _ (by simp) x
  combine := by
    intro _ _ f g hf hg x h1 h2
    show Q (((f.combine g).getD .allBottom).ap x)
    rcases (C74.combine_cases hM hf hg).2 x with h | h | h
    · rw [h]; exact h1
    · rw [h]; exact h2
    · rw [h]; exact hj _ _ h1 h2
  first := by
    rintro _ _ f (rfl | ⟨s, _, rfl | rfl⟩) x h <;> exact h
  join := hj
  ap := by
    rintro _ _ f (rfl | ⟨s, hs, rfl | rfl⟩)
    · exact .inr (.inl fun _ => Iff.rfl)
    · by_cases h : Q (.set s)
      · exact .inl fun _ => h
      · exact .inr (.inr fun _ => h)
    · rcases hadd s hs with h | h
      · exact .inr (.inl h)
      · exact .inr (.inr h)

/-- A reported label comes from a chain, or the labels of some chain are unknown. -/
theorem C74.has_of (wf : p.WF) {st : St Nat Val EF} {w : VS Nat Val Labels} (h : Solved p.problem st w) {n : Nat} {x : Val}
    (hx : x ≠ .zero) {l : Labels} (hl : resultAt w n x = some l) {i : Nat} (hi : Has i l) :
    ∃ stk v, p.Prov stk n x v ∧ Has i v := by
  refine Classical.byContradiction fun hno => ?_
  refine C03_stays (Q := fun y => ¬ Has i y) (C74.stays (M := fun _ => True) (fun _ _ _ _ => trivial) ?_ ?_)
    (C74.small wf trivial fun _ => trivial).toFor ?_ wf.icf wf.uniq rfl
    (seedsAtStart wf) noSummary h n x l hl (fun v hv => ?_) hi
  · intro a b ha hb hab
    rcases (has_join i a b).1 hab with h | h
    · exact ha h
    · exact hb h
  · intro s _
    by_cases hs : s.testBit i = true
    · exact .inr fun x hq => hq ((has_join i _ _).2 (.inr (.inr ⟨s, rfl, hs⟩)))
    · refine .inl fun x => ?_
      rw [has_join]
      simp [Has, hs]
  · rintro (h | ⟨_, h, _⟩) <;> cases h
  · obtain ⟨stk, hv⟩ := (runVal_iff wf hx).1 hv
    exact fun hh => hno ⟨stk, v, hv, hh⟩

theorem C74.bot_of (wf : p.WF) {st : St Nat Val EF} {w : VS Nat Val Labels} (h : Solved p.problem st w) {n : Nat} {x : Val}
    (hx : x ≠ .zero) (hl : resultAt w n x = some .bottom) : ∃ stk, p.Prov stk n x .bottom := by
  refine Classical.byContradiction fun hno => ?_
  refine C03_stays (Q := fun y => y ≠ .bottom) (C74.stays (M := fun _ => True) (fun _ _ _ _ => trivial) ?_ ?_)
    (C74.small wf trivial fun _ => trivial).toFor (by intro h; cases h) wf.icf wf.uniq rfl
    (seedsAtStart wf) noSummary h n x .bottom hl (fun v hv => ?_) rfl
  · intro a b ha hb hab
    rcases (C74.bot_join a b).1 hab with h | h
    · exact ha h
    · exact hb h
  · intro s _
    refine .inl fun x => ?_
    rw [ne_eq, C74.bot_join]
    simp
  · obtain ⟨stk, hv⟩ := (runVal_iff wf hx).1 hv
    rintro rfl
    exact hno ⟨stk, hv⟩

theorem C74.top_of (wf : p.WF) {st : St Nat Val EF} {w : VS Nat Val Labels} (h : Solved p.problem st w) {n : Nat} {x : Val}
    (hx : x ≠ .zero) {l : Labels} (hl : resultAt w n x = some l) : ∃ stk v, p.Prov stk n x v := by
  obtain ⟨v, hv⟩ := solved_facts wf.icf wf.uniq rfl (seedsAtStart wf) noSummary h ⟨l, hl⟩
  obtain ⟨stk, hv⟩ := (runVal_iff wf hx).1 hv
  exact ⟨stk, v, hv⟩

/-! ## The theorems -/

/-- C74, precision, for all programs: a value is only reported where a chain of statements brings labels to it; a label is only
reported if a chain brings this label or unknown labels, and unknown labels are only reported if a chain brings unknown labels. -/
theorem C74_precise (wf : p.WF) {st : St Nat Val EF} {w : VS Nat Val Labels} (h : Solved p.problem st w) {n : Nat} {x : Val}
    (hx : x ≠ .zero) {l : Labels} (hl : resultAt w n x = some l) :
    (∃ stk v, p.Prov stk n x v) ∧ (l = .bottom → ∃ stk, p.Prov stk n x .bottom) ∧
    ∀ s i, l = .set s → s.testBit i = true →
      (∃ stk t, p.Prov stk n x (.set t) ∧ t.testBit i = true) ∨ ∃ stk, p.Prov stk n x .bottom := by
  refine ⟨C74.top_of wf h hx hl, fun hb => C74.bot_of wf h hx (hb ▸ hl), fun s i hs hi => ?_⟩
  obtain ⟨stk, v, hv, rfl | ⟨t, rfl, ht⟩⟩ := C74.has_of wf h hx hl (.inr ⟨s, hs, hi⟩)
  · exact .inr ⟨stk, hv⟩
  · exact .inl ⟨stk, t, hv, ht⟩

/-- C74: where unknown and known labels do not meet (`Sep`), the analysis reports exactly what chains of statements bring: a
value is reported if and only if some chain ends in it; its labels are reported as unknown if and only if some chain brings
unknown labels, and otherwise a label is reported if and only if some chain brings it. -/
theorem C74_exact (wf : p.WF) {U : Val → Prop} (hU : p.Sep U) {st : St Nat Val EF} {w : VS Nat Val Labels}
    (h : Solved p.problem st w) (n : Nat) {x : Val} (hx : x ≠ .zero) :
    (resultAt w n x = none ↔ ∀ stk v, ¬ p.Prov stk n x v) ∧
    (resultAt w n x = some .bottom ↔ ∃ stk, p.Prov stk n x .bottom) ∧
    (∀ s, resultAt w n x = some (.set s) → ∀ i, s.testBit i = true ↔ ∃ stk t, p.Prov stk n x (.set t) ∧ t.testBit i = true) ∧
    resultAt w n x ≠ some .top := by
  have above : ∀ {stk v}, p.Prov stk n x v → ∃ l, resultAt w n x = some l ∧ v ⊑ l := fun {stk v} hv =>
    C02_sound_for (alg_sound U) (okEdges wf hU) wf.icf (noTop U) (seedsAtStart wf) h n x v ((runVal_iff wf hx).2 ⟨stk, hv⟩)
  have bot_le : ∀ {l : Labels}, Labels.bottom ⊑ l → l = .bottom := fun {l} h => by
    have : joinImpl .bottom l = l := h
    cases l <;> simp [joinImpl] at this ⊢
  refine ⟨?_, ?_, ?_, ?_⟩
  · rw [Option.eq_none_iff_forall_ne_some]
    constructor
    · intro hn stk v hv
      obtain ⟨l, hl, _⟩ := above hv
      exact hn l hl
    · intro hn l hl
      obtain ⟨stk, v, hv⟩ := C74.top_of wf h hx hl
      exact hn stk v hv
  · refine ⟨C74.bot_of wf h hx, ?_⟩
    rintro ⟨stk, hv⟩
    obtain ⟨l, hl, hle⟩ := above hv
    rw [hl, bot_le hle]
  · intro s hs i
    constructor
    · intro hi
      obtain ⟨stk, v, hv, rfl | ⟨t, rfl, ht⟩⟩ := C74.has_of wf h hx hs (.inr ⟨s, rfl, hi⟩)
      · obtain ⟨l, hl, hle⟩ := above hv
        rw [hs] at hl; cases hl
        cases bot_le hle
      · exact ⟨stk, t, hv, ht⟩
    · rintro ⟨stk, t, hv, ht⟩
      obtain ⟨l, hl, hle⟩ := above hv
      rw [hs] at hl; cases hl
      have : joinImpl (.set t) (.set s) = .set s := hle
      simp only [joinImpl, reduceCtorEq, or_self, if_false, Labels.set.injEq] at this
      rw [← this, Nat.testBit_or, ht, Bool.true_or]
  · intro ht
    obtain ⟨stk, v, hv⟩ := C74.top_of wf h hx ht
    obtain ⟨l, hl, hle⟩ := above hv
    rw [ht] at hl; cases hl
    exact (prov_ne wf hv).2 (eq_top_of_le_top hle)

/-- C74 for executions: in programs without the patterns excluded by `Simple`, every value that exists in an execution is
reported, with every label it has there (or with unknown labels). -/
theorem C74_sound (wf : p.WF) {U : Val → Prop} (hU : p.Sep U) {pick : Nat → List Val → Prop} (hs : p.Simple pick)
    {st : St Nat Val EF} {w : VS Nat Val Labels} (h : Solved p.problem st w) {stk : List (Nat × Shadow)} {n : Nat} {sh : Shadow}
    (he : p.Exec pick ⟨stk, n, sh⟩) {x : Val} {t : Nat} (ht : sh x = some t) :
    resultAt w n x = some .bottom ∨ ∃ s, resultAt w n x = some (.set s) ∧ ∀ i, t.testBit i = true → s.testBit i = true := by
  obtain ⟨⟨v, hv⟩, h2⟩ := (told_exec hs he).2.1 x t ht
  have hx := (prov_ne wf hv).1
  obtain ⟨e1, e2, e3, e4⟩ := C74_exact wf hU h n hx
  cases hr : resultAt w n x with
  | none => exact absurd hv (e1.1 hr _ _)
  | some l =>
    cases l with
    | top => exact absurd hr e4
    | bottom => exact .inl rfl
    | set s =>
      refine .inr ⟨s, rfl, fun i hi => (e3 s hr i).2 ?_⟩
      obtain ⟨v, hv, hb | ⟨t', rfl, hb⟩⟩ := h2 i hi
      · rw [hb] at hv
        rw [e2.2 ⟨_, hv⟩] at hr; cases hr
      · exact ⟨_, t', hv, hb⟩

/-- The result does not depend on the order in which the solver works. -/
theorem C74_order (wf : p.WF) {U : Val → Prop} (hU : p.Sep U) {st st' : St Nat Val EF} {w w' : VS Nat Val Labels}
    (h : Solved p.problem st w) (h' : Solved p.problem st' w') (n : Nat) {x : Val} (hx : x ≠ .zero) :
    resultAt w n x = resultAt w' n x := by
  obtain ⟨a1, a2, a3, a4⟩ := C74_exact wf hU h n hx
  obtain ⟨b1, b2, b3, b4⟩ := C74_exact wf hU h' n hx
  cases hr : resultAt w n x with
  | none => exact (b1.2 (a1.1 hr)).symm
  | some l =>
    cases l with
    | top => exact absurd hr a4
    | bottom => exact (b2.2 (a2.1 hr)).symm
    | set s =>
      cases hr' : resultAt w' n x with
      | none => rw [a1.2 (b1.1 hr')] at hr; cases hr
      | some l' =>
        cases l' with
        | top => exact absurd hr' b4
        | bottom => rw [a2.2 (b2.1 hr')] at hr; cases hr
        | set s' =>
          have : s = s' := Nat.eq_of_testBit_eq fun i => by
            rw [Bool.eq_iff_iff, a3 s hr i, b3 s' hr' i]
          rw [this]

/-! ## Termination -/

/-- Finitely many statements and values occur: `S` contains the starts of the entry points and is closed under the steps, and
`V` contains all values at these statements. -/
structure Prog.Bounded (p : Prog) (S : List Nat) (V : List Val) : Prop where
  entry : ∀ f ∈ p.entries, ∀ sp ∈ p.icf.starts f, sp ∈ S
  succ : ∀ n ∈ S, ∀ n' ∈ p.icf.succs n, n' ∈ S
  ret : ∀ n ∈ S, ∀ r ∈ p.icf.retSites n, r ∈ S
  call : ∀ n ∈ S, ∀ g ∈ p.icf.callees n, ∀ sp ∈ p.icf.starts g, sp ∈ S
  zero : .zero ∈ V
  params : ∀ f ∈ p.entries, ∀ k ∈ p.params f, .arg k ∈ V
  globals : ∀ g ∈ p.globals, .global g ∈ V
  inst : ∀ n ∈ S, .inst n ∈ V
  targets : ∀ n ∈ S, ∀ x ∈ p.targets n, x ∈ V
  branch : ∀ n ∈ S, ∀ c is, p.inst n = .br c is → ∀ k ∈ is, .inst k ∈ V
  formals : ∀ n ∈ S, ∀ g ∈ p.icf.callees n, ∀ k ∈ p.params g, .arg k ∈ V
  args : ∀ n ∈ S, ∀ a ∈ p.args n, a ∈ V

/-- The number of labels below `B` that are missing. -/
def C74.missing (B s : Nat) : Nat := lsum (List.range B) fun i => if s.testBit i then 0 else 1

theorem C74.missing_lt {B s t : Nat} (ht : t < 2 ^ B) (hne : s ||| t ≠ s) :
    C74.missing B (s ||| t) < C74.missing B s := by
  have : ∃ i, (s ||| t).testBit i ≠ s.testBit i := Classical.byContradiction fun hno =>
    hne (Nat.eq_of_testBit_eq fun i => Classical.byContradiction fun h => hno ⟨i, h⟩)
  obtain ⟨i, hi⟩ := this
  rw [Nat.testBit_or] at hi
  have hsi : s.testBit i = false := by cases h : s.testBit i <;> simp [h] at hi ⊢
  have hti : t.testBit i = true := by rw [hsi] at hi; simpa using hi
  have hB : i < B := Classical.byContradiction fun h => by
    rw [Nat.testBit_lt_two_pow (Nat.lt_of_lt_of_le ht (Nat.pow_le_pow_right (by decide) (by omega)))] at hti
    cases hti
  refine lsum_lt _ _ _ (fun j _ => ?_) (List.mem_range.2 hB) ?_
  · rw [Nat.testBit_or]
    cases s.testBit j <;> cases t.testBit j <;> simp
  · rw [Nat.testBit_or, hsi, hti]; simp

theorem C74.missing_le (B s : Nat) : C74.missing B s ≤ B := by
  have := lsum_le (List.range B) (fun i => if s.testBit i then 0 else 1) (fun _ => 1) (fun i _ => by split <;> simp)
  refine Nat.le_trans this ?_
  unfold lsum
  rw [List.map_const', List.sum_replicate_nat, List.length_range, Nat.mul_one]
  exact Nat.le_refl _

/-- The height of the edge functions: the identity, then constants, then additions of labels. -/
def C74.rankE (B : Nat) : EF → Nat
  | .id => 2 * (B + 1)
  | .kill (.set s) => B + 1 + C74.missing B s
  | .add (.set s) => C74.missing B s
  | _ => 0

/-- The height of the values. -/
def C74.rankL (B : Nat) : Labels → Nat
  | .top => B + 2
  | .set s => C74.missing B s + 1
  | .bottom => 0

theorem C74.finite (B : Nat) : Prog.alg.FiniteHeight (C74.Small (· < 2 ^ B)) (C74.rankE B) (2 * (B + 1)) where
  first := by
    rintro f (rfl | ⟨s, _, rfl | rfl⟩)
    · exact Nat.le_refl _
    · show B + 1 + C74.missing B s ≤ _
      have := C74.missing_le B s; omega
    · show C74.missing B s ≤ _
      have := C74.missing_le B s; omega
  next := by
    intro e f he hf h
    have h : (e.combine f).getD .allBottom ≠ e := of_decide_eq_false h
    show C74.rankE B ((e.combine f).getD .allBottom) < _
    rcases he with rfl | ⟨a, ha, rfl | rfl⟩ <;> rcases hf with rfl | ⟨b, hb, rfl | rfl⟩
    · exact absurd rfl h
    · show B + 1 + C74.missing B b < 2 * (B + 1)
      have := C74.missing_le B b; omega
    · show C74.missing B b < 2 * (B + 1)
      have := C74.missing_le B b; omega
    · exact absurd rfl h
    · rw [comb_kill] at h ⊢
      have := C74.missing_lt hb (fun e => h (by rw [e]))
      show B + 1 + C74.missing B (a ||| b) < B + 1 + C74.missing B a
      omega
    · rw [comb_ka] at h ⊢
      show C74.missing B (a ||| b) < B + 1 + C74.missing B a
      have := C74.missing_le B (a ||| b); omega
    · exact absurd rfl h
    · rw [comb_ak] at h ⊢
      exact C74.missing_lt hb (fun e => h (by rw [e]))
    · rw [comb_add] at h ⊢
      exact C74.missing_lt hb (fun e => h (by rw [e]))

/-- Values whose labels are below `B`. -/
def C74.Lt (B : Nat) (l : Labels) : Prop := ∀ s, l = .set s → s < 2 ^ B

theorem C74.lt_join {B : Nat} {a b : Labels} (ha : C74.Lt B a) (hb : C74.Lt B b) : C74.Lt B (joinImpl a b) := by
  intro s
  cases a <;> cases b <;> simp [joinImpl]
  · exact fun h => hb s (by rw [h])
  · exact fun h => ha s (by rw [h])
  · rintro rfl; exact Nat.or_lt_two_pow (ha _ rfl) (hb _ rfl)

theorem C74.prov_lt {B : Nat} (hg : ∀ n, p.gen n < 2 ^ B) (hG : ∀ g, p.genG g < 2 ^ B) {stk : List Nat} {n : Nat} {x : Val}
    {v : Labels} (h : p.Prov stk n x v) : C74.Lt B v := by
  have h0 : (0 : Nat) < 2 ^ B := Nat.two_pow_pos B
  have hset : ∀ {t}, t < 2 ^ B → C74.Lt B (.set t) := by
    rintro t ht s hs; cases hs; exact ht
  induction h with
  | param => exact hset h0
  | glob => exact hset (hG _)
  | fresh _ _ _ h => cases h <;> exact hset (hg _)
  | pass _ _ _ h ih =>
    refine C74.lt_join ih (hset ?_)
    cases h with
    | keep =>
      unfold Prog.extra
      repeat' split
      · exact hg _
      all_goals exact h0
    | read => exact hg _
    | write => exact hg _
    | branch => exact h0
  | toParam _ _ _ _ _ _ _ _ _ ih => exact ih
  | toGlob _ _ _ _ _ _ ih => exact ih
  | toSRet => intro s hs; cases hs
  | toSRetSame => exact hset h0
  | fromRet _ _ _ _ _ ih => exact ih
  | fromConst => exact hset (hg _)
  | fromParam _ _ _ _ _ _ ih => exact ih
  | fromGlob _ _ _ _ _ ih => exact ih
  | over _ _ _ _ ih =>
    split
    · exact C74.lt_join ih (hset (hg _))
    · exact ih
  | heapNew => exact hset (hg _)
  | unknown => intro s hs; cases hs

/-- The solver terminates on programs with finitely many statements, values and labels, although the lattice of label sets has
infinite height. -/
theorem C74_terminates (wf : p.WF) {S : List Nat} {V : List Val} (hb : p.Bounded S V) {B : Nat} (hg : ∀ n, p.gen n < 2 ^ B)
    (hG : ∀ g, p.genG g < 2 ^ B) : ∃ fuel st w, solve p.problem fuel = some (st, w) := by
  have hM : ∀ a b : Nat, a < 2 ^ B → b < 2 ^ B → a ||| b < 2 ^ B := fun _ _ => Nat.or_lt_two_pow
  have hok := C74.small (M := (· < 2 ^ B)) wf (Nat.two_pow_pos B) hg
  refine (C05_terminates_values (C74.closed hM) hok wf.icf wf.uniq rfl (seedsAtStart wf) noSummary (C74.finite B)
    (C74.stays (Q := C74.Lt B) hM (fun _ _ => C74.lt_join) ?_) hok.toFor ?_ ?_ (rankL := C74.rankL B) ?_
    (S.flatMap fun n => V.map fun x => (n, x)) ?_).2.2
  · refine fun s hs => .inl fun x => ⟨?_, fun hx => C74.lt_join hx (by intro t ht; cases ht; exact hs)⟩
    intro h t ht
    subst ht
    have := h (t ||| s) (by simp [joinImpl])
    exact Nat.lt_of_le_of_lt Nat.left_le_or this
  · intro s hs; cases hs
  · intro n d x hr
    by_cases hz : d = .zero
    · obtain ⟨n0, d0, v0, stk, h0, h⟩ := hr
      obtain ⟨rfl, _⟩ := (prov_of_run wf h0 h).1 hz
      intro s hs; cases hs
    · obtain ⟨stk, hv⟩ := (runVal_iff wf hz).1 hr
      exact C74.prov_lt hg hG hv
  · intro a b ha hb' h'
    have h : joinImpl a b ≠ a := h'
    clear h'
    show C74.rankL B (joinImpl a b) < _
    cases a <;> cases b <;> simp [joinImpl] at h ⊢
    · show C74.missing B _ + 1 < B + 2
      have := C74.missing_le B; rename_i s; have := this s; omega
    · show 0 < B + 2; omega
    · rename_i s t
      show C74.missing B (s ||| t) + 1 < C74.missing B s + 1
      have := C74.missing_lt (hb' _ rfl) h
      omega
    · show 0 < _ + 1; omega
  · intro n d hr
    obtain ⟨v, n0, d0, v0, stk, h0, hr⟩ := factReachable_iff.2 hr
    have key : ∀ a : Cfg Nat Val Labels, RSteps p.problem ⟨[], n0, d0, v0⟩ a → a.n ∈ S ∧ a.d ∈ V ∧ ∀ x ∈ a.stk, x ∈ S := by
      intro a ha
      induction ha with
      | refl =>
        obtain ⟨f, hf, hn, h⟩ := isSeed_iff.1 h0
        refine ⟨hb.entry f hf _ hn, ?_, fun x hx => by simp at hx⟩
        rcases h with ⟨rfl, _⟩ | ⟨k, hk, rfl, _⟩ | ⟨g, hg, rfl, _⟩
        · exact hb.zero
        · exact hb.params f hf k hk
        · exact hb.globals g hg
      | tail _ h2 ih =>
        obtain ⟨i1, i2, i3⟩ := ih
        cases h2 with
        | normal _ h4 h5 =>
          refine ⟨hb.succ _ i1 _ h4, ?_, i3⟩
          rcases (normal_iff wf).1 h5 with ⟨rfl, rfl⟩ | ⟨rfl, s, hf⟩ | ⟨hz, s, hp⟩
          · exact hb.zero
          · cases hf with
            | alloca => exact hb.inst _ i1
            | store _ _ hy => exact hb.targets _ i1 _ hy
          · cases hp with
            | keep => exact i2
            | read => exact hb.inst _ i1
            | write _ _ hy => exact hb.targets _ i1 _ hy
            | branch _ hi hk => exact hb.branch _ i1 _ _ hi _ hk
        | call _ h4 _ h5 h6 =>
          refine ⟨hb.call _ i1 _ h4 _ h5, ?_, fun x hx => ?_⟩
          · rcases (call_iff wf).1 h6 with ⟨rfl, rfl⟩ | ⟨rfl, he, hs, k, ks, hk, rfl⟩ | ⟨hz, he, ⟨rfl, _⟩ | ⟨i, k, h1, _, _, _, rfl⟩⟩
            · exact hb.zero
            · exact hb.formals _ i1 _ h4 _ (by rw [hk]; exact List.mem_cons_self)
            · exact i2
            · exact hb.formals _ i1 _ h4 _ (List.mem_of_getElem? h1)
          · rcases List.mem_cons.1 hx with rfl | hx
            · exact i1
            · exact i3 _ hx
        | ret _ _ h5 h6 =>
          have hc := i3 _ List.mem_cons_self
          refine ⟨hb.ret _ hc _ h5, ?_, fun x hx => i3 _ (List.mem_cons_of_mem _ hx)⟩
          rcases (ret_iff wf).1 h6 with ⟨rfl, rfl⟩ | ⟨rfl, rfl, rv, h1, h2⟩ | ⟨hz, ⟨rfl, _⟩ | ⟨i, k, _, h2, rfl⟩ | ⟨_, rfl⟩⟩
          · exact hb.zero
          · exact hb.inst _ hc
          · exact i2
          · exact hb.args _ hc _ (List.mem_of_getElem? h2)
          · exact hb.inst _ hc
        | callToRet _ h4 h5 =>
          refine ⟨hb.ret _ i1 _ h4, ?_, i3⟩
          rcases ctr_iff.1 h5 with ⟨rfl, rfl⟩ | ⟨rfl, rfl, _⟩ | ⟨hz, rfl, _⟩
          · exact hb.zero
          · exact hb.inst _ i1
          · exact i2
        | summary _ _ h => cases h
    obtain ⟨h1, h2, _⟩ := key _ hr
    exact List.mem_flatMap.2 ⟨n, h1, List.mem_map.2 ⟨d, h2, rfl⟩⟩

/-! ## Examples and counterexamples -/

/-- A program given by tables; statement `n` has the label `n`, global variable `g` the label `64 + g`. -/
def C74.prog (rows : List Row) (insts : List Inst) : Prog where
  icf := tabICFG rows
  inst := fun n => insts[n]?.getD (.op [])
  params := fun _ => []
  decl := fun _ => false
  heap := fun _ => false
  voidRet := fun _ => false
  sretFn := fun _ => false
  sretCall := fun _ => false
  pts := fun _ => []
  gen := fun n => if n < 64 then 2 ^ n else 0
  genG := fun g => if g < 64 then 2 ^ (64 + g) else 0
  globals := []
  entries := [0]
  syntactic := false
  indirect := false

/-- No operand is the zero value. -/
def C74.instOk : Inst → Bool
  | .load ptr => ptr != .zero
  | .store v ptr => v != .zero && ptr != .zero
  | .br c _ => c != .zero
  | .call as => !as.contains .zero
  | .ret (some v) => v != .zero
  | _ => true

theorem C74.wf {rows : List Row} {insts : List Inst} (h : (tabOk rows && insts.all C74.instOk) = true) {p : Prog}
    (h1 : p.icf = tabICFG rows) (h2 : p.inst = fun n => insts[n]?.getD (.op [])) (h3 : ∀ n, Val.zero ∉ p.pts n) : p.WF := by
  rw [Bool.and_eq_true, List.all_eq_true] at h
  have hok : ∀ n, C74.instOk (p.inst n) = true := by
    intro n
    rw [h2]
    cases hn : insts[n]? with
    | none => simp [hn, C74.instOk]
    | some i => simpa [hn] using h.2 i (List.mem_of_getElem? hn)
  refine ⟨h1 ▸ tabICFG_wfv h.1, h1 ▸ tabICFG_unique rows, ?_, h3, ?_, ?_, ?_, ?_⟩
  · intro n
    have := hok n
    unfold Prog.args
    split
    · rename_i hi; rw [hi] at this; simpa [C74.instOk] using this
    · simp
  · intro n ptr hi
    have := hok n
    rw [hi] at this; simpa [C74.instOk] using this
  · intro n v ptr hi
    have := hok n
    rw [hi] at this; simpa [C74.instOk] using this
  · intro n c is hi
    have := hok n
    rw [hi] at this; simpa [C74.instOk] using this
  · intro n v hi
    have := hok n
    unfold Prog.retVal at hi
    split at hi
    · rename_i hi'; subst hi; rw [hi'] at this; simpa [C74.instOk] using this
    · cases hi

/-- Decides `Sep` for a list of values and a program whose statements are below `N`. -/
def C74.sepOk (p : Prog) (N : Nat) (us : List Val) : Bool :=
  (List.range N).all fun n =>
    (!p.icf.isCall n ||
      ((p.heapCall n || !p.onlyDecls n || p.allVoid n || us.contains (.inst n)) && (!p.heapCall n || !us.contains (.inst n)) &&
       (p.icf.callees n).all fun g =>
        ((p.params g).zip (p.args n)).all (fun x => us.contains x.2 == us.contains (.arg x.1)) &&
        (p.heap g || p.decl g || !p.sretCall n || (p.params g).head?.all fun k =>
          ((p.args n).head? != some (.arg k)) == us.contains (.arg k)) &&
        (List.range N).all fun e => !(p.icf.isExit e && p.icf.funOf e == g) || (p.retVal e).all fun rv =>
          (us.contains rv == us.contains (.inst n)) && (!rv.isData || !us.contains (.inst n)))) &&
    (match p.inst n with
      | .alloca => !us.contains (.inst n)
      | .store v _ => (p.targets n).all fun y => !us.contains y || (us.contains v && !v.isData)
      | .br c is => !p.indirect || is.all fun k => k == n || us.contains c == us.contains (.inst k)
      | _ => true) &&
    (p.icf.isCall n || !us.contains (.inst n) || (p.reads n).all us.contains)

theorem C74.sep {p : Prog} {N : Nat} {us : List Val} (hus : ∀ n, .inst n ∈ us → n < N)
    (hout : ∀ n, N ≤ n → p.icf.isCall n = false ∧ p.icf.isExit n = false ∧ p.inst n = .op []) (h : C74.sepOk p N us = true) :
    p.Sep (· ∈ us) := by
  have hn : ∀ n, n < N → _ := fun n hn => List.all_eq_true.1 h n (List.mem_range.2 hn)
  have hlt : ∀ n, (p.icf.isCall n = true ∨ p.icf.isExit n = true ∨ p.inst n ≠ .op []) → n < N := by
    intro n hq
    refine Classical.byContradiction fun hN => ?_
    obtain ⟨h1, h2, h3⟩ := hout n (by omega)
    rcases hq with hq | hq | hq
    · rw [h1] at hq; cases hq
    · rw [h2] at hq; cases hq
    · exact hq h3
  have hcall : ∀ n, p.icf.isCall n = true → _ := fun n hc => by
    have := hn n (hlt n (.inl hc))
    rw [Bool.and_eq_true, Bool.and_eq_true, hc] at this
    exact this.1.1
  refine ⟨?_, ?_, ?_, ?_, ?_, ?_, ?_, ?_, ?_⟩
  · intro n hc ho
    have := hcall n hc
    simp only [Bool.not_true, Bool.false_or, Bool.and_eq_true, ho.1, ho.2.1, ho.2.2] at this
    simpa using this.1.1
  · intro n hc hh
    have := hcall n hc
    simp only [Bool.not_true, Bool.false_or, Bool.and_eq_true, hh] at this
    simpa using this.1.2
  · intro n hi
    have := hn n (hlt n (.inr (.inr (by rw [hi]; simp))))
    rw [Bool.and_eq_true, Bool.and_eq_true, hi] at this
    simpa using this.1.2
  · intro n x hc hr hu
    have := hn n (hus n hu)
    rw [Bool.and_eq_true, hc] at this
    have := this.2
    simp only [Bool.false_or, Bool.or_eq_true, Bool.not_eq_true', List.contains_eq_mem, decide_eq_false_iff_not,
      List.all_eq_true, decide_eq_true_eq] at this
    exact (this.resolve_left fun h => h hu) x hr
  · intro n v ptr y hi hy hu
    have := hn n (hlt n (.inr (.inr (by rw [hi]; simp))))
    rw [Bool.and_eq_true, Bool.and_eq_true, hi] at this
    have := List.all_eq_true.1 this.1.2 y hy
    simp only [Bool.or_eq_true, Bool.not_eq_true', List.contains_eq_mem, decide_eq_false_iff_not, Bool.and_eq_true,
      decide_eq_true_eq] at this
    exact this.resolve_left fun h => h hu
  · intro n c is k hd hi hk hne
    have := hn n (hlt n (.inr (.inr (by rw [hi]; simp))))
    rw [Bool.and_eq_true, Bool.and_eq_true, hi] at this
    have := this.1.2
    simp only [hd, Bool.not_true, Bool.false_or, List.all_eq_true] at this
    have := this k hk
    simp only [Bool.or_eq_true, beq_iff_eq, List.contains_eq_mem, decide_eq_decide] at this
    exact this.resolve_left hne
  · intro n g i k x hc hg h1 h2
    have := hcall n hc
    simp only [Bool.not_true, Bool.false_or, Bool.and_eq_true] at this
    have := (List.all_eq_true.1 this.2 g hg)
    rw [Bool.and_eq_true, Bool.and_eq_true] at this
    have := List.all_eq_true.1 this.1.1 (k, x) (List.mem_of_getElem? (i := i) (by rw [List.getElem?_zip_eq_some]; exact ⟨h1, h2⟩))
    simpa using this
  · intro n g k ks hc hg he hs hk
    have := hcall n hc
    simp only [Bool.not_true, Bool.false_or, Bool.and_eq_true] at this
    have := (List.all_eq_true.1 this.2 g hg)
    rw [Bool.and_eq_true, Bool.and_eq_true] at this
    have := this.1.2
    simp only [he.1, he.2, hs, hk, Bool.not_true, Bool.false_or, List.head?_cons, Option.all_some] at this
    have := eq_of_beq this
    rw [Bool.eq_iff_iff] at this
    simpa using this
  · intro c e rv hc hg hx hr
    have := hcall c hc
    simp only [Bool.not_true, Bool.false_or, Bool.and_eq_true] at this
    have := (List.all_eq_true.1 this.2 _ hg)
    rw [Bool.and_eq_true] at this
    have := List.all_eq_true.1 this.2 e (List.mem_range.2 (hlt e (.inr (.inl hx))))
    simp only [hx, beq_self_eq_true, Bool.and_self, Bool.not_true, Bool.false_or, hr, Option.all_some, Bool.and_eq_true,
      Bool.or_eq_true, Bool.not_eq_true', List.contains_eq_mem, beq_iff_eq, decide_eq_decide, decide_eq_false_iff_not] at this
    exact ⟨this.1, fun hd => this.2.resolve_left (by rw [hd]; simp)⟩

theorem C74.out {rows : List Row} {insts : List Inst} {N : Nat} (h : (decide (rows.length ≤ N) && decide (insts.length ≤ N)) = true)
    {p : Prog} (h1 : p.icf = tabICFG rows) (h2 : p.inst = fun n => insts[n]?.getD (.op [])) (n : Nat) (hn : N ≤ n) :
    p.icf.isCall n = false ∧ p.icf.isExit n = false ∧ p.inst n = .op [] := by
  rw [Bool.and_eq_true, decide_eq_true_eq, decide_eq_true_eq] at h
  rw [h1, h2]
  have := tabRow_ge (rows := rows) (n := n) (by omega)
  refine ⟨by simp [tabICFG, this], by simp [tabICFG, this], ?_⟩
  show insts[n]?.getD (.op []) = _
  rw [List.getElem?_eq_none (by omega)]; rfl

/-- Instructions read all their operands. -/
def C74.allOps (p : Prog) (n : Nat) (os : List Val) : Prop := os = p.operands n ∧ os ≠ []

/-- Decides `Simple` for a program whose statements are below `N`. -/
def C74.simpleOk (p : Prog) (N : Nat) : Bool :=
  (List.range N).all fun n =>
    (match p.inst n with
      | .op ops => ops.isEmpty || (!ops.contains (.inst n) && ops.any fun o => !o.isConst)
      | .load ptr => (p.pts n).all fun y => y == ptr
      | .store v ptr => ((p.pts n).all fun y => y == ptr) && v != ptr && (match v with | .other _ => false | _ => true)
      | .ret (some (.other _)) => false
      | _ => true) &&
    (!p.icf.isCall n || ((p.args n).all fun a => !a.isConst) &&
      ((p.icf.callees n).all fun g => (!p.heap g && !p.decl g) || p.onlyDecls n || p.heapCall n))

theorem C74.simple {p : Prog} {N : Nat}
    (hout : ∀ n, N ≤ n → p.icf.isCall n = false ∧ p.icf.isExit n = false ∧ p.inst n = .op []) (hcal : ∀ n, p.icf.isCall n = false →
      p.icf.callees n = []) (hs : (∀ n, p.sretCall n = false) ∧ ∀ g, p.sretFn g = false)
    (h : C74.simpleOk p N = true) : p.Simple (C74.allOps p) := by
  have hn : ∀ n, n < N → _ := fun n hn => List.all_eq_true.1 h n (List.mem_range.2 hn)
  have hlt : ∀ n, (p.icf.isCall n = true ∨ p.inst n ≠ .op []) → n < N := by
    intro n hq
    refine Classical.byContradiction fun hN => ?_
    obtain ⟨h1, h2, h3⟩ := hout n (by omega)
    rcases hq with hq | hq
    · rw [h1] at hq; cases hq
    · exact hq h3
  refine ⟨?_, ?_, ?_, ?_, ?_, hs, ?_⟩
  · rintro n ops os hi ⟨rfl, hne⟩
    have ho : p.operands n = ops := by simp [Prog.operands, hi]
    rw [ho] at hne ⊢
    have := hn n (hlt n (.inr (by rw [hi]; simpa using hne)))
    rw [Bool.and_eq_true, hi] at this
    have := this.1
    simp only [Bool.or_eq_true, List.isEmpty_iff, hne, false_or, Bool.and_eq_true, Bool.not_eq_true', List.contains_eq_mem,
      decide_eq_false_iff_not, List.any_eq_true] at this
    exact ⟨fun _ h => h, this.1, this.2⟩
  · intro n
    refine ⟨fun ptr hi _ y hy => ?_, fun v ptr hi _ y hy => ?_⟩
    · have := hn n (hlt n (.inr (by rw [hi]; simp)))
      rw [Bool.and_eq_true, hi] at this
      exact eq_of_beq (List.all_eq_true.1 this.1 y hy)
    · have := hn n (hlt n (.inr (by rw [hi]; simp)))
      rw [Bool.and_eq_true, hi] at this
      have := this.1
      simp only [Bool.and_eq_true] at this
      exact eq_of_beq (List.all_eq_true.1 this.1.1 y hy)
  · intro n v ptr hi
    have := hn n (hlt n (.inr (by rw [hi]; simp)))
    rw [Bool.and_eq_true, hi] at this
    have := this.1
    simp only [Bool.and_eq_true, bne_iff_ne] at this
    refine ⟨this.1.2, ?_⟩
    rintro k rfl
    cases this.2
  · intro e k hr
    unfold Prog.retVal at hr
    split at hr
    · rename_i v hi
      subst hr
      have := hn e (hlt e (.inr (by rw [hi]; simp)))
      rw [Bool.and_eq_true, hi] at this
      cases this.1
    · cases hr
  · intro n hc a ha
    have := hn n (hlt n (.inl hc))
    rw [Bool.and_eq_true, hc] at this
    have := this.2
    simp only [Bool.not_true, Bool.false_or, Bool.and_eq_true] at this
    simpa using List.all_eq_true.1 this.1 a ha
  · intro n g hg hne
    have hc : p.icf.isCall n = true := Classical.byContradiction fun hc => by
      rw [hcal n (by simpa using hc)] at hg; simp at hg
    have := hn n (hlt n (.inl hc))
    rw [Bool.and_eq_true, hc] at this
    have := this.2
    simp only [Bool.not_true, Bool.false_or, Bool.and_eq_true] at this
    have := List.all_eq_true.1 this.2 g hg
    simp only [Bool.or_eq_true, Bool.and_eq_true, Bool.not_eq_true'] at this
    rcases this with (h | h) | h
    · exact absurd h hne
    · exact .inl h
    · exact .inr h

theorem C74.callees (rows : List Row) (n : Nat) (h : (tabICFG rows).isCall n = false) : (tabICFG rows).callees n = [] := by
  simp only [tabICFG, Option.isSome_eq_false_iff, Option.isNone_iff_eq_none] at h ⊢
  rw [h]; rfl

/-- What is reported in an example, in whatever order the solver works. -/
theorem C74.result {p : Prog} (wf : p.WF) {U : Val → Prop} (hU : p.Sep U) {n : Nat} {x : Val} (hx : x ≠ .zero) {r : Option Labels}
    (h : (solve p.problem 300).map (fun y => resultAt y.2 n x) = some r) :
    (∃ st w, Solved p.problem st w) ∧ ∀ st w, Solved p.problem st w → resultAt w n x = r := by
  obtain ⟨⟨st', w'⟩, h4, rfl⟩ := Option.map_eq_some_iff.1 h
  exact ⟨⟨st', w', solve_sound h4⟩, fun st w h => C74_order wf hU h (solve_sound h4) n hx⟩

/-- `main(a0) { 0: a = alloca; 1: store a0, a; 2: b = load a; 3: c = b + 1; 4: x = f(c); 5: store x, a; 6: ret }`,
`f(a1) { 7: d = a1 + a1; 8: ret d }`. -/
def C74.rows1 : List Row :=
  [{ fn := 0, succs := [1] }, { fn := 0, succs := [2] }, { fn := 0, succs := [3] }, { fn := 0, succs := [4] },
   { fn := 0, call := some ([1], [5]) }, { fn := 0, succs := [6] }, { fn := 0, exit := true },
   { fn := 1, succs := [8] }, { fn := 1, exit := true }]

/-- The instructions of the first example. -/
def C74.insts1 : List Inst :=
  [.alloca, .store (.arg 0) (.inst 0), .load (.inst 0), .op [.inst 2, .data 0], .call [.inst 3], .store (.inst 4) (.inst 0),
   .ret none, .op [.arg 1, .arg 1], .ret (some (.inst 7))]

/-- The first example. -/
def C74.ex1 : Prog := { C74.prog C74.rows1 C74.insts1 with params := fun f => if f = 0 then [0] else if f = 1 then [1] else [] }

theorem C74.ex1_wf : C74.ex1.WF := C74.wf (rows := C74.rows1) (insts := C74.insts1) (by decide +kernel) rfl rfl (fun _ => by simp [C74.ex1, C74.prog])

theorem C74.ex1_sep : C74.ex1.Sep (· ∈ []) :=
  C74.sep (N := 9) (fun _ h => by simp at h) (C74.out (rows := C74.rows1) (insts := C74.insts1) (by decide) rfl rfl) (by decide +kernel)

theorem C74.ex1_simple : C74.ex1.Simple (C74.allOps C74.ex1) :=
  C74.simple (N := 9) (C74.out (rows := C74.rows1) (insts := C74.insts1) (by decide) rfl rfl) (C74.callees C74.rows1)
    ⟨fun _ => rfl, fun _ => rfl⟩ (by decide +kernel)

theorem C74.ex1_bounded : C74.ex1.Bounded (List.range 9) (.zero :: .arg 0 :: .arg 1 :: (List.range 9).map .inst) := by
  have hS : ∀ n, n ∈ List.range 9 → n = 0 ∨ n = 1 ∨ n = 2 ∨ n = 3 ∨ n = 4 ∨ n = 5 ∨ n = 6 ∨ n = 7 ∨ n = 8 := by
    intro n hn; rw [List.mem_range] at hn; omega
  refine ⟨?_, ?_, ?_, ?_, by simp, ?_, ?_, ?_, ?_, ?_, ?_, ?_⟩
  · intro f hf sp hsp
    cases List.mem_singleton.1 hf
    cases List.mem_singleton.1 (show sp ∈ [0] from hsp)
    decide
  · intro n hn
    rcases hS n hn with rfl | rfl | rfl | rfl | rfl | rfl | rfl | rfl | rfl <;> decide +kernel
  · intro n hn
    rcases hS n hn with rfl | rfl | rfl | rfl | rfl | rfl | rfl | rfl | rfl <;> decide +kernel
  · intro n hn
    rcases hS n hn with rfl | rfl | rfl | rfl | rfl | rfl | rfl | rfl | rfl <;> decide +kernel
  · intro f hf
    cases List.mem_singleton.1 hf
    decide +kernel
  · decide
  · decide +kernel
  · intro n hn
    rcases hS n hn with rfl | rfl | rfl | rfl | rfl | rfl | rfl | rfl | rfl <;> decide +kernel
  · intro n hn c is hi
    rcases hS n hn with rfl | rfl | rfl | rfl | rfl | rfl | rfl | rfl | rfl <;> cases hi
  · intro n hn
    rcases hS n hn with rfl | rfl | rfl | rfl | rfl | rfl | rfl | rfl | rfl <;> decide +kernel
  · intro n hn
    rcases hS n hn with rfl | rfl | rfl | rfl | rfl | rfl | rfl | rfl | rfl <;> decide +kernel

theorem C74.gen_lt (rows : List Row) (insts : List Inst) (n : Nat) : (C74.prog rows insts).gen n < 2 ^ 128 := by
  show (if n < 64 then 2 ^ n else 0) < 2 ^ 128
  split
  · exact Nat.pow_lt_pow_right (by decide) (by omega)
  · decide

theorem C74.genG_lt (rows : List Row) (insts : List Inst) (g : Nat) : (C74.prog rows insts).genG g < 2 ^ 128 := by
  show (if g < 64 then 2 ^ (64 + g) else 0) < 2 ^ 128
  split
  · exact Nat.pow_lt_pow_right (by decide) (by omega)
  · decide

/-- The hypotheses of `C74_exact`, `C74_sound`, `C74_order`, `C74_precise` and `C74_terminates` hold of the first example.  At
the end the variable has the labels of the first store, the load, both additions and the second store; the argument of the call
has those of the first store, the load, the first addition and the call. -/
example : C74.ex1.WF ∧ C74.ex1.Sep (· ∈ []) ∧ C74.ex1.Simple (C74.allOps C74.ex1) ∧ (∃ S V, C74.ex1.Bounded S V) ∧
    (∀ n, C74.ex1.gen n < 2 ^ 128) ∧ (∀ g, C74.ex1.genG g < 2 ^ 128) ∧ (∃ st w, Solved C74.ex1.problem st w) ∧
    ∀ st w, Solved C74.ex1.problem st w → resultAt w 6 (.inst 0) = some (.set (2 ^ 1 + 2 ^ 2 + 2 ^ 3 + 2 ^ 5 + 2 ^ 7)) ∧
      resultAt w 6 (.inst 3) = some (.set (2 ^ 1 + 2 ^ 2 + 2 ^ 3 + 2 ^ 4)) := by
  have h1 := C74.result C74.ex1_wf C74.ex1_sep (n := 6) (x := .inst 0) (by simp)
    (r := some (.set (2 ^ 1 + 2 ^ 2 + 2 ^ 3 + 2 ^ 5 + 2 ^ 7))) (by decide +kernel)
  have h2 := C74.result C74.ex1_wf C74.ex1_sep (n := 6) (x := .inst 3) (by simp)
    (r := some (.set (2 ^ 1 + 2 ^ 2 + 2 ^ 3 + 2 ^ 4))) (by decide +kernel)
  exact ⟨C74.ex1_wf, C74.ex1_sep, C74.ex1_simple, ⟨_, _, C74.ex1_bounded⟩, C74.gen_lt C74.rows1 C74.insts1, C74.genG_lt C74.rows1 C74.insts1, h1.1,
    fun st w h => ⟨h1.2 st w h, h2.2 st w h⟩⟩

/-- A flow of the first example, for `C74_defined`: the store in statement 1. -/
example : (Val.inst 0) ∈ C74.ex1.problem.normalFlow 1 2 (.arg 0) ∧ C74.ex1.normalEdge 1 (.arg 0) (.inst 0) = some (.add (.set 2)) := by
  decide +kernel

/-- An execution of the first example that reaches the end, for `C74_sound`; the labels are those reported. -/
example : ∃ sh, C74.ex1.Exec (C74.allOps C74.ex1) ⟨[], 6, sh⟩ ∧ sh (.inst 0) = some (2 ^ 1 + 2 ^ 2 + 2 ^ 3 + 2 ^ 5 + 2 ^ 7) ∧
    sh (.inst 3) = some (2 ^ 1 + 2 ^ 2 + 2 ^ 3 + 2 ^ 4) := by
  have e0 : C74.ex1.Exec (C74.allOps C74.ex1) ⟨[], 0, _⟩ := .start (f := 0) (by decide) (by decide)
  have e1 := e0.normal (n' := 1) (by decide) (by decide) (.alloca rfl)
  have e2 := e1.normal (n' := 2) (by decide) (by decide) (.store (v := .arg 0) (ptr := .inst 0) rfl (.inl ⟨0, rfl, rfl⟩) rfl)
  have e3 := e2.normal (n' := 3) (by decide) (by decide) (.load (ptr := .inst 0) rfl (.inl ⟨0, rfl, rfl⟩) rfl)
  have e4 := e3.normal (n' := 4) (by decide) (by decide) (.op (os := [.inst 2, .data 0]) rfl ⟨rfl, by simp⟩ (by decide))
  have e5 := e4.enter (g := 1) (sp := 7) (by decide) (by decide) (by decide) ⟨rfl, rfl⟩
  have e6 := e5.normal (n' := 8) (by decide) (by decide) (.op (os := [.arg 1, .arg 1]) rfl ⟨rfl, by simp⟩ (by decide))
  have e7 := e6.ret (r := 5) (by decide) (by decide) (by decide)
  have e8 := e7.normal (n' := 6) (by decide) (by decide) (.store (v := .inst 4) (ptr := .inst 0) rfl (.inl ⟨0, rfl, rfl⟩) rfl)
  exact ⟨_, e8, by decide, by decide⟩

/-- `C74_terminates` for the first example. -/
example : ∃ fuel s w, solve C74.ex1.problem fuel = some (s, w) :=
  (C74_terminates C74.ex1_wf C74.ex1_bounded (C74.gen_lt C74.rows1 C74.insts1) (C74.genG_lt C74.rows1 C74.insts1))

/-- `main(a0) { 0: a = alloca; 1: store a0, a; 2: b = load a; 3: c = load a; 4: f(b, c); 5: ret }`, `f(a1, a2) { 6: d = a1 + a1;
7: ret d }`: each parameter gets the labels of its own argument. -/
example : (solve (Prog.problem { C74.prog
      [{ fn := 0, succs := [1] }, { fn := 0, succs := [2] }, { fn := 0, succs := [3] }, { fn := 0, succs := [4] },
       { fn := 0, call := some ([1], [5]) }, { fn := 0, exit := true }, { fn := 1, succs := [7] }, { fn := 1, exit := true }]
      [.alloca, .store (.arg 0) (.inst 0), .load (.inst 0), .load (.inst 0), .call [.inst 2, .inst 3], .ret none,
       .op [.arg 1, .arg 1], .ret (some (.inst 6))]
    with params := fun f => if f = 0 then [0] else if f = 1 then [1, 2] else [] }) 300).map
      (fun y => [resultAt y.2 7 (.arg 1), resultAt y.2 7 (.arg 2), resultAt y.2 5 (.inst 4)]) =
    some [some (.set (2 ^ 1 + 2 ^ 2)), some (.set (2 ^ 1 + 2 ^ 3)), some (.set (2 ^ 1 + 2 ^ 2 + 2 ^ 6))] := by
  decide +kernel

/-- `0: x = malloc(); 1: ret` has the label of the call, but not if the call has another callee (`Callees.size() == 1`). -/
example (cs : List Nat) (h : cs = [1] ∨ cs = [1, 2] ∨ cs = [2, 1]) :
    (solve (Prog.problem { C74.prog [{ fn := 0, call := some (cs, [1]) }, { fn := 0, exit := true }] [.call [], .ret none]
      with heap := fun f => f == 1, decl := fun f => f != 0 }) 300).map (fun y => resultAt y.2 1 (.inst 0)) =
    some (some (if cs.length = 1 then .set (2 ^ 0) else .bottom)) := by
  rcases h with rfl | rfl | rfl <;> decide +kernel

/-! ## What is not reported -/

/-- `0: y = ext(a0); 1: a = alloca; 2: store y, a; 3: ret`. -/
def C74.rows2 : List Row :=
  [{ fn := 0, call := some ([1], [1]) }, { fn := 0, succs := [2] }, { fn := 0, succs := [3] }, { fn := 0, exit := true }]

/-- Its instructions. -/
def C74.insts2 : List Inst := [.call [.arg 0], .alloca, .store (.inst 0) (.inst 1), .ret none]

/-- The result of a library function, stored in a variable. -/
def C74.ex2 : Prog :=
  { C74.prog C74.rows2 C74.insts2 with params := fun f => if f = 0 then [0] else [], decl := fun f => f == 1 }

/-- The result of a call of a library function should have the label of the call, like the argument; it is reported as unknown
(`:598-600` generates it from zero, and `:880-932` has no edge function for that), and so is everything computed from it.  (The
set `U` of `C74_exact` is not empty here.) -/
theorem C74_opaque_false : ∃ (p : Prog) (U : Val → Prop), p.WF ∧ p.Sep U ∧ U (.inst 0) ∧ p.Simple (C74.allOps p) ∧
    (∃ sh, p.Exec (C74.allOps p) ⟨[], 3, sh⟩ ∧ sh (.inst 0) = some (2 ^ 0) ∧ sh (.inst 1) = some (2 ^ 0 + 2 ^ 2) ∧
      sh (.arg 0) = some (2 ^ 0)) ∧
    (∃ st w, Solved p.problem st w) ∧ ∀ st w, Solved p.problem st w → resultAt w 3 (.inst 0) = some .bottom ∧
      resultAt w 3 (.inst 1) = some .bottom ∧ resultAt w 3 (.arg 0) = some (.set (2 ^ 0)) := by
  have wf : C74.ex2.WF := C74.wf (rows := C74.rows2) (insts := C74.insts2) (by decide +kernel) rfl rfl (fun _ => by simp [C74.ex2, C74.prog])
  have hout := C74.out (rows := C74.rows2) (insts := C74.insts2) (p := C74.ex2) (N := 4) (by decide) rfl rfl
  have hs : C74.ex2.Sep (· ∈ [.inst 0]) := C74.sep (N := 4) (fun n h => by simp at h; omega) hout (by decide +kernel)
  have h0 := C74.result wf hs (n := 3) (x := .inst 0) (by simp) (r := some .bottom) (by decide +kernel)
  have h1 := C74.result wf hs (n := 3) (x := .inst 1) (by simp) (r := some .bottom) (by decide +kernel)
  have h2 := C74.result wf hs (n := 3) (x := .arg 0) (by simp) (r := some (.set (2 ^ 0))) (by decide +kernel)
  refine ⟨C74.ex2, _, wf, hs, List.mem_singleton.2 rfl,
    C74.simple hout (C74.callees C74.rows2) ⟨fun _ => rfl, fun _ => rfl⟩ (by decide +kernel), ?_, h0.1,
    fun st w h => ⟨h0.2 st w h, h1.2 st w h, h2.2 st w h⟩⟩
  have e0 : C74.ex2.Exec (C74.allOps C74.ex2) ⟨[], 0, _⟩ := .start (f := 0) (by decide) (by decide)
  have e1 := e0.lib (g := 1) (r := 1) (by decide) (by decide) (fun h => by cases h.2) (by decide)
  have e2 := e1.normal (n' := 2) (by decide) (by decide) (.alloca rfl)
  have e3 := e2.normal (n' := 3) (by decide) (by decide) (.store (v := .inst 0) (ptr := .inst 1) rfl (.inl ⟨1, rfl, rfl⟩) rfl)
  exact ⟨_, e3, by decide, by decide, by decide⟩

/-- `0: x = phi of constants; 1: ret`. -/
def C74.ex3 : Prog := C74.prog [{ fn := 0, succs := [1] }, { fn := 0, exit := true }] [.op [.data 0, .data 1], .ret none]

/-- An instruction whose operands are all constants has its own label but is not reported: nothing is generated from zero
(`:455-459`). -/
theorem C74_constop_false : ∃ p : Prog, p.WF ∧ p.Sep (· ∈ []) ∧
    (∃ sh, p.Exec (C74.allOps p) ⟨[], 1, sh⟩ ∧ sh (.inst 0) = some (2 ^ 0)) ∧
    (∃ st w, Solved p.problem st w) ∧ ∀ st w, Solved p.problem st w → resultAt w 1 (.inst 0) = none := by
  have wf : C74.ex3.WF := C74.wf (by decide +kernel) rfl rfl (fun _ => by simp [C74.ex3, C74.prog])
  have hs : C74.ex3.Sep (· ∈ []) := C74.sep (N := 2) (fun n h => by simp at h) (C74.out (by decide) rfl rfl) (by decide +kernel)
  refine ⟨C74.ex3, wf, hs, ?_, C74.result wf hs (by simp) (by decide +kernel)⟩
  have e0 : C74.ex3.Exec (C74.allOps C74.ex3) ⟨[], 0, _⟩ := .start (f := 0) (by decide) (by decide)
  have e1 := e0.normal (n' := 1) (by decide) (by decide) (.op (os := [.data 0, .data 1]) rfl ⟨rfl, by simp⟩ (by decide))
  exact ⟨_, e1, by decide⟩

/-- `main(a0) { 0: a = alloca; 1: b = alloca; 2: store a0, a; 3: store 7, b; 4: ret }`, where the alias information says that the
pointer of the second store may point to both. -/
def C74.ex4 : Prog :=
  { C74.prog [{ fn := 0, succs := [1] }, { fn := 0, succs := [2] }, { fn := 0, succs := [3] }, { fn := 0, succs := [4] },
      { fn := 0, exit := true }]
      [.alloca, .alloca, .store (.arg 0) (.inst 0), .store (.data 0) (.inst 1), .ret none] with
    params := fun f => if f = 0 then [0] else []
    pts := fun n => if n = 3 then [.inst 0, .inst 1] else [] }

/-- A store deletes the labels of everything it may write ("Here, we are unsound!", `:365`): what it did not write loses its
labels and gets the label of the store. -/
theorem C74_alias_false : ∃ p : Prog, p.WF ∧ p.Sep (· ∈ []) ∧
    (∃ sh, p.Exec (C74.allOps p) ⟨[], 4, sh⟩ ∧ sh (.inst 0) = some (2 ^ 2) ∧ sh (.inst 1) = some (2 ^ 3)) ∧
    (∃ st w, Solved p.problem st w) ∧ ∀ st w, Solved p.problem st w → resultAt w 4 (.inst 0) = some (.set (2 ^ 3)) := by
  have wf : C74.ex4.WF := C74.wf
    (rows := [{ fn := 0, succs := [1] }, { fn := 0, succs := [2] }, { fn := 0, succs := [3] }, { fn := 0, succs := [4] },
      { fn := 0, exit := true }])
    (insts := [.alloca, .alloca, .store (.arg 0) (.inst 0), .store (.data 0) (.inst 1), .ret none])
    (by decide +kernel) rfl rfl (fun n => by simp only [C74.ex4]; split <;> simp)
  have hs : C74.ex4.Sep (· ∈ []) := C74.sep (N := 5) (fun n h => by simp at h) (C74.out
    (rows := [{ fn := 0, succs := [1] }, { fn := 0, succs := [2] }, { fn := 0, succs := [3] }, { fn := 0, succs := [4] },
      { fn := 0, exit := true }])
    (insts := [.alloca, .alloca, .store (.arg 0) (.inst 0), .store (.data 0) (.inst 1), .ret none]) (by decide) rfl rfl)
    (by decide +kernel)
  refine ⟨C74.ex4, wf, hs, ?_, C74.result wf hs (by simp) (by decide +kernel)⟩
  have e0 : C74.ex4.Exec (C74.allOps C74.ex4) ⟨[], 0, _⟩ := .start (f := 0) (by decide) (by decide)
  have e1 := e0.normal (n' := 1) (by decide) (by decide) (.alloca rfl)
  have e2 := e1.normal (n' := 2) (by decide) (by decide) (.alloca rfl)
  have e3 := e2.normal (n' := 3) (by decide) (by decide) (.store (v := .arg 0) (ptr := .inst 0) rfl (.inl ⟨0, rfl, rfl⟩) rfl)
  have e4 := e3.normal (n' := 4) (by decide) (by decide) (.store (v := .data 0) (ptr := .inst 1) rfl (.inl ⟨1, rfl, rfl⟩) rfl)
  exact ⟨_, e4, by decide, by decide⟩

/-- `0: a = alloca; 1: store @f, a; 2: ret`. -/
def C74.ex5 : Prog :=
  C74.prog [{ fn := 0, succs := [1] }, { fn := 0, succs := [2] }, { fn := 0, exit := true }]
    [.alloca, .store (.other 0) (.inst 0), .ret none]

/-- A variable in which a function or a constant expression is stored is not reported any more: only `ConstantData` is generated from
zero (`:378-382`), while the edge function is prepared for every constant (`:684-692`). -/
theorem C74_function_false : ∃ p : Prog, p.WF ∧ p.Sep (· ∈ []) ∧
    (∃ sh, p.Exec (C74.allOps p) ⟨[], 2, sh⟩ ∧ sh (.inst 0) = some (2 ^ 1)) ∧
    p.normalEdge 1 .zero (.inst 0) = some (.kill (.set (2 ^ 1))) ∧
    (∃ st w, Solved p.problem st w) ∧ ∀ st w, Solved p.problem st w → resultAt w 2 (.inst 0) = none := by
  have wf : C74.ex5.WF := C74.wf (by decide +kernel) rfl rfl (fun _ => by simp [C74.ex5, C74.prog])
  have hs : C74.ex5.Sep (· ∈ []) := C74.sep (N := 3) (fun n h => by simp at h) (C74.out (by decide) rfl rfl) (by decide +kernel)
  refine ⟨C74.ex5, wf, hs, ?_, by decide, C74.result wf hs (by simp) (by decide +kernel)⟩
  have e0 : C74.ex5.Exec (C74.allOps C74.ex5) ⟨[], 0, _⟩ := .start (f := 0) (by decide) (by decide)
  have e1 := e0.normal (n' := 1) (by decide) (by decide) (.alloca rfl)
  have e2 := e1.normal (n' := 2) (by decide) (by decide) (.store (v := .other 0) (ptr := .inst 0) rfl (.inl ⟨0, rfl, rfl⟩) rfl)
  exact ⟨_, e2, by decide⟩

/-- `main { 0: f(7); 1: ret }`, `f(a0) { 2: x = a0 + a0; 3: ret }`. -/
def C74.ex6 : Prog :=
  { C74.prog [{ fn := 0, call := some ([1], [1]) }, { fn := 0, exit := true }, { fn := 1, succs := [3] }, { fn := 1, exit := true }]
      [.call [.data 0], .ret none, .op [.arg 0, .arg 0], .ret none] with
    params := fun f => if f = 1 then [0] else [] }

/-- A parameter that is only given constants is not reported, nor is what is computed from it: no fact is generated for it at the
call (`:497-508`). -/
theorem C74_constarg_false : ∃ p : Prog, p.WF ∧ p.Sep (· ∈ []) ∧
    (∃ shc sh, p.Exec (C74.allOps p) ⟨[(0, shc)], 3, sh⟩ ∧ sh (.inst 2) = some (2 ^ 2)) ∧
    (∃ st w, Solved p.problem st w) ∧ ∀ st w, Solved p.problem st w → resultAt w 3 (.inst 2) = none := by
  have wf : C74.ex6.WF := C74.wf
    (rows := [{ fn := 0, call := some ([1], [1]) }, { fn := 0, exit := true }, { fn := 1, succs := [3] }, { fn := 1, exit := true }])
    (insts := [.call [.data 0], .ret none, .op [.arg 0, .arg 0], .ret none])
    (by decide +kernel) rfl rfl (fun _ => by simp [C74.ex6, C74.prog])
  have hs : C74.ex6.Sep (· ∈ []) := C74.sep (N := 4) (fun n h => by simp at h) (C74.out
    (rows := [{ fn := 0, call := some ([1], [1]) }, { fn := 0, exit := true }, { fn := 1, succs := [3] }, { fn := 1, exit := true }])
    (insts := [.call [.data 0], .ret none, .op [.arg 0, .arg 0], .ret none]) (by decide) rfl rfl) (by decide +kernel)
  refine ⟨C74.ex6, wf, hs, ?_, C74.result wf hs (by simp) (by decide +kernel)⟩
  have e0 : C74.ex6.Exec (C74.allOps C74.ex6) ⟨[], 0, _⟩ := .start (f := 0) (by decide) (by decide)
  have e1 := e0.enter (g := 1) (sp := 2) (by decide) (by decide) (by decide) ⟨rfl, rfl⟩
  have e2 := e1.normal (n' := 3) (by decide) (by decide) (.op (os := [.arg 0, .arg 0]) rfl ⟨rfl, by simp⟩ (by decide))
  exact ⟨_, _, e2, by decide⟩

/-- `main { 0: a = alloca; 1: f(a); 2: ret }`, `f(sret a0) { 3: ret }`. -/
def C74.ex7 : Prog :=
  { C74.prog [{ fn := 0, succs := [1] }, { fn := 0, call := some ([1], [2]) }, { fn := 0, exit := true }, { fn := 1, exit := true }]
      [.alloca, .call [.inst 0], .ret none, .ret none] with
    params := fun f => if f = 1 then [0] else [], sretFn := fun f => f == 1, sretCall := fun n => n == 1 }

/-- The memory for a returned structure should start without labels ("\\x.{}" from zero, `:818-846`).  The attribute is looked for
among the arguments of the call, which are then compared with the parameter: the edge function is the identity, and the parameter
is reported as unknown. -/
theorem C74_sret_false : ∃ p : Prog, p.WF ∧ (.arg 0) ∈ p.callFlow 1 1 .zero ∧ p.sretCall 1 = true ∧
    (p.args 1).head? = some (.inst 0) ∧ p.callEdge 1 .zero (.arg 0) = .id ∧ p.callEdge 1 .zero (.inst 0) = .kill (.set 0) ∧
    ∃ st w, Solved p.problem st w ∧ resultAt w 3 (.arg 0) = some .bottom := by
  have wf : C74.ex7.WF := C74.wf
    (rows := [{ fn := 0, succs := [1] }, { fn := 0, call := some ([1], [2]) }, { fn := 0, exit := true }, { fn := 1, exit := true }])
    (insts := [.alloca, .call [.inst 0], .ret none, .ret none])
    (by decide +kernel) rfl rfl (fun _ => by simp [C74.ex7, C74.prog])
  have h : (solve C74.ex7.problem 300).map (fun y => resultAt y.2 3 (.arg 0)) = some (some .bottom) := by decide +kernel
  obtain ⟨⟨st, w⟩, h4, h5⟩ := Option.map_eq_some_iff.1 h
  exact ⟨C74.ex7, wf, by decide +kernel, rfl, rfl, by decide, by decide, st, w, solve_sound h4, h5⟩

/-- `main { 0: y = ext(); 1: z = f(y); 2: ret }`, `f(a0) { 3: br a0, 4, 5; 4: ret 7; 5: ret a0 }`. -/
def C74.ex8 : Prog :=
  { C74.prog [{ fn := 0, call := some ([2], [1]) }, { fn := 0, call := some ([1], [2]) }, { fn := 0, exit := true },
      { fn := 1, succs := [4, 5] }, { fn := 1, exit := true }, { fn := 1, exit := true }]
      [.call [], .call [.inst 0], .ret none, .br (.arg 0) [], .ret (some (.data 0)), .ret (some (.arg 0))] with
    params := fun f => if f = 1 then [0] else [], decl := fun f => f == 2 }

/-- Without the separation of `C74_exact` labels are lost: the join of the identity with a constant edge function is the constant one
(`C37_combine_false`).  The result of the second call is either a constant or the result of a library function; it is reported
with the label of the constant alone. -/
theorem C74_meet_false : ∃ p : Prog, p.WF ∧ p.Simple (C74.allOps p) ∧
    (∃ sh, p.Exec (C74.allOps p) ⟨[], 2, sh⟩ ∧ sh (.inst 1) = some (2 ^ 0)) ∧
    ∃ st w, Solved p.problem st w ∧ resultAt w 2 (.inst 1) = some (.set (2 ^ 4)) := by
  have hout := C74.out (p := C74.ex8) (N := 6)
    (rows := [{ fn := 0, call := some ([2], [1]) }, { fn := 0, call := some ([1], [2]) }, { fn := 0, exit := true },
      { fn := 1, succs := [4, 5] }, { fn := 1, exit := true }, { fn := 1, exit := true }])
    (insts := [.call [], .call [.inst 0], .ret none, .br (.arg 0) [], .ret (some (.data 0)), .ret (some (.arg 0))])
    (by decide) rfl rfl
  have wf : C74.ex8.WF := C74.wf
    (rows := [{ fn := 0, call := some ([2], [1]) }, { fn := 0, call := some ([1], [2]) }, { fn := 0, exit := true },
      { fn := 1, succs := [4, 5] }, { fn := 1, exit := true }, { fn := 1, exit := true }])
    (insts := [.call [], .call [.inst 0], .ret none, .br (.arg 0) [], .ret (some (.data 0)), .ret (some (.arg 0))])
    (by decide +kernel) rfl rfl (fun _ => by simp [C74.ex8, C74.prog])
  have h : (solve C74.ex8.problem 300).map (fun y => resultAt y.2 2 (.inst 1)) = some (some (.set (2 ^ 4))) := by decide +kernel
  obtain ⟨⟨st, w⟩, h4, h5⟩ := Option.map_eq_some_iff.1 h
  refine ⟨C74.ex8, wf, C74.simple hout (C74.callees _) ⟨fun _ => rfl, fun _ => rfl⟩ (by decide +kernel), ?_, st, w, solve_sound h4, h5⟩
  have e0 : C74.ex8.Exec (C74.allOps C74.ex8) ⟨[], 0, _⟩ := .start (f := 0) (by decide) (by decide)
  have e1 := e0.lib (g := 2) (r := 1) (by decide) (by decide) (fun h => by cases h.2) (by decide)
  have e2 := e1.enter (g := 1) (sp := 3) (by decide) (by decide) (by decide) ⟨rfl, rfl⟩
  have e3 := e2.normal (n' := 5) (by decide) (by decide) (.br rfl)
  have e4 := e3.ret (r := 2) (by decide) (by decide) (by decide)
  exact ⟨_, e4, by decide⟩

/-- `main { 0: z = call of ext or f; 1: ret }`, `f { 2: ret 7 }`. -/
def C74.ex9 : Prog :=
  { C74.prog [{ fn := 0, call := some ([1, 2], [1]) }, { fn := 0, exit := true }, { fn := 2, exit := true }]
      [.call [], .ret none, .ret (some (.data 0))] with
    decl := fun f => f == 1 }

/-- If a call has library functions and functions with a body among its possible callees, the library functions are forgotten: the
label of the call does not come to the result (`:594-612`). -/
theorem C74_mixed_false : ∃ p : Prog, p.WF ∧ p.Sep (· ∈ []) ∧
    (∃ sh, p.Exec (C74.allOps p) ⟨[], 1, sh⟩ ∧ sh (.inst 0) = some (2 ^ 0)) ∧
    (∃ st w, Solved p.problem st w) ∧ ∀ st w, Solved p.problem st w → resultAt w 1 (.inst 0) = some (.set (2 ^ 2)) := by
  have wf : C74.ex9.WF := C74.wf
    (rows := [{ fn := 0, call := some ([1, 2], [1]) }, { fn := 0, exit := true }, { fn := 2, exit := true }])
    (insts := [.call [], .ret none, .ret (some (.data 0))])
    (by decide +kernel) rfl rfl (fun _ => by simp [C74.ex9, C74.prog])
  have hs : C74.ex9.Sep (· ∈ []) := C74.sep (N := 3) (fun n h => by simp at h) (C74.out
    (rows := [{ fn := 0, call := some ([1, 2], [1]) }, { fn := 0, exit := true }, { fn := 2, exit := true }])
    (insts := [.call [], .ret none, .ret (some (.data 0))]) (by decide) rfl rfl) (by decide +kernel)
  refine ⟨C74.ex9, wf, hs, ?_, C74.result wf hs (by simp) (by decide +kernel)⟩
  have e0 : C74.ex9.Exec (C74.allOps C74.ex9) ⟨[], 0, _⟩ := .start (f := 0) (by decide) (by decide)
  have e1 := e0.lib (g := 1) (r := 1) (by decide) (by decide) (fun h => by cases h.2) (by decide)
  exact ⟨_, e1, by decide⟩

/-- `main(a0) { 0: z = call of a function pointer (a0); 1: x = z + z; 2: ret }`, no callee is known. -/
def C74.ex10 : Prog :=
  { C74.prog [{ fn := 0, call := some ([], [1]) }, { fn := 0, succs := [2] }, { fn := 0, exit := true }]
      [.call [.arg 0], .op [.inst 0, .inst 0], .ret none] with
    params := fun f => if f = 0 then [0] else [] }

/-- A call without known callees has no result: neither it nor what is computed from it is reported, while the argument gets the label
of the call. -/
theorem C74_unresolved_false : ∃ p : Prog, p.WF ∧ p.Sep (· ∈ []) ∧ p.icf.isCall 0 = true ∧ p.icf.callees 0 = [] ∧
    (∃ st w, Solved p.problem st w) ∧ ∀ st w, Solved p.problem st w → resultAt w 1 (.inst 0) = none ∧ resultAt w 2 (.inst 1) = none ∧
      resultAt w 2 (.arg 0) = some (.set (2 ^ 0)) := by
  have wf : C74.ex10.WF := C74.wf
    (rows := [{ fn := 0, call := some ([], [1]) }, { fn := 0, succs := [2] }, { fn := 0, exit := true }])
    (insts := [.call [.arg 0], .op [.inst 0, .inst 0], .ret none])
    (by decide +kernel) rfl rfl (fun _ => by simp [C74.ex10, C74.prog])
  have hs : C74.ex10.Sep (· ∈ []) := C74.sep (N := 3) (fun n h => by simp at h) (C74.out
    (rows := [{ fn := 0, call := some ([], [1]) }, { fn := 0, succs := [2] }, { fn := 0, exit := true }])
    (insts := [.call [.arg 0], .op [.inst 0, .inst 0], .ret none]) (by decide) rfl rfl) (by decide +kernel)
  have h0 := C74.result wf hs (n := 1) (x := .inst 0) (by simp) (r := none) (by decide +kernel)
  have h1 := C74.result wf hs (n := 2) (x := .inst 1) (by simp) (r := none) (by decide +kernel)
  have h2 := C74.result wf hs (n := 2) (x := .arg 0) (by simp) (r := some (.set (2 ^ 0))) (by decide +kernel)
  exact ⟨C74.ex10, wf, hs, by decide, by decide, h0.1, fun st w h => ⟨h0.2 st w h, h1.2 st w h, h2.2 st w h⟩⟩

end Phasar.IIA
