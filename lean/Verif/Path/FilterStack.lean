import Verif.Path.FilterLemmas
/-!
# Lemmas about the call stack
-/
namespace Phasar.PathFilter
open Phasar Dag
set_option linter.unusedSectionVars false

variable {N C : Type} [DecidableEq N] {p : Prog N}

theorem directLoop_iff (p : Prog N) (succ : N) : ∀ (r : List N) (of : N), directLoop p succ of r = true ↔ Direct p succ of r := by
  intro r
  induction r with
  | nil =>
    intro of
    simp only [directLoop, List.contains_iff_mem]
    exact ⟨.last, fun h => by cases h; assumption⟩
  | cons nxt r ih =>
    intro of
    unfold directLoop
    by_cases h1 : nxt = succ
    · subst h1; simp only [if_true, true_iff]; exact .here
    · rw [if_neg h1]
      cases h2 : p.isTerm nxt with
      | true =>
        simp only [if_true, List.contains_iff_mem]
        refine ⟨.jump h2, fun h => ?_⟩
        cases h with
        | here => exact absurd rfl h1
        | skip h3 => rw [h2] at h3; cases h3
        | jump _ h3 => exact h3
      | false =>
        rw [if_neg (by simp)]
        cases h3 : p.definedCall nxt with
        | true =>
          simp only [if_true]
          refine ⟨(fun h => by cases h), fun h => ?_⟩
          cases h with
          | here => exact absurd rfl h1
          | skip _ h4 => rw [h3] at h4; cases h4
          | jump h4 => rw [h2] at h4; cases h4
        | false =>
          rw [if_neg (by simp), ih]
          refine ⟨.skip h2 h3, fun h => ?_⟩
          cases h with
          | here => exact absurd rfl h1
          | skip _ _ h4 => exact h4
          | jump h4 => rw [h2] at h4; cases h4

/-- The stack behind a step. -/
def stepStack (p : Prog N) (s : Option (List N)) (e : N × N) : Option (List N) :=
  s.bind fun S => match stepOf p e with
    | .call => some (e.1 :: S)
    | .intra => some S
    | .ret => match S with
      | [] => some []
      | c :: S => if isDirect p e.2 c = true then some S else none

/-- The stack behind a path. -/
def run (p : Prog N) (s : Option (List N)) (l : List (N × N)) : Option (List N) := l.foldl (stepStack p) s

theorem run_append (s : Option (List N)) (l l' : List (N × N)) : run p s (l ++ l') = run p (run p s l) l' := List.foldl_append

theorem run_none (l : List (N × N)) : run p none l = none := by
  induction l with
  | nil => rfl
  | cons e l ih => exact ih

theorem Balanced.append {a b : List Step} (ha : Balanced a) (hb : Balanced b) : Balanced (a ++ b) := by
  induction ha with
  | nil => exact hb
  | intra _ ih => exact .intra ih
  | @call l l' h1 _ _ ih2 =>
    have := Balanced.call h1 ih2
    simpa using this

/-- Balanced steps leave the stack alone. -/
theorem run_balanced {m : List Step} (hm : Balanced m) : ∀ (l : List (N × N)), l.map (stepOf p) = m → ∀ S S', run p (some S) l = some S' → S' = S := by
  induction hm with
  | nil =>
    intro l hl S S' h
    rw [List.map_eq_nil_iff.1 hl] at h
    cases h; rfl
  | intra _ ih =>
    intro l hl S S' h
    obtain ⟨e, l, rfl, he, hl⟩ := List.map_eq_cons_iff.1 hl
    refine ih l hl S S' ?_
    rw [← h]
    show _ = run p (stepStack p (some S) e) l
    simp [stepStack, he]
  | @call m1 m2 _ _ ih1 ih2 =>
    intro l hl S S' h
    have hl : l.map (stepOf p) = (Step.call :: m1) ++ (Step.ret :: m2) := by simpa using hl
    obtain ⟨l1, l2, rfl, h1, h2⟩ := List.map_eq_append_iff.1 hl
    obtain ⟨c, l1, rfl, hc, h1⟩ := List.map_eq_cons_iff.1 h1
    obtain ⟨r, l2, rfl, hr, h2⟩ := List.map_eq_cons_iff.1 h2
    rw [run_append] at h
    have hx : run p (some S) (c :: l1) = run p (some (c.1 :: S)) l1 := by
      show run p (stepStack p (some S) c) l1 = _
      simp [stepStack, hc]
    rw [hx] at h
    cases hy : run p (some (c.1 :: S)) l1 with
    | none => rw [hy, run_none] at h; cases h
    | some S1 =>
      have := ih1 l1 h1 _ _ hy
      subst this
      rw [hy] at h
      have hz : run p (some (c.1 :: S)) (r :: l2) = run p (if isDirect p r.2 c.1 = true then some S else none) l2 := by
        show run p (stepStack p (some (c.1 :: S)) r) l2 = _
        simp [stepStack, hr]
      rw [hz] at h
      by_cases hd : isDirect p r.2 c.1 = true
      · rw [if_pos hd] at h; exact ih2 l2 h2 _ _ h
      · rw [if_neg hd, run_none] at h; cases h

/-- The call on top of the stack matches a return that comes next. -/
theorem run_top : ∀ (n : Nat) (l : List (N × N)), l.length ≤ n → ∀ c S, run p (some []) l = some (c :: S) →
    ∃ pre e mid, l = pre ++ e :: mid ∧ e.1 = c ∧ stepOf p e = .call ∧ Balanced (mid.map (stepOf p)) ∧ run p (some []) pre = some S := by
  intro n
  induction n with
  | zero =>
    intro l hl c S h
    rw [List.length_eq_zero_iff.1 (Nat.le_zero.1 hl)] at h
    cases h
  | succ n ih =>
    intro l hl c S h
    rcases List.eq_nil_or_concat l with rfl | ⟨l, e, rfl⟩
    · cases h
    · rw [List.concat_eq_append] at h hl ⊢
      rw [run_append] at h
      have hl : l.length ≤ n := by simp at hl; omega
      cases hT : run p (some []) l with
      | none => rw [hT] at h; cases h
      | some T =>
        rw [hT] at h
        have h : stepStack p (some T) e = some (c :: S) := h
        unfold stepStack at h
        cases he : stepOf p e with
        | call =>
          simp only [Option.bind_some, he] at h
          cases h
          exact ⟨l, e, [], rfl, rfl, he, .nil, hT⟩
        | intra =>
          simp only [Option.bind_some, he] at h
          cases h
          obtain ⟨pre, x, mid, h1, h2, h3, h4, h5⟩ := ih l hl c S hT
          refine ⟨pre, x, mid ++ [e], by rw [h1]; simp, h2, h3, ?_, h5⟩
          rw [List.map_append]
          exact h4.append (by simp only [List.map_cons, List.map_nil, he]; exact .intra .nil)
        | ret =>
          simp only [Option.bind_some, he] at h
          cases T with
          | nil => cases h
          | cons d T =>
            dsimp only at h
            by_cases hd : isDirect p e.2 d = true
            · rw [if_pos hd] at h
              cases h
              obtain ⟨pre1, x1, mid1, h1, h2, h3, h4, h5⟩ := ih l hl d _ hT
              obtain ⟨pre, x, mid, g1, g2, g3, g4, g5⟩ := ih pre1 (by rw [h1] at hl; simp at hl; omega) c S h5
              refine ⟨pre, x, mid ++ (x1 :: mid1 ++ [e]), by rw [h1, g1]; simp, g2, g3, ?_, g5⟩
              rw [List.map_append]
              refine g4.append ?_
              have := Balanced.call h4 .nil
              simpa [h3, he] using this
            · rw [if_neg hd] at h; cases h

/-- The paths that the stack accepts. -/
theorem run_iff (p : Prog N) (l : List (N × N)) : (run p (some []) l).isSome = true ↔
    ∀ pre c mid r post, l = pre ++ c :: mid ++ r :: post → stepOf p c = .call → stepOf p r = .ret →
      Balanced (mid.map (stepOf p)) → isDirect p r.2 c.1 = true := by
  constructor
  · intro h pre c mid r post hl hc hr hm
    rw [hl, run_append, run_append] at h
    cases h1 : run p (some []) pre with
    | none => rw [h1, run_none, run_none] at h; cases h
    | some S =>
      rw [h1] at h
      have hx : run p (some S) (c :: mid) = run p (some (c.1 :: S)) mid := by
        show run p (stepStack p (some S) c) mid = _
        simp [stepStack, hc]
      rw [hx] at h
      cases hy : run p (some (c.1 :: S)) mid with
      | none => rw [hy, run_none] at h; cases h
      | some S1 =>
        have := run_balanced hm mid rfl _ _ hy
        subst this
        rw [hy] at h
        have hz : run p (some (c.1 :: S)) (r :: post) = run p (if isDirect p r.2 c.1 = true then some S else none) post := by
          show run p (stepStack p (some (c.1 :: S)) r) post = _
          simp [stepStack, hr]
        rw [hz] at h
        by_cases hd : isDirect p r.2 c.1 = true
        · exact hd
        · rw [if_neg hd, run_none] at h; cases h
  · suffices ∀ n (l : List (N × N)), l.length ≤ n → (∀ pre c mid r post, l = pre ++ c :: mid ++ r :: post → stepOf p c = .call →
        stepOf p r = .ret → Balanced (mid.map (stepOf p)) → isDirect p r.2 c.1 = true) → (run p (some []) l).isSome = true from
      this l.length l (Nat.le_refl _)
    intro n
    induction n with
    | zero => intro l hl _; rw [List.length_eq_zero_iff.1 (Nat.le_zero.1 hl)]; rfl
    | succ n ih =>
      intro l hl hm
      rcases List.eq_nil_or_concat l with rfl | ⟨l, e, rfl⟩
      · rfl
      · rw [List.concat_eq_append] at hl hm ⊢
        have h1 := ih l (by simp at hl; omega) (fun pre c mid r post h => hm pre c mid r (post ++ [e]) (by rw [h]; simp))
        obtain ⟨T, hT⟩ := Option.isSome_iff_exists.1 h1
        rw [run_append, hT]
        show (stepStack p (some T) e).isSome = true
        unfold stepStack
        cases he : stepOf p e with
        | call => simp
        | intra => simp
        | ret =>
          simp only [Option.bind_some]
          cases T with
          | nil => rfl
          | cons d T =>
            obtain ⟨pre, x, mid, g1, g2, g3, g4, _⟩ := run_top _ l (Nat.le_refl _) d T hT
            have := hm pre x mid e [] (by rw [g1]) g3 he g4
            rw [g2] at this
            dsimp only
            rw [if_pos this]; rfl

theorem matched_iff (p : Prog N) (path : List N) : Matched p path ↔ (run p (some []) (pairs path)).isSome = true := (run_iff p _).symm

/-! ## The filter -/

/-- The stack that a pointer into the owner stands for. -/
inductive Chain (owner : List (Option Nat × N)) : Option Nat → List N → Prop
  | nil : Chain owner none []
  | cons {t t' c S} : owner[t]? = some (t', c) → Chain owner t' S → Chain owner (some t) (c :: S)

theorem Chain.grow {owner : List (Option Nat × N)} {t : Option Nat} {S : List N} (h : Chain owner t S) (ext : List (Option Nat × N)) :
    Chain (owner ++ ext) t S := by
  induction h with
  | nil => exact .nil
  | cons h _ ih => exact .cons (by rw [List.getElem?_append_left (List.getElem?_eq_some_iff.1 h).1]; exact h) ih

/-- The state of the filter is the stack. -/
structure CsOk (s : CSF N) (r : Option (List N)) : Prop where
  valid : s.valid = r.isSome
  chain : ∀ S, r = some S → Chain s.owner s.tos S

theorem saveEdge_ok {s : CSF N} {r : Option (List N)} (h : CsOk s r) (a b : N) : ∃ s', s.saveEdge p a b = some s' ∧
    CsOk s' (stepStack p r (a, b)) ∧ s'.safe = s.safe ∧ ∃ ext, s'.owner = s.owner ++ ext := by
  cases r with
  | none =>
    have hv : s.valid = false := h.valid
    refine ⟨s, by simp [CSF.saveEdge, hv], ⟨hv, fun S hS => by cases hS⟩, rfl, [], by simp⟩
  | some S =>
    have hv : s.valid = true := h.valid
    have hc := h.chain S rfl
    unfold CSF.saveEdge
    simp only [hv, Bool.not_true, Bool.false_eq_true, if_false]
    by_cases h1 : p.isCall a = true ∧ isDirect p b a = false
    · have h1' : (p.isCall a && !isDirect p b a) = true := by simp [h1.1, h1.2]
      rw [if_pos h1']
      have hst : stepOf p (a, b) = .call := by unfold stepOf; rw [if_pos h1]
      refine ⟨_, rfl, ⟨?_, fun S' hS' => ?_⟩, rfl, [(s.tos, a)], rfl⟩
      · simp [CSF.push, hv, stepStack, hst]
      · simp only [stepStack, Option.bind_some, hst] at hS'
        cases hS'
        exact .cons (t' := s.tos) (by simp [CSF.push]) (hc.grow _)
    · have h1' : ¬ (p.isCall a && !isDirect p b a) = true := by simpa using h1
      rw [if_neg h1']
      by_cases h2 : p.isExit a = true
      · have hst : stepOf p (a, b) = .ret := by unfold stepOf; rw [if_neg h1, if_pos h2]
        rw [if_pos h2]
        cases S with
        | nil =>
          cases htos : s.tos with
          | some t => rw [htos] at hc; cases hc
          | none =>
            refine ⟨s, by simp, ⟨by simp [stepStack, hst, hv], fun S' hS' => ?_⟩, rfl, [], by simp⟩
            simp only [stepStack, Option.bind_some, hst] at hS'
            cases hS'; rw [htos]; exact .nil
        | cons c S =>
          cases htos : s.tos with
          | none => rw [htos] at hc; cases hc
          | some t =>
            rw [htos] at hc
            cases hc with
            | @cons _ t' _ _ ho hc =>
              rw [if_neg (by simp)]
              have hpop : s.pop = some ({ s with tos := t' }, c) := by simp [CSF.pop, htos, ho]
              rw [hpop]
              refine ⟨_, rfl, ?_⟩
              simp only [stepStack, Option.bind_some, hst]
              by_cases hd : isDirect p b c = true
              · simp only [hd, Bool.not_true, Bool.false_eq_true, if_false, if_true]
                exact ⟨⟨hv, fun S' hS' => by cases hS'; exact hc⟩, trivial, [], by simp⟩
              · have hd : isDirect p b c = false := by simpa using hd
                simp only [hd, Bool.not_false, if_true, Bool.false_eq_true, if_false]
                exact ⟨⟨rfl, fun S' hS' => by cases hS'⟩, trivial, [], by simp⟩
      · have hst : stepOf p (a, b) = .intra := by unfold stepOf; rw [if_neg h1, if_neg h2]
        rw [if_neg h2]
        refine ⟨s, rfl, ⟨by simp [stepStack, hst, hv], fun S' hS' => ?_⟩, rfl, [], by simp⟩
        simp only [stepStack, Option.bind_some, hst] at hS'
        cases hS'; exact hc

theorem saveFinal_ok (hdis : ∀ n, p.isCall n = true → p.isExit n = false) {s : CSF N} {r : Option (List N)} (h : CsOk s r) (a b : N) :
    ∃ s', s.saveFinal p (some a) b = some (s', (stepStack p r (a, b)).isSome) ∧ s'.owner = s.owner ∧ s'.safe = s.safe := by
  cases r with
  | none =>
    have hv : s.valid = false := h.valid
    exact ⟨s, by simp [CSF.saveFinal, hv, stepStack], rfl, rfl⟩
  | some S =>
    have hv : s.valid = true := h.valid
    have hc := h.chain S rfl
    unfold CSF.saveFinal
    simp only [hv, Bool.not_true, Bool.false_eq_true, if_false]
    by_cases h2 : p.isExit a = true
    · have h1 : ¬ (p.isCall a = true ∧ isDirect p b a = false) := fun h => by rw [hdis a h.1] at h2; cases h2
      have hst : stepOf p (a, b) = .ret := by unfold stepOf; rw [if_neg h1, if_pos h2]
      rw [if_pos h2]
      cases S with
      | nil =>
        cases htos : s.tos with
        | some t => rw [htos] at hc; cases hc
        | none => exact ⟨s, by simp [stepStack, hst], rfl, rfl⟩
      | cons c S =>
        cases htos : s.tos with
        | none => rw [htos] at hc; cases hc
        | some t =>
          rw [htos] at hc
          cases hc with
          | @cons _ t' _ _ ho hc =>
            rw [if_neg (by simp)]
            have hpop : s.pop = some ({ s with tos := t' }, c) := by simp [CSF.pop, htos, ho]
            rw [hpop]
            refine ⟨{ s with tos := t' }, ?_, rfl, rfl⟩
            simp only [stepStack, Option.bind_some, hst, Option.map_some]
            by_cases hd : isDirect p b c = true
            · simp [hd]
            · have hd : isDirect p b c = false := by simpa using hd
              simp [hd]
    · rw [if_neg h2]
      refine ⟨s, ?_, rfl, rfl⟩
      unfold stepStack stepOf
      by_cases h1 : p.isCall a = true ∧ isDirect p b a = false
      · simp only [if_pos h1, Option.bind_some, Option.isSome_some]
      · simp only [if_neg h1, if_neg h2, Option.bind_some, Option.isSome_some]

end Phasar.PathFilter
