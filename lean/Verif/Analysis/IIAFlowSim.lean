import Verif.Analysis.IIAFlow
import Verif.Analysis.IIAProps
import Verif.Store.LLVMFlowProps
import Verif.Store.Props
/-!
# The instruction interaction analysis: runs of the problem and chains of statements
-/
set_option linter.unusedSectionVars false
set_option linter.unusedSimpArgs false
namespace Phasar.IIA
open Phasar JoinLat IDE Prog
open Phasar.FlowFn (C50.mem_fold C50.mem_foldIns C50.mem_ofList C50_callee C50_caller_partial)

variable {p : Prog}

/-! ## The flow functions -/

theorem mem_zeroed {f : Val → List Val} {d d' : Val} : d' ∈ zeroed .zero f d ↔ d' ∈ f d ∨ (d = .zero ∧ d' = .zero) := by
  unfold zeroed
  by_cases h : d = .zero
  · subst h
    rw [if_pos rfl]
    by_cases h2 : Val.zero ∈ f .zero
    · rw [if_pos h2]
      constructor
      · exact .inl
      · rintro (h | ⟨_, rfl⟩)
        · exact h
        · exact h2
    · rw [if_neg h2]; simp
  · simp [h]

theorem mem_gen {g s d d' : Val} : d' ∈ FlowFn.generateFlow g s d ↔ d' = d ∨ (d = s ∧ d' = g) := by
  unfold FlowFn.generateFlow
  by_cases h : d = s <;> simp [h]

theorem mem_genIf {g : Val} {q : Val → Bool} {d d' : Val} : d' ∈ FlowFn.generateFlowIf g q d ↔ d' = d ∨ (q d = true ∧ d' = g) := by
  unfold FlowFn.generateFlowIf
  cases h : q d <;> simp

theorem mem_store {v ptr : Val} {ts : List Val} {d d' : Val} : d' ∈ Prog.storeFlow v ptr ts d ↔
    d ∉ ptr :: ts ∧ (d' = d ∨ ((d = v ∨ (v.isData = true ∧ d = .zero)) ∧ d' ∈ ptr :: ts)) := by
  unfold Prog.storeFlow
  by_cases h : ptr = d ∨ d ∈ ts
  · rw [if_pos h]
    simp only [List.not_mem_nil, false_iff, List.mem_cons]
    rintro ⟨h1, _⟩
    rcases h with h | h
    · exact h1 (.inl h.symm)
    · exact h1 (.inr h)
  · rw [if_neg h]
    have h' : d ∉ ptr :: ts := by
      intro h1
      rcases List.mem_cons.1 h1 with h1 | h1
      · exact h (.inl h1.symm)
      · exact h (.inr h1)
    simp only [h', not_false_eq_true, true_and]
    by_cases h1 : v = d
    · rw [if_pos h1]
      split
      · simp only [C50.mem_foldIns, C50.mem_ofList, List.mem_singleton]
        constructor
        · rintro ((h | h) | h)
          · exact .inl h
          · exact .inr ⟨.inl h1.symm, h⟩
          · exact .inr ⟨.inl h1.symm, h⟩
        · rintro (h | ⟨_, h⟩)
          · exact .inl (.inl h)
          · exact .inr h
      · simp only [C50.mem_foldIns, C50.mem_ofList, List.mem_singleton]
        constructor
        · rintro (h | h)
          · exact .inl h
          · exact .inr ⟨.inl h1.symm, h⟩
        · rintro (h | ⟨_, h⟩)
          · exact .inl h
          · exact .inr h
    · rw [if_neg h1]
      split
      · rename_i h2
        simp only [C50.mem_foldIns, C50.mem_ofList, List.mem_singleton]
        constructor
        · rintro (h | h)
          · exact .inl h
          · exact .inr ⟨.inr h2, h⟩
        · rintro (h | ⟨_, h⟩)
          · exact .inl h
          · exact .inr h
      · rename_i h2
        simp only [C50.mem_ofList, List.mem_singleton]
        constructor
        · exact .inl
        · rintro (h | ⟨h | h, _⟩)
          · exact h
          · exact absurd h.symm h1
          · exact absurd h h2

theorem mem_other {n : Nat} {d d' : Val} : d' ∈ p.otherFlow n d ↔
    d' = d ∨ (d ≠ .zero ∧ d ∈ p.operands n ∧ d' = .inst n) := by
  unfold Prog.otherFlow
  by_cases h : d = .zero
  · simp [h]
  · rw [if_neg h, FSet.mem_insert]
    have := C50.mem_fold (p.operands n) (fun o => decide (o = d)) (fun _ => Val.inst n) [] d'
    simp only [decide_eq_true_eq] at this
    rw [this]
    constructor
    · rintro (h1 | h1 | ⟨o, h1, h2, h3⟩)
      · exact .inl h1
      · cases h1
      · exact .inr ⟨h, h2 ▸ h1, h3⟩
    · rintro (h1 | ⟨_, h1, h2⟩)
      · exact .inl h1
      · exact .inr (.inr ⟨d, h1, rfl, h2⟩)

theorem mem_br {n : Nat} {c : Val} {is : List Nat} {d d' : Val} : d' ∈ Prog.brFlow n c is d ↔
    d' = d ∨ (d = c ∧ (d' = .inst n ∨ ∃ k ∈ is, d' = .inst k)) := by
  unfold Prog.brFlow
  by_cases h : d = c
  · rw [if_pos h, C50.mem_foldIns]
    simp [h, eq_comm]
  · simp [h]

/-- What a statement that is not a call does to facts. -/
theorem normal_iff (wf : p.WF) {n : Nat} {d d' : Val} : d' ∈ zeroed .zero (p.normalFlow n) d ↔
    (d = .zero ∧ d' = .zero) ∨ (d = .zero ∧ ∃ s, p.Fresh n d' s) ∨ (d ≠ .zero ∧ ∃ s, p.Pass n d d' s) := by
  have hother : (∀ v ptr, p.inst n ≠ .store v ptr) → p.inst n ≠ .alloca → p.reads n = p.operands n →
      (p.indirect = true → ∀ c is, p.inst n ≠ .br c is) →
      (d' ∈ zeroed .zero (p.otherFlow n) d ↔
        (d = .zero ∧ d' = .zero) ∨ (d = .zero ∧ ∃ s, p.Fresh n d' s) ∨ (d ≠ .zero ∧ ∃ s, p.Pass n d d' s)) := by
    intro h1 h2 h3 h4
    have ht : p.targets n = [] := by
      unfold Prog.targets
      cases h : p.inst n <;> first | rfl | exact absurd h (h1 _ _)
    rw [mem_zeroed, mem_other]
    constructor
    · rintro ((rfl | ⟨hd, hm, rfl⟩) | h)
      · by_cases hd : d' = .zero
        · exact .inl ⟨hd, hd⟩
        · exact .inr (.inr ⟨hd, _, .keep (by rw [ht]; simp)⟩)
      · by_cases hn : d = .inst n
        · exact .inr (.inr ⟨hd, _, by rw [hn]; exact .keep (by rw [ht]; simp)⟩)
        · exact .inr (.inr ⟨hd, _, .read (by rw [h3]; exact hm) hn⟩)
      · exact .inl h
    · rintro (h | ⟨_, s, hf⟩ | ⟨hd, s, hp⟩)
      · exact .inr h
      · cases hf with
        | alloca h => exact absurd h h2
        | store h _ _ => exact absurd h (h1 _ _)
      · cases hp with
        | keep _ => exact .inl (.inl rfl)
        | read h _ => exact .inl (.inr ⟨hd, by rw [← h3]; exact h, rfl⟩)
        | write h _ _ => exact absurd h (h1 _ _)
        | branch hi h _ _ _ => exact absurd h (h4 hi _ _)
  unfold Prog.normalFlow
  cases hi : p.inst n with
  | alloca =>
    have ht : p.targets n = [] := by simp [Prog.targets, hi]
    have hr : p.reads n = [] := by simp [Prog.reads, hi]
    rw [mem_zeroed, mem_gen]
    constructor
    · rintro ((rfl | ⟨h1, rfl⟩) | h)
      · by_cases hd : d' = .zero
        · exact .inl ⟨hd, hd⟩
        · exact .inr (.inr ⟨hd, _, .keep (by rw [ht]; simp)⟩)
      · exact .inr (.inl ⟨h1, _, .alloca hi⟩)
      · exact .inl h
    · rintro (h | ⟨h1, s, hf⟩ | ⟨hd, s, hp⟩)
      · exact .inr h
      · cases hf with
        | alloca h => exact .inl (.inr ⟨h1, rfl⟩)
        | store h _ _ => rw [hi] at h; cases h
      · cases hp with
        | keep _ => exact .inl (.inl rfl)
        | read h _ => rw [hr] at h; cases h
        | write h _ _ => rw [hi] at h; cases h
        | branch _ h _ _ _ => rw [hi] at h; cases h
  | load ptr =>
    have ht : p.targets n = [] := by simp [Prog.targets, hi]
    have hz : Val.zero ∉ p.reads n := by
      simp only [Prog.reads, hi, List.mem_cons]
      rintro (h | h)
      · exact wf.load _ _ hi h.symm
      · split at h
        · cases h
        · exact wf.pts _ h
    have hm : d' ∈ (if p.syntactic then FlowFn.generateFlow (.inst n) ptr
        else FlowFn.generateFlowIf (.inst n) (fun s => decide (s = ptr ∨ s ∈ p.pts n))) d ↔
        d' = d ∨ (d ∈ p.reads n ∧ d' = .inst n) := by
      cases hs : p.syntactic
      · simp only [hs, Bool.false_eq_true, if_false, mem_genIf, Prog.reads, hi]
        simp
      · simp only [hs, if_true, mem_gen, Prog.reads, hi]
        simp
    rw [mem_zeroed, hm]
    constructor
    · rintro ((rfl | ⟨h1, rfl⟩) | h)
      · by_cases hd : d' = .zero
        · exact .inl ⟨hd, hd⟩
        · exact .inr (.inr ⟨hd, _, .keep (by rw [ht]; simp)⟩)
      · have hd : d ≠ .zero := fun h => hz (h ▸ h1)
        by_cases hn : d = .inst n
        · exact .inr (.inr ⟨hd, _, by rw [hn]; exact .keep (by rw [ht]; simp)⟩)
        · exact .inr (.inr ⟨hd, _, .read h1 hn⟩)
      · exact .inl h
    · rintro (h | ⟨h1, s, hf⟩ | ⟨hd, s, hp⟩)
      · exact .inr h
      · cases hf with
        | alloca h => rw [hi] at h; cases h
        | store h _ _ => rw [hi] at h; cases h
      · cases hp with
        | keep _ => exact .inl (.inl rfl)
        | read h _ => exact .inl (.inr ⟨h, rfl⟩)
        | write h _ _ => rw [hi] at h; cases h
        | branch _ h _ _ _ => rw [hi] at h; cases h
  | store v ptr =>
    have ht : p.targets n = ptr :: (if p.syntactic then [] else p.pts n) := by simp [Prog.targets, hi]
    have hr : p.reads n = [] := by simp [Prog.reads, hi]
    rw [mem_zeroed]
    dsimp only
    rw [mem_store, ← ht]
    have hz := wf.store _ _ _ hi
    have hzt : Val.zero ∉ p.targets n := by
      rw [ht]; simp only [List.mem_cons]
      rintro (h | h)
      · exact hz.2 h.symm
      · split at h
        · cases h
        · exact wf.pts _ h
    constructor
    · rintro (⟨h1, rfl | ⟨h2, h3⟩⟩ | h)
      · by_cases hd : d' = .zero
        · exact .inl ⟨hd, hd⟩
        · exact .inr (.inr ⟨hd, _, .keep h1⟩)
      · rcases h2 with rfl | ⟨h2, rfl⟩
        · exact .inr (.inr ⟨hz.1, _, .write hi h1 h3⟩)
        · exact .inr (.inl ⟨rfl, _, .store hi h2 h3⟩)
      · exact .inl h
    · rintro (h | ⟨rfl, s, hf⟩ | ⟨hd, s, hp⟩)
      · exact .inr h
      · cases hf with
        | alloca h => rw [hi] at h; cases h
        | store h h2 h3 => rw [hi] at h; cases h; exact .inl ⟨hzt, .inr ⟨.inr ⟨h2, rfl⟩, h3⟩⟩
      · cases hp with
        | keep h => exact .inl ⟨h, .inl rfl⟩
        | read h _ => rw [hr] at h; cases h
        | write h h2 h3 => rw [hi] at h; cases h; exact .inl ⟨h2, .inr ⟨.inl rfl, h3⟩⟩
        | branch _ h _ _ _ => rw [hi] at h; cases h
  | br c is =>
    have hr : p.reads n = p.operands n := by simp [Prog.reads, hi]
    have ho : p.operands n = [c] := by simp [Prog.operands, hi]
    have ht : p.targets n = [] := by simp [Prog.targets, hi]
    cases hind : p.indirect
    · simp only [Bool.false_eq_true, if_false]
      exact hother (by intro _ _ h; rw [hi] at h; cases h) (by rw [hi]; simp) hr (by rw [hind]; simp)
    · simp only [if_true]
      rw [mem_zeroed, mem_br]
      have hc := wf.br _ _ _ hi
      constructor
      · rintro ((rfl | ⟨rfl, h2⟩) | h)
        · by_cases hd : d' = .zero
          · exact .inl ⟨hd, hd⟩
          · exact .inr (.inr ⟨hd, _, .keep (by rw [ht]; simp)⟩)
        · refine .inr (.inr ⟨hc, ?_⟩)
          by_cases hdd : d' = d
          · rw [hdd]; exact ⟨_, .keep (by rw [ht]; simp)⟩
          · by_cases hdn : d' = .inst n
            · rw [hdn] at hdd ⊢
              exact ⟨_, .read (by rw [hr, ho]; simp) (Ne.symm hdd)⟩
            · rcases h2 with h2 | ⟨k, hk, rfl⟩
              · exact absurd h2 hdn
              · exact ⟨_, .branch hind hi hk (fun h => hdn (by rw [h])) hdd⟩
        · exact .inl h
      · rintro (h | ⟨rfl, s, hf⟩ | ⟨hd, s, hp⟩)
        · exact .inr h
        · cases hf with
          | alloca h => rw [hi] at h; cases h
          | store h _ _ => rw [hi] at h; cases h
        · cases hp with
          | keep h => exact .inl (.inl rfl)
          | read h _ =>
            rw [hr, ho] at h
            exact .inl (.inr ⟨List.mem_singleton.1 h, .inl rfl⟩)
          | write h _ _ => rw [hi] at h; cases h
          | branch _ h hk _ _ => rw [hi] at h; cases h; exact .inl (.inr ⟨rfl, .inr ⟨_, hk, rfl⟩⟩)
  | call as => exact hother (by intro _ _ h; rw [hi] at h; cases h) (by rw [hi]; simp) (by simp [Prog.reads, hi]) (by intro _ _ _ h; rw [hi] at h; cases h)
  | ret v => exact hother (by intro _ _ h; rw [hi] at h; cases h) (by rw [hi]; simp) (by simp [Prog.reads, hi]) (by intro _ _ _ h; rw [hi] at h; cases h)
  | op ops => exact hother (by intro _ _ h; rw [hi] at h; cases h) (by rw [hi]; simp) (by simp [Prog.reads, hi]) (by intro _ _ _ h; rw [hi] at h; cases h)

theorem fresh_ne (wf : p.WF) {n : Nat} {y : Val} {s : Nat} (h : p.Fresh n y s) : y ≠ .zero := by
  cases h with
  | alloca _ => intro h; cases h
  | store hi _ hy =>
    rintro rfl
    simp only [Prog.targets, hi, List.mem_cons] at hy
    rcases hy with h | h
    · exact (wf.store _ _ _ hi).2 h.symm
    · split at h
      · cases h
      · exact wf.pts _ h

theorem pass_ne (wf : p.WF) {n : Nat} {x y : Val} {s : Nat} (hx : x ≠ .zero) (h : p.Pass n x y s) : y ≠ .zero := by
  cases h with
  | keep _ => exact hx
  | read _ _ => intro h; cases h
  | write hi _ hy =>
    rintro rfl
    simp only [Prog.targets, hi, List.mem_cons] at hy
    rcases hy with h | h
    · exact (wf.store _ _ _ hi).2 h.symm
    · split at h
      · cases h
      · exact wf.pts _ h
  | branch _ _ _ _ _ => intro h; cases h

theorem mem_targets_pts {n : Nat} {v ptr y : Val} (hi : p.inst n = .store v ptr) (hy : y ∈ p.targets n) : y = ptr ∨ y ∈ p.pts n := by
  simp only [Prog.targets, hi, List.mem_cons] at hy
  rcases hy with h | h
  · exact .inl h
  · split at h
    · cases h
    · exact .inr h

theorem fresh_edge (wf : p.WF) {n : Nat} {y : Val} {s : Nat} (h : p.Fresh n y s) :
    p.normalEdge n .zero y = some (.kill (.set s)) := by
  have hy := fresh_ne wf h
  unfold Prog.normalEdge
  rw [if_neg hy]
  cases h with
  | alloca hi => rw [hi]; simp
  | @store v ptr _ hi hv hyt =>
    rw [hi]
    dsimp only
    unfold Prog.storeEdge
    have hc : v.isConst = true := by cases v <;> first | rfl | cases hv
    rw [if_pos ⟨.inr ⟨rfl, hc⟩, mem_targets_pts hi hyt⟩, if_pos rfl]

theorem pass_edge (wf : p.WF) {n : Nat} {x y : Val} {s : Nat} (hx : x ≠ .zero) (h : p.Pass n x y s) :
    ∃ e, p.normalEdge n x y = some e ∧ (e = .add (.set s) ∨ (e = .id ∧ s = 0 ∧ (x = y ∨
      ∃ c is k, p.indirect = true ∧ p.inst n = .br c is ∧ k ∈ is ∧ k ≠ n ∧ x = c ∧ y = .inst k))) := by
  have hy := pass_ne wf hx h
  unfold Prog.normalEdge
  rw [if_neg hy]
  cases h with
  | keep hk =>
    cases hi : p.inst n with
    | store v ptr =>
      dsimp only
      unfold Prog.storeEdge
      simp only [Prog.extra, hi]
      have hkp : x ≠ ptr := by rintro rfl; exact hk (by simp [Prog.targets, hi])
      by_cases h1 : x = v ∧ (x = ptr ∨ x ∈ p.pts n)
      · rw [if_pos ⟨.inl h1.1, h1.2⟩, if_neg hx, if_pos h1]
        exact ⟨_, rfl, .inl rfl⟩
      · rw [if_neg (by rintro ⟨h2 | ⟨h2, _⟩, h3⟩; (exact h1 ⟨h2, h3⟩); exact hx h2), if_neg (by rintro ⟨_, _, h⟩; exact hkp h), if_neg, if_pos trivial, if_neg h1]
        · exact ⟨_, rfl, .inr ⟨rfl, rfl, .inl trivial⟩⟩
        · rintro ⟨h2, _, h3⟩
          apply hk
          simp only [Prog.targets, hi, h2, List.mem_cons]
          rcases h3 with h3 | h3
          · exact .inl h3.symm
          · exact .inr (by simpa using h3)
    | _ => exact ⟨.id, by simp, .inr ⟨rfl, by simp [Prog.extra, hi], .inl rfl⟩⟩
  | read hr hn =>
    cases hi : p.inst n with
    | store v ptr => simp [Prog.reads, hi] at hr
    | _ => exact ⟨.add (.set (p.gen n)), by simp [hn, hx, Ne.symm hn], .inl rfl⟩
  | write hi hv hyt =>
    rw [hi]
    dsimp only
    unfold Prog.storeEdge
    rw [if_pos ⟨.inl rfl, mem_targets_pts hi hyt⟩, if_neg hx]
    exact ⟨_, rfl, .inl rfl⟩
  | branch h1 hi hk hkn hkc =>
    refine ⟨.id, ?_, .inr ⟨rfl, rfl, .inr ⟨_, _, _, h1, hi, hk, hkn, rfl, rfl⟩⟩⟩
    rw [hi]
    dsimp only
    rw [if_neg (Ne.symm hkc), if_neg]
    rintro ⟨_, h⟩
    cases h
    exact hkn rfl

/-- What a call hands to the callee. -/
theorem call_iff (wf : p.WF) {n g : Nat} {d d' : Val} : d' ∈ zeroed .zero (p.callFlow n g) d ↔
    (d = .zero ∧ d' = .zero) ∨
    (d = .zero ∧ p.Entered g ∧ p.sretCall n = true ∧ ∃ k ks, p.params g = k :: ks ∧ d' = .arg k) ∨
    (d ≠ .zero ∧ p.Entered g ∧ ((d' = d ∧ d.isConst = true) ∨
      ∃ (i : Nat) (k : Nat), (p.params g)[i]? = some k ∧ (p.args n)[i]? = some d ∧ ¬ (p.sretFn g = true ∧ i = 0) ∧
        ¬ (p.sretCall n = true ∧ (p.args n).head? = some d) ∧ d' = .arg k)) := by
  rw [mem_zeroed]
  unfold Prog.callFlow Prog.Entered
  cases hh : p.heap g
  case true => simp [FlowFn.killAllFlows]
  cases hdc : p.decl g
  case true => simp [FlowFn.killAllFlows]
  simp only [Bool.false_eq_true, if_false, and_self, true_and]
  have hm : d' ∈ FlowFn.mapFactsToCallee ir (p.args n) (p.callee g)
      (fun a s => decide (a = s) && !(p.sretCall n && decide ((p.args n).head? = some a))) true true d ↔
      (d' = d ∧ (d = .zero ∨ d.isConst = true)) ∨
      ∃ (i : Nat) (k : Nat), (p.params g)[i]? = some k ∧ (p.args n)[i]? = some d ∧ ¬ (p.sretFn g = true ∧ i = 0) ∧
        ¬ (p.sretCall n = true ∧ (p.args n).head? = some d) ∧ d' = .arg k := by
    rw [C50_callee]
    simp only [Prog.callee, Prog.ir, hdc, true_and, and_true, List.not_mem_nil, false_and, or_false]
    constructor
    · rintro (⟨h1, h2⟩ | ⟨i, a, h1, h2, h3, h4⟩)
      · refine .inl ⟨h1, ?_⟩
        rcases h2 with h2 | h2
        · exact .inl h2
        · exact .inr h2.2
      · rw [List.getElem?_map] at h1
        obtain ⟨k, h5, rfl⟩ := Option.map_eq_some_iff.1 h1
        simp only [Bool.and_eq_true, decide_eq_true_eq, Bool.not_eq_true', Bool.and_eq_false_iff, decide_eq_false_iff_not] at h3
        obtain ⟨rfl, h6⟩ := h3
        refine .inr ⟨i, k, h5, h2, h4, ?_, rfl⟩
        rintro ⟨h7, h8⟩
        rcases h6 with h6 | h6
        · rw [h6] at h7; cases h7
        · exact h6 h8
    · rintro (⟨h1, h2⟩ | ⟨i, k, h1, h2, h3, h4, rfl⟩)
      · refine .inl ⟨h1, ?_⟩
        by_cases hz : d = .zero
        · exact .inl hz
        · exact .inr ⟨hz, h2.resolve_left hz⟩
      · refine .inr ⟨i, d, by rw [List.getElem?_map, h1]; rfl, h2, ?_, h3⟩
        simp only [Bool.and_eq_true, decide_eq_true_eq, Bool.not_eq_true', Bool.and_eq_false_iff, decide_eq_false_iff_not, true_and]
        by_cases h5 : p.sretCall n = true
        · exact .inr fun h6 => h4 ⟨h5, h6⟩
        · exact .inl (by simpa using h5)
  have hza : ∀ i : Nat, (p.args n)[i]? ≠ some .zero := fun i h => wf.args n (List.mem_of_getElem? h)
  have hbase : (d' ∈ FlowFn.mapFactsToCallee ir (p.args n) (p.callee g)
      (fun a s => decide (a = s) && !(p.sretCall n && decide ((p.args n).head? = some a))) true true d ∨ d = .zero ∧ d' = .zero) ↔
      (d = .zero ∧ d' = .zero) ∨ (d ≠ .zero ∧ ((d' = d ∧ d.isConst = true) ∨
      ∃ (i : Nat) (k : Nat), (p.params g)[i]? = some k ∧ (p.args n)[i]? = some d ∧ ¬ (p.sretFn g = true ∧ i = 0) ∧
        ¬ (p.sretCall n = true ∧ (p.args n).head? = some d) ∧ d' = .arg k)) := by
    rw [hm]
    by_cases hz : d = .zero
    · subst hz
      constructor
      · rintro ((⟨h1, _⟩ | ⟨i, k, _, h, _⟩) | h)
        · exact .inl ⟨rfl, h1⟩
        · exact absurd h (hza i)
        · exact .inl h
      · rintro (h | ⟨h, _⟩)
        · exact .inr h
        · exact absurd rfl h
    · simp only [hz, false_and, false_or, or_false, ne_eq, not_false_eq_true, true_and]
  cases hs : p.sretCall n with
  | false =>
    simp only [hs] at hbase
    simp only [Bool.false_eq_true, false_and, and_false, false_or, not_false_eq_true, true_and] at hbase ⊢
    exact hbase
  | true =>
    rw [hs] at hbase
    cases hps : p.params g with
    | nil =>
      dsimp only
      rw [hps] at hbase
      refine hbase.trans ?_
      constructor
      · rintro (h | h)
        · exact .inl h
        · exact .inr (.inr h)
      · rintro (h | ⟨_, _, _, _, h, _⟩ | h)
        · exact .inl h
        · cases h
        · exact .inr h
    | cons k ks =>
      dsimp only
      rw [hps] at hbase
      rw [(C19_union _ _ [] _ _).1]
      have hg : d' ∈ FlowFn.generateFlowAndKillAllOthers (Val.arg k) .zero d ↔ d = .zero ∧ (d' = .zero ∨ d' = .arg k) := by
        unfold FlowFn.generateFlowAndKillAllOthers
        by_cases h : d = .zero <;> simp [h]
      rw [hg]
      constructor
      · rintro ((h | ⟨h1, h2 | h2⟩) | h)
        · rcases hbase.1 (.inl h) with h | h
          · exact .inl h
          · exact .inr (.inr h)
        · exact .inl ⟨h1, h2⟩
        · exact .inr (.inl ⟨h1, rfl, k, ks, rfl, h2⟩)
        · exact .inl h
      · rintro (h | ⟨h1, _, k', ks', h2, h3⟩ | h)
        · exact .inr h
        · cases h2; exact .inl (.inr ⟨h1, .inr h3⟩)
        · rcases hbase.2 (.inr h) with h | h
          · exact .inl (.inl h)
          · exact .inr h

/-- What a return hands to the caller. -/
theorem ret_iff (wf : p.WF) {c g e : Nat} {d d' : Val} : d' ∈ zeroed .zero (p.retFlow c g e) d ↔
    (d = .zero ∧ d' = .zero) ∨
    (d = .zero ∧ d' = .inst c ∧ ∃ rv, p.retVal e = some rv ∧ rv.isData = true) ∨
    (d ≠ .zero ∧ ((d' = d ∧ d.isConst = true) ∨
      (∃ (i : Nat) (k : Nat), (p.params g)[i]? = some k ∧ (p.args c)[i]? = some d' ∧ d = .arg k) ∨
      (p.retVal e = some d ∧ d' = .inst c))) := by
  rw [mem_zeroed]
  unfold Prog.retFlow
  rw [C50_caller_partial]
  simp only [Prog.callee, Prog.ir, and_true, List.not_mem_nil, false_and, exists_false, false_or]
  constructor
  · rintro ((⟨h1, h2⟩ | ⟨i, q, h1, h2, h3⟩ | ⟨v, h1, h2, h3⟩) | h)
    · by_cases hz : d = .zero
      · exact .inl ⟨hz, h1.trans hz⟩
      · exact .inr (.inr ⟨hz, .inl ⟨h1, h2.resolve_left hz⟩⟩)
    · rw [List.getElem?_map] at h1
      obtain ⟨k, h5, rfl⟩ := Option.map_eq_some_iff.1 h1
      have := of_decide_eq_true h3
      exact .inr (.inr ⟨(by rw [← this]; intro h; cases h), .inr (.inl ⟨i, k, h5, h2, this.symm⟩)⟩)
    · simp only [Bool.or_eq_true, Bool.and_eq_true, decide_eq_true_eq] at h2
      rcases h2 with rfl | ⟨h4, h5⟩
      · exact .inr (.inr ⟨wf.ret _ _ h1, .inr (.inr ⟨h1, h3⟩)⟩)
      · exact .inr (.inl ⟨h4, h3, v, h1, h5⟩)
    · exact .inl h
  · rintro (h | ⟨h1, h2, rv, h3, h4⟩ | ⟨hz, ⟨h1, h2⟩ | ⟨i, k, h1, h2, rfl⟩ | ⟨h1, h2⟩⟩)
    · exact .inr h
    · exact .inl (.inr (.inr ⟨rv, h3, by simp [h1, h4], h2⟩))
    · exact .inl (.inl ⟨h1, .inr h2⟩)
    · exact .inl (.inr (.inl ⟨i, .arg k, by rw [List.getElem?_map, h1]; rfl, h2, by simp⟩))
    · exact .inl (.inr (.inr ⟨d, h1, by simp, h2⟩))

/-- What passes a call. -/
theorem ctr_iff {n : Nat} {d d' : Val} : d' ∈ zeroed .zero (p.ctrFlow n) d ↔
    (d = .zero ∧ d' = .zero) ∨ (d = .zero ∧ d' = .inst n ∧ (p.heapCall n = true ∨ p.Opaque n)) ∨
    (d ≠ .zero ∧ d' = d ∧ (p.heapCall n = true ∨ p.onlyDecls n = true ∨ d.isConst = false)) := by
  rw [mem_zeroed]
  unfold Prog.ctrFlow Prog.Opaque
  cases hh : p.heapCall n
  · simp only [Bool.false_eq_true, if_false, false_or, true_and]
    cases ho : p.onlyDecls n
    · by_cases hz : d = .zero
      · subst hz; simp [Val.isConst]
      · cases hc : d.isConst <;> simp [hz, hc]
    · by_cases hz : d = .zero
      · subst hz
        cases hv : p.allVoid n <;> simp [hv]
        exact .inl
      · simp [hz]
  · simp only [if_true, mem_gen]
    by_cases hz : d = .zero
    · subst hz; simp; exact .inl
    · simp [hz]

end Phasar.IIA
