import Verif.Analysis.TaintSem
import Verif.Store.LLVMFlowProps
/-!
# Tainted data is covered by runs of the exploded graph (lemmas for C51)
-/
namespace Phasar.Taint
open Phasar Phasar.IDE FlowFn

variable {p : Prog}

/-! ## What the flow functions contain -/

theorem mem_populate {facts : List Val} {ctx : Nat} {t : Val} :
    t ∈ p.populate facts ctx ↔ t ∈ facts ∨ ∃ v ∈ facts, ∃ a ∈ p.aliases v, t ∈ p.aliasFacts ctx a := by
  unfold Prog.populate
  rw [FSet.mem_insertAll]
  simp only [List.mem_flatMap]
  exact or_comm

/-- Does the value `k` belong to the function of `ctx`, or is it a global? -/
def Prog.InFun (p : Prog) (ctx k : Nat) : Prop :=
  p.isConst k = true ∨ (p.isInst k = true ∧ p.icf.funOf k = p.icf.funOf ctx) ∨
  (p.isInst k = false ∧ p.argOf k = some (p.icf.funOf ctx))

theorem Prog.WF.inst_local (wf : p.WF) {k : Nat} (h : p.isInst k = true) : p.isConst k = false := by
  cases hc : p.isConst k
  · rfl
  · rw [(wf.globals k hc).1] at h; cases h

theorem canSkip_false (wf : p.WF) {ctx k : Nat} (hin : p.InFun ctx k) (hp : ¬ p.Pending ctx k) :
    p.canSkip (.node k) ctx = false := by
  unfold Prog.canSkip
  rcases hin with h | ⟨h, hf⟩ | ⟨h, hf⟩
  · obtain ⟨h1, h2⟩ := wf.globals k h
    simp [h1, h2]
  · simp only [h, hf, if_true, ne_eq, not_true_eq_false, if_false]
    cases hb : p.before ctx k
    · simp
    · simp only [Bool.and_true, decide_eq_false_iff_not]
      exact fun hbl => hp ⟨h, wf.inst_local h, hbl, .inr hb⟩
  · simp [h, hf]

theorem mem_aliasFacts {ctx k : Nat} (h1 : p.canSkip (.node k) ctx = false) (h2 : p.constData k = false) :
    .node k ∈ p.aliasFacts ctx (.node k) := by
  have h2' : p.isConstData (.node k) = false := h2
  unfold Prog.aliasFacts
  rw [h1, h2']
  simp only [Bool.false_eq_true, if_false]
  split <;> try split
  all_goals simp

theorem populate_alias (wf : p.WF) {facts : List Val} {ctx k : Nat} {v : Val} (hv : v ∈ facts) (ha : .node k ∈ p.aliases v)
    (hin : p.InFun ctx k) (hp : ¬ p.Pending ctx k) (hc : p.constData k = false) : .node k ∈ p.populate facts ctx :=
  mem_populate.2 (.inr ⟨v, hv, _, ha, mem_aliasFacts (canSkip_false wf hin hp) hc⟩)

theorem tk_to {to f : Val} : to ∈ p.transferAndKill to f f := by
  unfold Prog.transferAndKill transferFlow
  split <;> simp

theorem tk_keep {to f s : Val} (h1 : s ≠ to) (h2 : s = f → p.twoUses f = true) : s ∈ p.transferAndKill to f s := by
  unfold Prog.transferAndKill transferFlow
  by_cases h : s = f
  · rw [h2 h]; simp [h]
  · split <;> simp [h, h1]

theorem tk2_to {to f1 f2 s : Val} (h : s = f1 ∨ s = f2) : to ∈ p.transferAndKillTwo to f1 f2 s := by
  unfold Prog.transferAndKillTwo
  by_cases h1 : s = f1 <;> by_cases h2 : s = f2 <;> cases p.twoUses f1 <;> cases p.twoUses f2 <;> simp_all

theorem tk2_keep {to f1 f2 s : Val} (h0 : s ≠ to) (h1 : s = f1 → p.twoUses f1 = true) (h2 : s = f2 → p.twoUses f2 = true) :
    s ∈ p.transferAndKillTwo to f1 f2 s := by
  unfold Prog.transferAndKillTwo
  by_cases e1 : s = f1
  · have := h1 e1
    by_cases e2 : s = f2
    · have := h2 e2
      simp [*]
    · cases hu : p.twoUses f2 <;> simp [*]
  · by_cases e2 : s = f2
    · have := h2 e2
      have e1' : f2 ≠ f1 := fun h => e1 (e2.trans h)
      cases hu : p.twoUses f1 <;> simp [*]
    · cases hu : p.twoUses f1 <;> cases hv : p.twoUses f2 <;> simp [*]

theorem transfer_to {to f : Val} : to ∈ (transferFlow to f f : List Val) := by simp [transferFlow]

theorem transfer_keep {to f s : Val} (h : s ≠ to) : s ∈ (transferFlow to f s : List Val) := by
  unfold transferFlow
  by_cases e : s = f <;> simp [e, h]

theorem mem_storeGen {n : Nat} {v ptr t : Val} (h : t ∈ p.populate [ptr] n) : t ∈ p.storeGen n v ptr := by
  have h' : t ∈ p.populate (FSet.insert [] ptr) n := by simpa [FSet.insert] using h
  unfold Prog.storeGen
  simp only
  split
  · exact FSet.mem_insert.2 (.inr h')
  · exact h'

/-- Every normal flow function keeps a fact except for the result of the statement, the target of a store, and a value whose
only use this is. -/
theorem normal_keep {n n' k : Nat} (hkn : k ≠ n) (hst : ∀ v ptr, p.inst n = .store v ptr → ptr ≠ .node k)
    (hl : ¬ p.LastUse n k) : .node k ∈ p.normalFlow n n' (.node k) := by
  have hne : (Val.node k) ≠ .node n := fun h => hkn (Val.node.inj h)
  have hu : ∀ {v : Val}, ((Val.node k) = v → p.uses2 k = false → p.LastUse n k) → (Val.node k) = v → p.twoUses v = true := by
    intro v h e
    subst e
    cases hu : p.uses2 k
    · exact absurd (h rfl hu) hl
    · exact hu
  unfold Prog.normalFlow
  cases hi : p.inst n with
  | store v ptr =>
    simp only
    rw [if_neg (hst v ptr hi)]
    by_cases e : v = .node k
    · rw [if_pos e]
      have := hu (v := v) (fun e' h => ⟨h, .inl ⟨ptr, by rw [hi, e']⟩⟩) e.symm
      unfold Prog.storeGen
      simp only [this, if_true]
      exact FSet.mem_insert.2 (.inl e.symm)
    · rw [if_neg e]; simp
  | load v => exact tk_keep hne (hu fun e h => ⟨h, .inr (.inl (by rw [hi, e]))⟩)
  | gep v => exact tk_keep hne (hu fun e h => ⟨h, .inr (.inr (.inl (by rw [hi, e])))⟩)
  | extract v => exact tk_keep hne (hu fun e h => ⟨h, .inr (.inr (.inr (.inl (by rw [hi, e]))))⟩)
  | insert a v =>
    exact tk2_keep hne (hu fun e h => ⟨h, .inr (.inr (.inr (.inr (.inl ⟨v, by rw [hi, e]⟩))))⟩)
      (hu fun e h => ⟨h, .inr (.inr (.inr (.inr (.inr ⟨a, by rw [hi, e]⟩))))⟩)
  | cast v => exact transfer_keep hne
  | _ => simp [identityFlow]

/-- The zero fact is kept. -/
theorem normal_zero (wf : p.WF) (n n' : Nat) : Val.zero ∈ p.normalFlow n n' .zero := by
  have hz := wf.operand n
  have hne : (Val.zero) ≠ .node n := nofun
  unfold Prog.normalFlow
  unfold Prog.operands at hz
  cases hi : p.inst n with
  | store v ptr =>
    simp only [hi, List.mem_cons, List.not_mem_nil, or_false, not_or] at hz ⊢
    rw [if_neg (Ne.symm hz.2), if_neg (Ne.symm hz.1)]
    simp
  | insert a v =>
    simp only [hi, List.mem_cons, List.not_mem_nil, or_false, not_or] at hz
    exact tk2_keep hne (fun e => absurd e hz.1) (fun e => absurd e hz.2)
  | cast v => exact transfer_keep hne
  | load v =>
    simp only [hi, List.mem_cons, List.not_mem_nil, or_false] at hz
    exact tk_keep hne (fun e => absurd e hz)
  | gep v =>
    simp only [hi, List.mem_cons, List.not_mem_nil, or_false] at hz
    exact tk_keep hne (fun e => absurd e hz)
  | extract v =>
    simp only [hi, List.mem_cons, List.not_mem_nil, or_false] at hz
    exact tk_keep hne (fun e => absurd e hz)
  | _ => simp [identityFlow]

/-! ## Configured calls -/

theorem mem_argsWith {q : Nat → Bool} {n f : Nat} {v : Val} :
    v ∈ p.argsWith q n f ↔ ∃ (i : Nat) (k : Nat), (p.params f)[i]? = some k ∧ q k = true ∧ (p.args n)[i]? = some v := by
  unfold Prog.argsWith
  rw [List.mem_map]
  constructor
  · rintro ⟨⟨k, a⟩, h, rfl⟩
    obtain ⟨h1, h2⟩ := List.mem_filter.1 h
    obtain ⟨i, hi⟩ := List.mem_iff_getElem?.1 h1
    obtain ⟨hk, ha⟩ := List.getElem?_zip_eq_some.1 hi
    exact ⟨i, k, hk, h2, ha⟩
  · rintro ⟨i, k, hk, hq, ha⟩
    exact ⟨(k, v), List.mem_filter.2 ⟨List.mem_iff_getElem?.2 ⟨i, List.getElem?_zip_eq_some.2 ⟨hk, ha⟩⟩, hq⟩, rfl⟩

theorem mem_collectGen {n f : Nat} {v : Val} : v ∈ p.collectGen n f ↔ p.GenAt n f v := by
  unfold Prog.collectGen Prog.GenAt
  simp only [FSet.mem_insertAll, mem_argsWith]
  cases hc : p.srcCB <;> cases hs : p.isSource n <;> simp [or_comm, or_assoc]

theorem mem_collectLeak {n f : Nat} {v : Val} : v ∈ p.collectLeak n f ↔ p.SinkAt n f v := by
  unfold Prog.collectLeak Prog.SinkAt
  simp only [FSet.mem_insertAll, mem_argsWith]
  cases hc : p.sinkCB <;> simp [or_comm]

theorem mem_collectSani {n f : Nat} {v : Val} : v ∈ p.collectSani n f ↔ p.SaniAt n f v := by
  unfold Prog.collectSani Prog.SaniAt
  simp [FSet.mem_insertAll, mem_argsWith]

theorem gen_eq_nil {n f : Nat} : p.gen n f = [] ↔ ∀ v, ¬ p.GenAt n f v := by
  unfold Prog.gen
  rw [List.eq_nil_iff_forall_not_mem]
  simp only [mem_populate, mem_collectGen]
  constructor
  · exact fun h v hv => h v (.inl hv)
  · rintro h v (hv | ⟨u, hu, _⟩)
    · exact h v hv
    · exact h u hu

theorem kill_eq {n f : Nat} (h : p.sretCS n = false) : p.kill n f = p.collectSani n f := by
  unfold Prog.kill
  rw [h]; simp

theorem nil_iff {l : List Val} {q : Val → Prop} (h : ∀ v, v ∈ l ↔ q v) : l = [] ↔ ∀ v, ¬ q v := by
  rw [List.eq_nil_iff_forall_not_mem]
  simp [h]

/-- Which calls have a summary. -/
theorem summary_none {n f : Nat} (hs : p.sretCS n = false) :
    p.summaryFlow n f = none ↔ p.swift f = false ∧ p.fdff f = none ∧ ∀ v, ¬ (p.GenAt n f v ∨ p.SinkAt n f v ∨ p.SaniAt n f v) := by
  have hg : p.gen n f = [] ↔ _ := gen_eq_nil
  have hl := nil_iff (fun v => mem_collectLeak (p := p) (n := n) (f := f) (v := v))
  have hk := nil_iff (fun v => mem_collectSani (p := p) (n := n) (f := f) (v := v))
  unfold Prog.summaryFlow
  rw [kill_eq hs]
  cases hsw : p.swift f
  · rw [if_neg (by simp)]
    by_cases h : p.gen n f = [] ∧ p.collectLeak n f = [] ∧ p.collectSani n f = []
    · rw [if_pos h]
      rw [hg, hl, hk] at h
      simp only [Option.map_eq_none_iff, true_and]
      exact ⟨fun e => ⟨e, fun v hv => hv.elim (h.1 v) (fun hv => hv.elim (h.2.1 v) (h.2.2 v))⟩, fun e => e.1⟩
    · rw [if_neg h]
      have : ¬ ∀ v, ¬ (p.GenAt n f v ∨ p.SinkAt n f v ∨ p.SaniAt n f v) := by
        intro h'
        rw [hg, hl, hk] at h
        exact h ⟨fun v hv => h' v (.inl hv), fun v hv => h' v (.inr (.inl hv)), fun v hv => h' v (.inr (.inr hv))⟩
      split <;> exact ⟨nofun, fun e => absurd e.2.2 this⟩
  · simp

/-- A configured call passes on a fact unless it sanitizes it. -/
theorem summary_keep {n f : Nat} (hs : p.sretCS n = false) {g : FF Val} (hg : p.summaryFlow n f = some g) {s : Val}
    (hk : ¬ p.SaniAt n f s) : s ∈ g s := by
  unfold Prog.summaryFlow at hg
  rw [kill_eq hs] at hg
  split at hg
  · cases hg
    unfold generateFlowIf
    split <;> simp
  · split at hg
    · cases hf : p.fdff f with
      | none => rw [hf] at hg; cases hg
      | some m =>
        rw [hf] at hg
        cases hg
        exact FSet.mem_insert.2 (.inl rfl)
    · split at hg
      · cases hg
        simp only
        rw [if_neg (fun h => hk (mem_collectSani.1 h))]
        simp
      · cases hg
        simp only
        split
        · rename_i h; rw [h]; exact FSet.mem_insert.2 (.inl rfl)
        · simp

/-- A source call generates the sources and their aliases from the zero fact. -/
theorem summary_gen {n f : Nat} (hlib : ∀ v, p.swift f = true → ¬ p.GenAt n f v) {v : Val} (hv : p.GenAt n f v) :
    ∃ g, p.summaryFlow n f = some g ∧ ∀ t ∈ p.gen n f, t ∈ g .zero := by
  have hsw : p.swift f = false := by
    cases h : p.swift f
    · rfl
    · exact absurd hv (hlib v h)
  have hne : p.gen n f ≠ [] := fun h => gen_eq_nil.1 h v hv
  unfold Prog.summaryFlow
  rw [hsw]
  simp only [Bool.false_eq_true, if_false, hne, false_and]
  exact ⟨_, rfl, fun t ht => by simp only [if_true]; exact FSet.mem_insert.2 (.inr ht)⟩

theorem gen_of_genAt {n f : Nat} {v : Val} (hv : p.GenAt n f v) : v ∈ p.gen n f :=
  mem_populate.2 (.inl (mem_collectGen.2 hv))

theorem fdff_mem {n f i : Nat} {m : List (Nat × List Target)} {a t : Val} {tg : Target} (hi : i < (p.params f).length)
    (ha : (p.args n)[i]? = some a) (hm : tg ∈ lookupParam m i) (ht : t ∈ p.targetFacts n tg) : t ∈ p.fdffFlow n f m a := by
  unfold Prog.fdffFlow
  refine FSet.mem_insert.2 (.inr ?_)
  have key : ∀ (l : List (Val × Nat)) (r : List Val), (t ∈ r ∨ (a, i) ∈ l) →
      t ∈ l.foldl (fun r x => if a = x.1 then FSet.insertAll r ((lookupParam m x.2).flatMap (p.targetFacts n)) else r) r := by
    intro l
    induction l with
    | nil =>
      rintro r (h | h)
      · exact h
      · cases h
    | cons x l ih =>
      intro r h
      rw [List.foldl_cons]
      apply ih
      rcases h with h | h
      · left
        split
        · exact FSet.mem_insertAll.2 (.inr h)
        · exact h
      · rcases List.mem_cons.1 h with h | h
        · left
          subst h
          simp only [if_true]
          exact FSet.mem_insertAll.2 (.inl (List.mem_flatMap.2 ⟨tg, hm, ht⟩))
        · exact .inr h
  refine key _ _ (.inr (List.mem_iff_getElem?.2 ⟨i, ?_⟩))
  rw [List.getElem?_zip_eq_some]
  exact ⟨ha, by rw [List.getElem?_range hi]⟩

/-- A library function passes a fact about an argument on to where it moves the data. -/
theorem summary_moves (hs : ∀ f, p.swift f = true → p.fdff f = none) {n f i : Nat} {tg : Target} {a t : Val}
    (hlib : ∀ v, p.swift f = true ∨ p.fdff f ≠ none → ¬ p.GenAt n f v ∧ ¬ p.SinkAt n f v ∧ ¬ p.SaniAt n f v)
    (hsret : p.sretCS n = false) (hm : p.MovesTo f i tg) (ha : (p.args n)[i]? = some a) (ht : t ∈ p.targetFacts n tg) :
    ∃ g, p.summaryFlow n f = some g ∧ t ∈ g a := by
  rcases hm with ⟨hsw, hi, rfl⟩ | ⟨hi, m, hf, hm⟩
  · unfold Prog.summaryFlow
    rw [if_pos hsw]
    refine ⟨_, rfl, ?_⟩
    unfold generateFlowIf
    have : (decide ((p.args n)[1]? = some a) || decide ((p.args n)[3]? = some a)) = true := by
      rcases hi with rfl | rfl
      · simp [ha]
      · simp [ha]
    rw [if_pos this]
    rw [List.mem_singleton.1 ht]
    simp
  · have hsw : p.swift f = false := by
      cases h : p.swift f
      · rfl
      · rw [hs f h] at hf; cases hf
    have hlib' := fun v => hlib v (.inr (by rw [hf]; nofun))
    unfold Prog.summaryFlow
    rw [hsw, kill_eq hsret, if_neg (by simp), if_pos ⟨gen_eq_nil.2 fun v => (hlib' v).1,
      (nil_iff fun v => mem_collectLeak).2 fun v => (hlib' v).2.1, (nil_iff fun v => mem_collectSani).2 fun v => (hlib' v).2.2⟩, hf]
    exact ⟨_, rfl, fdff_mem hi ha hm ht⟩

end Phasar.Taint
