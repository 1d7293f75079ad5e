import Verif.Analysis.TaintInv
/-!
# Steps preserve the invariant (lemmas for C51)
-/
namespace Phasar.Taint
open Phasar Phasar.IDE FlowFn

variable {p : Prog}

/-- Common part of the statements that are no calls. -/
theorem inv_upd (wf : p.WF) {stk : List Frame} {n n' : Nat} {regs : Nat → RVal} {mem mem' : Loc → Bool}
    {next next' : Nat} {x : RVal} (h : p.Inv ⟨stk, n, regs, mem, next⟩) (hc : p.icf.isCall n = false) (hn : n' ∈ p.icf.succs n)
    (hal : p.AliasAt n' (updR regs n x))
    (hx : Hot mem' x → p.Run (stk.map Frame.c) n' (.node n))
    (hcov : ∀ k, k ≠ n → p.Tainted regs mem' (.node k) → p.Cov (stk.map Frame.c) n' k)
    (hxa : ∀ ℓ, x = .ptr ℓ → AccBy regs next ℓ)
    (hxo : ∀ i, x = .ptr (.obj i) → i < next') (hxg : ∀ g, x = .ptr (.glob g) → p.isConst g = true)
    (hm : ∀ ℓ, mem' ℓ = true → mem ℓ = true ∨ AccBy regs next ℓ) (hnx : next ≤ next')
    (hconst : ∀ g, mem' (.glob g) = true → p.constData g = false) :
    p.Inv ⟨stk, n', updR regs n x, mem', next'⟩ := by
  obtain ⟨hin, hnc⟩ := wf.stmt n (.inr (.inr (List.ne_nil_of_mem hn)))
  have hfun := wf.icf.succs_fun n n' hn
  refine ⟨⟨h.act.zero.step (.normal hc hn (normal_zero wf n n')), fun k hk => ?_, fun k ℓ hk => ?_, fun k i hk => ?_,
    fun k g hk => ?_, hal⟩, ?_, hconst⟩
  · by_cases e : k = n
    · subst e
      unfold Prog.Tainted at hk
      rw [val_upd_eq hnc] at hk
      exact .inl (hx hk)
    · unfold Prog.Tainted at hk
      rw [val_upd_ne e] at hk
      exact hcov k e hk
  · refine inFun_congr hfun ?_
    by_cases e : k = n
    · subst e; exact .inr (.inl ⟨hin, rfl⟩)
    · exact h.act.loc k ℓ (by simpa [updR, e] using hk)
  · by_cases e : k = n
    · subst e; exact hxo i (by simpa [updR] using hk)
    · exact Nat.lt_of_lt_of_le (h.act.old k i (by simpa [updR, e] using hk)) hnx
  · by_cases e : k = n
    · subst e; exact hxg g (by simpa [updR] using hk)
    · exact h.act.glob k g (by simpa [updR, e] using hk)
  · refine frames_upd (frames_mem h.frames hm) hfun (fun k hk ℓ hℓ => ?_) (fun k ℓ hk => ?_) hnx
    · have : k ≠ n := by
        rintro rfl
        rw [(wf.params _ _ hk).1] at hin; cases hin
      simpa [updR, this] using hℓ
    · by_cases e : k = n
      · subst e; exact hxa ℓ (by simpa [updR] using hk)
      · exact .inr (.inl ⟨k, by simpa [updR, e] using hk⟩)

theorem accBy_val {regs : Nat → RVal} {next : Nat} {v : Val} {ℓ : Loc} (h : p.val regs v = .ptr ℓ) : AccBy regs next ℓ := by
  rcases val_ptr h with ⟨g, _, _, h⟩ | ⟨k, _, _, h⟩
  · exact .inl ⟨g, h⟩
  · exact .inr (.inl ⟨k, h⟩)

theorem Prog.ActOk.val_old {cs : List Nat} {n : Nat} {regs : Nat → RVal} {mem : Loc → Bool} {next : Nat}
    (h : p.ActOk cs n regs mem next) {v : Val} {i : Nat} (hv : p.val regs v = .ptr (.obj i)) : i < next := by
  rcases val_ptr hv with ⟨g, _, _, h'⟩ | ⟨k, _, _, h'⟩
  · cases h'
  · exact h.old k i h'

theorem Prog.ActOk.val_glob {cs : List Nat} {n : Nat} {regs : Nat → RVal} {mem : Loc → Bool} {next : Nat}
    (h : p.ActOk cs n regs mem next) {v : Val} {g : Nat} (hv : p.val regs v = .ptr (.glob g)) : p.isConst g = true := by
  rcases val_ptr hv with ⟨g', _, hc, h'⟩ | ⟨k, _, _, h'⟩
  · cases h'; exact hc
  · exact h.glob k g h'

/-- A tainted operand of the current statement is a fact there. -/
theorem Prog.ActOk.operand (wf : p.WF) {cs : List Nat} {n : Nat} {regs : Nat → RVal} {mem : Loc → Bool} {next : Nat}
    (h : p.ActOk cs n regs mem next) {v : Val} (hv : v ∈ p.operands n) (ht : p.Tainted regs mem v) : p.Run cs n v := by
  obtain ⟨k, rfl⟩ := tainted_node ht
  exact (h.cov k ht).use wf hv

/-- Statements that copy a value to their result and leave the memory alone. -/
theorem inv_copy (wf : p.WF) {stk : List Frame} {n n' : Nat} {regs : Nat → RVal} {mem : Loc → Bool}
    {next : Nat} {x : RVal} (h : p.Inv ⟨stk, n, regs, mem, next⟩) (hc : p.icf.isCall n = false) (hn : n' ∈ p.icf.succs n)
    (hal : p.AliasAt n' (updR regs n x)) (hst : ∀ v ptr, p.inst n ≠ .store v ptr)
    (hx : Hot mem x → ∃ v ∈ p.operands n, p.Tainted regs mem v ∧ .node n ∈ p.normalFlow n n' v)
    (hxv : ∀ ℓ, x = .ptr ℓ → ∃ v, p.val regs v = .ptr ℓ) : p.Inv ⟨stk, n', updR regs n x, mem, next⟩ := by
  refine inv_upd wf h hc hn hal (fun hh => ?_) (fun k hk ht => (h.act.cov k ht).normal wf hc hn hk
    fun v ptr e => absurd e (hst v ptr)) (fun ℓ e => ?_) (fun i e => ?_) (fun g e => ?_) (fun ℓ e => .inl e)
    (Nat.le_refl _) h.const
  · obtain ⟨v, hv, ht, hf⟩ := hx hh
    exact (h.act.operand wf hv ht).step (.normal hc hn hf)
  · obtain ⟨v, hv⟩ := hxv ℓ e; exact accBy_val hv
  · obtain ⟨v, hv⟩ := hxv _ e; exact h.act.val_old hv
  · obtain ⟨v, hv⟩ := hxv _ e; exact h.act.val_glob hv

theorem inv_normal (wf : p.WF) {stk : List Frame} {n n' : Nat} {regs : Nat → RVal} {mem mem' : Loc → Bool}
    {next next' : Nat} {x : RVal} (h : p.Inv ⟨stk, n, regs, mem, next⟩) (hc : p.icf.isCall n = false) (hn : n' ∈ p.icf.succs n)
    (he : p.Effect false n regs mem next x mem' next') (hal : p.AliasAt n' (updR regs n x)) :
    p.Inv ⟨stk, n', updR regs n x, mem', next'⟩ := by
  cases he with
  | alloca hi =>
    have hle : ∀ ℓ, updM mem (.obj next) false ℓ = true → mem ℓ = true := by
      intro ℓ hℓ; unfold updM at hℓ; split at hℓ
      · cases hℓ
      · exact hℓ
    refine inv_upd wf h hc hn hal (fun hh => ?_) (fun k hk ht => (h.act.cov k ?_).normal wf hc hn hk ?_) (fun ℓ e => ?_)
      (fun i e => ?_) (fun g e => by cases e) (fun ℓ e => .inl (hle _ e)) (Nat.le_succ _) fun g e => h.const g (hle _ e)
    · simp [Hot, updM] at hh
    · unfold Prog.Tainted at ht ⊢
      rcases hot_cases ht with e | ⟨ℓ, e, hℓ⟩
      · rw [e]; rfl
      · rw [e]; exact hle _ hℓ
    · intro v ptr e; rw [hi] at e; cases e
    · cases e; exact .inr (.inr ⟨next, rfl, Nat.le_refl _⟩)
    · cases e; exact Nat.lt_succ_self _
  | @store v ptr ℓ t hi hp hv hcd =>
    have hnp : v ≠ ptr := by rintro rfl; rw [hv] at hp; cases hp
    have hop : v ∈ p.operands n := by simp [Prog.operands, hi]
    have hgen : t = true → ∀ u ∈ p.storeGen n v ptr, p.Run (stk.map Frame.c) n' u := by
      intro ht u hu
      refine (h.act.operand wf hop (by unfold Prog.Tainted; rw [hv]; exact ht)).step (.normal hc hn ?_)
      change u ∈ p.normalFlow n n' v
      unfold Prog.normalFlow
      rw [hi]
      simp only
      rw [if_neg (Ne.symm hnp), if_pos trivial]
      exact hu
    refine inv_upd wf h hc hn hal (fun hh => by cases hh) (fun k hk ht => ?_) (fun ℓ e => by cases e)
      (fun i e => by cases e) (fun g e => by cases e) (fun m e => ?_) (Nat.le_refl _) fun g e => ?_
    · unfold Prog.Tainted at ht
      by_cases hkℓ : p.val regs (.node k) = .ptr ℓ
      · rw [hkℓ] at ht
        have ht' : t = true := by simpa [Hot, updM] using ht
        by_cases hpend : p.Pending n k
        · exact .inr (.inr (pending_next wf hpend hk (.inl hn)))
        · refine .inl (hgen ht' _ (mem_storeGen (populate_same wf h.act (List.mem_singleton.2 rfl) hp hkℓ hpend fun hck => ?_)))
          rw [val_global hck] at hkℓ
          cases hkℓ
          exact hcd k rfl
      · have ht2 : p.Tainted regs mem (.node k) := by
          unfold Prog.Tainted
          rcases hot_cases ht with e | ⟨m, e, hm⟩
          · rw [e]; rfl
          · rw [e]
            have : m ≠ ℓ := fun e' => hkℓ (e' ▸ e)
            simpa [Hot, updM, this] using hm
        refine (h.act.cov k ht2).normal wf hc hn hk fun v' ptr' e => ?_
        rw [hi] at e; cases e
        rintro rfl
        exact hkℓ hp
    · by_cases e' : m = ℓ
      · rw [e']; exact .inr (accBy_val hp)
      · exact .inl (by simpa [updM, e'] using e)
    · unfold updM at e
      split at e
      · rename_i e'; exact hcd g e'.symm
      · exact h.const g e
  | @load ptr ℓ hi hp =>
    refine inv_copy wf h hc hn hal (fun v ptr e => by rw [hi] at e; cases e) (fun hh => ⟨ptr, by simp [Prog.operands, hi], ?_, ?_⟩)
      (fun ℓ e => by cases e)
    · unfold Prog.Tainted; rw [hp]; exact hh
    · unfold Prog.normalFlow; rw [hi]; exact tk_to
  | @gep ptr hi =>
    refine inv_copy wf h hc hn hal (fun v ptr e => by rw [hi] at e; cases e) (fun hh => ⟨ptr, by simp [Prog.operands, hi], hh, ?_⟩)
      (fun ℓ e => ⟨_, e⟩)
    unfold Prog.normalFlow; rw [hi]; exact tk_to
  | @extract v hi =>
    refine inv_copy wf h hc hn hal (fun v ptr e => by rw [hi] at e; cases e) (fun hh => ⟨v, by simp [Prog.operands, hi], hh, ?_⟩)
      (fun ℓ e => ⟨_, e⟩)
    unfold Prog.normalFlow; rw [hi]; exact tk_to
  | @cast v hi =>
    refine inv_copy wf h hc hn hal (fun v ptr e => by rw [hi] at e; cases e) (fun hh => ⟨v, by simp [Prog.operands, hi], hh, ?_⟩)
      (fun ℓ e => ⟨_, e⟩)
    unfold Prog.normalFlow; rw [hi]; exact transfer_to
  | @insert a v s t hi ha hv =>
    refine inv_copy wf h hc hn hal (fun v ptr e => by rw [hi] at e; cases e) (fun hh => ?_) (fun ℓ e => by cases e)
    have hh : (s || t) = true := hh
    rw [Bool.or_eq_true] at hh
    rcases hh with hh | hh
    · refine ⟨a, by simp [Prog.operands, hi], by unfold Prog.Tainted; rw [ha]; exact hh, ?_⟩
      unfold Prog.normalFlow; rw [hi]; exact tk2_to (.inl rfl)
    · refine ⟨v, by simp [Prog.operands, hi], by unfold Prog.Tainted; rw [hv]; exact hh, ?_⟩
      unfold Prog.normalFlow; rw [hi]; exact tk2_to (.inr rfl)
  | op hi =>
    exact inv_copy wf h hc hn hal (fun v ptr e => by rw [hi] at e; cases e) (fun hh => by cases hh) (fun ℓ e => by cases e)
  | opDeep _ hd => cases hd

/-! ## Calls -/

theorem args_operands (wf : p.WF) {n : Nat} (hc : p.icf.isCall n = true) : p.operands n = p.args n := by
  obtain ⟨as, ha⟩ := (wf.isCall n).1 hc
  simp [Prog.operands, Prog.args, ha]

theorem not_cbHits {cb : Option (Nat → List Val)} {n : Nat} (h : ∀ g, cb = some g → ∀ v, v ∉ g n) : p.cbHits cb n = false := by
  unfold Prog.cbHits
  cases cb with
  | none => rfl
  | some g =>
    have : g n = [] := List.eq_nil_iff_forall_not_mem.2 (h g rfl)
    simp [this]

theorem internal_call (wc : p.WFCalls) {n f : Nat} (hf : f ∈ p.icf.callees n) (hx : ¬ p.External n f) :
    p.callFlow n f = mapFactsToCallee p.ir (p.args n) (p.callee f) (fun a s => decide (a = s)) true true := by
  unfold Prog.External at hx
  simp only [not_or, not_exists] at hx
  obtain ⟨hd, _, _, hx⟩ := hx
  have hd : p.isDecl f = false := by simpa using hd
  have har := wc.arity n f hf hd
  have get : ∀ k ∈ p.params f, ∃ (i : Nat) (a : Val), (p.params f)[i]? = some k ∧ (p.args n)[i]? = some a := by
    intro k hk
    obtain ⟨i, hi⟩ := List.mem_iff_getElem?.1 hk
    have hlt : i < (p.args n).length := by rw [har]; exact (List.getElem?_eq_some_iff.1 hi).1
    exact ⟨i, (p.args n)[i], hi, List.getElem?_eq_getElem hlt⟩
  have h1 : p.isSourceCall n f = false := by
    unfold Prog.isSourceCall
    rw [Bool.or_eq_false_iff]
    refine ⟨?_, not_cbHits fun g hg v hv => (hx v).1 (.inl ⟨g, hg, hv⟩)⟩
    rw [List.any_eq_false]
    intro k hk hs
    obtain ⟨i, a, h1, h2⟩ := get k hk
    exact (hx a).1 (.inr (.inr ⟨i, k, h1, hs, h2⟩))
  have h2 : p.isSinkCall n f = false := by
    unfold Prog.isSinkCall
    rw [Bool.or_eq_false_iff]
    refine ⟨?_, not_cbHits fun g hg v hv => (hx v).2.1 (.inl ⟨g, hg, hv⟩)⟩
    rw [List.any_eq_false]
    intro k hk hs
    obtain ⟨i, a, h1, h2⟩ := get k hk
    exact (hx a).2.1 (.inr ⟨i, k, h1, hs, h2⟩)
  unfold Prog.callFlow
  rw [h1, h2]
  rfl

theorem internal_summary (fit : p.Fit) {n f : Nat} (hx : ¬ p.External n f) : p.summaryFlow n f = none := by
  unfold Prog.External at hx
  simp only [not_or, not_exists] at hx
  rw [summary_none (fit.sret n).1]
  refine ⟨by simpa using hx.2.1, Classical.not_not.1 hx.2.2.1, fun v hv => ?_⟩
  have := hx.2.2.2 v
  rcases hv with h | h | h
  · exact this.1 h
  · exact this.2.1 h
  · exact this.2.2 h

theorem inv_call (wf : p.WF) (wc : p.WFCalls) (fit : p.Fit) {stk : List Frame} {n f sp : Nat} {regs regs' : Nat → RVal}
    {mem : Loc → Bool} {next : Nat} (h : p.Inv ⟨stk, n, regs, mem, next⟩) (hc : p.icf.isCall n = true)
    (hf : f ∈ p.icf.callees n) (hx : ¬ p.External n f) (hsp : sp ∈ p.icf.starts f)
    (hpar : ∀ (i k : Nat) (a : Val), (p.params f)[i]? = some k → (p.args n)[i]? = some a → regs' k = p.val regs a)
    (hreg : ∀ k, k ∉ p.params f → regs' k = .sc false)
    (hty : ∀ a ∈ p.args n, p.ptrTy a = false → ∃ t, p.val regs a = .sc t)
    (had : ∀ a ∈ p.args n, p.ptrTy a = true → p.val regs a ≠ .sc true) (hal : p.AliasAt sp regs') :
    p.Inv ⟨⟨n, regs, mem, next⟩ :: stk, sp, regs', mem, next⟩ := by
  have hcf := internal_call wc hf hx
  have hsum := internal_summary fit hx
  have hfun : p.icf.funOf sp = f := wf.icf.start_fun f sp hsp
  have hd : p.isDecl f = false := by
    cases hd : p.isDecl f
    · rfl
    · exact absurd (.inl hd) hx
  have har := wc.arity n f hf hd
  have step : ∀ s t, p.Run (stk.map Frame.c) n s → t ∈ p.callFlow n f s → p.Run (n :: stk.map Frame.c) sp t :=
    fun s t hs ht => hs.step (.call hc hf hsum hsp ht)
  have get : ∀ k, regs' k ≠ .sc false → ∃ (i : Nat) (a : Val), (p.params f)[i]? = some k ∧ (p.args n)[i]? = some a := by
    intro k hk
    have hkp : k ∈ p.params f := Classical.not_not.1 fun h => hk (hreg k h)
    obtain ⟨i, hi⟩ := List.mem_iff_getElem?.1 hkp
    have hlt : i < (p.args n).length := by rw [har]; exact (List.getElem?_eq_some_iff.1 hi).1
    exact ⟨i, (p.args n)[i], hi, List.getElem?_eq_getElem hlt⟩
  have getp : ∀ k ℓ, regs' k = .ptr ℓ → ∃ a ∈ p.args n, p.val regs a = .ptr ℓ := by
    intro k ℓ hk
    obtain ⟨i, a, h1, h2⟩ := get k (by rw [hk]; nofun)
    exact ⟨a, List.mem_of_getElem? h2, by rw [← hpar i k a h1 h2]; exact hk⟩
  refine ⟨⟨?_, fun k hk => ?_, fun k ℓ hk => ?_, fun k i hk => ?_, fun k g hk => ?_, hal⟩, ⟨?_, h.act, h.frames⟩, h.const⟩
  · refine step _ _ h.act.zero ?_
    rw [hcf]
    exact (C50_callee ..).2 ⟨hd, .inl ⟨rfl, .inl ⟨rfl, rfl⟩⟩⟩
  · refine .inl ?_
    cases hk' : p.isConst k
    · unfold Prog.Tainted at hk
      rw [val_local hk'] at hk
      dsimp only at hk ⊢
      obtain ⟨i, a, h1, h2⟩ := get k (fun e => by rw [e] at hk; cases hk)
      rw [hpar i k a h1 h2] at hk
      have ha : a ∈ p.operands n := by rw [args_operands wf hc]; exact List.mem_of_getElem? h2
      refine step _ _ (h.act.operand wf ha hk) ?_
      rw [hcf]
      refine (C50_callee ..).2 ⟨hd, .inr (.inl ⟨i, a, ?_, h2, by simp, ?_⟩)⟩
      · simp [Prog.callee, h1]
      · intro e
        have : p.sret f = true := e.1
        rw [(fit.sret n).2 f hf] at this; cases this
    · refine step _ _ ((h.act.cov k ?_).global fit hk') ?_
      · unfold Prog.Tainted at hk ⊢
        rw [val_global hk'] at hk ⊢
        exact hk
      · rw [hcf]
        exact (C50_callee ..).2 ⟨hd, .inl ⟨rfl, .inr ⟨nofun, hk', rfl⟩⟩⟩
  · dsimp only at hk
    obtain ⟨i, a, h1, _⟩ := get k (by rw [hk]; nofun)
    have := wf.params f k (List.mem_of_getElem? h1)
    exact .inr (.inr ⟨this.1, by rw [this.2.2]; exact congrArg some hfun.symm⟩)
  · obtain ⟨a, _, ha⟩ := getp k _ hk
    exact h.act.val_old ha
  · obtain ⟨a, _, ha⟩ := getp k _ hk
    exact h.act.val_glob ha
  · exact { call := hc
            callee := hfun.symm ▸ hf
            int := hfun.symm ▸ hx
            formals := fun i k a ℓ hk ha hv => by
              rw [hfun] at hk
              exact (hpar i k a hk ha).trans hv
            typed := hty
            addr := had
            reach := fun k ℓ hk => .inr (.inl (getp k ℓ hk))
            same := fun _ _ h => h
            mono := Nat.le_refl _ }

/-! ## Returns -/

theorem ctr_keep {n r k : Nat} (h : p.isConst k = true ∨ (.node k ∈ p.args n → (p.icf.callees n).any p.isDecl = true ∨
    p.ptrTy (.node k) = false)) : .node k ∈ p.ctrFlow n r (.node k) := by
  refine (C50_alongside ..).2 ⟨rfl, ?_⟩
  cases hk : p.isConst k
  · refine .inr (.inr ⟨hk, fun ha => ?_⟩)
    rcases (h.resolve_left (by simp [hk])) ha with h | h <;> simp [h]
  · exact .inr (.inl ⟨hk, rfl⟩)

theorem ret_global {c f e r k : Nat} (h : p.isConst k = true) {t : Val} (ht : t ∈ p.populate [.node k] c) :
    t ∈ p.retFlow c f e r (.node k) := by
  have hm : Val.node k ∈ mapFactsToCaller p.ir (.node c) (p.args c) (p.callee f) (p.retVal e)
    (fun q s => decide (q = s) && p.ptrTy q) (fun v s => decide (v = s)) true true (.node k) :=
    (C50_caller_partial ..).2 (.inl ⟨rfl, .inr ⟨h, rfl⟩⟩)
  rcases mem_populate.1 ht with h' | ⟨v, hv, a, ha, h'⟩
  · rw [List.mem_singleton.1 h']; exact mem_populate.2 (.inl hm)
  · rw [List.mem_singleton.1 hv] at ha; exact mem_populate.2 (.inr ⟨_, hm, a, ha, h'⟩)

theorem ret_param {c f e r i k : Nat} {a : Val} (hk : (p.params f)[i]? = some k) (ha : (p.args c)[i]? = some a)
    (hp : p.isPtr k = true) {t : Val} (ht : t ∈ p.populate [a] c) : t ∈ p.retFlow c f e r (.node k) := by
  have hm : a ∈ mapFactsToCaller p.ir (.node c) (p.args c) (p.callee f) (p.retVal e)
    (fun q s => decide (q = s) && p.ptrTy q) (fun v s => decide (v = s)) true true (.node k) :=
    (C50_caller_partial ..).2 (.inr (.inl ⟨i, .node k, by simp [Prog.callee, hk], ha, by simp [Prog.ptrTy, hp]⟩))
  rcases mem_populate.1 ht with h' | ⟨v, hv, a', ha', h'⟩
  · rw [List.mem_singleton.1 h']; exact mem_populate.2 (.inl hm)
  · rw [List.mem_singleton.1 hv] at ha'; exact mem_populate.2 (.inr ⟨_, hm, a', ha', h'⟩)

theorem inv_ret (wf : p.WF) (wc : p.WFCalls) (fit : p.Fit) {fr : Frame} {stk : List Frame} {n r : Nat} {regs : Nat → RVal}
    {mem : Loc → Bool} {next : Nat} (h : p.Inv ⟨fr :: stk, n, regs, mem, next⟩) (hc : p.icf.isCall n = false)
    (he : p.icf.isExit n = true) (hr : r ∈ p.icf.retSites fr.c)
    (hal : p.AliasAt r (updR fr.regs fr.c (match p.retVal n with | some v => p.val regs v | none => .sc false))) :
    p.Inv ⟨stk, r, updR fr.regs fr.c (match p.retVal n with | some v => p.val regs v | none => .sc false), mem, next⟩ := by
  obtain ⟨hl, hact, hrest⟩ := h.frames
  obtain ⟨hin, hnc⟩ := wf.stmt fr.c (.inl hl.call)
  have hfun := wf.icf.ret_fun fr.c r hr
  have hd : p.isDecl (p.icf.funOf n) = false := by
    cases hd : p.isDecl (p.icf.funOf n)
    · rfl
    · exact absurd (.inl hd) hl.int
  have step : ∀ s t, p.Run (fr.c :: stk.map Frame.c) n s → t ∈ p.retFlow fr.c (p.icf.funOf n) n r s →
      p.Run (stk.map Frame.c) r t := fun s t hs ht => hs.step (.ret hc he hr ht)
  have along : ∀ k, p.Run (stk.map Frame.c) fr.c (.node k) → (.node k ∈ p.args fr.c → p.ptrTy (.node k) = false) →
      p.Run (stk.map Frame.c) r (.node k) := fun k hk ha =>
    hk.step (.callToRet hl.call hr (ctr_keep (r := r) (.inr fun h => .inr (ha h))))
  have keep : ∀ k, k ≠ fr.c → p.Tainted fr.regs fr.mem (.node k) →
      (.node k ∈ p.args fr.c → p.ptrTy (.node k) = false) → p.Cov (stk.map Frame.c) r k := by
    intro k hk ht ha
    rcases hact.cov k ht with h | h | h
    · exact .inl (along k h ha)
    · exact .inr (.inl h)
    · exact .inr (.inr (pending_next wf h hk (.inr hr)))
  obtain ⟨x, hx⟩ : ∃ x, x = (match p.retVal n with | some v => p.val regs v | none => RVal.sc false) := ⟨_, rfl⟩
  rw [← hx] at hal ⊢
  have hxp : ∀ ℓ, x = .ptr ℓ → ∃ v, p.val regs v = .ptr ℓ := by
    intro ℓ e
    cases hv : p.retVal n with
    | none => rw [hv] at hx; rw [hx] at e; cases e
    | some v => rw [hv] at hx; exact ⟨v, by rw [← e, hx]⟩
  refine ⟨⟨?_, fun k hk => ?_, fun k ℓ hk => ?_, fun k i hk => ?_, fun k g hk => ?_, hal⟩, ?_, h.const⟩
  · refine step _ _ h.act.zero (mem_populate.2 (.inl ?_))
    exact (C50_caller_partial ..).2 (.inl ⟨rfl, .inl ⟨rfl, rfl⟩⟩)
  · by_cases e : k = fr.c
    · subst e
      unfold Prog.Tainted at hk
      rw [val_upd_eq hnc] at hk
      cases hv : p.retVal n with
      | none => rw [hv] at hx; rw [hx] at hk; cases hk
      | some v =>
        rw [hv] at hx
        rw [hx] at hk
        have hop : v ∈ p.operands n := by
          unfold Prog.retVal at hv
          unfold Prog.operands
          split at hv
          · rename_i h'; rw [h']; simp [hv]
          · cases hv
        refine .inl (step _ _ (h.act.operand wf hop hk) (mem_populate.2 (.inl ?_)))
        exact (C50_caller_partial ..).2 (.inr (.inr (.inr ⟨v, hv, by simp, rfl⟩)))
    · unfold Prog.Tainted at hk
      rw [val_upd_ne e] at hk
      cases hck : p.isConst k
      · rcases hot_cases hk with hsc | ⟨ℓ, hℓ, hm⟩
        · refine keep k e (by unfold Prog.Tainted; rw [hsc]; rfl) fun ha => ?_
          cases hty : p.ptrTy (.node k)
          · rfl
          · exact absurd hsc (hl.addr _ ha hty)
        · by_cases hpend : p.Pending fr.c k
          · exact .inr (.inr (pending_next wf hpend e (.inr hr)))
          by_cases hA : p.Acc fr ℓ
          · rcases hA with ⟨g, rfl⟩ | ⟨a, ha, hva⟩ | ⟨i, rfl, hi⟩
            · have hg : p.isConst g = true := hact.val_glob hℓ
              have hrun := (h.act.cov g (by unfold Prog.Tainted; rw [val_global hg]; exact hm)).global fit hg
              refine .inl (step _ _ hrun (ret_global (e := n) (r := r) (f := p.icf.funOf n) hg ?_))
              exact populate_same wf hact (List.mem_singleton.2 rfl) (val_global hg) hℓ hpend (fun h => by rw [hck] at h; cases h)
            · obtain ⟨i, hi⟩ := List.mem_iff_getElem?.1 ha
              have hlt : i < (p.params (p.icf.funOf n)).length := by
                rw [← wc.arity fr.c _ hl.callee hd]; exact (List.getElem?_eq_some_iff.1 hi).1
              have hk' : (p.params (p.icf.funOf n))[i]? = some (p.params (p.icf.funOf n))[i] := List.getElem?_eq_getElem hlt
              generalize (p.params (p.icf.funOf n))[i] = k' at hk'
              have hreg := hl.formals i k' a ℓ hk' hi hva
              have hpk := wf.params _ k' (List.mem_of_getElem? hk')
              have hptr : p.isPtr k' = true := by
                rw [← wc.types fr.c _ i k' a hl.callee hd hk' hi]
                cases hty : p.ptrTy a
                · obtain ⟨t, ht⟩ := hl.typed a ha hty
                  rw [ht] at hva; cases hva
                · rfl
              have hcov := h.act.cov k' (by unfold Prog.Tainted; rw [val_local hpk.2.1, hreg]; exact hm)
              have hrun : p.Run (fr.c :: stk.map Frame.c) n (.node k') := by
                rcases hcov with h' | ⟨u, hlu, _⟩ | h'
                · exact h'
                · have := (fit.lastUse u k' hlu).2 _ (List.mem_of_getElem? hk')
                  rw [hptr] at this; cases this
                · have := h'.1
                  rw [hpk.1] at this; cases this
              refine .inl (step _ _ hrun (ret_param (e := n) (r := r) hk' hi hptr ?_))
              exact populate_same wf hact (List.mem_singleton.2 rfl) hva hℓ hpend (fun h => by rw [hck] at h; cases h)
            · exact absurd (hact.val_old hℓ) (Nat.not_lt.2 hi)
          · refine keep k e (by unfold Prog.Tainted; rw [hℓ]; exact hl.same ℓ hA hm) fun ha => ?_
            exact absurd (.inr (.inl ⟨_, ha, hℓ⟩)) hA
      · rw [val_global hck] at hk
        have hrun := (h.act.cov k (by unfold Prog.Tainted; rw [val_global hck]; exact hk)).global fit hck
        exact .inl (step _ _ hrun (ret_global (e := n) (r := r) (f := p.icf.funOf n) hck (mem_populate.2 (.inl (List.mem_singleton.2 rfl)))))
  · refine inFun_congr hfun ?_
    by_cases e : k = fr.c
    · subst e; exact .inr (.inl ⟨hin, rfl⟩)
    · exact hact.loc k ℓ (by simpa [updR, e] using hk)
  · by_cases e : k = fr.c
    · have e' : x = .ptr (.obj i) := by simpa [updR, e] using hk
      obtain ⟨v, hv⟩ := hxp _ e'
      exact h.act.val_old hv
    · exact Nat.lt_of_lt_of_le (hact.old k i (by simpa [updR, e] using hk)) hl.mono
  · by_cases e : k = fr.c
    · have e' : x = .ptr (.glob g) := by simpa [updR, e] using hk
      obtain ⟨v, hv⟩ := hxp _ e'
      exact h.act.val_glob hv
    · exact hact.glob k g (by simpa [updR, e] using hk)
  · refine frames_upd hrest hfun (fun k hk ℓ hℓ => ?_) (fun k ℓ hk => ?_) hl.mono
    · have : k ≠ fr.c := by
        rintro rfl
        rw [(wf.params _ _ hk).1] at hin; cases hin
      simpa [updR, this] using hℓ
    · by_cases e : k = fr.c
      · have e' : x = .ptr ℓ := by simpa [updR, e] using hk
        obtain ⟨v, hv⟩ := hxp _ e'
        exact accBy_of_acc (acc_of_accBy hl (accBy_val hv))
      · exact .inr (.inl ⟨k, by simpa [updR, e] using hk⟩)

/-! ## External calls -/

theorem ext_keep (fit : p.Fit) {cs : List Nat} {n f r : Nat} {s : Val} (hc : p.icf.isCall n = true)
    (hf : f ∈ p.icf.callees n) (hx : p.External n f) (hr : r ∈ p.icf.retSites n) (hs : ¬ p.SaniAt n f s) (h : p.Run cs n s) :
    p.Run cs r s := by
  cases hsum : p.summaryFlow n f with
  | some g => exact h.step (.summary hc hf hsum hr (summary_keep (fit.sret n).1 hsum hs))
  | none =>
    obtain ⟨h1, h2, h3⟩ := (summary_none (fit.sret n).1).1 hsum
    have hd : p.isDecl f = true := by
      rcases hx with h | h | h | ⟨v, h⟩
      · exact h
      · rw [h1] at h; cases h
      · exact absurd h2 h
      · exact absurd h (h3 v)
    have hany : (p.icf.callees n).any p.isDecl = true := List.any_eq_true.2 ⟨f, hf, hd⟩
    refine h.step (.callToRet hc hr ?_)
    change s ∈ p.ctrFlow n r s
    unfold Prog.ctrFlow
    refine (C50_alongside ..).2 ⟨rfl, ?_⟩
    cases hck : p.ir.isConst s
    · exact .inr (.inr ⟨rfl, fun _ => by simp [hany]⟩)
    · exact .inr (.inl ⟨rfl, rfl⟩)

theorem inv_ext (wf : p.WF) (fit : p.Fit) {stk : List Frame} {n f r : Nat} {regs regs' : Nat → RVal}
    {mem mem' : Loc → Bool} {next : Nat} (h : p.Inv ⟨stk, n, regs, mem, next⟩) (hc : p.icf.isCall n = true)
    (hf : f ∈ p.icf.callees n) (hx : p.External n f) (hr : r ∈ p.icf.retSites n)
    (he : p.ExtEffect n f regs mem next regs' mem') (hal : p.AliasAt r regs')
    (hun : ∀ (i j : Nat) (b : Val) (ℓ : Loc), p.MovesTo f i (.param j) → (p.args n)[j]? = some b → p.val regs b = .ptr ℓ →
      ∀ k, p.val regs (.node k) = .ptr ℓ → ¬ p.Pending n k → .node k = b) :
    p.Inv ⟨stk, r, regs', mem', next + 1⟩ := by
  obtain ⟨hin, hnc⟩ := wf.stmt n (.inl hc)
  have hfun := wf.icf.ret_fun n r hr
  have hargs := args_operands wf hc
  have hz : ¬ p.SaniAt n f .zero := by
    rintro ⟨i, k, _, _, ha⟩
    exact wf.operand n (by rw [hargs]; exact List.mem_of_getElem? ha)
  have hsani : ∀ v, p.SaniAt n f v → v ∈ p.args n := fun v ⟨_, _, _, _, h⟩ => List.mem_of_getElem? h
  have hlib : ∀ v, p.swift f = true ∨ p.fdff f ≠ none → ¬ p.GenAt n f v ∧ ¬ p.SinkAt n f v ∧ ¬ p.SaniAt n f v :=
    fun v hv => fit.library n f v hc hf hv
  have hgen : ∀ v, p.GenAt n f v → ∀ t ∈ p.gen n f, p.Run (stk.map Frame.c) r t := by
    intro v hv t ht
    obtain ⟨g, hg, hall⟩ := summary_gen (fun v hs => (hlib v (.inl hs)).1) hv
    exact h.act.zero.step (.summary hc hf hg hr (hall t ht))
  have hmove : ∀ (i : Nat) (tg : Target) (a t : Val), p.MovesTo f i tg → (p.args n)[i]? = some a → p.Tainted regs mem a →
      t ∈ p.targetFacts n tg → p.Run (stk.map Frame.c) r t := by
    intro i tg a t hm ha ht htg
    obtain ⟨g, hg, hmem⟩ := summary_moves fit.swift hlib (fit.sret n).1 hm ha htg
    exact (h.act.operand wf (by rw [hargs]; exact List.mem_of_getElem? ha) ht).step (.summary hc hf hg hr hmem)
  have hres : (regs' n = .sc true ∨ mem' (.obj next) = true) → p.Run (stk.map Frame.c) r (.node n) := by
    intro hh
    rcases he.result_hot hh with hg | ⟨i, a, hm, ha, ht⟩
    · exact hgen _ hg _ (gen_of_genAt hg)
    · exact hmove i .ret a _ hm ha ht (List.mem_singleton.2 rfl)
  have hvalptr : ∀ k ℓ, k ≠ n → (p.val regs' (.node k) = .ptr ℓ ↔ p.val regs (.node k) = .ptr ℓ) := by
    intro k ℓ hk
    cases hck : p.isConst k
    · rw [val_local hck, val_local hck]; exact he.addr k ℓ hk
    · rw [val_global hck, val_global hck]
  have keep : ∀ k, k ≠ n → p.Tainted regs mem (.node k) → ¬ p.SaniAt n f (.node k) → p.Cov (stk.map Frame.c) r k := by
    intro k hk ht hs
    rcases h.act.cov k ht with h' | h' | h'
    · exact .inl (ext_keep fit hc hf hx hr hs h')
    · exact .inr (.inl h')
    · exact .inr (.inr (pending_next wf h' hk (.inr hr)))
  refine ⟨⟨ext_keep fit hc hf hx hr hz h.act.zero, fun k hk => ?_, fun k ℓ hk => ?_, fun k i hk => ?_, fun k g hk => ?_, hal⟩,
    ?_, fun g hg => ?_⟩
  · unfold Prog.Tainted at hk
    by_cases e : k = n
    · subst e
      rw [val_local hnc] at hk
      dsimp only at hk ⊢
      refine .inl (hres ?_)
      rcases hot_cases hk with hsc | ⟨ℓ, hℓ, hm⟩
      · exact .inl hsc
      · rcases he.result with ⟨t, ht⟩ | ht
        · rw [ht] at hℓ; cases hℓ
        · rw [ht] at hℓ; cases hℓ; exact .inr hm
    · rcases hot_cases hk with hsc | ⟨ℓ, hℓ, hm⟩
      · have hck : p.isConst k = false := by
          cases hck : p.isConst k
          · rfl
          · rw [val_global hck] at hsc; cases hsc
        rw [val_local hck] at hsc
        rcases he.bit k e hsc with ⟨h1, h2⟩ | h1
        · exact keep k e (by unfold Prog.Tainted; rw [val_local hck, h1]; rfl) h2
        · exact .inl (hgen _ h1 _ (gen_of_genAt h1))
      · have hℓ' := (hvalptr k ℓ e).1 hℓ
        have hne : ℓ ≠ .obj next := by
          rintro rfl
          exact Nat.lt_irrefl _ (h.act.val_old hℓ')
        by_cases hpend : p.Pending n k
        · exact .inr (.inr (pending_next wf hpend e (.inr hr)))
        rcases he.cell ℓ hm hne with ⟨h1, h2⟩ | ⟨v, hv, _, hvℓ⟩ | ⟨i, j, a, b, hmv, ha, hb, ht, hbℓ⟩
        · exact keep k e (by unfold Prog.Tainted; rw [hℓ']; exact h1) fun hs => h2 _ hs hℓ'
        · by_cases hrun : p.isConst k = true ∧ p.constData k = true
          · have hℓg : ℓ = .glob k := by rw [val_global hrun.1] at hℓ'; cases hℓ'; rfl
            rw [hℓg] at hm
            rcases he.const k hm with h1 | h1
            · rw [h.const k h1] at hrun; cases hrun.2
            · rw [h1] at hrun; cases hrun.2
          · refine .inl (hgen _ hv _ (populate_same wf h.act (mem_collectGen.2 hv) hvℓ hℓ' hpend fun hck => ?_))
            cases hd : p.constData k
            · rfl
            · exact absurd ⟨hck, hd⟩ hrun
        · have hkb := hun i j b ℓ hmv hb hbℓ k hℓ' hpend
          refine .inl (hmove i (.param j) a _ hmv ha ht ?_)
          simp [Prog.targetFacts, hb, hkb]
  · refine inFun_congr hfun ?_
    by_cases e : k = n
    · subst e; exact .inr (.inl ⟨hin, rfl⟩)
    · exact h.act.loc k ℓ ((he.addr k ℓ e).1 hk)
  · dsimp only at hk
    by_cases e : k = n
    · subst e
      rcases he.result with ⟨t, ht⟩ | ht
      · rw [ht] at hk; cases hk
      · rw [ht] at hk; cases hk; exact Nat.lt_succ_self _
    · exact Nat.lt_succ_of_lt (h.act.old k i ((he.addr k _ e).1 hk))
  · dsimp only at hk
    by_cases e : k = n
    · subst e
      rcases he.result with ⟨t, ht⟩ | ht <;> · rw [ht] at hk; cases hk
    · exact h.act.glob k g ((he.addr k _ e).1 hk)
  · have hacc : ∀ k ℓ, regs' k = .ptr ℓ → AccBy regs next ℓ := by
      intro k ℓ hk
      by_cases e : k = n
      · subst e
        rcases he.result with ⟨t, ht⟩ | ht
        · rw [ht] at hk; cases hk
        · rw [ht] at hk; cases hk; exact .inr (.inr ⟨next, rfl, Nat.le_refl _⟩)
      · exact .inr (.inl ⟨k, (he.addr k ℓ e).1 hk⟩)
    refine frames_upd (frames_mem h.frames fun ℓ hℓ => ?_) hfun (fun k hk ℓ hℓ => ?_) hacc (Nat.le_succ _)
    · by_cases hne : ℓ = .obj next
      · exact .inr (.inr (.inr ⟨next, hne, Nat.le_refl _⟩))
      · rcases he.cell ℓ hℓ hne with ⟨h1, _⟩ | ⟨v, _, _, h1⟩ | ⟨_, _, _, b, _, _, _, _, h1⟩
        · exact .inl h1
        · exact .inr (accBy_val h1)
        · exact .inr (accBy_val h1)
    · have : k ≠ n := by
        rintro rfl
        rw [(wf.params _ _ hk).1] at hin; cases hin
      exact (he.addr k ℓ this).2 hℓ
  · rcases he.const g hg with h1 | h1
    · exact h.const g h1
    · exact h1

/-! ## Executions -/

theorem inv_init (wf : p.WF) {s : CState} (h : p.Init s) (hal : p.AliasAt s.n s.regs) : p.Inv s := by
  obtain ⟨facts, hfacts⟩ : ∃ facts, (s.n, facts) ∈ p.problem.seeds := ⟨_, List.mem_map.2 ⟨s.n, h.entry, rfl⟩⟩
  have hcs : s.stk.map Frame.c = [] := by rw [h.stk]; rfl
  refine ⟨⟨⟨s.n, .zero, ⟨facts, hfacts, .inr rfl⟩, by rw [hcs]; exact .refl _⟩, fun k hk => ?_, fun k ℓ hk => ?_, h.old, h.glob, hal⟩,
    by rw [h.stk]; trivial, fun g hg => by rw [h.globals g] at hg; cases hg⟩
  · unfold Prog.Tainted at hk
    cases hc : p.isConst k
    · rw [val_local hc] at hk
      obtain ⟨h1, h2⟩ := h.params k hc hk
      have hmem : k ∈ p.params (p.icf.funOf s.n) := Classical.not_not.1 fun hn => by
        rw [h.regs k hn] at hk; cases hk
      refine .inl ⟨s.n, .node k, ⟨_, List.mem_map.2 ⟨s.n, h.entry, rfl⟩, .inl ?_⟩, by rw [hcs]; exact .refl _⟩
      simp only [h1, h2, decide_true, Bool.and_self, if_true, List.map_cons, List.map_map]
      exact List.mem_cons_of_mem _ (List.mem_map.2 ⟨k, hmem, rfl⟩)
    · rw [val_global hc] at hk
      have : s.mem (.glob k) = true := hk
      rw [h.globals k] at this; cases this
  · have hmem : k ∈ p.params (p.icf.funOf s.n) := Classical.not_not.1 fun hn => by
      rw [h.regs k hn] at hk; cases hk
    have := wf.params _ k hmem
    exact .inr (.inr ⟨this.1, this.2.2⟩)

theorem inv_steps (wf : p.WF) (wc : p.WFCalls) (fit : p.Fit) (hal : p.AliasSound false) (hun : p.MovesUnaliased false)
    {s t : CState} (hs : p.Init s) (h : p.CSteps false s t) : p.Inv t := by
  induction h with
  | refl => exact inv_init wf hs (hal _ ⟨s, hs, .refl _⟩)
  | @tail t u h1 h2 ih =>
    have hu : p.AliasAt u.n u.regs := hal _ ⟨s, hs, .tail h1 h2⟩
    have ht : p.Reached false t := ⟨s, hs, h1⟩
    cases h2 with
    | normal hc hn he => exact inv_normal wf ih hc hn he hu
    | call hc hf hx hsp hpar hreg hty had => exact inv_call wf wc fit ih hc hf hx hsp hpar hreg hty had hu
    | ret hc he hr => exact inv_ret wf wc fit ih hc he hr hu
    | ext hc hf hx hr he => exact inv_ext wf fit ih hc hf hx hr he hu (hun _ ht _ hf)

end Phasar.Taint
