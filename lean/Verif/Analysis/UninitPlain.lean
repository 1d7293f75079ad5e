import Verif.Analysis.UninitInv
/-!
# Plain programs have no aliased states (lemmas for C58)
-/
namespace Phasar.Uninit
open Phasar Phasar.IDE

variable {p : Prog}

/-- Registers of a plain program: only registers of pointer type hold addresses, of allocated objects, and no two the same. -/
structure Prog.PRegs (p : Prog) (regs : Nat → RVal) : Prop where
  typed : ∀ k ℓ, regs k = .ptr ℓ → p.isPtr (.node k) = true
  obj : ∀ k ℓ, regs k = .ptr ℓ → ∃ i, ℓ = .obj i
  inj : ∀ k j ℓ, regs k = .ptr ℓ → regs j = .ptr ℓ → k = j

/-- An activation knows an address of a suspended one only as an argument. -/
def Prog.Chain (p : Prog) : List Frame → (Nat → RVal) → Prop
  | [], _ => True
  | fr :: rest, regs => (∀ fr' ∈ fr :: rest, ∀ j k ℓ, regs k = .ptr ℓ → fr'.regs j = .ptr ℓ → .node j ∈ p.args fr'.c) ∧
      Prog.Chain p rest fr.regs

theorem Prog.Chain.all {stk : List Frame} {regs : Nat → RVal} (h : p.Chain stk regs) {fr : Frame} (hf : fr ∈ stk) {j k : Nat} {ℓ : Loc}
    (h1 : regs k = .ptr ℓ) (h2 : fr.regs j = .ptr ℓ) : .node j ∈ p.args fr.c := by
  cases stk with
  | nil => cases hf
  | cons fr' rest => exact h.1 fr hf j k ℓ h1 h2

theorem Prog.Chain.mk' {stk : List Frame} {regs regs' : Nat → RVal} (h : p.Chain stk regs)
    (h' : ∀ fr ∈ stk, ∀ j k ℓ, regs' k = .ptr ℓ → fr.regs j = .ptr ℓ → .node j ∈ p.args fr.c) : p.Chain stk regs' := by
  cases stk with
  | nil => trivial
  | cons fr' rest => exact ⟨h', h.2⟩

/-- The invariant of executions of plain programs. -/
structure Prog.PInv (p : Prog) (s : CState) : Prop where
  regs : p.PRegs s.regs
  frames : ∀ fr ∈ s.stk, p.PRegs fr.regs
  chain : p.Chain s.stk s.regs
  mem : ∀ ℓ ℓ', s.mem ℓ ≠ .ptr ℓ'
  glob : ∀ g, s.mem (.glob g) = .data
  regsOld : ∀ k, Old s.next (s.regs k)
  stkOld : ∀ fr ∈ s.stk, ∀ k, Old s.next (fr.regs k)

/-- A register gets a value that is no address. -/
theorem PRegs.upd {regs : Nat → RVal} (h : p.PRegs regs) {n : Nat} {x : RVal} (hx : ∀ ℓ, x ≠ .ptr ℓ) : p.PRegs (updR regs n x) := by
  have old : ∀ {k ℓ}, updR regs n x k = .ptr ℓ → regs k = .ptr ℓ := by
    intro k ℓ hk
    unfold updR at hk
    split at hk
    · exact absurd hk (hx ℓ)
    · exact hk
  exact ⟨fun k ℓ hk => h.typed k ℓ (old hk), fun k ℓ hk => h.obj k ℓ (old hk), fun k j ℓ h1 h2 => h.inj k j ℓ (old h1) (old h2)⟩

theorem chain_upd {stk : List Frame} {regs : Nat → RVal} (h : p.Chain stk regs) {n : Nat} {x : RVal} (hx : ∀ ℓ, x ≠ .ptr ℓ) :
    p.Chain stk (updR regs n x) := by
  refine h.mk' fun fr hf j k ℓ h1 h2 => ?_
  unfold updR at h1
  split at h1
  · exact absurd h1 (hx ℓ)
  · exact h.all hf h1 h2

/-- Operands that are no pointers hold no addresses. -/
theorem val_noPtr (pl : p.Plain) {regs : Nat → RVal} (h : p.PRegs regs) {v : Val} (hv : p.isPtr v = false) (ℓ : Loc) :
    p.val regs v ≠ .ptr ℓ := by
  intro e
  cases v with
  | node k =>
    cases hc : p.isConst k
    · rw [val_reg hc] at e
      rw [h.typed k ℓ e] at hv; cases hv
    · rw [pl.global k hc] at hv; cases hv
  | _ => cases e

theorem val_ptr {regs : Nat → RVal} {v : Val} {ℓ : Loc} (h : p.val regs v = .ptr ℓ) :
    (∃ g, v = .node g ∧ p.isConst g = true ∧ ℓ = .glob g) ∨ ∃ k, v = .node k ∧ p.isConst k = false ∧ regs k = .ptr ℓ := by
  cases v with
  | node k =>
    cases hc : p.isConst k
    · rw [val_reg hc] at h; exact .inr ⟨k, rfl, hc, h⟩
    · replace h : (if p.isConst k then RVal.ptr (.glob k) else regs k) = .ptr ℓ := h
      rw [hc] at h
      cases h
      exact .inl ⟨k, rfl, hc, rfl⟩
  | _ => cases h

theorem pinv_step (wf : p.WF) (pl : p.Plain) {s t : CState} (hi : p.PInv s) (hs : p.CStep s t) : p.PInv t := by
  cases hs with
  | @normal stk n regs mem next n' x mem' next' hc hn he =>
    have pure : ∀ x, mem' = mem → next' = next → (∀ ℓ, x ≠ .ptr ℓ) → p.PInv ⟨stk, n', updR regs n x, mem', next'⟩ := by
      rintro x rfl rfl hx
      exact ⟨PRegs.upd hi.regs hx, hi.frames, chain_upd hi.chain hx, hi.mem, hi.glob,
        updR_old hi.regsOld (by cases x <;> first | trivial | exact absurd rfl (hx _)), hi.stkOld⟩
    cases he with
    | @alloca t ht =>
      have fresh : ∀ {y : RVal} {ℓ}, Old next y → y = .ptr ℓ → ℓ ≠ .obj next := by
        rintro y ℓ hy rfl rfl; exact Nat.lt_irrefl _ hy
      refine ⟨⟨fun k ℓ hk => ?_, fun k ℓ hk => ?_, fun k j ℓ hk hj => ?_⟩, hi.frames, hi.chain.mk' fun fr hf j k ℓ h1 h2 => ?_,
        fun ℓ ℓ' e => ?_, fun g => ?_, updR_old (fun k => old_mono (Nat.le_succ _) (hi.regsOld k)) (Nat.lt_succ_self _),
        fun fr hf k => old_mono (Nat.le_succ _) (hi.stkOld fr hf k)⟩
      · dsimp only at hk
        unfold updR at hk
        split at hk
        · rename_i e; subst e; exact pl.alloca _ _ ht
        · exact hi.regs.typed k ℓ hk
      · dsimp only at hk
        unfold updR at hk
        split at hk
        · cases hk; exact ⟨_, rfl⟩
        · exact hi.regs.obj k ℓ hk
      · dsimp only at hk hj
        unfold updR at hk hj
        split at hk <;> split at hj
        · rename_i e1 e2; rw [e1, e2]
        · cases hk; exact absurd rfl (fresh (hi.regsOld j) hj)
        · cases hj; exact absurd rfl (fresh (hi.regsOld k) hk)
        · exact hi.regs.inj k j ℓ hk hj
      · dsimp only at h1
        unfold updR at h1
        split at h1
        · cases h1; exact absurd rfl (fresh (hi.stkOld fr hf j) h2)
        · exact hi.chain.all hf h1 h2
      · dsimp only at e
        unfold updM at e
        split at e
        · cases e
        · exact hi.mem ℓ ℓ' e
      · show updM mem (.obj next) .undef (.glob g) = .data
        unfold updM
        rw [if_neg (by intro e; cases e)]
        exact hi.glob g
    | @store v ptr ℓ hs hp =>
      obtain ⟨hv, hvg⟩ := pl.store n v ptr hs
      refine ⟨PRegs.upd hi.regs (fun _ e => by cases e), hi.frames, chain_upd hi.chain (fun _ e => by cases e), fun m m' e => ?_,
        fun g => ?_, updR_old hi.regsOld trivial, hi.stkOld⟩
      · dsimp only at e
        unfold updM at e
        split at e
        · exact val_noPtr pl hi.regs hv m' e
        · exact hi.mem m m' e
      · show updM mem ℓ (p.val regs v) (.glob g) = .data
        unfold updM
        split
        · rename_i e
          subst e
          rcases val_ptr hp with ⟨g', rfl, hg', e⟩ | ⟨k, _, _, hk⟩
          · obtain ⟨c, rfl⟩ := hvg g' rfl hg'
            rfl
          · obtain ⟨i, e⟩ := hi.regs.obj k _ hk
            cases e
        · exact hi.glob g
    | @load ptr ℓ hl hp => exact pure _ rfl rfl (hi.mem ℓ)
    | @gep base idx hl => exact pure _ rfl rfl (val_noPtr pl hi.regs (pl.gep _ _ _ hl))
    | gepUndef _ _ _ => exact pure _ rfl rfl (fun _ e => by cases e)
    | @cast v hl => exact pure _ rfl rfl (val_noPtr pl hi.regs (pl.cast _ _ hl))
    | @phi ops v hl hv => exact pure _ rfl rfl (val_noPtr pl hi.regs (pl.phi _ _ hl v hv))
    | @opData ops hl => exact pure _ rfl rfl (fun _ e => by cases e)
    | @op ops v hl hv => exact pure _ rfl rfl (val_noPtr pl hi.regs (pl.op _ _ hl v hv))
  | @call stk n regs mem next f sp regs' hc hf hd hsp hform hrest =>
    have hval : ∀ k ℓ, regs' k = .ptr ℓ → ∃ (i j : Nat), (p.params f)[i]? = some k ∧ (p.args n)[i]? = some (.node j) ∧ regs j = .ptr ℓ := by
      intro k ℓ hk
      by_cases hkp : k ∈ p.params f
      · obtain ⟨i, hi'⟩ := List.mem_iff_getElem?.1 hkp
        have h1 := (List.getElem?_eq_some_iff.1 hi').1
        have ha := List.getElem?_eq_getElem (Nat.lt_of_lt_of_le h1 (wf.arity n f hf hd))
        have e := hform i k _ hi' ha
        rw [hk] at e
        rcases val_ptr e.symm with ⟨g, e1, hg, _⟩ | ⟨j, e1, _, hj⟩
        · exact absurd (e1 ▸ List.getElem_mem _) (pl.args n g hg)
        · exact ⟨i, j, hi', by rw [ha, e1], hj⟩
      · rw [hrest k hkp] at hk; cases hk
    refine ⟨⟨fun k ℓ hk => ?_, fun k ℓ hk => ?_, fun k k' ℓ hk hk' => ?_⟩, ?_, ⟨?_, hi.chain⟩, hi.mem, hi.glob, fun k => ?_, ?_⟩
    · obtain ⟨i, j, h1, h2, h3⟩ := hval k ℓ hk
      rw [← wf.types n f i k _ hf hd h1 h2]
      exact hi.regs.typed j ℓ h3
    · obtain ⟨i, j, h1, h2, h3⟩ := hval k ℓ hk
      exact hi.regs.obj j ℓ h3
    · obtain ⟨i, j, h1, h2, h3⟩ := hval k ℓ hk
      obtain ⟨i', j', h1', h2', h3'⟩ := hval k' ℓ hk'
      have e := hi.regs.inj j j' ℓ h3 h3'
      subst e
      have e := pl.once n i i' _ h2 h2' (hi.regs.typed j ℓ h3)
      subst e
      rw [h1] at h1'
      exact Option.some.inj h1'
    · intro fr hfr
      rcases List.mem_cons.1 hfr with rfl | hfr
      · exact hi.regs
      · exact hi.frames fr hfr
    · intro fr hfr j k ℓ hk hj
      obtain ⟨i, j', h1, h2, h3⟩ := hval k ℓ hk
      rcases List.mem_cons.1 hfr with rfl | hfr
      · have e := hi.regs.inj j j' ℓ hj h3
        subst e
        exact List.mem_of_getElem? h2
      · exact hi.chain.all hfr h3 hj
    · show Old next (regs' k)
      cases hx : regs' k with
      | ptr ℓ =>
        obtain ⟨i, j, h1, h2, h3⟩ := hval k ℓ hx
        rw [← h3]; exact hi.regsOld j
      | _ => trivial
    · intro fr hfr k
      rcases List.mem_cons.1 hfr with rfl | hfr
      · exact hi.regsOld k
      · exact hi.stkOld fr hfr k
  | @ret fr stk n regs mem next r hc he hr =>
    have hx : ∀ x, x = (match (p.operands n)[0]? with | some v => p.val regs v | none => .data) → ∀ ℓ, x ≠ .ptr ℓ := by
      rintro x rfl
      split
      · rename_i v hv; exact val_noPtr pl hi.regs (pl.ret n he v hv)
      · exact fun _ e => by cases e
    have hx := hx _ rfl
    refine ⟨PRegs.upd (hi.frames fr List.mem_cons_self) hx, fun fr' h' => hi.frames fr' (List.mem_cons_of_mem _ h'),
      chain_upd hi.chain.2 hx, hi.mem, hi.glob, updR_old (hi.stkOld fr List.mem_cons_self) ?_,
      fun fr' h' => hi.stkOld fr' (List.mem_cons_of_mem _ h')⟩
    have key : ∀ x : RVal, (∀ ℓ, x ≠ .ptr ℓ) → Old next x := by
      intro x hx; cases x <;> first | trivial | exact absurd rfl (hx _)
    exact key _ hx
  | @ext stk n regs mem next f r x mem' next' hc hf hd hr he =>
    rw [pl.bodies n f hf] at hd; cases hd

theorem bad_flat {mem : Loc → RVal} (h : ∀ ℓ ℓ', mem ℓ ≠ .ptr ℓ') {ℓ : Loc} : Bad mem (.ptr ℓ) ↔ mem ℓ = .undef := by
  constructor
  · intro hb
    cases hb with
    | ptr hb =>
      cases hm : mem ℓ with
      | undef => rfl
      | data => rw [hm] at hb; exact absurd hb not_bad_data
      | ptr ℓ' => exact absurd hm (h ℓ ℓ')
  · intro e
    exact .ptr (by rw [e]; exact .undef)

theorem pinv_unaliased (pl : p.Plain) {s : CState} (hi : p.PInv s) : p.Unaliased s := by
  have key : ∀ v ptr ℓ, p.inst s.n = .store v ptr → p.val s.regs ptr = .ptr ℓ → Bad s.mem (p.val s.regs v) →
      (∃ j, ptr = .node j ∧ s.regs j = .ptr ℓ) ∧
      ∀ x, Bad (updM s.mem ℓ (p.val s.regs v)) x → Bad s.mem x ∨ x = .ptr ℓ := by
    intro v ptr ℓ hs hp hb
    obtain ⟨hv, hvg⟩ := pl.store _ v ptr hs
    refine ⟨?_, fun x hx => ?_⟩
    · rcases val_ptr hp with ⟨g, e, hg, _⟩ | ⟨k, e, _, hk⟩
      · obtain ⟨c, rfl⟩ := hvg g e hg
        exact absurd hb not_bad_data
      · exact ⟨k, e, hk⟩
    · cases x with
      | undef => exact .inl .undef
      | data => exact absurd hx not_bad_data
      | ptr m =>
        by_cases e : m = ℓ
        · exact .inr (by rw [e])
        · left
          rw [bad_flat hi.mem]
          have := (bad_flat (mem := updM s.mem ℓ (p.val s.regs v)) (fun a b h => by
            unfold updM at h
            split at h
            · exact val_noPtr pl hi.regs hv b h
            · exact hi.mem a b h)).1 hx
          unfold updM at this
          rwa [if_neg e] at this
  refine ⟨fun g _ hb => ?_, fun v ptr ℓ hs hp hb k hk h => ?_, fun v ptr ℓ hs hp hb fr hfr k hk h => ?_⟩
  · rw [bad_flat hi.mem, hi.glob g] at hb
    cases hb
  · obtain ⟨⟨j, rfl, hj⟩, hall⟩ := key v ptr ℓ hs hp hb
    rcases hall _ h with h | h
    · exact .inl h
    · exact .inr (by rw [hi.regs.inj j k ℓ hj h])
  · obtain ⟨⟨j, rfl, hj⟩, hall⟩ := key v ptr ℓ hs hp hb
    rcases hall _ h with h | h
    · exact .inl h
    · exact .inr ⟨hi.chain.all hfr hj h, (hi.frames fr hfr).typed k ℓ h⟩

theorem pinv_steps (wf : p.WF) (pl : p.Plain) {s t : CState} (hs : p.Init s) (h0 : PlainStart s) (h : p.CSteps s t) : p.PInv t := by
  induction h with
  | refl =>
    refine ⟨⟨fun k ℓ h => ?_, fun k ℓ h => ?_, fun k _ ℓ h => ?_⟩, fun fr h => ?_, ?_, fun ℓ ℓ' e => ?_, fun g => h0.mem _, hs.regsOld, fun fr h => ?_⟩
    · rw [h0.regs] at h; cases h
    · rw [h0.regs] at h; cases h
    · rw [h0.regs] at h; cases h
    · rw [hs.stk] at h; cases h
    · rw [hs.stk]; trivial
    · rw [h0.mem] at e; cases e
    · rw [hs.stk] at h; cases h
  | tail h1 h2 ih => exact pinv_step wf pl ih h2

end Phasar.Uninit
