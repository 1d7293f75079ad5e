import Verif.Mono.InterConst
import Verif.Mono.InterLemmas
import Verif.Mono.ProbProps

/-!
# Property C86: the inter-procedural monotone constant propagation
-/
namespace Phasar.InterConst
open InterMono MonoProb

variable {p : IProg}

/-! ## The flow functions -/

/-- What the facts say about an operand: a literal is itself, a value has its entry. -/
def C86.Knows (c : CMap) (a : Opd) (v : V) : Prop := (∃ x, a = .lit x ∧ v = .val x) ∨ ∃ k, a = .val k ∧ c.get k = some v

theorem C86.argVal_iff {c : CMap} {a : Opd} {v : V} : argVal c a = some v ↔ C86.Knows c a v := by
  cases a <;> simp [argVal, C86.Knows, eq_comm]

theorem C86.argVal_none {c : CMap} {a : Opd} : argVal c a = none ↔ ∀ v, ¬ C86.Knows c a v := by
  rw [Option.eq_none_iff_forall_ne_some]
  exact forall_congr' fun v => not_congr C86.argVal_iff

theorem C86.callLoop_none {formals : List Nat} {c : CMap} (as : List Opd) : ∀ (i : Nat) (out : CMap),
    callLoop formals c i as out = none ↔
      ∃ (j : Nat) (a : Opd) (v : V), as[j]? = some a ∧ formals.length ≤ i + j ∧ C86.Knows c a v := by
  induction as with
  | nil => intro i out; simp [callLoop]
  | cons a as ih =>
    intro i out
    have tail : (∃ (j : Nat) (b : Opd) (v : V), as[j]? = some b ∧ formals.length ≤ i + 1 + j ∧ C86.Knows c b v) →
        ∃ (j : Nat) (b : Opd) (v : V), (a :: as)[j]? = some b ∧ formals.length ≤ i + j ∧ C86.Knows c b v :=
      fun ⟨j, b, v, h1, h2, h3⟩ => ⟨j + 1, b, v, h1, by omega, h3⟩
    unfold callLoop
    cases ha : argVal c a with
    | none =>
      simp only
      rw [ih]
      refine ⟨tail, ?_⟩
      rintro ⟨j, b, v, h1, h2, h3⟩
      cases j with
      | zero => cases h1; exact absurd h3 (C86.argVal_none.1 ha v)
      | succ j => exact ⟨j, b, v, h1, by omega, h3⟩
    | some v =>
      simp only
      cases hf : formals[i]? with
      | none =>
        simp only [true_iff]
        exact ⟨0, a, v, rfl, by simpa using List.getElem?_eq_none_iff.1 hf, C86.argVal_iff.1 ha⟩
      | some f =>
        simp only
        rw [ih]
        refine ⟨tail, ?_⟩
        rintro ⟨j, b, w, h1, h2, h3⟩
        cases j with
        | zero =>
          have := (List.getElem?_eq_some_iff.1 hf).1
          omega
        | succ j => exact ⟨j, b, w, h1, by omega, h3⟩

theorem C86.callLoop_get {formals : List Nat} (hnd : formals.Nodup) {c : CMap} (as : List Opd) : ∀ (i : Nat) (out out' : CMap),
    (∀ k, out.get k ≠ none → ∃ j, j < i ∧ formals[j]? = some k) → callLoop formals c i as out = some out' → ∀ k v,
      (out'.get k = some v ↔ out.get k = some v ∨
        ∃ (j : Nat) (a : Opd), as[j]? = some a ∧ formals[i + j]? = some k ∧ C86.Knows c a v) := by
  induction as with
  | nil => intro i out out' _ h k v; cases h; simp
  | cons a as ih =>
    intro i out out' hout h k v
    unfold callLoop at h
    have shift : (∃ (j : Nat) (b : Opd), (a :: as)[j]? = some b ∧ formals[i + j]? = some k ∧ C86.Knows c b v) ↔
        (formals[i]? = some k ∧ C86.Knows c a v) ∨
        ∃ (j : Nat) (b : Opd), as[j]? = some b ∧ formals[i + 1 + j]? = some k ∧ C86.Knows c b v := by
      constructor
      · rintro ⟨j, b, h1, h2, h3⟩
        cases j with
        | zero => cases h1; exact .inl ⟨h2, h3⟩
        | succ j => exact .inr ⟨j, b, h1, by rw [show i + 1 + j = i + (j + 1) by omega]; exact h2, h3⟩
      · rintro (⟨h1, h2⟩ | ⟨j, b, h1, h2, h3⟩)
        · exact ⟨0, a, rfl, h1, h2⟩
        · exact ⟨j + 1, b, h1, by rw [show i + (j + 1) = i + 1 + j by omega]; exact h2, h3⟩
    rw [shift]
    cases ha : argVal c a with
    | none =>
      rw [ha] at h
      simp only at h
      rw [ih _ _ _ (fun k hk => (hout k hk).elim fun j hj => ⟨j, by omega, hj.2⟩) h]
      have : ¬ C86.Knows c a v := C86.argVal_none.1 ha v
      simp [this]
    | some x =>
      rw [ha] at h
      simp only at h
      have hx : ∀ v, C86.Knows c a v ↔ v = x := fun v => by rw [← C86.argVal_iff, ha, Option.some.injEq, eq_comm]
      cases hf : formals[i]? with
      | none => rw [hf] at h; cases h
      | some f =>
        rw [hf] at h
        simp only at h
        have hnew : out.get f = none := by
          cases hg : out.get f with
          | none => rfl
          | some y =>
            obtain ⟨j, hj, hj'⟩ := hout f (by rw [hg]; exact nofun)
            obtain ⟨h1, h2⟩ := List.getElem?_eq_some_iff.1 hj'
            obtain ⟨h3, h4⟩ := List.getElem?_eq_some_iff.1 hf
            have := (List.getElem_inj hnd).1 (h2.trans h4.symm)
            omega
        rw [ih (i + 1) _ _ ?_ h, CMap.get_insert, hx]
        · constructor
          · rintro (h1 | h1)
            · cases hg : out.get k with
              | some y => rw [hg] at h1; exact .inl h1
              | none =>
                rw [hg] at h1
                simp only at h1
                split at h1
                · rename_i e; cases h1; exact .inr (.inl ⟨by rw [e], rfl⟩)
                · cases h1
            · exact .inr (.inr h1)
          · rintro (h1 | ⟨h1, rfl⟩ | h1)
            · rw [h1]; exact .inl rfl
            · cases h1; rw [hnew]; simp
            · exact .inr h1
        · intro k hk
          rw [CMap.get_insert] at hk
          cases hg : out.get k with
          | some y => exact (hout k (by rw [hg]; exact nofun)).elim fun j hj => ⟨j, by omega, hj.2⟩
          | none =>
            rw [hg] at hk
            simp only at hk
            split at hk
            · rename_i e; subst e; exact ⟨i, by omega, hf⟩
            · exact absurd rfl hk

/-- C86, calls: exactly the parameters whose operand is a literal or has an entry get an entry; nothing else is known in the callee, and
nothing at all in a variadic function. -/
theorem C86_call {n f : Nat} {as : List Opd} (h : p.inst n = .call as) (hnd : (p.params f).Nodup) {c c' : CMap}
    (hc : p.callFlow n f c = some c') (k : Nat) (v : V) :
    c'.get k = some v ↔ p.varArg f = false ∧
      ∃ (i : Nat) (a : Opd), (p.params f)[i]? = some k ∧ as[i]? = some a ∧ C86.Knows c a v := by
  unfold IProg.callFlow at hc
  rw [h] at hc
  simp only at hc
  cases hv : p.varArg f with
  | true =>
    rw [hv, Bool.or_true] at hc
    cases hc
    simp [CMap.empty, CMap.get]
  | false =>
    rw [hv, Bool.or_false] at hc
    split at hc
    · cases hc
      rename_i he
      rw [List.isEmpty_iff.1 he]
      simp [CMap.empty, CMap.get]
    · rw [C86.callLoop_get hnd as 0 _ _ (fun k hk => absurd rfl hk) hc]
      simp only [Nat.zero_add, true_and]
      constructor
      · rintro (h1 | ⟨j, a, h1, h2, h3⟩)
        · cases h1
        · exact ⟨j, a, h2, h1, h3⟩
      · rintro ⟨j, a, h1, h2, h3⟩; exact .inr ⟨j, a, h2, h1, h3⟩

/-- C86, calls with more operands than parameters (an indirect call through another type): memory behind the vector of parameters is read
exactly if something is known about an operand that has no parameter. -/
theorem C86_call_undefined {n f : Nat} {as : List Opd} (h : p.inst n = .call as) (c : CMap) :
    p.callFlow n f c = none ↔ p.varArg f = false ∧
      ∃ (i : Nat) (a : Opd) (v : V), as[i]? = some a ∧ (p.params f).length ≤ i ∧ C86.Knows c a v := by
  unfold IProg.callFlow
  rw [h]
  simp only
  cases hv : p.varArg f with
  | true => simp
  | false =>
    rw [Bool.or_false]
    split
    · rename_i he
      rw [List.isEmpty_iff.1 he]
      simp
    · rw [C86.callLoop_none]
      simp

/-- C86, returns: exactly the call gets an entry, and exactly if the function returns an integer that is a literal or has an entry. -/
theorem C86_return {n e : Nat} {c c' : CMap} (h : p.returnFlow n e c = some c') (k : Nat) (v : V) :
    c'.get k = some v ↔ k = n ∧ ∃ a, p.inst e = .ret (some (a, true)) ∧ C86.Knows c a v := by
  have hemp : ∀ k v, (CMap.empty.get k = some v) ↔ False := fun k v => by simp [CMap.empty, CMap.get]
  unfold IProg.returnFlow at h
  cases hi : p.inst e with
  | ret r =>
    rw [hi] at h
    cases r with
    | none => cases h
    | some r =>
      obtain ⟨a, b⟩ := r
      cases b with
      | false => cases h; rw [hemp]; simp
      | true =>
        simp only [if_true] at h
        simp only [IInst.ret.injEq, Option.some.injEq, Prod.mk.injEq, and_true, exists_eq_left']
        cases ha : argVal c a with
        | none =>
          rw [ha] at h; cases h
          rw [hemp]
          simp [C86.argVal_none.1 ha v]
        | some x =>
          rw [ha] at h; cases h
          rw [CMap.get_insert]
          have : CMap.empty.get k = none := rfl
          rw [this, ← C86.argVal_iff, ha]
          simp only
          by_cases e : n = k <;> simp [e, eq_comm]
  | _ => rw [hi] at h; cases h; rw [hemp]; simp

/-- C86, returns: a null pointer is dereferenced exactly at `ret void`. -/
theorem C86_return_undefined (n e : Nat) (c : CMap) : p.returnFlow n e c = none ↔ p.inst e = .ret none := by
  unfold IProg.returnFlow
  cases hi : p.inst e with
  | ret r =>
    cases r with
    | none => simp
    | some r =>
      obtain ⟨a, b⟩ := r
      cases b with
      | false => simp
      | true => simp only [if_true]; cases argVal c a <;> simp
  | _ => simp

/-- C86, what the solver is given: calls, exits, and the two flows above wherever they are defined. -/
theorem C86_solver :
    (∀ n, p.prob.isCall n = true ↔ ∃ as, p.inst n = .call as) ∧
    (∀ n, p.prob.isExit n = true ↔ ∃ r, p.inst n = .ret r) ∧
    (∀ (n f : Nat) (as : List Opd) (c : CMap) (k : Nat) (v : V), p.inst n = .call as → (p.params f).Nodup →
      as.length ≤ (p.params f).length → ((p.prob.callFlow n f c).get k = some v ↔ p.varArg f = false ∧
        ∃ (i : Nat) (a : Opd), (p.params f)[i]? = some k ∧ as[i]? = some a ∧ C86.Knows c a v)) ∧
    (∀ (n f e r : Nat) (c : CMap) (k : Nat) (v : V), p.inst e ≠ .ret none → ((p.prob.returnFlow n f e r c).get k = some v ↔
      k = n ∧ ∃ a, p.inst e = .ret (some (a, true)) ∧ C86.Knows c a v)) := by
  refine ⟨fun n => ?_, fun n => ?_, fun n f as c k v h hnd hl => ?_, fun n f e r c k v h => ?_⟩
  · show p.isCall n = true ↔ _
    unfold IProg.isCall
    cases p.inst n <;> simp
  · show p.isExit n = true ↔ _
    unfold IProg.isExit
    cases p.inst n <;> simp
  · show ((p.callFlow n f c).getD .empty).get k = some v ↔ _
    cases hc : p.callFlow n f c with
    | none =>
      obtain ⟨_, i, a, v, h1, h2, _⟩ := (C86_call_undefined h c).1 hc
      have := (List.getElem?_eq_some_iff.1 h1).1
      omega
    | some c' => exact C86_call h hnd hc k v
  · show ((p.returnFlow n e c).getD .empty).get k = some v ↔ _
    cases hc : p.returnFlow n e c with
    | none => exact absurd ((C86_return_undefined n e c).1 hc) h
    | some c' => exact C86_return hc k v

/-- C86, past a call: nothing changes, whatever is called. -/
theorem C86_past (n r : Nat) (fs : List Nat) (c : CMap) : p.prob.ctrFlow n r fs c = c := rfl

/-- C86, edges inside a function: at the target of a branch that has another predecessor nothing is known; other edges carry what the
intra-procedural flow makes of the facts. -/
theorem C86_edge (A : An Nat CMap) (n d : Nat) (x : Ctx Nat) :
    normalOut p.prob A n d x = p.pass n d (p.normalFlow n (val p.prob A n x)) := by
  unfold normalOut IProg.pass
  have key : ∀ (l : List Nat) (c : CMap), l ≠ [] →
      l.foldl (fun o q => p.prob.merge o (p.prob.normalFlow q (val p.prob A q x))) c = .empty := by
    intro l
    induction l with
    | nil => intro c h; exact absurd rfl h
    | cons a l ih =>
      intro c _
      rw [List.foldl_cons]
      cases l with
      | nil => rfl
      | cons b l => exact ih _ nofun
  by_cases hb : p.branchTarget n d = true
  · rw [if_pos (show p.prob.branchTarget n d = true from hb)]
    by_cases hq : ∃ q ∈ p.preds d, q ≠ n
    · rw [if_pos ⟨hb, hq⟩, key]
      obtain ⟨q, h1, h2⟩ := hq
      intro he
      have : q ∈ (p.prob.preds d).filter (fun q => q ≠ n) := List.mem_filter.2 ⟨h1, by simpa using h2⟩
      rw [he] at this; cases this
    · rw [if_neg (fun h => hq h.2)]
      have : (p.prob.preds d).filter (fun q => q ≠ n) = [] := by
        rw [List.filter_eq_nil_iff]
        intro q h1 h2
        exact hq ⟨q, h1, by simpa using h2⟩
      rw [this]; rfl
  · rw [if_neg (show ¬ p.prob.branchTarget n d = true from hb), if_neg (fun h => hb h.1)]; rfl

/-! ## What the solver keeps -/

/-- `d` is entered by branches only, from at least two statements: a join of the control flow that is neither the start of a function nor
behind a call. -/
structure C86.OnlyJoin (p : IProg) (d : Nat) : Prop where
  edge : ∀ f n, (n, d) ∈ p.edges f → p.isCall n = false ∧ p.isExit n = false ∧ p.Join n d
  succ : ∀ n, d ∈ p.succs n → p.isCall n = false ∧ p.isExit n = false ∧ p.Join n d
  noStart : ∀ f, d ∉ p.starts f
  noRet : ∀ n, d ∉ p.retSites n
  callers : ∀ f n, n ∈ p.callers f → p.isCall n = true

theorem C86.update_or {P : MProb Nat Nat CMap} (src dst : Nat) (x : Ctx Nat) (o : CMap) (s : St Nat Nat CMap) (n : Nat) (y : Ctx Nat) :
    val P (update P src dst x o s).an n y = val P s.an n y ∨ (n = dst ∧ val P (update P src dst x o s).an n y = o) := by
  unfold update
  simp only
  split
  · exact .inl (val_touch _ _ _ _ _ _)
  · simp only
    rw [val_put]
    split
    · rename_i h; exact .inr ⟨h.1, rfl⟩
    · exact .inl rfl

/-- Nothing is known at `d`, and every queued edge into `d` is a branch from a join. -/
def C86.Inv (p : IProg) (d : Nat) (s : St Nat Nat CMap) : Prop :=
  (∀ n, (n, d) ∈ s.wl → p.isCall n = false ∧ p.isExit n = false ∧ p.Join n d) ∧ ∀ x k, (val p.prob s.an d x).get k = none

theorem C86.pushed_ok {d : Nat} (h : C86.OnlyJoin p d) {src dst : Nat}
    (he : dst = d → p.isCall src = false ∧ p.isExit src = false ∧ p.Join src d) {n : Nat} (hn : (n, d) ∈ pushed p.prob src dst) :
    p.isCall n = false ∧ p.isExit n = false ∧ p.Join n d := by
  unfold pushed at hn
  simp only [List.mem_cons, List.mem_append, List.mem_map] at hn
  rcases hn with hn | (⟨m, hm, hn⟩ | hn) | hn
  · cases hn; exact he rfl
  · cases hn; exact h.succ _ hm
  · split at hn
    · obtain ⟨f, _, hn⟩ := List.mem_flatMap.1 hn
      obtain ⟨m, hm, hn⟩ := List.mem_map.1 hn
      cases hn; exact absurd hm (h.noStart f)
    · cases hn
  · split at hn
    · obtain ⟨c, hc, hn⟩ := List.mem_flatMap.1 hn
      obtain ⟨m, hm, hn⟩ := List.mem_map.1 hn
      cases hn
      have h1 := (h.succ c hm).1
      rw [h.callers _ _ hc] at h1; cases h1
    · cases hn

theorem C86.update_inv {d : Nat} (h : C86.OnlyJoin p d) {src dst : Nat} {x : Ctx Nat} {o : CMap} {s : St Nat Nat CMap} (hs : C86.Inv p d s)
    (he : dst = d → p.isCall src = false ∧ p.isExit src = false ∧ p.Join src d) (ho : dst = d → ∀ k, o.get k = none) :
    C86.Inv p d (update p.prob src dst x o s) := by
  refine ⟨fun n hn => ?_, fun y k => ?_⟩
  · rcases update_wl hn with hn | hn
    · exact hs.1 n hn
    · exact C86.pushed_ok h he hn
  · rcases C86.update_or (P := p.prob) src dst x o s d y with e | ⟨e, e'⟩
    · rw [e]; exact hs.2 y k
    · rw [e']; exact ho e.symm k

theorem C86.initEdges_inv {d : Nat} {A : An Nat CMap} (h : ∀ x k, (val p.prob A d x).get k = none) (es : List (Nat × Nat)) :
    ∀ x k, (val p.prob (initEdges p.prob A es) d x).get k = none := by
  intro x k
  rcases val_initEdges p.prob A es d x with e | ⟨_, e⟩
  · rw [e]; exact h x k
  · rw [e]; rfl

theorem C86.addCallees_inv {d : Nat} (h : C86.OnlyJoin p d) {src : Nat} (fs : List Nat) : ∀ {s : St Nat Nat CMap}, C86.Inv p d s →
    C86.Inv p d (addCallees p.prob src fs s) := by
  induction fs with
  | nil => intro s hs; exact hs
  | cons f fs ih =>
    intro s hs
    unfold addCallees
    split
    · exact hs
    · refine ih ⟨fun n hn => ?_, C86.initEdges_inv hs.2 _⟩
      simp only [List.mem_append, List.mem_map, List.mem_flatMap] at hn
      rcases hn with (hn | hn | ⟨m, hm, hn⟩) | ⟨e, _, m, hm, hn⟩
      · exact h.edge f n hn
      · exact hs.1 n hn
      · cases hn; exact absurd hm (h.noStart f)
      · cases hn; exact absurd hm (h.noRet src)

theorem C86.step_inv {d : Nat} (h : C86.OnlyJoin p d) {src dst : Nat} {s : St Nat Nat CMap} (hs : C86.Inv p d s)
    (he : dst = d → p.isCall src = false ∧ p.isExit src = false ∧ p.Join src d) : C86.Inv p d (step p.prob src dst s) := by
  unfold step
  split
  · rename_i hc
    have hd : dst ≠ d := fun e => by
      have := (he e).1
      rw [show p.isCall src = true from hc] at this; cases this
    have h1 := C86.addCallees_inv h (src := src) (p.prob.callees src) hs
    simp only
    split
    · exact foldl_ind (C86.Inv p d) _ _ (fun s hs x _ => C86.update_inv h hs he (fun e => absurd e hd)) _ h1
    · exact foldl_ind (C86.Inv p d) _ _ (fun s hs x _ => C86.update_inv h hs he (fun e => absurd e hd)) _ h1
  · split
    · rename_i hx
      have hd : dst ≠ d := fun e => by
        have := (he e).2.1
        rw [show p.isExit src = true from hx] at this; cases this
      refine foldl_ind (fun so : St Nat Nat CMap × AMap (Ctx Nat) CMap => C86.Inv p d so.1) _ _ (fun so hs x _ => ?_) _ hs
      obtain ⟨s, out⟩ := so
      rw [exitCtx_eq]
      refine foldl_ind (C86.Inv p d) _ _ (fun s hs r hr => ?_) _ hs
      have hrd : d ≠ r := by
        rintro rfl
        rw [mem_dedup, List.mem_flatMap] at hr
        obtain ⟨c, _, hr⟩ := hr
        exact h.noRet c hr
      refine ⟨fun n hn => hs.1 n (by rw [retSite_wl] at hn; exact hn), fun y k => ?_⟩
      rw [retSite_val, if_neg (show ¬ ((d = dst ∨ d = r) ∧ y = _) from fun hh => hh.1.elim (fun e => hd e.symm) hrd), ite_self]
      exact hs.2 y k
    · refine foldl_ind (C86.Inv p d) _ _ (fun s hs x _ => ?_) _ hs
      obtain ⟨A, h1, h2, _⟩ := normalCtx_eq p.prob src dst s x
      rw [h1]
      refine C86.update_inv (s := { s with an := A }) h ⟨hs.1, fun y k => ?_⟩ he (fun e k => ?_)
      · rw [show val p.prob A d y = val p.prob s.an d y from h2 d y]; exact hs.2 y k
      · rw [C86_edge, IProg.pass, if_pos (e ▸ (he e).2.2)]; rfl

theorem C86.ins_empty (a : CMap) : CMap.insertAll a .empty = a := rfl

theorem C86.init_inv {d : Nat} (h : C86.OnlyJoin p d) : C86.Inv p d (initSt p.prob) := by
  unfold initSt
  refine foldl_ind (C86.Inv p d) _ _ (fun s hs x hx => ?_) _ ⟨(fun n hn => absurd hn List.not_mem_nil), fun x k => rfl⟩
  have hx2 : x.2 = .empty := by
    obtain ⟨m, _, rfl⟩ := List.mem_map.1 (show x ∈ (FSet.ofList p.entries).map fun n => (n, CMap.empty) from hx)
    rfl
  refine ⟨fun n hn => ?_, fun y k => ?_⟩
  · rcases List.mem_append.1 hn with hn | hn
    · exact h.edge _ n hn
    · exact hs.1 n hn
  · simp only [val_put, hx2]
    split
    · rename_i e
      rw [← e.1]
      exact C86.initEdges_inv hs.2 _ [] k
    · exact C86.initEdges_inv hs.2 _ y k

theorem C86.reached_inv {d : Nat} (h : C86.OnlyJoin p d) {s : St Nat Nat CMap} (hr : Reached p.prob s) : C86.Inv p d s := by
  induction hr with
  | init => exact C86.init_inv h
  | @step e wl A f u _ ih =>
    obtain ⟨n, m⟩ := e
    refine C86.step_inv h ⟨fun k hk => ih.1 k (List.mem_cons_of_mem _ hk), ih.2⟩ (fun hd => ?_)
    exact ih.1 n (by rw [show m = d from hd]; exact List.mem_cons_self)

/-- C86, joins: whatever the program does before, nothing is known at a join of the control flow, at any time of the run of the solver and
for every calling context: no constant survives the end of an `if` or the head of a loop. -/
theorem C86_join {d : Nat} (h : C86.OnlyJoin p d) {s : St Nat Nat CMap} (hr : Reached p.prob s) (x : Ctx Nat) (k : Nat) :
    (val p.prob s.an d x).get k = none := (C86.reached_inv h hr).2 x k

/-! ## Executions -/

/-- The entries are those of integer variables of the function and of values that are no pointers, and the constants are those of the
state. -/
structure C86.Good (p : IProg) (E : Env) (ty : Nat → Ty) (f : Nat) (s : State) (c : CMap) : Prop where
  kind : ∀ k v, c.get k = some v → p.func.inst k = .alloca true ∨ ty k ≠ .ptr
  own : ∀ k v b, c.get k = some v → p.func.inst k = .alloca b → p.funOf k = f
  holds : ∀ k x, c.get k = some (.val x) → Holds p.func E s k x

theorem C86.good_empty (p : IProg) (E : Env) (ty : Nat → Ty) (f : Nat) (s : State) : C86.Good p E ty f s .empty :=
  ⟨fun _ _ h => absurd h nofun, fun _ _ _ h => absurd h nofun, fun _ _ h => absurd h nofun⟩

theorem C86.knows_holds {E : Env} {ty : Nat → Ty} (hw : WF p ty) {f : Nat} {s : State} {c : CMap} (hg : C86.Good p E ty f s c) {a : Opd}
    (ha : ∀ k, a = .val k → ty k ≠ .ptr) {x y : BitVec 64} (hk : C86.Knows c a (.val x)) (hy : OpdIs s a y) : y = x := by
  refine C69.opd hw.typed hg.holds ha ?_ hy
  rcases hk with ⟨z, rfl, h⟩ | ⟨k, rfl, h⟩
  · cases h; rfl
  · simp only [opdVal, h]

theorem C86.insertAll_get (a : CMap) {c : CMap} {n : Nat} (hc : ∀ k v, c.get k = some v → k = n) (hn : a.get n = none) (k : Nat) (v : V) :
    (CMap.insertAll a c).get k = some v ↔ a.get k = some v ∨ c.get k = some v := by
  have key : ∀ (l : AMap Nat V), AMap.NodupKeys l → (∀ x ∈ l, x.1 = n) →
      ((l.foldl (fun a x => a.insert x.1 x.2) a).get k = some v ↔ a.get k = some v ∨ (k, v) ∈ l) := by
    intro l hnd hl
    match l with
    | [] => simp
    | [x] =>
      rw [List.foldl_cons, List.foldl_nil, CMap.get_insert]
      have hx := hl x (by simp)
      cases hg : a.get k with
      | some y =>
        simp only
        constructor
        · exact .inl
        · rintro (h | h)
          · exact h
          · rw [List.mem_singleton] at h
            subst h
            rw [show k = n from hx, hn] at hg; cases hg
      | none =>
        simp only [reduceCtorEq, false_or, List.mem_singleton]
        obtain ⟨x1, x2⟩ := x
        by_cases e : x1 = k
        · simp [e, eq_comm]
        · simp only [e, if_false, reduceCtorEq, Prod.mk.injEq, false_iff, not_and]
          exact fun h => absurd h.symm e
    | x :: y :: l =>
      have h1 := hl x (by simp)
      have h2 := hl y (by simp)
      simp [AMap.NodupKeys, h1, h2] at hnd
  unfold CMap.insertAll
  rw [key c.m c.nd (fun x hx => hc x.1 x.2 ((CMap.get_iff _ _ _).2 hx)), CMap.get_iff c]

theorem C86.frames {E : Env} {ty : Nat → Ty} (hw : WF p ty) (hu : Unaliased p.func E) {n : Nat} {s : State} {c : CMap} {fs : List Frame}
    (h : Exec p E False n s c fs) :
    C86.Good p E ty (p.funOf n) s c ∧ ∀ fr ∈ fs, C86.Good p E ty (p.funOf fr.site) fr.st fr.facts ∧ p.isCall fr.site = true := by
  induction h with
  | start _ => exact ⟨C86.good_empty .., fun _ h => by cases h⟩
  | @normal n d s t c fs i r hi hd ok st ih =>
    refine ⟨?_, ih.2⟩
    rw [hw.succ n d hd]
    unfold IProg.pass
    split
    · exact C86.good_empty ..
    · refine ⟨fun k v hk => C69.kind hw.typed ih.1.kind hk, fun k v b hk hb => ?_, fun k x hk =>
        C69.step hw.typed hu ih.1.kind ih.1.holds ok.range ok.fresh ok.known st hk⟩
      by_cases e : k = n
      · rw [e]
      · have h1 := constFlow_key (F := p.func) (inp := c) e
        rw [show (constFlow p.func n c).get k = some v from hk] at h1
        cases hg : c.get k with
        | none => rw [hg] at h1; cases h1
        | some y => exact ih.1.own k y b hg hb
  | @call n f m s t c c' fs as r hi hf hm hc ha hmem ih =>
    have hcall : p.isCall n = true := by unfold IProg.isCall; rw [hi]
    refine ⟨?_, fun fr hfr => ?_⟩
    · have hget := C86_call hi (hw.nodup f) hc
      refine ⟨fun k v hk => ?_, fun k v b hk hb => ?_, fun k x hk => ?_⟩
      · obtain ⟨_, i, a, h1, _⟩ := (hget k v).1 hk
        exact .inr (hw.par f k (List.mem_of_getElem? h1)).1
      · obtain ⟨_, i, a, h1, _⟩ := (hget k v).1 hk
        exact absurd hb ((hw.par f k (List.mem_of_getElem? h1)).2 b)
      · obtain ⟨_, i, a, h1, h2, h3⟩ := (hget k _).1 hk
        rw [C69.holds_reg (hw.par f k (List.mem_of_getElem? h1)).2]
        exact C86.knows_holds hw ih.1 (fun j e => hw.arg n as j hi (e ▸ List.mem_of_getElem? h2)) h3 (ha i k a h1 h2)
    · rcases List.mem_cons.1 hfr with rfl | hfr
      · exact ⟨ih.1, hcall⟩
      · exact ih.2 fr hfr
  | @ret e r v s t c c' fr fs x hi hf hr hc hn hv hreg hmem ih =>
    refine ⟨?_, fun fr' hfr => ih.2 fr' (List.mem_cons_of_mem _ hfr)⟩
    obtain ⟨hg, hcall⟩ := ih.2 fr List.mem_cons_self
    have hret := C86_return hc
    have hget := C86.insertAll_get fr.facts (fun k v h => ((hret k v).1 h).1) hn
    have hother : ∀ b, p.func.inst fr.site ≠ .alloca b := by
      intro b hb
      unfold IProg.isCall at hcall
      simp only [IProg.func] at hb
      split at hb
      · rename_i h; rw [h] at hcall; cases hcall
      · cases hb
    rw [hw.site _ _ hr]
    refine ⟨fun k w hk => ?_, fun k w b hk hb => ?_, fun k y hk => ?_⟩
    · rcases (hget k w).1 hk with h1 | h1
      · exact hg.kind k w h1
      · obtain ⟨rfl, a, h2, _⟩ := (hret k w).1 h1
        exact .inr (hw.res e _ a h2 hf).1
    · rcases (hget k w).1 hk with h1 | h1
      · exact hg.own k w b h1 hb
      · obtain ⟨rfl, _⟩ := (hret k w).1 h1
        exact absurd hb (hother b)
    · rcases (hget k _).1 hk with h1 | h1
      · have hne : k ≠ fr.site := by rintro rfl; rw [hn] at h1; cases h1
        have hh := hg.holds k y h1
        by_cases hb : ∃ b, p.func.inst k = .alloca b
        · obtain ⟨b, hb⟩ := hb
          rw [C69.holds_alloca hb] at hh ⊢
          rw [(hmem.resolve_right fun h => h.1) k ?_ (hg.own k _ b h1 hb)]
          · exact hh
          · rcases hg.kind k _ h1 with h2 | h2
            · exact h2
            · exact absurd (hw.typed.alloca _ _ hb) h2
        · have hb' : ∀ b, p.func.inst k ≠ .alloca b := fun b hb' => hb ⟨b, hb'⟩
          rw [C69.holds_reg hb'] at hh ⊢
          rw [hreg k hne]; exact hh
      · obtain ⟨rfl, a, h2, h3⟩ := (hret k _).1 h1
        rw [C69.holds_reg hother]
        rw [hi] at h2
        cases h2
        exact C86.knows_holds hw ih.1 (hw.res e _ a hi hf).2 h3 (hv a true rfl)

/-- C86, where it is right: in a program that passes no pointers to functions and whose integer variables are written through their allocas
only, the constants that the flow functions compute along an execution — through calls and back — are those of the execution, in every
frame, as long as arithmetic stays in range, stored values are known and callees leave the caller's variables alone.  Missing: the solver
does not combine the facts of several paths correctly, see the theorems that follow. -/
theorem C86_sound_partial {E : Env} {ty : Nat → Ty} (hw : WF p ty) (hu : Unaliased p.func E) {n : Nat} {s : State} {c : CMap}
    {fs : List Frame} (h : Exec p E False n s c fs) :
    (∀ k x, c.get k = some (.val x) → Holds p.func E s k x) ∧
    ∀ fr ∈ fs, ∀ k x, fr.facts.get k = some (.val x) → Holds p.func E fr.st k x :=
  ⟨(C86.frames hw hu h).1.holds, fun fr hfr => ((C86.frames hw hu h).2 fr hfr).1.holds⟩

/-! ## Programs to try the theorems on -/

/-- An instruction of a program: its function, its successors and whether it is a branch. -/
structure C86.Row where
  i : IInst
  fn : Nat := 0
  succs : List Nat := []
  br : Bool := false

/-- The row of an instruction; other numbers are values that are no instructions. -/
def C86.row (rows : List C86.Row) (n : Nat) : C86.Row := (rows[n]?).getD { i := .plain .other, fn := 99 }

theorem C86.row_ge {rows : List C86.Row} {n : Nat} (h : rows.length ≤ n) : C86.row rows n = { i := .plain .other, fn := 99 } := by
  unfold C86.row; rw [List.getElem?_eq_none h]; rfl

/-- The program of a table; `calls` gives the callees. -/
def C86.prog (rows : List C86.Row) (params : Nat → List Nat) (calls : Nat → List Nat) : IProg :=
  let ns := List.range rows.length
  { K := 3
    inst := fun n => (C86.row rows n).i
    params := params
    varArg := fun _ => false
    funOf := fun n => (C86.row rows n).fn
    edges := fun f => (ns.filter fun n => (C86.row rows n).fn == f).flatMap fun n => (C86.row rows n).succs.map fun d => (n, d)
    succs := fun n => (C86.row rows n).succs
    preds := fun d => ns.filter fun n => (C86.row rows n).succs.contains d
    branchTarget := fun n d => (C86.row rows n).br && (C86.row rows n).succs.contains d
    callees := calls
    callers := fun f => ns.filter fun n => (calls n).contains f
    starts := fun f => ((ns.filter fun n => (C86.row rows n).fn == f).head?).toList
    exits := fun f => ns.filter fun n => (C86.row rows n).fn == f && match (C86.row rows n).i with | .ret _ => true | _ => false
    retSites := fun n => match (C86.row rows n).i with | .call _ => (C86.row rows n).succs | _ => []
    entries := [0] }

/-- `main: x = alloca; store 5, x; y = load x; r = f(y, 7); z = r + 1; ret z` and `f(a, b): t = a + b; ret t`; `a` is 20, `b` is 21. -/
def C86.ex : IProg := C86.prog
  [{ i := .plain (.alloca true), succs := [1] }, { i := .plain (.store (.lit 5) true 0), succs := [2] }, { i := .plain (.load 0), succs := [3] },
    { i := .call [.val 2, .lit 7], succs := [4] }, { i := .plain (.bin .add (.val 3) (.lit 1)), succs := [5] }, { i := .ret (some (.val 4, true)) },
    { i := .plain (.bin .add (.val 20) (.val 21)), fn := 1, succs := [7] }, { i := .ret (some (.val 6, true)), fn := 1 }]
  (fun f => if f = 1 then [20, 21] else []) (fun n => if n = 3 then [1] else [])

/-- `main: r = f(); s = r + 0; ret s` and `f: if (…) return 5; return 6`. -/
def C86.two : IProg := C86.prog
  [{ i := .call [], succs := [1] }, { i := .plain .other, succs := [2] }, { i := .ret (some (.lit 0, true)) },
    { i := .plain .other, fn := 1, succs := [4, 5], br := true }, { i := .ret (some (.lit 5, true)), fn := 1 }, { i := .ret (some (.lit 6, true)), fn := 1 }]
  (fun _ => []) (fun n => if n = 0 then [1] else [])

/-- `main: x = alloca; store 5, x; f(x); y = load x; ret y` and `f(q): store 6, q; ret 0`; `q` is 20. -/
def C86.ptr : IProg := C86.prog
  [{ i := .plain (.alloca true), succs := [1] }, { i := .plain (.store (.lit 5) true 0), succs := [2] }, { i := .call [.val 0], succs := [3] },
    { i := .plain (.load 0), succs := [4] }, { i := .ret (some (.val 3, true)) },
    { i := .plain (.store (.lit 6) true 20), fn := 1, succs := [6] }, { i := .ret (some (.lit 0, true)), fn := 1 }]
  (fun f => if f = 1 then [20] else []) (fun n => if n = 2 then [1] else [])

/-- `main: x = alloca; store 5, x; if (…) a else b; c: y = load x; ret y`. -/
def C86.diamond : IProg := C86.prog
  [{ i := .plain (.alloca true), succs := [1] }, { i := .plain (.store (.lit 5) true 0), succs := [2] },
    { i := .plain .other, succs := [3, 4], br := true }, { i := .plain .other, succs := [5], br := true },
    { i := .plain .other, succs := [5], br := true }, { i := .plain (.load 0), succs := [6] }, { i := .ret (some (.val 5, true)) }]
  (fun _ => []) (fun _ => [])

/-- Addresses for the examples: `20` points to `0`. -/
def C86.env : Env := ⟨fun n => if n = 20 then 0 else n, fun _ => 64, fun _ => []⟩

/-- A statement that is no branch. -/
theorem C86.line {E : Env} {esc : Prop} {n d : Nat} {s t : State} {c : CMap} {fs : List Frame} {i : Inst} (r : Exec p E esc n s c fs)
    (h : p.inst n = .plain i) (hd : d ∈ p.succs n) (hb : ¬ p.Join n d) (ok : Ok p E n s c) (st : Step p.func E n s t) :
    Exec p E esc d t (p.normalFlow n c) fs := by
  have := Exec.normal r h hd ok st
  rwa [IProg.pass, if_neg hb] at this

theorem C86.no_join {n d : Nat} (h : p.branchTarget n d = false) : ¬ p.Join n d := fun hj => by rw [hj.1] at h; cases h

theorem C86.only_pred {n d : Nat} (h : p.preds d = [n]) : ¬ p.Join n d := fun ⟨_, q, hq, hne⟩ => by
  rw [h, List.mem_singleton] at hq; exact hne hq

/-- Registers and memory with one register changed. -/
def C86.setReg (s : State) (k : Nat) (v : BitVec 64) : State := ⟨fun j => if j = k then v else s.reg j, s.mem⟩

/-- Registers and memory with one cell changed. -/
def C86.setMem (s : State) (k : Nat) (v : BitVec 64) : State := ⟨s.reg, fun j => if j = k then v else s.mem j⟩

/-- All registers and all memory 0. -/
def C86.zero : State := ⟨fun _ => 0, fun _ => 0⟩

theorem C86.two_exec : ∃ s c, Exec C86.two C86.env False 1 s c [] ∧ s.reg 0 = 6 := by
  have h0 : Exec C86.two C86.env False 0 C86.zero .empty [] := .start (by decide)
  have h1 : Exec C86.two C86.env False 3 C86.zero .empty [⟨0, C86.zero, .empty⟩] :=
    h0.call (f := 1) (as := []) rfl (by decide) (by decide) rfl (fun i k a h => absurd h nofun) rfl
  have h2 := C86.line (d := 5) (t := C86.zero) h1 (i := .other) rfl (by decide) (C86.only_pred (by decide))
    ⟨(fun op l r h => absurd h nofun), rfl, fun v b q h => absurd h nofun⟩ (.other rfl (fun _ _ => rfl) (fun _ _ => rfl))
  exact ⟨_, _, h2.ret (r := 1) (t := C86.setReg C86.zero 0 6) rfl (by decide) (by decide) rfl rfl
    (fun a b h => by cases h; rfl) (fun k hk => if_neg hk) (.inl fun _ _ _ => rfl), rfl⟩

/-- C86, several returns: a function that returns 5 or 6 is reported to return 5, while there is an execution in which it returns 6: the
facts of the second return do not overwrite those of the first. -/
theorem C86_two_returns_false : ∃ A, solve C86.two.prob 100 = some A ∧ (getResultsAt C86.two.prob A 1).get 0 = some (.val 5) ∧
    ∃ s c, Exec C86.two C86.env False 1 s c [] ∧ s.reg 0 = 6 := by
  have h : (solve C86.two.prob 100).map (fun A => (getResultsAt C86.two.prob A 1).get 0) = some (some (.val 5)) := by decide +kernel
  obtain ⟨A, h1, h2⟩ := Option.map_eq_some_iff.1 h
  exact ⟨A, h1, h2, C86.two_exec⟩

/-- C86, pointers: a callee that stores 6 to the caller's variable through a parameter: afterwards the variable is still reported to be 5,
and so is what is loaded from it. -/
theorem C86_pointer_false : ∃ A, solve C86.ptr.prob 100 = some A ∧ (getResultsAt C86.ptr.prob A 4).get 3 = some (.val 5) ∧
    (getResultsAt C86.ptr.prob A 4).get 0 = some (.val 5) ∧
    ∃ s c, Exec C86.ptr C86.env True 4 s c [] ∧ s.reg 3 = 6 ∧ s.mem (C86.env.addr 0) = 6 := by
  have h : (solve C86.ptr.prob 100).map (fun A => ((getResultsAt C86.ptr.prob A 4).get 3, (getResultsAt C86.ptr.prob A 4).get 0)) =
      some (some (.val 5), some (.val 5)) := by decide +kernel
  obtain ⟨A, h1, h2⟩ := Option.map_eq_some_iff.1 h
  refine ⟨A, h1, congrArg Prod.fst h2, congrArg Prod.snd h2, ?_⟩
  have e0 : Exec C86.ptr C86.env True 0 C86.zero .empty [] := .start (by decide)
  have e1 := C86.line (d := 1) (t := C86.zero) e0 (i := .alloca true) rfl (by decide) (C86.no_join (by decide))
    ⟨(fun op l r h => absurd h nofun), rfl, fun v b q h => absurd h nofun⟩ (.alloca true rfl rfl (fun _ _ => rfl))
  have e2 := C86.line (d := 2) (t := C86.setMem C86.zero 0 5) e1 (i := .store (.lit 5) true 0) rfl (by decide) (C86.no_join (by decide))
    ⟨(fun op l r h => absurd h nofun), rfl, (fun v b q h _ => by cases h; exact ⟨rfl, .inl ⟨5, rfl⟩⟩)⟩
    (.store (.lit 5) 0 rfl rfl rfl (fun a ha => if_neg ha))
  have e3 := e2.call (f := 1) (m := 5) (t := C86.setMem C86.zero 0 5) (as := [.val 0]) rfl (by decide) (by decide) rfl
    (fun i k a h1 h2 => by
      match i with
      | 0 => cases h1; cases h2; rfl
      | i + 1 => exact absurd h2 nofun) rfl
  have e4 := C86.line (d := 6) (t := C86.setMem C86.zero 0 6) e3 (i := .store (.lit 6) true 20) rfl (by decide) (C86.no_join (by decide))
    ⟨(fun op l r h => absurd h nofun), rfl, (fun v b q h _ => by cases h; exact ⟨rfl, .inl ⟨6, rfl⟩⟩)⟩
    (.store (.lit 6) 20 rfl rfl rfl (fun a ha => by
      have ha : a ≠ 0 := ha
      simp [C86.setMem, ha]))
  have e5 := e4.ret (r := 3) (t := C86.setMem C86.zero 0 6) rfl (by decide) (by decide) rfl rfl (fun a b h => by cases h; rfl)
    (fun k _ => rfl) (.inr ⟨trivial, rfl⟩)
  have e6 := C86.line (d := 4) (t := C86.setReg (C86.setMem C86.zero 0 6) 3 6) e5 (i := .load 0) rfl (by decide) (C86.no_join (by decide))
    ⟨(fun op l r h => absurd h nofun), rfl, fun v b q h => absurd h nofun⟩ (.load 0 rfl rfl (fun k hk => if_neg hk) rfl)
  exact ⟨_, _, e6, rfl, rfl⟩

/-- An execution of `ex` up to the last statement, with the facts along it. -/
theorem C86.ex_exec : ∃ s c, Exec C86.ex C86.env False 4 s c [] ∧ s.reg 3 = 12 ∧ c.get 3 = some (.val 12) ∧ c.get 0 = some (.val 5) := by
  have e0 : Exec C86.ex C86.env False 0 C86.zero .empty [] := .start (by decide)
  have e1 := C86.line (d := 1) (t := C86.zero) e0 (i := .alloca true) rfl (by decide) (C86.no_join (by decide))
    ⟨(fun op l r h => absurd h nofun), rfl, fun v b q h => absurd h nofun⟩ (.alloca true rfl rfl (fun _ _ => rfl))
  have e2 := C86.line (d := 2) (t := C86.setMem C86.zero 0 5) e1 (i := .store (.lit 5) true 0) rfl (by decide) (C86.no_join (by decide))
    ⟨(fun op l r h => absurd h nofun), rfl, (fun v b q h _ => by cases h; exact ⟨rfl, .inl ⟨5, rfl⟩⟩)⟩
    (.store (.lit 5) 0 rfl rfl rfl (fun a ha => if_neg ha))
  have e3 := C86.line (d := 3) (t := C86.setReg (C86.setMem C86.zero 0 5) 2 5) e2 (i := .load 0) rfl (by decide) (C86.no_join (by decide))
    ⟨(fun op l r h => absurd h nofun), rfl, fun v b q h => absurd h nofun⟩ (.load 0 rfl rfl (fun k hk => if_neg hk) rfl)
  have e4 := e3.call (f := 1) (m := 6) (t := C86.setReg (C86.setReg (C86.setMem C86.zero 0 5) 20 5) 21 7) (as := [.val 2, .lit 7]) rfl
    (by decide) (by decide) rfl
    (fun i k a h1 h2 => by
      match i with
      | 0 => cases h1; cases h2; rfl
      | 1 => cases h1; cases h2; rfl
      | i + 2 => exact absurd h2 nofun) rfl
  have e5 := C86.line (d := 7) (t := C86.setReg (C86.setReg (C86.setReg (C86.setMem C86.zero 0 5) 20 5) 21 7) 6 12) e4
    (i := .bin .add (.val 20) (.val 21)) rfl (by decide) (C86.no_join (by decide))
    ⟨(fun op l r h => by
        cases h
        refine .inr ⟨by decide, by decide, fun a b ha hb => ?_⟩
        have ha : a = 5 := ha
        have hb : b = 7 := hb
        subst ha; subst hb
        exact ⟨by unfold Fits; decide, by unfold Fits; decide, 12, rfl, by unfold Fits; decide⟩), rfl, (fun v b q h => absurd h nofun)⟩
    (.bin .add (.val 20) (.val 21) 5 7 rfl rfl rfl (show (12 : BitVec 64) = norm 64 (5 + 7) by decide) (fun k hk => if_neg hk) rfl)
  exact ⟨_, _, e5.ret (r := 4) (t := C86.setReg (C86.setReg (C86.setMem C86.zero 0 5) 2 5) 3 12) rfl (by decide) (by decide) rfl rfl
    (fun a b h => by cases h; rfl) (fun k hk => if_neg hk) (.inl fun _ _ _ => rfl), rfl, by decide, by decide⟩

/-- C86, results of calls: the flow functions compute the result 12 of the call, but the solver does not report it behind the call: the
edge past the call overwrites what the return brought. -/
theorem C86_returned_false : ∃ A, solve C86.ex.prob 100 = some A ∧ (getResultsAt C86.ex.prob A 4).get 3 = none ∧
    (∃ s c, Exec C86.ex C86.env False 4 s c [] ∧ s.reg 3 = 12 ∧ c.get 3 = some (.val 12)) := by
  have h : (solve C86.ex.prob 100).map (fun A => (getResultsAt C86.ex.prob A 4).get 3) = some none := by decide +kernel
  obtain ⟨A, h1, h2⟩ := Option.map_eq_some_iff.1 h
  obtain ⟨s, c, h3, h4, h5, _⟩ := C86.ex_exec
  exact ⟨A, h1, h2, s, c, h3, h4, h5⟩

/-- The hypotheses of `C86_call`: `f(y, 7)` in `ex` with `y` known to be 5. -/
example : ∃ c', C86.ex.callFlow 3 1 (CMap.empty.set 2 (.val 5)) = some c' ∧ c'.get 20 = some (.val 5) ∧ c'.get 21 = some (.val 7) := by
  obtain ⟨c', h⟩ : ∃ c', C86.ex.callFlow 3 1 (CMap.empty.set 2 (.val 5)) = some c' := ⟨_, rfl⟩
  exact ⟨c', h, (C86_call (as := [.val 2, .lit 7]) rfl (by decide) h 20 _).2 ⟨rfl, 0, .val 2, rfl, rfl, .inr ⟨2, rfl, rfl⟩⟩,
    (C86_call (as := [.val 2, .lit 7]) rfl (by decide) h 21 _).2 ⟨rfl, 1, .lit 7, rfl, rfl, .inl ⟨7, rfl, rfl⟩⟩⟩

/-- The hypotheses of `C86_call_undefined`: the same call of a function without parameters. -/
example : (C86.ex.prob.callFlow 3 1 (CMap.empty.set 2 (.val 5))).get 21 = some (.val 7) :=
  ((C86_solver (p := C86.ex)).2.2.1 3 1 [.val 2, .lit 7] _ 21 (.val 7) rfl (by decide) (by decide)).2
    ⟨rfl, 1, .lit 7, rfl, rfl, C86.argVal_iff.1 rfl⟩

example : C86.ex.callFlow 3 0 .empty = none := (C86_call_undefined (as := [.val 2, .lit 7]) rfl _).2
  ⟨rfl, 1, .lit 7, .val 7, rfl, by decide, .inl ⟨7, rfl, rfl⟩⟩

example : ∃ c', C86.ex.returnFlow 3 7 (CMap.empty.set 6 (.val 12)) = some c' ∧ c'.get 3 = some (.val 12) := by
  obtain ⟨c', h⟩ : ∃ c', C86.ex.returnFlow 3 7 (CMap.empty.set 6 (.val 12)) = some c' := ⟨_, rfl⟩
  exact ⟨c', h, (C86_return h 3 _).2 ⟨rfl, .val 6, rfl, .inr ⟨6, rfl, rfl⟩⟩⟩

/-- The hypotheses of `C86_join`: the end of the `if` of `diamond`. -/
theorem C86.diamond_join : C86.OnlyJoin C86.diamond 5 where
  edge f n h := by
    have hn : n = 3 ∨ n = 4 := by
      obtain ⟨m, hm, h⟩ := List.mem_flatMap.1 h
      have hm := List.mem_range.1 (List.mem_filter.1 hm).1
      have key : ∀ m < 7, ∀ e ∈ (C86.diamond.succs m).map (fun d => (m, d)), e.2 = 5 → e.1 = 3 ∨ e.1 = 4 := by decide
      exact key m hm (n, 5) h rfl
    rcases hn with rfl | rfl
    · exact ⟨rfl, rfl, by decide, 4, by decide, by decide⟩
    · exact ⟨rfl, rfl, by decide, 3, by decide, by decide⟩
  succ n h := by
    have hn : n = 3 ∨ n = 4 := by
      by_cases hn : n < 7
      · have key : ∀ m < 7, 5 ∈ C86.diamond.succs m → m = 3 ∨ m = 4 := by decide
        exact key n hn h
      · have : C86.diamond.succs n = [] := by
          show ((([_, _, _, _, _, _, _] : List C86.Row)[n]?).getD _).succs = []
          rw [List.getElem?_eq_none (by simpa using Nat.le_of_not_lt hn)]; rfl
        rw [this] at h; cases h
    rcases hn with rfl | rfl
    · exact ⟨rfl, rfl, by decide, 4, by decide, by decide⟩
    · exact ⟨rfl, rfl, by decide, 3, by decide, by decide⟩
  noStart f h := by
    by_cases hf : f = 0
    · subst hf; revert h; decide
    · have : C86.diamond.starts f = [] := by
        show ((List.filter _ (List.range 7)).head?).toList = []
        rw [List.filter_eq_nil_iff.2]
        · rfl
        · intro m hm
          have hm := List.mem_range.1 hm
          have key : ∀ m < 7, C86.diamond.funOf m = 0 := by decide
          have := key m hm
          simp only [beq_iff_eq]
          intro e
          exact hf (e.symm.trans this)
      rw [this] at h; cases h
  noRet n h := by
    by_cases hn : n < 7
    · have key : ∀ m < 7, C86.diamond.retSites m = [] := by decide
      rw [key n hn] at h; cases h
    · simp only [C86.diamond, C86.prog] at h
      rw [C86.row_ge (by simpa using Nat.le_of_not_lt hn)] at h; cases h
  callers f n h := by
    have h : n ∈ (List.range 7).filter fun n => ([] : List Nat).contains f := h
    simp at h

/-- Nothing is known about `x` behind the `if`, although it is 5 on both branches. -/
example {s : St Nat Nat CMap} (h : Reached C86.diamond.prob s) (x : Ctx Nat) : (val C86.diamond.prob s.an 5 x).get 0 = none :=
  C86_join C86.diamond_join h x 0

/-- Types of the values of `ex`. -/
def C86.ty : Nat → Ty := fun n => if n = 0 then .ptr else .int

theorem C86.ex_ge {n : Nat} (h : ¬ n < 8) : C86.ex.inst n = .plain .other ∧ C86.ex.succs n = [] ∧ C86.ex.retSites n = [] ∧ C86.ex.callees n = [] := by
  have hr := fun rows : List C86.Row => C86.row_ge (rows := rows) (n := n)
  simp only [C86.ex, C86.prog]
  rw [hr _ (by simpa using Nat.le_of_not_lt h)]
  exact ⟨rfl, rfl, rfl, if_neg (by omega)⟩

theorem C86.ex_finst (n : Nat) : C86.ex.func.inst n = .other ∨ (n = 0 ∧ C86.ex.func.inst n = .alloca true) ∨
    (n = 1 ∧ C86.ex.func.inst n = .store (.lit 5) true 0) ∨ (n = 2 ∧ C86.ex.func.inst n = .load 0) ∨
    (n = 4 ∧ C86.ex.func.inst n = .bin .add (.val 3) (.lit 1)) ∨ (n = 6 ∧ C86.ex.func.inst n = .bin .add (.val 20) (.val 21)) := by
  by_cases hn : n < 8
  · have key : ∀ n < 8, C86.ex.func.inst n = .other ∨ (n = 0 ∧ C86.ex.func.inst n = .alloca true) ∨
      (n = 1 ∧ C86.ex.func.inst n = .store (.lit 5) true 0) ∨ (n = 2 ∧ C86.ex.func.inst n = .load 0) ∨
      (n = 4 ∧ C86.ex.func.inst n = .bin .add (.val 3) (.lit 1)) ∨ (n = 6 ∧ C86.ex.func.inst n = .bin .add (.val 20) (.val 21)) := by decide
    exact key n hn
  · left
    unfold IProg.func
    simp only
    rw [(C86.ex_ge hn).1]

theorem C86.ex_typed : Typed C86.ex.func C86.ty where
  alloca n b h := by
    rcases C86.ex_finst n with e | ⟨rfl, e⟩ | ⟨rfl, e⟩ | ⟨rfl, e⟩ | ⟨rfl, e⟩ | ⟨rfl, e⟩ <;> rw [e] at h <;> cases h
    rfl
  store n v b q h := by
    rcases C86.ex_finst n with e | ⟨rfl, e⟩ | ⟨rfl, e⟩ | ⟨rfl, e⟩ | ⟨rfl, e⟩ | ⟨rfl, e⟩ <;> rw [e] at h <;> cases h
    exact ⟨rfl, fun k h => absurd h nofun⟩
  load n q h := by
    rcases C86.ex_finst n with e | ⟨rfl, e⟩ | ⟨rfl, e⟩ | ⟨rfl, e⟩ | ⟨rfl, e⟩ | ⟨rfl, e⟩ <;> rw [e] at h <;> cases h
    exact ⟨rfl, fun _ => rfl⟩
  bin n op l r h := by
    rcases C86.ex_finst n with e | ⟨rfl, e⟩ | ⟨rfl, e⟩ | ⟨rfl, e⟩ | ⟨rfl, e⟩ | ⟨rfl, e⟩ <;> rw [e] at h <;> cases h
    · refine ⟨by decide, fun k h => ?_⟩
      rcases h with h | h <;> cases h
      decide
    · refine ⟨by decide, fun k h => ?_⟩
      rcases h with h | h <;> cases h <;> decide

theorem C86.ex_unaliased : Unaliased C86.ex.func C86.env where
  alloca n b a h ha he := by
    rcases C86.ex_finst n with e | ⟨rfl, e⟩ | ⟨rfl, e⟩ | ⟨rfl, e⟩ | ⟨rfl, e⟩ | ⟨rfl, e⟩ <;> rw [e] at h <;> cases h
    rcases C86.ex_finst a with e | ⟨rfl, e⟩ | ⟨rfl, e⟩ | ⟨rfl, e⟩ | ⟨rfl, e⟩ | ⟨rfl, e⟩ <;> rw [e] at ha <;> cases ha
  store n v b q a h ha he := by
    rcases C86.ex_finst n with e | ⟨rfl, e⟩ | ⟨rfl, e⟩ | ⟨rfl, e⟩ | ⟨rfl, e⟩ | ⟨rfl, e⟩ <;> rw [e] at h <;> cases h
    rcases C86.ex_finst a with e | ⟨rfl, e⟩ | ⟨rfl, e⟩ | ⟨rfl, e⟩ | ⟨rfl, e⟩ | ⟨rfl, e⟩ <;> rw [e] at ha <;> cases ha
  writes n a _ := List.not_mem_nil

theorem C86.ex_wf : WF C86.ex C86.ty where
  typed := C86.ex_typed
  succ n d h := by
    by_cases hn : n < 8
    · have key : ∀ n < 8, ∀ d ∈ C86.ex.succs n, C86.ex.funOf d = C86.ex.funOf n := by decide
      exact key n hn d h
    · rw [(C86.ex_ge hn).2.1] at h; cases h
  start f m h := by
    have hm := List.mem_of_mem_head? (Option.mem_toList.1 h)
    exact beq_iff_eq.1 (List.mem_filter.1 hm).2
  site n r h := by
    by_cases hn : n < 8
    · have key : ∀ n < 8, ∀ d ∈ C86.ex.retSites n, C86.ex.funOf d = C86.ex.funOf n := by decide
      exact key n hn r h
    · rw [(C86.ex_ge hn).2.2.1] at h; cases h
  par f k h := by
    by_cases hf : f = 1
    · subst hf
      have : k = 20 ∨ k = 21 := by simpa [C86.ex, C86.prog] using h
      rcases this with rfl | rfl
      · exact ⟨by decide, fun b hb => by cases hb⟩
      · exact ⟨by decide, fun b hb => by cases hb⟩
    · simp [C86.ex, C86.prog, hf] at h
  nodup f := by
    by_cases hf : f = 1
    · subst hf; decide
    · simp [C86.ex, C86.prog, hf]
  arg n as k h hk := by
    by_cases hn : n < 8
    · have key : ∀ n < 8, ∀ as, C86.ex.inst n = .call as → as = [.val 2, .lit 7] := by
        intro n hn as h
        match n with
        | 3 => cases h; rfl
        | 0 | 1 | 2 | 4 | 5 | 6 | 7 => cases h
      rw [key n hn as h] at hk
      rcases List.mem_cons.1 hk with hk | hk
      · cases hk; decide
      · simp at hk
    · rw [(C86.ex_ge hn).1] at h; cases h
  res e n v h hc := by
    have hn : n = 3 := by
      by_cases hn : n = 3
      · exact hn
      · simp [C86.ex, C86.prog, hn] at hc
    subst hn
    refine ⟨by decide, fun k hk => ?_⟩
    subst hk
    by_cases he : e < 8
    · match e with
      | 5 => cases h; decide
      | 7 => cases h; decide
      | 0 | 1 | 2 | 3 | 4 | 6 => cases h
    · rw [(C86.ex_ge he).1] at h; cases h
  call n h := by
    by_cases hn : n = 3
    · subst hn; rfl
    · simp [C86.ex, C86.prog, hn] at h

/-- The hypotheses of `C86_sound_partial`: the result of the call is 12 in the execution because the facts say so. -/
example : ∃ s c, Exec C86.ex C86.env False 4 s c [] ∧ c.get 3 = some (.val 12) ∧ Holds C86.ex.func C86.env s 3 12 ∧
    Holds C86.ex.func C86.env s 0 5 := by
  obtain ⟨s, c, h, _, h3, h0⟩ := C86.ex_exec
  exact ⟨s, c, h, h3, (C86_sound_partial C86.ex_wf C86.ex_unaliased h).1 3 12 h3, (C86_sound_partial C86.ex_wf C86.ex_unaliased h).1 0 5 h0⟩

end Phasar.InterConst
