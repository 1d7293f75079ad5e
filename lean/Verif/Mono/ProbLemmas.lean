import Verif.Mono.Prob
/-!
# Lemmas about the intraprocedural analyses of the monotone framework
-/
namespace Phasar.MonoProb
open IntraMono

/-! ## The solver on merges that intersect -/

variable {C : Type} {P : IProb Nat C}

/-- A predicate that a merge satisfies exactly if both sides do holds of the out-fact computed for an edge
exactly if it holds of what every predecessor sends. -/
theorem outOf_iff (hw : WfCfg P) (Q : C → Prop) (hQ : ∀ a b, Q (P.merge a b) ↔ Q a ∧ Q b) (a : Nat → C)
    {s d : Nat} (hsd : IntraMono.Edge P s d) :
    Q (outOf P a s d) ↔ ∀ p, IntraMono.Edge P p d → Q (P.flow p (a p)) := by
  have hdn := (hw.edge_nodes s d hsd).2
  have hf : ∀ (l : List Nat) (o : C), Q (l.foldl (fun o p => P.merge o (P.flow p (a p))) o) ↔
      Q o ∧ ∀ p ∈ l, Q (P.flow p (a p)) := by
    intro l
    induction l with
    | nil => intro o; simp
    | cons x l ih =>
      intro o
      rw [List.foldl_cons, ih, hQ]
      simp only [List.mem_cons, forall_eq_or_imp, and_assoc]
  unfold outOf
  cases hb : P.branchTarget s d with
  | true =>
    simp only [if_true, hf]
    constructor
    · rintro ⟨h1, h2⟩ p hp
      by_cases e : p = s
      · subst e; exact h1
      · exact h2 p (List.mem_filter.2 ⟨hw.edge_preds _ _ hp, by simp [e]⟩)
    · intro h
      exact ⟨h s hsd, fun p hp => h p (hw.preds_edge _ _ hdn (List.mem_filter.1 hp).1)⟩
  | false =>
    simp only [Bool.false_eq_true, if_false]
    constructor
    · intro h p hp
      rw [hw.target s d hsd hb p (hw.edge_preds _ _ hp)]
      exact h
    · intro h; exact h s hsd

/-- At the end the predicate holds of the in-fact of a statement with predecessors exactly if it holds of what
every predecessor sends. -/
theorem at_iff (hw : WfCfg P) (hrefl : ∀ c, P.equalTo c c = true) (Q : C → Prop)
    (hQ : ∀ a b, Q (P.merge a b) ↔ Q a ∧ Q b) (hE : ∀ a b, P.equalTo a b = true → (Q a ↔ Q b))
    {A : AMap Nat C} (h : Returns P A) {d : Nat} (hd : ∃ s, IntraMono.Edge P s d) :
    Q (at' P A d) ↔ ∀ p, IntraMono.Edge P p d → Q (P.flow p (at' P A p)) := by
  obtain ⟨k, hk⟩ := h
  have := loop_inv (Inv P) (fun s d wl A h => inv_step hw hrefl s d wl A h) k _ _ (inv_init P) hk
  rcases this.2 d hd with ⟨s, hs⟩ | ⟨s, hs, he⟩
  · cases hs
  · rw [← hE _ _ he]
    exact outOf_iff hw Q hQ _ hs

/-- A family of predicates, one per statement, that holds at the start and is kept by updates holds at the
end. -/
theorem at_inv (hw : WfCfg P) (J : Nat → C → Prop) (h0 : ∀ n, J n (at' P (initSt P ⟨[], []⟩).an n))
    (hs : ∀ (a : Nat → C) s d, IntraMono.Edge P s d → (∀ n, J n (a n)) → J d (outOf P a s d))
    {A : AMap Nat C} (h : Returns P A) (n : Nat) : J n (at' P A n) := by
  obtain ⟨k, hk⟩ := h
  have := loop_inv (P := P)
    (fun wl A => (∀ s d, (s, d) ∈ wl → IntraMono.Edge P s d) ∧ ∀ n, J n (at' P A n))
    (by
      rintro s d wl A ⟨h1, h2⟩
      have hsd : IntraMono.Edge P s d := h1 s d (by simp)
      have hdn : IntraMono.Node P d := (hw.edge_nodes s d hsd).2
      rcases process_spec P A s d with ⟨_, hat, hp⟩ | ⟨_, hat, hp⟩
      · rw [hp, List.append_nil]
        exact ⟨fun a b hab => h1 a b (List.mem_cons_of_mem _ hab), fun n => by rw [hat]; exact h2 n⟩
      · rw [hp]
        refine ⟨?_, ?_⟩
        · intro a b hab
          rcases List.mem_append.1 hab with h | h
          · exact h1 a b (List.mem_cons_of_mem _ h)
          · obtain ⟨m, hm, heq⟩ := List.mem_map.1 h
            obtain ⟨rfl, rfl⟩ := Prod.mk.inj heq
            exact hw.succs_edge _ _ hdn hm
        · intro n
          rw [hat]
          split
          · rename_i e; subst e; exact hs _ s d hsd h2
          · exact h2 n)
    k _ _ ⟨fun s d h => (initSt_wl P [] s d).1 h, h0⟩ hk
  exact this.2 n

/-- `solve()` returns if the in-facts have a bounded rank that no step lowers and every change raises. -/
theorem loop_ranked (hw : WfCfg P) (I : AMap Nat C → Prop) (rank : C → Nat) (H : Nat) (hb : ∀ c, rank c ≤ H)
    (hI : ∀ s d A, IntraMono.Edge P s d → I A → I (process P A s d).1)
    (hup : ∀ s d A, IntraMono.Edge P s d → I A →
      P.equalTo (outOf P (at' P A) s d) (at' P A d) = false →
      rank (at' P A d) < rank (outOf P (at' P A) s d)) :
    ∀ (m : Nat) (q : Nat) (wl : List (Nat × Nat)) (A : AMap Nat C),
      (∀ s d, (s, d) ∈ wl → IntraMono.Edge P s d) → I A →
      total (fun n => H - rank (at' P A n)) (P.funs.flatMap (fun f => f.1)) ≤ m → wl.length ≤ q →
      ∃ k A', loop P k ⟨wl, A⟩ = some A' := by
  intro m
  induction m using Nat.strongRecOn with
  | ind m ihm =>
    intro q
    induction q with
    | zero =>
      intro wl A _ _ _ hq
      have : wl = [] := List.length_eq_zero_iff.1 (Nat.le_zero.1 hq)
      subst this
      exact ⟨0, A, rfl⟩
    | succ q ihq =>
      intro wl A hwl ha hm0 hq
      cases wl with
      | nil => exact ⟨0, A, rfl⟩
      | cons e wl =>
        obtain ⟨s, d⟩ := e
        have hsd : IntraMono.Edge P s d := hwl s d (by simp)
        have hdn : IntraMono.Node P d := (hw.edge_nodes s d hsd).2
        have ha' := hI s d A hsd ha
        rcases process_spec P A s d with ⟨_, hat, hp⟩ | ⟨he, hat, hp⟩
        · obtain ⟨k, A', hk⟩ := ihq (wl ++ (process P A s d).2) (process P A s d).1
            (by rw [hp, List.append_nil]; exact fun a b hab => hwl a b (List.mem_cons_of_mem _ hab)) ha'
            (by
              have : at' P (process P A s d).1 = at' P A := funext hat
              rw [this]; exact hm0)
            (by rw [hp]; simpa using hq)
          exact ⟨k + 1, A', hk⟩
        · have h1 := hup s d A hsd ha he
          have h2 := hb (outOf P (at' P A) s d)
          obtain ⟨f, hf, hdf⟩ := hdn
          have hlt := total_lt (f := fun n => H - rank (at' P (process P A s d).1 n))
            (g := fun n => H - rank (at' P A n))
            (fun n => by
              simp only [hat]
              split
              · rename_i e; subst e; omega
              · exact Nat.le_refl _)
            (List.mem_flatMap.2 ⟨f, hf, hdf⟩ : d ∈ P.funs.flatMap (fun f => f.1))
            (by simp only [hat, if_true]; omega)
          obtain ⟨k, A', hk⟩ := ihm _ (by omega : total (fun n => H - rank (at' P (process P A s d).1 n))
              (P.funs.flatMap (fun f => f.1)) < m) _ (wl ++ (process P A s d).2) (process P A s d).1
            (by
              rw [hp]
              intro a b hab
              rcases List.mem_append.1 hab with h | h
              · exact hwl a b (List.mem_cons_of_mem _ h)
              · obtain ⟨n, hn, heq⟩ := List.mem_map.1 h
                obtain ⟨rfl, rfl⟩ := Prod.mk.inj heq
                exact hw.succs_edge _ _ ⟨f, hf, hdf⟩ hn)
            ha' (Nat.le_refl _) (Nat.le_refl _)
          exact ⟨k + 1, A', hk⟩

/-! ## Uninitialized variables -/

theorem mem_inter {a b : List Nat} {v : Nat} : v ∈ inter a b ↔ v ∈ a ∧ v ∈ b := by simp [inter]

theorem sameSet_iff {a b : List Nat} : sameSet a b = true ↔ ∀ v, v ∈ a ↔ v ∈ b := by
  simp only [sameSet, Bool.and_eq_true, List.all_eq_true, decide_eq_true_eq]
  constructor
  · rintro ⟨h1, h2⟩ v; exact ⟨h1 v, h2 v⟩
  · intro h; exact ⟨fun v => (h v).1, fun v => (h v).2⟩

theorem constData_iff {F : Func} {n v : Nat} {x : Opd} {b : Bool} {ptr : Nat}
    (h : F.inst n = .store x b ptr) : F.StoresConst n v ↔ constData x b = true ∧ v = ptr := by
  unfold Func.StoresConst
  rw [h]
  constructor
  · rintro ⟨y, hy, hk⟩
    cases hy
    cases x with
    | val k => exact absurd rfl (hk k)
    | lit c => exact ⟨rfl, rfl⟩
    | undef => exact ⟨rfl, rfl⟩
  · rintro ⟨h1, rfl⟩
    cases x with
    | val k => cases h1
    | lit c => cases h1; exact ⟨_, rfl, fun k h => (nomatch h)⟩
    | undef => cases h1; exact ⟨_, rfl, fun k h => (nomatch h)⟩

theorem mem_flow {F : Func} {n v : Nat} {inp : List Nat} :
    v ∈ uninitFlow F n inp ↔ F.Allocates n v ∨ (¬ F.StoresConst n v ∧ v ∈ inp) := by
  unfold uninitFlow
  cases h : F.inst n with
  | alloca b =>
    have h1 : F.Allocates n v ↔ v = n := by
      unfold Func.Allocates; rw [h]; exact ⟨fun x => x.1.symm, fun x => ⟨x.symm, b, rfl⟩⟩
    have h2 : ¬ F.StoresConst n v := by unfold Func.StoresConst; rw [h]; rintro ⟨_, h, _⟩; cases h
    simp [h1, h2]
  | store x b ptr =>
    have h1 : ¬ F.Allocates n v := by unfold Func.Allocates; rw [h]; rintro ⟨_, _, h⟩; cases h
    rw [constData_iff h]
    by_cases hc : constData x b = true
    · simp [h1, hc, and_comm]
    · simp [h1, hc]
  | load ptr =>
    have h1 : ¬ F.Allocates n v := by unfold Func.Allocates; rw [h]; rintro ⟨_, _, h⟩; cases h
    have h2 : ¬ F.StoresConst n v := by unfold Func.StoresConst; rw [h]; rintro ⟨_, h, _⟩; cases h
    simp [h1, h2]
  | bin op l r =>
    have h1 : ¬ F.Allocates n v := by unfold Func.Allocates; rw [h]; rintro ⟨_, _, h⟩; cases h
    have h2 : ¬ F.StoresConst n v := by unfold Func.StoresConst; rw [h]; rintro ⟨_, h, _⟩; cases h
    simp [h1, h2]
  | other =>
    have h1 : ¬ F.Allocates n v := by unfold Func.Allocates; rw [h]; rintro ⟨_, _, h⟩; cases h
    have h2 : ¬ F.StoresConst n v := by unfold Func.StoresConst; rw [h]; rintro ⟨_, h, _⟩; cases h
    simp [h1, h2]

/-! ## What the solver starts with -/

/-- A predicate that holds of `allTop`, of the default container, and after inserting the seeds' empty
container, holds of everything the solver starts with. -/
theorem init_all (J : C → Prop) (ht : J P.allTop) (hd : J P.dflt)
    (hi : ∀ n c, (n, c) ∈ P.seeds → ∀ x, J x → J (P.ins x c)) (n : Nat) :
    J (at' P (initSt P ⟨[], []⟩).an n) := by
  have h0 : ∀ n, J (at' P (initFuns P ⟨[], []⟩).an n) := by
    intro n
    unfold at'
    unfold initFuns
    rw [initFuns_an]
    simp only [AMap.get_nil]
    by_cases h : n ∈ P.funs.flatMap (fun f => f.1)
    · rw [if_pos h]; exact ht
    · rw [if_neg h]; exact hd
  show J (at' P (initSeeds P (initFuns P ⟨[], []⟩).an) n)
  unfold initSeeds
  generalize (initFuns P ⟨[], []⟩).an = A at h0
  generalize P.seeds = sd at hi
  induction sd generalizing A with
  | nil => exact h0 n
  | cons x sd ih =>
    rw [List.foldl_cons]
    refine ih _ ?_ (fun n c h => hi n c (List.mem_cons_of_mem _ h))
    intro m
    rw [at_set]
    split
    · exact hi x.1 x.2 (by simp) _ (h0 _)
    · exact h0 m

theorem uninit_init (F : Func) (n v : Nat) : v ∉ at' (uninitProb F) (initSt (uninitProb F) ⟨[], []⟩).an n := by
  refine init_all (P := uninitProb F) (fun c => v ∉ c) (by simp [uninitProb]) (by simp [uninitProb]) ?_ n
  intro n c hc x hx
  simp only [uninitProb, List.mem_map, Prod.mk.injEq] at hc
  obtain ⟨_, _, rfl, rfl⟩ := hc
  simpa [uninitProb] using hx

/-- The in-fact at the end: the variable is in it exactly if the statement has predecessors and the variable is
derivably open after each. -/
theorem uninit_at {F : Func} (hw : WfCfg (uninitProb F)) {A : AMap Nat (List Nat)}
    (h : Returns (uninitProb F) A) (v n : Nat) :
    v ∈ at' (uninitProb F) A n ↔ (∃ p, F.Edge p n) ∧ ∀ p, F.Edge p n → F.After v p := by
  have hQ : ∀ a b, v ∈ (uninitProb F).merge a b ↔ v ∈ a ∧ v ∈ b := fun a b => mem_inter
  have hE : ∀ a b, (uninitProb F).equalTo a b = true → (v ∈ a ↔ v ∈ b) := fun a b h => sameSet_iff.1 h v
  have hrefl : ∀ c, (uninitProb F).equalTo c c = true := fun c => sameSet_iff.2 (fun _ => Iff.rfl)
  -- everything in an in-fact is derivable
  have hfor : ∀ n, v ∈ at' (uninitProb F) A n → (∃ p, F.Edge p n) ∧ ∀ p, F.Edge p n → F.After v p := by
    refine at_inv (P := uninitProb F) hw
      (fun n c => v ∈ c → (∃ p, F.Edge p n) ∧ ∀ p, F.Edge p n → F.After v p)
      (fun n h => absurd h (uninit_init F n v)) ?_ h
    intro a s d hsd ha hv
    have hv' := (outOf_iff hw (fun c => v ∈ c) hQ a hsd).1 hv
    refine ⟨⟨s, hsd⟩, ?_⟩
    intro p hp
    rcases mem_flow.1 (hv' p hp) with h | ⟨h1, h2⟩
    · exact .alloc h
    · obtain ⟨h3, h4⟩ := ha p h2
      exact .keep h1 h3 h4
  refine ⟨hfor n, ?_⟩
  rintro ⟨hp, ha⟩
  refine (at_iff hw hrefl (fun c => v ∈ c) hQ hE h hp).2 ?_
  intro p hp
  have key : ∀ m, F.After v m → v ∈ uninitFlow F m (at' (uninitProb F) A m) := by
    intro m hm
    induction hm with
    | alloc h => exact mem_flow.2 (.inl h)
    | keep h1 h2 _ ih =>
      exact mem_flow.2 (.inr ⟨h1, (at_iff hw hrefl (fun c => v ∈ c) hQ hE h h2).2 ih⟩)
  exact key p (ha p hp)

/-- Along every path to a statement after which a variable is derivably open, it is open. -/
theorem After.path {F : Func} {v n : Nat} (h : F.After v n) :
    ∀ rest, F.Path (n :: rest) → F.Open (fun m => F.StoresConst m v) v (n :: rest) := by
  induction h with
  | alloc h => intro rest _; exact .alloc h
  | keep h e _ ih =>
    intro rest hp
    cases hp with
    | start _ hn => exact absurd e hn
    | next hp he => exact .keep h (ih _ he _ hp)

/-! ## Constant propagation -/

namespace CMap

theorem get_set (a : CMap) (k : Nat) (v : V) (k' : Nat) :
    (a.set k v).get k' = if k = k' then some v else a.get k' := AMap.get_set _ _ _ _

theorem get_insert (a : CMap) (k : Nat) (v : V) (k' : Nat) :
    (a.insert k v).get k' = match a.get k' with
      | some x => some x
      | none => if k = k' then some v else none := by
  unfold insert
  cases h : a.get k with
  | some x =>
    cases h2 : a.get k' with
    | some y => simp [h2]
    | none =>
      have : k ≠ k' := by rintro rfl; rw [h] at h2; cases h2
      simp [this, h2]
  | none =>
    simp only [get_set]
    by_cases e : k = k'
    · subst e; simp [h]
    · simp only [e, if_false]
      cases a.get k' <;> rfl

theorem get_iff (a : CMap) (k : Nat) (v : V) : a.get k = some v ↔ (k, v) ∈ a.m :=
  ⟨AMap.mem_of_get, AMap.get_of_mem a.nd⟩

theorem get_merge (a b : CMap) (k : Nat) (v : V) :
    (a.merge b).get k = some v ↔ a.get k = some v ∧ b.get k = some v := by
  rw [get_iff, get_iff]
  simp [merge]

theorem same_iff (a b : CMap) : a.same b = true ↔ ∀ k v, a.get k = some v ↔ b.get k = some v := by
  simp only [same, Bool.and_eq_true, List.all_eq_true, decide_eq_true_eq]
  constructor
  · rintro ⟨h1, h2⟩ k v
    exact ⟨fun h => h1 (k, v) ((get_iff _ _ _).1 h), fun h => h2 (k, v) ((get_iff _ _ _).1 h)⟩
  · intro h
    exact ⟨fun x hx => (h _ _).1 ((get_iff _ _ _).2 hx), fun x hx => (h _ _).2 ((get_iff _ _ _).2 hx)⟩

end CMap

theorem const_init (F : Func) (n k : Nat) :
    (at' (constProb F) (initSt (constProb F) ⟨[], []⟩).an n).get k = none := by
  refine init_all (P := constProb F) (fun c => c.get k = none) rfl rfl ?_ n
  intro n c hc x hx
  simp only [constProb, List.mem_map, Prod.mk.injEq] at hc
  obtain ⟨_, _, rfl, rfl⟩ := hc
  exact hx

/-- The in-fact at the end has an entry exactly if every predecessor sends it. -/
theorem const_at {F : Func} (hw : WfCfg (constProb F)) {A : AMap Nat CMap} (h : Returns (constProb F) A)
    {n : Nat} (hp : ∃ p, F.Edge p n) (k : Nat) (v : V) :
    (at' (constProb F) A n).get k = some v ↔
      ∀ p, F.Edge p n → (constFlow F p (at' (constProb F) A p)).get k = some v :=
  at_iff (P := constProb F) hw (fun c => (CMap.same_iff c c).2 (fun _ _ => Iff.rfl))
    (fun c => c.get k = some v) (fun a b => CMap.get_merge a b k v)
    (fun a b h => (CMap.same_iff a b).1 h k v) h hp

theorem const_source {F : Func} (hw : WfCfg (constProb F)) {A : AMap Nat CMap}
    (h : Returns (constProb F) A) {n : Nat} (hp : ¬ ∃ p, F.Edge p n) (k : Nat) :
    (at' (constProb F) A n).get k = none := by
  rw [source_kept (P := constProb F) hw n hp h]
  exact const_init F n k

/-- Which keys the flow function adds: only the instruction itself. -/
theorem constFlow_key {F : Func} {n k : Nat} {inp : CMap} (hk : k ≠ n) :
    ((constFlow F n inp).get k).isSome = (inp.get k).isSome := by
  have hkn : ¬ n = k := fun h => hk h.symm
  have hs : ∀ ptr x, writable inp ptr = true →
      ((inp.set ptr x).get k).isSome = (inp.get k).isSome := by
    intro ptr x hw
    rw [CMap.get_set]
    split
    · rename_i e
      subst e
      unfold writable at hw
      cases h : inp.get ptr with
      | none => rw [h] at hw; cases hw
      | some _ => rfl
    · rfl
  unfold constFlow
  cases F.inst n with
  | alloca b =>
    cases b
    · rfl
    · simp only [if_true, CMap.get_insert]
      cases inp.get k <;> simp [hkn]
  | store v b ptr =>
    simp only [storeFlow]
    cases v with
    | lit c =>
      simp only
      split
      · exact hs _ _ (by assumption)
      · rfl
    | undef => simp only [opdVal]; split <;> rfl
    | val j =>
      simp only
      split
      · cases opdVal inp (.val j) with
        | top => rfl
        | val c =>
          simp only
          split
          · exact hs _ _ (by assumption)
          · rfl
        | bottom =>
          simp only
          split
          · exact hs _ _ (by assumption)
          · rfl
      · rfl
  | load ptr =>
    simp only
    cases inp.get ptr with
    | none => rfl
    | some v => simp only [CMap.get_set, hkn, if_false]
  | bin op l r =>
    simp only [binFlow]
    split <;> simp only [CMap.get_set, hkn, if_false]
  | other => rfl

/-! ## Arithmetic -/

theorem fits_bmod {w : Nat} (hw : 0 < w) {x : Int} (h : Fits w x) : x.bmod (2 ^ w) = x := by
  obtain ⟨h1, h2⟩ := h
  obtain ⟨u, rfl⟩ : ∃ u, w = u + 1 := ⟨w - 1, by omega⟩
  simp only [Nat.add_sub_cancel] at h1 h2
  apply Int.bmod_eq_of_le_mul_two
  · have : ((2 ^ (u + 1) : Nat) : Int) = 2 * 2 ^ u := by rw [Nat.pow_succ]; push_cast; omega
    rw [this]; omega
  · have : ((2 ^ (u + 1) : Nat) : Int) = 2 * 2 ^ u := by rw [Nat.pow_succ]; push_cast; omega
    rw [this]; omega

theorem fits_64 {w : Nat} (hw : 0 < w) (hw' : w ≤ 64) {x : Int} (h : Fits w x) : Fits 64 x := by
  have : (2 : Int) ^ (w - 1) ≤ 2 ^ 63 := by
    have := Nat.pow_le_pow_right (n := 2) (by decide) (by omega : w - 1 ≤ 63)
    exact_mod_cast this
  unfold Fits at *
  simp only [Nat.reduceSub]
  omega

theorem toInt_trunc {w : Nat} (hw : 0 < w) (hw' : w ≤ 64) {a : BitVec 64} (h : Fits w a.toInt) :
    (a.setWidth w).toInt = a.toInt := by
  rw [BitVec.toInt_setWidth]
  have h1 : (2 ^ w : Nat) ∣ 2 ^ 64 := Nat.pow_dvd_pow 2 hw'
  have h2 := Int.bmod_bmod_of_dvd (a := (a.toNat : Int)) h1
  rw [← BitVec.toInt_eq_toNat_bmod] at h2
  rw [← h2]
  exact fits_bmod hw h

theorem norm_eq {w : Nat} (hw : 0 < w) (hw' : w ≤ 64) {a : BitVec 64} (h : Fits w a.toInt) : norm w a = a := by
  apply BitVec.eq_of_toInt_eq
  rw [norm, BitVec.toInt_signExtend_of_le hw', toInt_trunc hw hw' h]

/-- Where the exact result of a signed operator fits its width, the operator computes what
`executeBinOperation` does. -/
theorem bin_agree {op : BinOp} {w : Nat} (hw : 0 < w) (hw' : w ≤ 64) {a b c : BitVec 64}
    (ha : Fits w a.toInt) (hb : Fits w b.toInt) {x : Int} (hx : exact op a.toInt b.toInt = some x)
    (hf : Fits w x) (h : BinIs op w a b c) : execBin op a b = .val c := by
  have h64 := fits_bmod (w := 64) (by decide) (fits_64 hw hw' hf)
  cases op with
  | add =>
    cases hx
    have e : (a + b).toInt = a.toInt + b.toInt := by rw [BitVec.toInt_add]; exact h64
    rw [BinIs, norm_eq hw hw' (by rw [e]; exact hf)] at h
    rw [h]; rfl
  | sub =>
    cases hx
    have e : (a - b).toInt = a.toInt - b.toInt := by rw [BitVec.toInt_sub]; exact h64
    rw [BinIs, norm_eq hw hw' (by rw [e]; exact hf)] at h
    rw [h]; rfl
  | mul =>
    cases hx
    have e : (a * b).toInt = a.toInt * b.toInt := by rw [BitVec.toInt_mul]; exact h64
    rw [BinIs, norm_eq hw hw' (by rw [e]; exact hf)] at h
    rw [h]; rfl
  | sdiv =>
    cases hx
    obtain ⟨h0, h⟩ := h
    have hb0 : b ≠ 0 := by rintro rfl; exact h0 (by simp)
    simp only [execBin, ne_eq, hb0, not_false_eq_true, if_true, LatticeDomain.val.injEq]
    rw [h]
    apply BitVec.eq_of_toInt_eq
    rw [BitVec.toInt_signExtend_of_le hw', BitVec.toInt_sdiv, BitVec.toInt_sdiv, toInt_trunc hw hw' ha,
      toInt_trunc hw hw' hb, fits_bmod hw hf]
    exact h64
  | srem =>
    cases hx
    obtain ⟨h0, h⟩ := h
    have hb0 : b ≠ 0 := by rintro rfl; exact h0 (by simp)
    simp only [execBin, ne_eq, hb0, not_false_eq_true, if_true, LatticeDomain.val.injEq]
    rw [h]
    apply BitVec.eq_of_toInt_eq
    rw [BitVec.toInt_signExtend_of_le hw', BitVec.toInt_srem, BitVec.toInt_srem, toInt_trunc hw hw' ha,
      toInt_trunc hw hw' hb]
  | udiv => cases hx
  | urem => cases hx
  | other => cases hx

end Phasar.MonoProb
