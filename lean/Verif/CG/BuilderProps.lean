import Verif.CG.BuilderExact
/-!
# Property C45: call-graph construction
-/
set_option linter.unusedSectionVars false
namespace Phasar.CG

variable {N F I σ : Type} [DecidableEq N] [DecidableEq F]

theorem C45.callees {cap : Nat} {g : CG N F} {hs : List Handle} {sp : Spec N F} (h : Inv cap g hs sp) (c : N) :
    calleesOf g c = some (calleesIn sp.edges c) := h.callees c

theorem C45.callers {cap : Nat} {g : CG N F} {hs : List Handle} {sp : Spec N F} (h : Inv cap g hs sp) (f : F) :
    ∃ L, Phasar.CG.callersOf g f = some L ∧ ∀ c, c ∈ L ↔ f ∈ calleesIn sp.edges c := by
  refine ⟨_, h.callers f, fun c => ?_⟩
  rw [mem_calleesIn]
  unfold callersIn
  simp only [List.mem_map, List.mem_filter, decide_eq_true_eq]
  constructor
  · rintro ⟨⟨c', g'⟩, ⟨h1, h2⟩, h3⟩
    simp only at h2 h3
    rw [← h2, ← h3]; exact h1
  · intro h; exact ⟨(c, f), ⟨h, rfl⟩, rfl⟩

/-- C45: for every module with finitely many functions and every resolver whose answers are functions of the module,
construction ends, never uses a dangling vertex pointer and never reports a fatal error.  In the graph the callers are
the inverse of the callees, and if each call site occurs once in the module each callee is listed once. -/
theorem C45_terminates (m : Mod N F I) (R : Resolver σ N F I) (ord : List N → List N) (hord : ∀ l x, x ∈ ord l ↔ x ∈ l)
    (entries fs : List F) (hF : Finite m R entries fs) (sound : Bool) (r : σ) :
    ∃ n s, (∀ k, n ≤ k → build m R ord entries sound r k = some s) ∧ ∃ E : N → List F,
      (∀ c, calleesOf s.g c = some (E c)) ∧ (∀ f, ∃ L, Phasar.CG.callersOf s.g f = some L ∧ ∀ c, c ∈ L ↔ f ∈ E c) ∧
      (Uniq m → ∀ c, (E c).Nodup) := by
  obtain ⟨n, s, sp, D, h1, h2, _⟩ := build_ok hF (U_pres hF.nodupAns) hord sound r (U_init r)
  refine ⟨n, s, fun k hk => ?_, calleesIn sp.edges, C45.callees h1.full.base.inv, C45.callers h1.full.base.inv, h1.full.q.nodup⟩
  have := h2 (k - n)
  rwa [show n + (k - n) = k by omega] at this

/-- C45, for resolvers whose answers grow with the edges they are told about and nothing else (or do not change at all), if
resolvers whose answers do change say so and soundness is not switched off: the graph has exactly the edges of all
calls in the functions reachable from the entry points, where a call to be resolved has the targets the resolver answers
when told all edges of the graph.  It is the least such graph.

Missing: resolvers whose answers depend on other things, as `DTAResolver` (on the instructions seen): see `C45_unreported`. -/
theorem C45_exact_partial (m : Mod N F I) (R : Resolver σ N F I) (ord : List N → List N) (hord : ∀ l x, x ∈ ord l ↔ x ∈ l)
    (entries fs : List F) (hF : Finite m R entries fs) (A : (N → F → Prop) → N → F → Prop) (know : σ → N → F → Prop)
    (hA : Answers R A know) (sound : Bool)
    (hreq : (sound = true ∧ R.mutates = true) ∨ ∀ K K' c g, A K c g → A K' c g) (r : σ) (hr : ∀ c g, ¬ know r c g)
    (n : Nat) (s : St N F σ) (hs : build m R ord entries sound r n = some s) :
    ∃ E : N → List F, (∀ c, calleesOf s.g c = some (E c)) ∧
      (∀ c g, g ∈ E c ↔ Edges m entries (A fun c g => g ∈ E c) c g) ∧
      ∀ E' : N → F → Prop, (∀ c g, Edges m entries (A E') c g → E' c g) → ∀ c, ∀ g ∈ E c, E' c g := by
  obtain ⟨_, s', sp, D, h1, _, h3⟩ := build_ok hF (J_pres hA) hord sound r (J_init (entries := entries) (m := m) (A := A) r hr)
  have he := h3 n s hs
  subst he
  obtain ⟨e1, e2, _⟩ := h1.exact hA (by
    rcases hreq with ⟨h, h'⟩ | h
    · exact Or.inl (by simp [h, h'])
    · exact Or.inr h)
  refine ⟨calleesIn sp.edges, C45.callees h1.full.base.inv, fun c g => ?_, fun E' hE' c g hg => e2 E' hE' c g ((mem_calleesIn _ _ _).1 hg)⟩
  have : (fun c g => g ∈ calleesIn sp.edges c) = fun c g => (c, g) ∈ sp.edges := by
    funext c g; exact propext (mem_calleesIn _ _ _)
  rw [this, mem_calleesIn]
  exact e1 c g

/-- C45: every function reachable through the final answers has all its edges. -/
theorem C45_covers_partial (m : Mod N F I) (R : Resolver σ N F I) (ord : List N → List N) (hord : ∀ l x, x ∈ ord l ↔ x ∈ l)
    (entries fs : List F) (hF : Finite m R entries fs) (A : (N → F → Prop) → N → F → Prop) (know : σ → N → F → Prop)
    (hA : Answers R A know) (sound : Bool)
    (hreq : (sound = true ∧ R.mutates = true) ∨ ∀ K K' c g, A K c g → A K' c g) (r : σ) (hr : ∀ c g, ¬ know r c g)
    (n : Nat) (s : St N F σ) (hs : build m R ord entries sound r n = some s) (f : F) (c : N) (g : F)
    (hf : Reach m entries (fun c g => g ∈ (R.resolve s.res c).1) f) (hc : CallIn m f c)
    (hg : Targets m (fun c g => g ∈ (R.resolve s.res c).1) c g) : ∃ L, calleesOf s.g c = some L ∧ g ∈ L := by
  obtain ⟨_, s', sp, D, h1, _, h3⟩ := build_ok hF (J_pres hA) hord sound r (J_init (entries := entries) (m := m) (A := A) r hr)
  have he := h3 n s hs
  subst he
  obtain ⟨e1, e2, _⟩ := h1.exact hA (by
    rcases hreq with ⟨h, h'⟩ | h
    · exact Or.inl (by simp [h, h'])
    · exact Or.inr h)
  refine ⟨_, C45.callees h1.full.base.inv c, (mem_calleesIn _ _ _).2 ((e1 c g).2 ?_)⟩
  have hT : (fun c g => g ∈ (R.resolve s.res c).1) = A (fun c g => (c, g) ∈ sp.edges) := by
    funext c g
    rw [← h1.full.q.kn_eq]
    exact propext (hA.ans _ _ _)
  rw [hT] at hf hg
  exact ⟨f, hf, hc, hg⟩

/-- C45: exactly the reachable functions with a body and the functions some call may call have a vertex: an entry point
without callers is in the graph, an entry point that is only declared is not. -/
theorem C45_vertices_partial (m : Mod N F I) (R : Resolver σ N F I) (ord : List N → List N) (hord : ∀ l x, x ∈ ord l ↔ x ∈ l)
    (entries fs : List F) (hF : Finite m R entries fs) (A : (N → F → Prop) → N → F → Prop) (know : σ → N → F → Prop)
    (hA : Answers R A know) (sound : Bool)
    (hreq : (sound = true ∧ R.mutates = true) ∨ ∀ K K' c g, A K c g → A K' c g) (r : σ) (hr : ∀ c g, ¬ know r c g)
    (n : Nat) (s : St N F σ) (hs : build m R ord entries sound r n = some s) :
    ∃ E : N → List F, (∀ c, calleesOf s.g c = some (E c)) ∧
      ∀ f, s.g.callersOf f ≠ none ↔ (Reach m entries (A fun c g => g ∈ E c) f ∧ m.body f ≠ none) ∨ ∃ c, f ∈ E c := by
  obtain ⟨_, s', sp, D, h1, _, h3⟩ := build_ok hF (J_pres hA) hord sound r (J_init (entries := entries) (m := m) (A := A) r hr)
  have he := h3 n s hs
  subst he
  obtain ⟨_, _, e3⟩ := h1.exact hA (by
    rcases hreq with ⟨h, h'⟩ | h
    · exact Or.inl (by simp [h, h'])
    · exact Or.inr h)
  refine ⟨calleesIn sp.edges, C45.callees h1.full.base.inv, fun f => ?_⟩
  simp only [mem_calleesIn]
  rw [← e3 f, ← h1.full.base.vtx f, ← h1.full.base.inv.fk f]
  cases s.g.callersOf f <;> simp

/-- C45: the graph does not depend on the order in which functions are processed.  Two modules with the same calls,
two lists of the same entry points, two iteration orders of the sets and two resolvers that give the same answers lead
to the same edges. -/
theorem C45_order_partial {σ' I' : Type} (m : Mod N F I) (m' : Mod N F I') (R : Resolver σ N F I) (R' : Resolver σ' N F I')
    (ord ord' : List N → List N) (hord : ∀ l x, x ∈ ord l ↔ x ∈ l) (hord' : ∀ l x, x ∈ ord' l ↔ x ∈ l)
    (entries entries' fs fs' : List F) (hF : Finite m R entries fs) (hF' : Finite m' R' entries' fs')
    (A : (N → F → Prop) → N → F → Prop) (know : σ → N → F → Prop) (know' : σ' → N → F → Prop) (hA : Answers R A know)
    (hA' : Answers R' A know') (hcall : ∀ f c, CallIn m f c ↔ CallIn m' f c) (hcallee : m.callee = m'.callee)
    (hent : ∀ f, f ∈ entries ↔ f ∈ entries') (sound sound' : Bool)
    (hreq : (sound = true ∧ R.mutates = true) ∨ ∀ K K' c g, A K c g → A K' c g)
    (hreq' : (sound' = true ∧ R'.mutates = true) ∨ ∀ K K' c g, A K c g → A K' c g)
    (r : σ) (r' : σ') (hr : ∀ c g, ¬ know r c g) (hr' : ∀ c g, ¬ know' r' c g) (n n' : Nat) (s : St N F σ) (s' : St N F σ')
    (hs : build m R ord entries sound r n = some s) (hs' : build m' R' ord' entries' sound' r' n' = some s') (c : N) (g : F) :
    (∃ L, calleesOf s.g c = some L ∧ g ∈ L) ↔ ∃ L, calleesOf s'.g c = some L ∧ g ∈ L := by
  obtain ⟨E, a1, a2, a3⟩ := C45_exact_partial m R ord hord entries fs hF A know hA sound hreq r hr n s hs
  obtain ⟨E', b1, b2, b3⟩ := C45_exact_partial m' R' ord' hord' entries' fs' hF' A know' hA' sound' hreq' r' hr' n' s' hs'
  have hR : ∀ T f, Reach m entries T f ↔ Reach m' entries' T f := by
    intro T f
    constructor
    · intro h
      induction h with
      | entry h => exact .entry ((hent _).1 h)
      | call _ h1 h2 ih => exact .call ih ((hcall _ _).1 h1) (by unfold Targets at h2 ⊢; rw [← hcallee]; exact h2)
    · intro h
      induction h with
      | entry h => exact .entry ((hent _).2 h)
      | call _ h1 h2 ih => exact .call ih ((hcall _ _).2 h1) (by unfold Targets at h2 ⊢; rw [hcallee]; exact h2)
  have hEd : ∀ T c g, Edges m entries T c g ↔ Edges m' entries' T c g := by
    intro T c g
    constructor
    · rintro ⟨f, h1, h2, h3⟩
      exact ⟨f, (hR T f).1 h1, (hcall _ _).1 h2, by unfold Targets at h3 ⊢; rw [← hcallee]; exact h3⟩
    · rintro ⟨f, h1, h2, h3⟩
      exact ⟨f, (hR T f).2 h1, (hcall _ _).2 h2, by unfold Targets at h3 ⊢; rw [hcallee]; exact h3⟩
  have h1 : g ∈ E c → g ∈ E' c := a3 (fun c g => g ∈ E' c) (fun c g h => (b2 c g).2 ((hEd _ c g).1 h)) c g
  have h2 : g ∈ E' c → g ∈ E c := b3 (fun c g => g ∈ E c) (fun c g h => (a2 c g).2 ((hEd _ c g).2 h)) c g
  constructor
  · rintro ⟨L, hL, hg⟩
    rw [a1 c] at hL; cases hL
    exact ⟨_, b1 c, h1 hg⟩
  · rintro ⟨L, hL, hg⟩
    rw [b1 c] at hL; cases hL
    exact ⟨_, a1 c, h2 hg⟩

/-! ## An instance -/

/-- Function 0 calls function 1 directly (call 1) and something to be resolved (call 2); function 1 calls something to be
resolved (call 3); functions 4 and 5 are empty; function 6 is never called. -/
def C45.mod : Mod Nat Nat Nat where
  body f := match f with
    | 0 => some [.call 2, .other 0, .call 1]
    | 1 => some [.call 3]
    | 4 => some []
    | 5 => some [.call 7]
    | 6 => some [.call 8]
    | _ => none
  callee c := match c with
    | 1 => .direct 1
    | 7 => .asm
    | 8 => .direct 0
    | _ => .dynamic
  num := 5

/-- A resolver that finds the target 5 of call 2 only after having been told that call 3 may call function 4. -/
def C45.res : Resolver (List (Nat × Nat)) Nat Nat Nat where
  resolve s c := (if c = 3 then [4] else if c = 2 ∧ (3, 4) ∈ s then [5] else [], s)
  handle s c ts := s ++ ts.map (fun t => (c, t))
  other s _ := s
  mutates := true

def C45.ans (K : Nat → Nat → Prop) (c g : Nat) : Prop := (c = 3 ∧ g = 4) ∨ (c = 2 ∧ g = 5 ∧ K 3 4)

theorem C45.answers : Answers C45.res C45.ans (fun s c g => (c, g) ∈ s) := by
  refine ⟨?_, ?_, fun _ _ => rfl, ?_, fun _ _ => rfl, ?_⟩
  · intro s c g
    simp only [C45.res, C45.ans]
    by_cases h3 : c = 3
    · subst h3; simp
    · by_cases h2 : c = 2 ∧ (3, 4) ∈ s
      · rw [if_neg h3, if_pos h2]; simp [h2.1, h2.2]
      · rw [if_neg h3, if_neg h2]
        simp only [List.not_mem_nil, false_iff, h3, false_and, false_or]
        rintro ⟨h4, _, h5⟩
        exact h2 ⟨h4, h5⟩
  · intro s c
    simp only [C45.res]
    split
    · simp
    · split <;> simp
  · intro s c ts
    funext c' g
    simp only [C45.res, mem_new]
  · rintro K K' h c g (h1 | ⟨h1, h2, h3⟩)
    · exact Or.inl h1
    · exact Or.inr ⟨h1, h2, h _ _ h3⟩

theorem C45.finite : Finite C45.mod C45.res [0] [0, 1, 4, 5] := by
  refine ⟨by decide, by decide, by simp, ?_, ?_, C45.answers.nodup⟩
  · intro c f h
    simp only [C45.mod] at h
    split at h <;> simp_all
  · intro s c f hf
    simp only [C45.res] at hf
    split at hf
    · simp_all
    · split at hf <;> simp_all

/-- The second round finds the target of call 2; function 6 and call 8 are not in the graph. -/
example : (build C45.mod C45.res id [0] true [] 20).map (fun s => [1, 2, 3, 8].map (calleesOf s.g)) =
    some [some [1], some [5], some [4], some []] := by decide

example : ∃ s, build C45.mod C45.res id [0] true [] 20 = some s ∧ ∃ L, calleesOf s.g 2 = some L ∧ (5 : Nat) ∈ L := by
  cases hs : build C45.mod C45.res id [0] true [] 20 with
  | none => exact absurd hs (by decide)
  | some s =>
    have hf := C45_exact_partial C45.mod C45.res id (fun _ _ => Iff.rfl) [0] [0, 1, 4, 5] C45.finite C45.ans _ C45.answers true
      (Or.inl ⟨rfl, rfl⟩) [] (by simp) 20 s hs
    obtain ⟨E, h1, h2, _⟩ := hf
    have r0 : Reach C45.mod [0] (C45.ans fun c g => g ∈ E c) 0 := .entry (by simp)
    have r1 : Reach C45.mod [0] (C45.ans fun c g => g ∈ E c) 1 := .call r0 (c := 1) ⟨_, rfl, by simp⟩ (Or.inl rfl)
    have e3 : 4 ∈ E 3 := (h2 3 4).2 ⟨1, r1, ⟨_, rfl, by simp⟩, Or.inr ⟨rfl, Or.inl ⟨rfl, rfl⟩⟩⟩
    exact ⟨s, rfl, E 2, h1 2, (h2 2 5).2 ⟨0, r0, ⟨_, rfl, by simp⟩, Or.inr ⟨rfl, Or.inr ⟨rfl, rfl, e3⟩⟩⟩⟩

/-- The entry point 0 has a vertex but no callers; 9 is declared only, 6 is not reachable. -/
example : (build C45.mod C45.res id [0, 9] true [] 20).map (fun s => [0, 5, 6, 9].map fun f => (s.g.callersOf f).isSome) =
    some [true, true, false, false] := by decide

example (s : St Nat Nat (List (Nat × Nat))) (hs : build C45.mod C45.res id [0] true [] 20 = some s) : s.g.callersOf 0 ≠ none := by
  obtain ⟨E, _, h⟩ := C45_vertices_partial C45.mod C45.res id (fun _ _ => Iff.rfl) [0] [0, 1, 4, 5] C45.finite C45.ans _ C45.answers true
    (Or.inl ⟨rfl, rfl⟩) [] (by simp) 20 s hs
  exact (h 0).2 (Or.inl ⟨.entry (by simp), by simp [C45.mod]⟩)

/-! ## Resolvers outside the theorem -/

/-- A resolver like `DTAResolver`, `DTAResolver.cpp:144-167`, `DTAResolver.h:51-54`: other instructions change its answers, but it
says it does not change anything. -/
def C45.dta : Resolver Bool Nat Nat Nat where
  resolve s _ := (if s then [5] else [], s)
  handle s _ _ := s
  other _ _ := true
  mutates := false

/-- Function 1 has the instruction that matters, function 2 the call (3) to be resolved. -/
def C45.mod2 : Mod Nat Nat Nat where
  body f := match f with
    | 1 => some [.other 0]
    | 2 => some [.call 3]
    | _ => none
  callee _ := .dynamic
  num := 3

/-- `C45_terminates` applies: each call site occurs once. -/
example : Uniq C45.mod2 := by
  have hb : ∀ f is, C45.mod2.body f = some is → (f = 1 ∧ is = [.other 0]) ∨ (f = 2 ∧ is = [.call 3]) := by
    intro f is h
    simp only [C45.mod2] at h
    split at h
    · left; exact ⟨rfl, (Option.some.inj h).symm⟩
    · right; exact ⟨rfl, (Option.some.inj h).symm⟩
    · cases h
  refine ⟨?_, ?_⟩
  · rintro f f' c ⟨is, h1, h2⟩ ⟨is', h3, h4⟩
    rcases hb f is h1 with ⟨e1, e2⟩ | ⟨e1, e2⟩ <;> rcases hb f' is' h3 with ⟨e3, e4⟩ | ⟨e3, e4⟩ <;> subst e2 <;> subst e4 <;>
      simp_all
  · intro f pre suf c h
    rcases hb f _ h with ⟨_, e⟩ | ⟨_, e⟩ <;> cases pre <;> simp_all

example : Finite C45.mod2 C45.dta [1, 2] [1, 2, 5] := by
  refine ⟨by decide, by decide, by simp, by intro c f h; simp [C45.mod2] at h, ?_, ?_⟩
  · intro s c f h; simp only [C45.dta] at h; split at h <;> simp_all
  · intro s c; simp only [C45.dta]; split <;> simp

/-- C45 is false for a resolver that changes its answers without saying so: the graph depends on the order of the entry
points, and an edge the resolver knows in the end is missing. -/
theorem C45_unreported :
    (build C45.mod2 C45.dta id [1, 2] true false 10).map (fun s => (calleesOf s.g 3, (C45.dta.resolve s.res 3).1)) =
      some (some [], [5]) ∧
    (build C45.mod2 C45.dta id [2, 1] true false 10).map (fun s => (calleesOf s.g 3, (C45.dta.resolve s.res 3).1)) =
      some (some [5], [5]) := by decide

/-- A resolver that says it changes its answers, but replaces the target 4 by 5 when it sees an instruction. -/
def C45.swap : Resolver Bool Nat Nat Nat where
  resolve s _ := (if s then [5] else [4], s)
  handle s _ _ := s
  other _ _ := true
  mutates := true

/-- C45 is false for a resolver whose answers do not grow: the fixpoint iteration compares the numbers of targets only. -/
theorem C45_same_size :
    (build C45.mod2 C45.swap id [1, 2] true false 10).map (fun s => (calleesOf s.g 3, (C45.swap.resolve s.res 3).1)) =
      some (some [4], [5]) := by decide

/-- With soundness switched off the second round is not made, and the target of call 2 is missing. -/
theorem C45_unsound :
    (build C45.mod C45.res id [0] false [] 20).map (fun s => (calleesOf s.g 2, (C45.res.resolve s.res 2).1)) =
      some (some [], [5]) := by decide

end Phasar.CG
