import Verif.CG.CallGraph
/-!
# Lemmas on the call graph
-/
set_option linter.unusedSectionVars false
namespace Phasar.CG

variable {N F : Type} [DecidableEq N] [DecidableEq F]

theorem callersIn_snoc (E : List (N × F)) (c : N) (f f' : F) :
    callersIn (E ++ [(c, f)]) f' = if f = f' then callersIn E f' ++ [c] else callersIn E f' := by
  unfold callersIn
  rw [List.filter_append]
  by_cases h : f = f'
  · simp [h]
  · simp [h]

theorem calleesIn_snoc (E : List (N × F)) (c c' : N) (f : F) :
    calleesIn (E ++ [(c, f)]) c' = if c = c' then calleesIn E c' ++ [f] else calleesIn E c' := by
  unfold calleesIn
  rw [List.filter_append]
  by_cases h : c = c'
  · simp [h]
  · simp [h]

/-- The invariant of the builder. -/
structure Inv (cap : Nat) (g : CG N F) (hs : List Handle) (s : Spec N F) : Prop where
  ci : ∀ c i, g.calleesAt c = some i → g.inst[i]? = some (calleesIn s.edges c)
  ci0 : ∀ c, g.calleesAt c = none → calleesIn s.edges c = []
  cinj : ∀ c c' i, g.calleesAt c = some i → g.calleesAt c' = some i → c = c'
  fi : ∀ f p, g.callersOf f = some p → p.1 = g.epoch ∧ g.funs[p.2]? = some (callersIn s.edges f)
  fi0 : ∀ f, g.callersOf f = none → callersIn s.edges f = []
  finj : ∀ f f' p p', g.callersOf f = some p → g.callersOf f' = some p' → p.2 = p'.2 → f = f'
  fk : ∀ f, (∃ p, g.callersOf f = some p) ↔ f ∈ s.fns
  fl : g.funs.length = s.fns.length
  capEq : g.cap = cap
  hl : hs.length = s.tags.length
  ti : ∀ (k : Nat) c, s.tags[k]? = some (Sum.inl c) → ∃ i, hs[k]? = some (Handle.inst i) ∧ g.calleesAt c = some i
  tf : ∀ (k : Nat) f, s.tags[k]? = some (Sum.inr f) → ∃ p, hs[k]? = some (Handle.fn p) ∧ g.callersOf f = some p

theorem inv_reserve (n : Nat) : Inv n (reserve (empty : CG N F) n) [] ⟨[], [], []⟩ := by
  have h : (reserve (empty : CG N F) n) = ⟨[], if 0 < n then 1 else 0, n, [], fun _ => none, fun _ => none⟩ := by
    unfold reserve empty
    by_cases h : 0 < n
    · simp [h]
    · have : n = 0 := by omega
      subst this; simp
  rw [h]
  refine ⟨?_, ?_, ?_, ?_, ?_, ?_, ?_, ?_, ?_, ?_, ?_, ?_⟩ <;> simp [calleesIn, callersIn]

theorem mem_addTo (l : List F) (f x : F) : x ∈ addTo l f ↔ x ∈ l ∨ x = f := by
  unfold addTo
  split
  · rename_i h
    constructor
    · exact Or.inl
    · rintro (h1 | h1)
      · exact h1
      · rw [h1]; exact h
  · simp

/-- Adding a function vertex keeps everything. -/
theorem addFun_inv {cap : Nat} {g : CG N F} {hs : List Handle} {s : Spec N F} (hi : Inv cap g hs s) (f : F)
    (hc : (addTo s.fns f).length ≤ cap) :
    Inv cap (addFun g f).1 hs ⟨s.edges, addTo s.fns f, s.tags⟩ ∧ (addFun g f).1.callersOf f = some (addFun g f).2 ∧
      (∀ c i, g.calleesAt c = some i → (addFun g f).1.calleesAt c = some i) ∧
      (∀ f' p, g.callersOf f' = some p → (addFun g f).1.callersOf f' = some p) ∧ (addFun g f).1.epoch = g.epoch := by
  unfold addFun
  cases hf : g.callersOf f with
  | some p =>
    have hm : f ∈ s.fns := (hi.fk f).1 ⟨p, hf⟩
    have ha : addTo s.fns f = s.fns := if_pos hm
    simp only [ha]
    exact ⟨hi, hf, fun _ _ h => h, fun _ _ h => h, trivial⟩
  | none =>
    have hm : f ∉ s.fns := fun h => by
      obtain ⟨p, hp⟩ := (hi.fk f).2 h
      rw [hf] at hp; cases hp
    have ha : addTo s.fns f = s.fns ++ [f] := if_neg hm
    rw [ha] at hc ⊢
    have hlt : g.funs.length < g.cap := by
      rw [hi.fl, hi.capEq]; simp at hc; omega
    have hem : emplaceFun g = { g with funs := g.funs ++ [[]] } := by unfold emplaceFun; rw [if_pos hlt]
    simp only [hem]
    have hkeep : ∀ f' p, g.callersOf f' = some p → (if f' = f then some (g.epoch, g.funs.length) else g.callersOf f') = some p := by
      intro f' p h
      have : f' ≠ f := fun e => by rw [e, hf] at h; cases h
      rw [if_neg this]; exact h
    have hcase : ∀ f' p, (if f' = f then some (g.epoch, g.funs.length) else g.callersOf f') = some p →
        (f' = f ∧ p = (g.epoch, g.funs.length)) ∨ (f' ≠ f ∧ g.callersOf f' = some p) := by
      intro f' p h
      by_cases e : f' = f
      · rw [if_pos e] at h; exact Or.inl ⟨e, (Option.some.inj h).symm⟩
      · rw [if_neg e] at h; exact Or.inr ⟨e, h⟩
    have hlt2 : ∀ f' p, g.callersOf f' = some p → p.2 < g.funs.length := by
      intro f' p h
      exact (List.getElem?_eq_some_iff.1 (hi.fi f' p h).2).1
    refine ⟨⟨hi.ci, hi.ci0, hi.cinj, ?_, ?_, ?_, ?_, ?_, hi.capEq, hi.hl, hi.ti, ?_⟩, by simp, fun _ _ h => h,
      fun f' p h => hkeep f' p h, trivial⟩
    · intro f' p h
      rcases hcase f' p h with ⟨e, hp⟩ | ⟨_, h'⟩
      · subst hp
        refine ⟨rfl, ?_⟩
        rw [e, hi.fi0 f hf]
        simp
      · obtain ⟨h1, h2⟩ := hi.fi f' p h'
        refine ⟨h1, ?_⟩
        show (g.funs ++ [[]])[p.2]? = _
        rw [List.getElem?_append_left (hlt2 f' p h')]
        exact h2
    · intro f' h
      have h' : (if f' = f then some (g.epoch, g.funs.length) else g.callersOf f') = none := h
      by_cases e : f' = f
      · rw [if_pos e] at h'; cases h'
      · rw [if_neg e] at h'; exact hi.fi0 f' h'
    · intro f1 f2 p1 p2 h1 h2 he
      rcases hcase f1 p1 h1 with ⟨e1, q1⟩ | ⟨_, q1⟩ <;> rcases hcase f2 p2 h2 with ⟨e2, q2⟩ | ⟨_, q2⟩
      · rw [e1, e2]
      · have := hlt2 f2 p2 q2; subst q1; dsimp only at he; omega
      · have := hlt2 f1 p1 q1; subst q2; dsimp only at he; omega
      · exact hi.finj f1 f2 p1 p2 q1 q2 he
    · intro f'
      show (∃ p, (if f' = f then some (g.epoch, g.funs.length) else g.callersOf f') = some p) ↔ f' ∈ s.fns ++ [f]
      by_cases e : f' = f
      · subst e; simp
      · simp only [e, if_false, List.mem_append, List.mem_singleton, or_false]
        exact hi.fk f'
    · simp [hi.fl]
    · intro k f' h
      obtain ⟨p, h1, h2⟩ := hi.tf k f' h
      exact ⟨p, h1, hkeep f' p h2⟩

/-- Adding a call-site vertex keeps everything. -/
theorem addInst_inv {cap : Nat} {g : CG N F} {hs : List Handle} {s : Spec N F} (hi : Inv cap g hs s) (c : N) :
    Inv cap (addInst g c).1 hs s ∧ (addInst g c).1.calleesAt c = some (addInst g c).2 ∧
      (∀ c' i, g.calleesAt c' = some i → (addInst g c).1.calleesAt c' = some i) ∧
      (addInst g c).1.callersOf = g.callersOf ∧ (addInst g c).1.epoch = g.epoch := by
  unfold addInst
  cases hc : g.calleesAt c with
  | some i => exact ⟨hi, hc, fun _ _ h => h, rfl, rfl⟩
  | none =>
    simp only
    have hkeep : ∀ c' i, g.calleesAt c' = some i → (if c' = c then some g.inst.length else g.calleesAt c') = some i := by
      intro c' i h
      have : c' ≠ c := fun e => by rw [e, hc] at h; cases h
      rw [if_neg this]; exact h
    have hcase : ∀ c' i, (if c' = c then some g.inst.length else g.calleesAt c') = some i →
        (c' = c ∧ i = g.inst.length) ∨ (c' ≠ c ∧ g.calleesAt c' = some i) := by
      intro c' i h
      by_cases e : c' = c
      · rw [if_pos e] at h; exact Or.inl ⟨e, (Option.some.inj h).symm⟩
      · rw [if_neg e] at h; exact Or.inr ⟨e, h⟩
    have hlt2 : ∀ c' i, g.calleesAt c' = some i → i < g.inst.length := by
      intro c' i h
      exact (List.getElem?_eq_some_iff.1 (hi.ci c' i h)).1
    refine ⟨⟨?_, ?_, ?_, hi.fi, hi.fi0, hi.finj, hi.fk, hi.fl, hi.capEq, hi.hl, ?_, hi.tf⟩, by simp,
      fun c' i h => hkeep c' i h, trivial, trivial⟩
    · intro c' i h
      show (g.inst ++ [[]])[i]? = _
      rcases hcase c' i h with ⟨e, q⟩ | ⟨_, q⟩
      · rw [q, e, hi.ci0 c hc]; simp
      · rw [List.getElem?_append_left (hlt2 c' i q)]; exact hi.ci c' i q
    · intro c' h
      have h' : (if c' = c then some g.inst.length else g.calleesAt c') = none := h
      by_cases e : c' = c
      · rw [if_pos e] at h'; cases h'
      · rw [if_neg e] at h'; exact hi.ci0 c' h'
    · intro c1 c2 i h1 h2
      rcases hcase c1 i h1 with ⟨e1, q1⟩ | ⟨_, q1⟩ <;> rcases hcase c2 i h2 with ⟨e2, q2⟩ | ⟨_, q2⟩
      · rw [e1, e2]
      · have := hlt2 c2 i q2; omega
      · have := hlt2 c1 i q1; omega
      · exact hi.cinj c1 c2 i q1 q2
    · intro k c' h
      obtain ⟨i, h1, h2⟩ := hi.ti k c' h
      exact ⟨i, h1, hkeep c' i h2⟩

/-- Adding an edge between two vertices. -/
theorem addEdge4_inv {cap : Nat} {g : CG N F} {hs : List Handle} {s : Spec N F} (hi : Inv cap g hs s) {c : N} {f : F}
    {i : Nat} {p : Nat × Nat} (hc : g.calleesAt c = some i) (hf : g.callersOf f = some p) :
    ∃ g', addEdge4 g c i f p = some g' ∧ Inv cap g' hs ⟨s.edges ++ [(c, f)], s.fns, s.tags⟩ ∧
      g'.calleesAt = g.calleesAt ∧ g'.callersOf = g.callersOf ∧ g'.epoch = g.epoch := by
  have h1 := hi.ci c i hc
  have h2 := hi.fi f p hf
  have hlt := (List.getElem?_eq_some_iff.1 h1).1
  have hltf := (List.getElem?_eq_some_iff.1 h2.2).1
  unfold addEdge4 pushInst
  simp only [h1, Option.map_some, Option.bind_some, pushFun, if_pos h2.1, h2.2]
  refine ⟨_, rfl, ?_, rfl, rfl, rfl⟩
  refine ⟨?_, ?_, hi.cinj, ?_, ?_, hi.finj, hi.fk, ?_, hi.capEq, hi.hl, hi.ti, hi.tf⟩
  · intro c' j hj
    show (g.inst.set i (calleesIn s.edges c ++ [f]))[j]? = _
    rw [calleesIn_snoc, List.getElem?_set]
    by_cases e : c = c'
    · subst e
      have hj' : g.calleesAt c = some j := hj
      rw [hc] at hj'
      cases hj'
      simp [hlt]
    · have : i ≠ j := fun e' => e (hi.cinj c c' i hc (by rw [e']; exact hj))
      rw [if_neg this, if_neg e]
      exact hi.ci c' j hj
  · intro c' hn
    rw [calleesIn_snoc]
    have : c ≠ c' := fun e => by
      subst e
      have hn' : g.calleesAt c = none := hn
      rw [hc] at hn'; cases hn'
    rw [if_neg this]
    exact hi.ci0 c' hn
  · intro f' q hq
    obtain ⟨k1, k2⟩ := hi.fi f' q hq
    refine ⟨k1, ?_⟩
    show (g.funs.set p.2 (callersIn s.edges f ++ [c]))[q.2]? = _
    rw [callersIn_snoc, List.getElem?_set]
    by_cases e : f = f'
    · subst e
      have hq' : g.callersOf f = some q := hq
      rw [hf] at hq'
      cases hq'
      simp [hltf]
    · have : p.2 ≠ q.2 := fun e' => e (hi.finj f f' p q hf hq e')
      rw [if_neg this, if_neg e]
      exact k2
  · intro f' hn
    rw [callersIn_snoc]
    have : f ≠ f' := fun e => by
      subst e
      have hn' : g.callersOf f = none := hn
      rw [hf] at hn'; cases hn'
    rw [if_neg this]
    exact hi.fi0 f' hn
  · show (g.funs.set _ _).length = _
    rw [List.length_set]; exact hi.fl

/-- What operations keep: the pointers in the maps. -/
def Keeps (g g' : CG N F) : Prop :=
  (∀ c i, g.calleesAt c = some i → g'.calleesAt c = some i) ∧ (∀ f p, g.callersOf f = some p → g'.callersOf f = some p) ∧
  g'.epoch = g.epoch

theorem Keeps.trans {g1 g2 g3 : CG N F} (h1 : Keeps g1 g2) (h2 : Keeps g2 g3) : Keeps g1 g3 :=
  ⟨fun c i h => h2.1 c i (h1.1 c i h), fun f p h => h2.2.1 f p (h1.2.1 f p h), h2.2.2.trans h1.2.2⟩

theorem addEdge_inv {cap : Nat} {g : CG N F} {hs : List Handle} {s : Spec N F} (hi : Inv cap g hs s) (c : N) (f : F)
    (hc : (addTo s.fns f).length ≤ cap) :
    ∃ g', addEdge g c f = some g' ∧ Inv cap g' hs ⟨s.edges ++ [(c, f)], addTo s.fns f, s.tags⟩ ∧ Keeps g g' := by
  obtain ⟨i1, i2, i3, i4, i5⟩ := addInst_inv hi c
  obtain ⟨j1, j2, j3, j4, j5⟩ := addFun_inv i1 f hc
  obtain ⟨g', k1, k2, k3, k4, k5⟩ := addEdge4_inv j1 (j3 c _ i2) j2
  refine ⟨g', k1, k2, fun c' i h => by rw [k3]; exact j3 c' i (i3 c' i h), ?_, k5.trans (j5.trans i5)⟩
  intro f' p h
  rw [k4]; exact j4 f' p (by rw [i4]; exact h)

theorem addEdgeI_inv {cap : Nat} {g : CG N F} {hs : List Handle} {s : Spec N F} (hi : Inv cap g hs s) (c : N) (f : F)
    {i : Nat} (hci : g.calleesAt c = some i) (hc : (addTo s.fns f).length ≤ cap) :
    ∃ g', addEdgeI g c i f = some g' ∧ Inv cap g' hs ⟨s.edges ++ [(c, f)], addTo s.fns f, s.tags⟩ ∧ Keeps g g' := by
  obtain ⟨j1, j2, j3, j4, j5⟩ := addFun_inv hi f hc
  obtain ⟨g', k1, k2, k3, k4, k5⟩ := addEdge4_inv j1 (j3 c _ hci) j2
  exact ⟨g', k1, k2, fun c' i h => by rw [k3]; exact j3 c' i h, fun f' p h => by rw [k4]; exact j4 f' p h, k5.trans j5⟩

theorem addEdgeF_inv {cap : Nat} {g : CG N F} {hs : List Handle} {s : Spec N F} (hi : Inv cap g hs s) (c : N) (f : F)
    {p : Nat × Nat} (hf : g.callersOf f = some p) :
    ∃ g', addEdgeF g c f p = some g' ∧ Inv cap g' hs ⟨s.edges ++ [(c, f)], s.fns, s.tags⟩ ∧ Keeps g g' := by
  obtain ⟨i1, i2, i3, i4, i5⟩ := addInst_inv hi c
  obtain ⟨g', k1, k2, k3, k4, k5⟩ := addEdge4_inv i1 i2 (f := f) (p := p) (by rw [i4]; exact hf)
  exact ⟨g', k1, k2, fun c' i h => by rw [k3]; exact i3 c' i h, fun f' q h => by rw [k4, i4]; exact h, k5.trans i5⟩

theorem getElem?_snoc {α : Type} (l : List α) (x : α) (k : Nat) (y : α) (h : (l ++ [x])[k]? = some y) :
    l[k]? = some y ∨ (k = l.length ∧ y = x) := by
  by_cases hk : k < l.length
  · rw [List.getElem?_append_left hk] at h; exact Or.inl h
  · have hl : k < (l ++ [x]).length := (List.getElem?_eq_some_iff.1 h).1
    simp at hl
    have : k = l.length := by omega
    subst this
    simp at h
    exact Or.inr ⟨rfl, h.symm⟩

theorem Inv.addTag {cap : Nat} {g : CG N F} {hs : List Handle} {s : Spec N F} (hi : Inv cap g hs s) (h : Handle) (t : N ⊕ F)
    (ht : (∃ c i, t = .inl c ∧ h = .inst i ∧ g.calleesAt c = some i) ∨ (∃ f p, t = .inr f ∧ h = .fn p ∧ g.callersOf f = some p)) :
    Inv cap g (hs ++ [h]) ⟨s.edges, s.fns, s.tags ++ [t]⟩ := by
  refine ⟨hi.ci, hi.ci0, hi.cinj, hi.fi, hi.fi0, hi.finj, hi.fk, hi.fl, hi.capEq, by simp [hi.hl], ?_, ?_⟩
  · intro k c hk
    rcases getElem?_snoc _ _ _ _ hk with h1 | ⟨h1, h2⟩
    · obtain ⟨i, h3, h4⟩ := hi.ti k c h1
      exact ⟨i, by rw [List.getElem?_append_left (List.getElem?_eq_some_iff.1 h3).1]; exact h3, h4⟩
    · rcases ht with ⟨c', i, e1, e2, e3⟩ | ⟨f, p, e1, _, _⟩
      · rw [e1] at h2; cases h2
        refine ⟨i, ?_, e3⟩
        rw [h1, ← hi.hl, e2]; simp
      · rw [e1] at h2; cases h2
  · intro k f hk
    rcases getElem?_snoc _ _ _ _ hk with h1 | ⟨h1, h2⟩
    · obtain ⟨p, h3, h4⟩ := hi.tf k f h1
      exact ⟨p, by rw [List.getElem?_append_left (List.getElem?_eq_some_iff.1 h3).1]; exact h3, h4⟩
    · rcases ht with ⟨c', i, e1, _, _⟩ | ⟨f', p, e1, e2, e3⟩
      · rw [e1] at h2; cases h2
      · rw [e1] at h2; cases h2
        refine ⟨p, ?_, e3⟩
        rw [h1, ← hi.hl, e2]; simp

theorem step_inv {cap : Nat} {g : CG N F} {hs : List Handle} {s s' : Spec N F} (hi : Inv cap g hs s) (o : Op N F)
    (h : specStep cap s o = some s') :
    ∃ g' hs', step (g, hs) o = some (g', hs') ∧ Inv cap g' hs' s' ∧ Keeps g g' ∧ ∃ t, hs' = hs ++ t := by
  cases o with
  | fn f =>
    simp only [specStep] at h
    split at h
    · rename_i hc
      cases h
      obtain ⟨j1, j2, j3, j4, j5⟩ := addFun_inv hi f hc
      exact ⟨_, _, rfl, j1.addTag _ _ (Or.inr ⟨f, _, rfl, rfl, j2⟩), ⟨j3, j4, j5⟩, _, rfl⟩
    · cases h
  | inst c =>
    simp only [specStep, Option.some.injEq] at h
    subst h
    obtain ⟨j1, j2, j3, j4, j5⟩ := addInst_inv hi c
    exact ⟨_, _, rfl, j1.addTag _ _ (Or.inl ⟨c, _, rfl, rfl, j2⟩), ⟨j3, fun f p h => by rw [j4]; exact h, j5⟩, _, rfl⟩
  | edge c f =>
    simp only [specStep] at h
    split at h
    · rename_i hc
      cases h
      obtain ⟨g', k1, k2, k3⟩ := addEdge_inv hi c f hc
      exact ⟨g', hs, by simp [step, k1], k2, k3, [], by simp⟩
    · cases h
  | edgeI c k f =>
    simp only [specStep] at h
    split at h
    · rename_i hc
      cases h
      obtain ⟨i, t1, t2⟩ := hi.ti k c hc.1
      obtain ⟨g', k1, k2, k3⟩ := addEdgeI_inv hi c f t2 hc.2
      exact ⟨g', hs, by simp [step, t1, k1], k2, k3, [], by simp⟩
    · cases h
  | edgeF c f k =>
    simp only [specStep] at h
    split at h
    · rename_i hc
      cases h
      obtain ⟨p, t1, t2⟩ := hi.tf k f hc
      obtain ⟨g', k1, k2, k3⟩ := addEdgeF_inv hi c f t2
      exact ⟨g', hs, by simp [step, t1, k1], k2, k3, [], by simp⟩
    · cases h

theorem run_inv {cap : Nat} (os : List (Op N F)) : ∀ {g : CG N F} {hs : List Handle} {s s' : Spec N F}, Inv cap g hs s →
    specRun cap s os = some s' →
    ∃ g' hs', run (g, hs) os = some (g', hs') ∧ Inv cap g' hs' s' ∧ Keeps g g' ∧ ∃ t, hs' = hs ++ t := by
  induction os with
  | nil =>
    intro g hs s s' hi h
    simp only [specRun, Option.some.injEq] at h
    subst h
    exact ⟨g, hs, rfl, hi, ⟨fun _ _ h => h, fun _ _ h => h, rfl⟩, [], by simp⟩
  | cons o os ih =>
    intro g hs s s' hi h
    simp only [specRun] at h
    cases h1 : specStep cap s o with
    | none => rw [h1] at h; cases h
    | some s1 =>
      rw [h1] at h
      obtain ⟨g1, hs1, a1, a2, a3, t1, a4⟩ := step_inv hi o h1
      obtain ⟨g2, hs2, b1, b2, b3, t2, b4⟩ := ih a2 h
      exact ⟨g2, hs2, by simp [run, a1, b1], b2, a3.trans b3, t1 ++ t2, by rw [b4, a4]; simp⟩

theorem specRun_append (cap : Nat) (os os' : List (Op N F)) :
    ∀ s : Spec N F, specRun cap s (os ++ os') = (specRun cap s os).bind (fun s' => specRun cap s' os') := by
  induction os with
  | nil => intro s; rfl
  | cons o os ih =>
    intro s
    simp only [List.cons_append, specRun]
    cases specStep cap s o with
    | none => rfl
    | some s1 => simp only [Option.bind_some, ih]

theorem Inv.callers {cap : Nat} {g : CG N F} {hs : List Handle} {s : Spec N F} (hi : Inv cap g hs s) (f : F) :
    callersOf g f = some (callersIn s.edges f) := by
  unfold callersOf readFun
  cases h : g.callersOf f with
  | none => rw [hi.fi0 f h]
  | some p => obtain ⟨h1, h2⟩ := hi.fi f p h; simp only [if_pos h1, h2]

theorem Inv.callees {cap : Nat} {g : CG N F} {hs : List Handle} {s : Spec N F} (hi : Inv cap g hs s) (c : N) :
    calleesOf g c = some (calleesIn s.edges c) := by
  unfold calleesOf
  cases h : g.calleesAt c with
  | none => rw [hi.ci0 c h]
  | some i => exact hi.ci c i h

/-! ### Counting -/

theorem count_callersIn (E : List (N × F)) (c : N) (f : F) : (callersIn E f).count c = E.count (c, f) := by
  induction E with
  | nil => rfl
  | cons e E ih =>
    obtain ⟨c', f'⟩ := e
    unfold callersIn at ih ⊢
    rw [List.count_cons]
    by_cases hf : f' = f
    · subst hf
      simp only [List.filter_cons, decide_true, if_true, List.map_cons, List.count_cons, ih]
      by_cases hc : c' = c
      · simp [hc]
      · simp [hc]
    · rw [List.filter_cons_of_neg (by simp [hf]), ih]
      simp [hf]

theorem count_calleesIn (E : List (N × F)) (c : N) (f : F) : (calleesIn E c).count f = E.count (c, f) := by
  induction E with
  | nil => rfl
  | cons e E ih =>
    obtain ⟨c', f'⟩ := e
    unfold calleesIn at ih ⊢
    rw [List.count_cons]
    by_cases hc : c' = c
    · subst hc
      simp only [List.filter_cons, decide_true, if_true, List.map_cons, List.count_cons, ih]
      by_cases hf : f' = f
      · simp [hf]
      · simp [hf]
    · rw [List.filter_cons_of_neg (by simp [hc]), ih]
      simp [hc]

/-! ### Serialization -/

theorem appendAt_new (k : String) (l : List Nat) (d : List (String × List Nat)) (h : ∀ e, e ∈ d → e.1 ≠ k) :
    appendAt k l d = d ++ [(k, l)] := by
  induction d with
  | nil => rfl
  | cons e d ih =>
    obtain ⟨k', l'⟩ := e
    unfold appendAt
    rw [if_neg (h (k', l') List.mem_cons_self), ih (fun e he => h e (List.mem_cons_of_mem _ he))]
    rfl

/-- What `printAsJson` collects: an entry per function. -/
theorem collect_spec {cap : Nat} {g : CG N F} {hs : List Handle} {s : Spec N F} (hi : Inv cap g hs s) (fid : F → String)
    (iid : N → Nat) (order : List F) : ∀ (d : List (String × List Nat)), order.Nodup →
    (∀ f f', f ∈ order → f' ∈ order → fid f = fid f' → f = f') → (∀ f e, f ∈ order → e ∈ d → e.1 ≠ fid f) →
    collect g fid iid order d = some (d ++ order.map (fun f => (fid f, (callersIn s.edges f).map iid))) := by
  induction order with
  | nil => intro d _ _ _; simp [collect]
  | cons f fs ih =>
    intro d hn hinj hnew
    simp only [collect, hi.callers f, Option.bind_some]
    rw [appendAt_new _ _ _ (fun e he => hnew f e List.mem_cons_self he)]
    rw [List.nodup_cons] at hn
    rw [ih _ hn.2 (fun a b ha hb => hinj a b (List.mem_cons_of_mem _ ha) (List.mem_cons_of_mem _ hb))]
    · simp
    · intro f' e hf' he
      rcases List.mem_append.1 he with he | he
      · exact hnew f' e (List.mem_cons_of_mem _ hf') he
      · rw [List.mem_singleton] at he
        subst he
        intro e'
        have := hinj f f' List.mem_cons_self (List.mem_cons_of_mem _ hf') e'
        exact hn.1 (this ▸ hf')

theorem perm_map_inv {α β : Type} (h : α → β) {l m : List β} (hp : l.Perm m) :
    ∀ order : List α, l = order.map h → ∃ order', order.Perm order' ∧ m = order'.map h := by
  induction hp with
  | nil => intro order he; exact ⟨order, .refl _, he⟩
  | cons x _ ih =>
    intro order he
    cases order with
    | nil => cases he
    | cons a order =>
      simp only [List.map_cons, List.cons.injEq] at he
      obtain ⟨o', h1, h2⟩ := ih order he.2
      exact ⟨a :: o', h1.cons a, by rw [he.1, h2]; rfl⟩
  | swap x y l =>
    intro order he
    match order, he with
    | a :: b :: order, he =>
      simp only [List.map_cons, List.cons.injEq] at he
      exact ⟨b :: a :: order, .swap b a order, by rw [he.1, he.2.1, he.2.2]; rfl⟩
  | trans _ _ ih1 ih2 =>
    intro order he
    obtain ⟨o1, h1, h2⟩ := ih1 order he
    obtain ⟨o2, h3, h4⟩ := ih2 o1 h2
    exact ⟨o2, h1.trans h3, h4⟩

theorem loadIds_spec {cap : Nat} (getI : Nat → Option N) (f : F) (ids : List Nat) :
    ∀ {g : CG (Option N) F} {s : Spec (Option N) F}, Inv cap g [] s → f ∈ s.fns → s.fns.length ≤ cap →
    ∃ g', loadIds getI f ids g = some g' ∧ Inv cap g' [] ⟨s.edges ++ ids.map (fun i => (getI i, f)), s.fns, s.tags⟩ := by
  induction ids with
  | nil => intro g s hi _ _; exact ⟨g, rfl, by simpa using hi⟩
  | cons i ids ih =>
    intro g s hi hf hl
    have ha : addTo s.fns f = s.fns := if_pos hf
    obtain ⟨g1, h1, h2, _⟩ := addEdge_inv hi (getI i) f (by rw [ha]; exact hl)
    rw [ha] at h2
    obtain ⟨g2, h3, h4⟩ := ih h2 hf hl
    exact ⟨g2, by simp [loadIds, h1, h3], by simpa using h4⟩

/-- The edges `deserialize` adds for an entry. -/
def entryEdges (getF : String → Option F) (getI : Nat → Option N) (e : String × List Nat) : List (Option N × F) :=
  match getF e.1 with
  | none => []
  | some f => e.2.map (fun i => (getI i, f))

theorem length_addTo (l : List F) (f : F) : (addTo l f).length ≤ l.length + 1 := by
  unfold addTo
  split
  · omega
  · simp

theorem loadFns_spec {cap : Nat} (getF : String → Option F) (getI : Nat → Option N) (d : List (String × List Nat)) :
    ∀ {g : CG (Option N) F} {s : Spec (Option N) F}, Inv cap g [] s → s.fns.length + d.length ≤ cap →
    ∃ g' fns', loadFns getF getI d g = some g' ∧ Inv cap g' [] ⟨s.edges ++ d.flatMap (entryEdges getF getI), fns', s.tags⟩ := by
  induction d with
  | nil => intro g s hi _; exact ⟨g, s.fns, rfl, by simpa using hi⟩
  | cons e d ih =>
    intro g s hi hl
    simp only [List.length_cons] at hl
    cases he : getF e.1 with
    | none =>
      obtain ⟨g', fns', h1, h2⟩ := ih hi (by omega)
      refine ⟨g', fns', by simp [loadFns, he, h1], ?_⟩
      simpa [entryEdges, he] using h2
    | some f =>
      have hle := length_addTo s.fns f
      obtain ⟨j1, _⟩ := addFun_inv hi f (by omega)
      obtain ⟨g1, k1, k2⟩ := loadIds_spec getI f e.2 j1 ((mem_addTo _ _ _).2 (Or.inr rfl)) (by
        show (addTo s.fns f).length ≤ cap
        omega)
      obtain ⟨g', fns', h1, h2⟩ := ih k2 (by
        show (addTo s.fns f).length + d.length ≤ cap
        omega)
      refine ⟨g', fns', by simp [loadFns, he, k1, h1], ?_⟩
      simpa [entryEdges, he] using h2

theorem callersIn_append (E E' : List (N × F)) (f : F) : callersIn (E ++ E') f = callersIn E f ++ callersIn E' f := by
  simp [callersIn]

/-- The callers in the edges deserialized. -/
theorem callersIn_load (E : List (N × F)) (fs : List F) (hn : fs.Nodup) (f : F) :
    callersIn (fs.flatMap (fun f' => (callersIn E f').map (fun c => (some c, f')))) f =
      if f ∈ fs then (callersIn E f).map some else [] := by
  induction fs with
  | nil => rfl
  | cons x fs ih =>
    rw [List.nodup_cons] at hn
    rw [List.flatMap_cons, callersIn_append, ih hn.2]
    have hx : callersIn ((callersIn E x).map (fun c => (some c, x))) f = if x = f then (callersIn E x).map some else [] := by
      generalize callersIn E x = l
      unfold callersIn
      induction l with
      | nil => simp
      | cons c l ihl =>
        rw [List.map_cons, List.filter_cons]
        by_cases h : x = f
        · rw [if_pos h] at ihl ⊢
          simp only [h, decide_true, if_true, List.map_cons]
          rw [h] at ihl
          rw [ihl]
        · rw [if_neg h] at ihl ⊢
          simp [h]
    rw [hx]
    by_cases h : x = f
    · subst h
      rw [if_pos rfl, if_neg hn.1, if_pos List.mem_cons_self, List.append_nil]
    · rw [if_neg h, List.nil_append]
      have : f ∈ x :: fs ↔ f ∈ fs := by
        rw [List.mem_cons]
        exact ⟨fun h' => h'.resolve_left (fun e => h e.symm), Or.inr⟩
      by_cases hm : f ∈ fs
      · rw [if_pos hm, if_pos (this.2 hm)]
      · rw [if_neg hm, if_neg (fun h' => hm (this.1 h'))]

end Phasar.CG
