import Verif.Alias.MergeLemmas
/-!
# Properties C31 and C32: alias sets
-/
set_option linter.unusedSectionVars false
namespace Phasar.Alias

variable {V : Type} [DecidableEq V] {F : Type} [DecidableEq F] {Ty : Type} [DecidableEq Ty]

/-! ## C31 -/

/-- C31: after any sequence of steps that merges only known pointers, with any allocator and any LLVM alias analysis,
nothing undefined has happened; a pointer has a set exactly if it was added; the set of `p` has no duplicates and
consists of the known pointers in `p`'s class of the smallest equivalence relation that contains the pairs
introduced; and `alias` decides that relation. -/
theorem C31_partition (fresh : St V → Nat) (hf : Alloc fresh) (may : V → V → Bool) (ty : V → Ty) (os : List (Op V))
    (sp : Spec V) (h : specRun may ty ⟨[], [], []⟩ os = some sp) :
    ∃ s reps, run fresh may ty (empty, []) os = some (s, reps) ∧
      (∀ p, (∃ S, aliasSet s p = some S) ↔ p ∈ sp.known) ∧
      (∀ p S, aliasSet s p = some S → S.Nodup ∧ ∀ q, q ∈ S ↔ q ∈ sp.known ∧ Clos sp.pairs p q) ∧
      ∀ p q, p ∈ sp.known → q ∈ sp.known → ∃ b, aliasQ s p q = some b ∧ (b = true ↔ Clos sp.pairs p q) := by
  obtain ⟨⟨s, reps⟩, h1, h2, _⟩ := run_spec hf os (p := (empty, [])) (sp := ⟨[], [], []⟩)
    ⟨inv_empty, rfl, fun x hx => by cases hx⟩ h
  have hi : Inv s sp.known sp.pairs := h2.1
  refine ⟨s, reps, h1, ?_, ?_, ?_⟩
  · intro p
    constructor
    · rintro ⟨S, hS⟩
      unfold aliasSet at hS
      cases hb : s.al p with
      | none => rw [hb] at hS; cases hS
      | some b => exact (hi.known p).1 ⟨b, hb⟩
    · intro hp
      obtain ⟨S, hS, _⟩ := hi.set_spec hp
      exact ⟨S, hS⟩
  · intro p S hS
    have hp : p ∈ sp.known := by
      unfold aliasSet at hS
      cases hb : s.al p with
      | none => rw [hb] at hS; cases hS
      | some b => exact (hi.known p).1 ⟨b, hb⟩
    obtain ⟨S', h3, h4⟩ := hi.set_spec hp
    rw [hS] at h3
    cases h3
    exact h4
  · intro p q hp hq
    obtain ⟨S, h3, _, h5⟩ := hi.set_spec hp
    unfold aliasSet at h3
    cases hb : s.al p with
    | none => rw [hb] at h3; cases h3
    | some b =>
      rw [hb] at h3
      have h3' : deref s b = some S := h3
      refine ⟨decide (q ∈ S), by simp [aliasQ, hb, h3'], ?_⟩
      rw [decide_eq_true_iff, h5]
      exact ⟨fun h => h.2, fun h => ⟨hq, h⟩⟩

/-- C31: a returned set never refers to released storage: the box of `p` obtained at some point is `p`'s box ever
after, and what it refers to after any further steps is the set `getAliasSet(p)` then returns. -/
theorem C31_handles (fresh : St V → Nat) (hf : Alloc fresh) (may : V → V → Bool) (ty : V → Ty) (os os' : List (Op V))
    (sp : Spec V) (h : specRun may ty ⟨[], [], []⟩ (os ++ os') = some sp) :
    ∃ p p', run fresh may ty (empty, []) os = some p ∧ run fresh may ty p os' = some p' ∧
      ∀ v b, p.1.al v = some b → p'.1.al v = some b ∧ ∃ S, deref p'.1 b = some S ∧ aliasSet p'.1 v = some S ∧ v ∈ S := by
  rw [specRun_append] at h
  cases h0 : specRun may ty ⟨[], [], []⟩ os with
  | none => rw [h0] at h; cases h
  | some sp1 =>
    rw [h0] at h
    obtain ⟨p, h1, h2, _⟩ := run_spec hf os (p := (empty, [])) (sp := ⟨[], [], []⟩)
      ⟨inv_empty, rfl, fun x hx => by cases hx⟩ h0
    obtain ⟨p', g1, g2, g3⟩ := run_spec hf os' h2 h
    refine ⟨p, p', h1, g1, ?_⟩
    intro v b hv
    have hv' := g3 v b hv
    refine ⟨hv', ?_⟩
    obtain ⟨a, S, k1, k2, k3⟩ := g2.1.mem v b hv'
    exact ⟨S, by simp [deref, k1, k2], by simp [aliasSet, hv', deref, k1, k2], k3⟩

/-- C31: for a module whose merges are of pointers its functions add, every sequence of interface calls (queries,
which compute the sets on demand, and `introduceAlias`) is defined, and C31_partition applies to its steps. -/
theorem C31_calls (m : Mod V F) (hm : MWf m) (may : V → V → Bool) (ty : V → Ty) (cs : List (Call V)) :
    ∃ sp, specRun may ty ⟨[], [], []⟩ (calls m [] cs).1 = some sp := by
  obtain ⟨sp, h⟩ := calls_spec hm may ty cs (done := []) (sp := ⟨[], [], []⟩) (fun f hf => by cases hf)
  exact ⟨sp, h.1⟩

/-- C31: `introduceAlias(v, w)` of interesting pointers makes them alias, whatever was called before and after. -/
theorem C31_introduce (fresh : St V → Nat) (hf : Alloc fresh) (m : Mod V F) (hm : MWf m) (may : V → V → Bool) (ty : V → Ty)
    (cs cs' : List (Call V)) (v w : V) (hv : m.interesting v = true) (hw : m.interesting w = true) :
    ∃ s reps, run fresh may ty (empty, []) (calls m [] (cs ++ .introduce v w :: cs')).1 = some (s, reps) ∧
      aliasQ s v w = some true ∧ aliasQ s w v = some true := by
  have hpairs : ∀ (os : List (Op V)) (sp sp' : Spec V), specRun may ty sp os = some sp' →
      (∀ x, x ∈ sp.pairs → x ∈ sp'.pairs) ∧ (∀ x, x ∈ sp.known → x ∈ sp'.known) ∧
      (∀ a b, Op.merge a b ∈ os → (a, b) ∈ sp'.pairs ∧ a ∈ sp'.known ∧ b ∈ sp'.known) := by
    intro os
    induction os with
    | nil => intro sp sp' h; simp only [specRun, Option.some.injEq] at h; subst h; simp
    | cons o os ih =>
      intro sp sp' h
      simp only [specRun] at h
      cases h1 : specStep may ty sp o with
      | none => rw [h1] at h; cases h
      | some sp1 =>
        rw [h1] at h
        obtain ⟨i1, i2, i3⟩ := ih sp1 sp' h
        cases o with
        | single x =>
          simp only [specStep, Option.some.injEq] at h1; subst h1
          exact ⟨i1, fun y hy => i2 y (List.mem_cons_of_mem _ hy), fun a b hab => i3 a b (by simpa using hab)⟩
        | ptr x =>
          simp only [specStep, Option.some.injEq] at h1; subst h1
          exact ⟨fun y hy => i1 y (List.mem_append_right _ hy), fun y hy => i2 y (List.mem_cons_of_mem _ hy),
            fun a b hab => i3 a b (by simpa using hab)⟩
        | newFn =>
          simp only [specStep, Option.some.injEq] at h1; subst h1
          exact ⟨i1, i2, fun a b hab => i3 a b (by simpa using hab)⟩
        | merge x y =>
          simp only [specStep] at h1
          split at h1
          · rename_i hk
            simp only [Option.some.injEq] at h1; subst h1
            refine ⟨fun z hz => i1 z (List.mem_cons_of_mem _ hz), i2, ?_⟩
            intro a b hab
            rcases List.mem_cons.1 hab with h2 | h2
            · cases h2; exact ⟨i1 _ List.mem_cons_self, i2 _ hk.1, i2 _ hk.2⟩
            · exact i3 a b h2
          · cases h1
  have hmem : ∀ (cs : List (Call V)) (done : List F), Op.merge v w ∈ (calls m done (cs ++ .introduce v w :: cs')).1 := by
    intro cs
    induction cs with
    | nil =>
      intro done
      refine List.mem_append_left _ ?_
      show Op.merge v w ∈ (call m done (.introduce v w)).1
      have hb : (m.interesting v && m.interesting w) = true := by simp [hv, hw]
      simp only [call, if_pos hb]
      exact List.mem_append_right _ (List.mem_append_right _ List.mem_cons_self)
    | cons c cs ih => intro done; exact List.mem_append_right _ (ih _)
  obtain ⟨sp, hsp⟩ := C31_calls m hm may ty (cs ++ .introduce v w :: cs')
  obtain ⟨s, reps, h1, _, _, h4⟩ := C31_partition fresh hf may ty _ sp hsp
  obtain ⟨p1, p2, p3⟩ := (hpairs _ _ _ hsp).2.2 v w (hmem cs [])
  refine ⟨s, reps, h1, ?_, ?_⟩
  · obtain ⟨b, k1, k2⟩ := h4 v w p2 p3
    rw [k1, k2.2 (.pair p1)]
  · obtain ⟨b, k1, k2⟩ := h4 w v p3 p2
    rw [k1, k2.2 (Clos.pair p1).symm]

/-- Specification: the pointers added with `addPointer` since the analysis of the last function began. -/
def recent : List V → List (Op V) → List V
  | W, [] => W
  | W, .ptr v :: os => recent (v :: W) os
  | _, .newFn :: os => recent [] os
  | W, _ :: os => recent W os

theorem C31.keep {may : V → V → Bool} {ty : V → Ty} {v r : V} (reps : List V) : ∀ (seen : List Ty), r ∈ reps →
    r ∈ keepReps may ty v seen reps ∨
      (may v r = true ∧ (ty r ∈ seen ∨ ∃ r', r' ∈ keepReps may ty v seen reps ∧ may v r' = true ∧ r' ∈ reps ∧ ty r' = ty r)) := by
  induction reps with
  | nil => intro seen h; cases h
  | cons x xs ih =>
    intro seen h
    unfold keepReps
    rcases List.mem_cons.1 h with h | h
    · subst h
      by_cases hm : may v r = true
      · rw [if_pos hm]
        by_cases hs : ty r ∈ seen
        · exact Or.inr ⟨hm, Or.inl hs⟩
        · rw [if_neg hs]; exact Or.inl List.mem_cons_self
      · rw [if_neg hm]; exact Or.inl List.mem_cons_self
    · by_cases hm : may v x = true
      · rw [if_pos hm]
        by_cases hs : ty x ∈ seen
        · rw [if_pos hs]
          rcases ih seen h with i | ⟨i1, i2 | ⟨r', a, b, c, d⟩⟩
          · exact Or.inl i
          · exact Or.inr ⟨i1, Or.inl i2⟩
          · exact Or.inr ⟨i1, Or.inr ⟨r', a, b, List.mem_cons_of_mem _ c, d⟩⟩
        · rw [if_neg hs]
          rcases ih (ty x :: seen) h with i | ⟨i1, i2 | ⟨r', a, b, c, d⟩⟩
          · exact Or.inl (List.mem_cons_of_mem _ i)
          · rcases List.mem_cons.1 i2 with i2 | i2
            · exact Or.inr ⟨i1, Or.inr ⟨x, List.mem_cons_self, hm, List.mem_cons_self, i2.symm⟩⟩
            · exact Or.inr ⟨i1, Or.inl i2⟩
          · exact Or.inr ⟨i1, Or.inr ⟨r', List.mem_cons_of_mem _ a, b, List.mem_cons_of_mem _ c, d⟩⟩
      · rw [if_neg hm]
        rcases ih seen h with i | ⟨i1, i2 | ⟨r', a, b, c, d⟩⟩
        · exact Or.inl (List.mem_cons_of_mem _ i)
        · exact Or.inr ⟨i1, Or.inl i2⟩
        · exact Or.inr ⟨i1, Or.inr ⟨r', List.mem_cons_of_mem _ a, b, List.mem_cons_of_mem _ c, d⟩⟩

/-- One step of `C31_representatives`: the new representatives stand for the old ones and for the pointer added. -/
theorem C31.reps_step (may : V → V → Bool) (ty : V → Ty) (v : V) (reps : List V) (P : List (V × V)) (x : V)
    (hx : x = v ∨ x ∈ reps) : ∃ r, r ∈ nextReps may ty v reps ∧ ty r = ty x ∧
      Clos ((reps.filter (may v)).map (fun r => (r, v)) ++ P) r x := by
  have hpair : ∀ r, r ∈ reps → may v r = true → Clos ((reps.filter (may v)).map (fun r => (r, v)) ++ P) r v :=
    fun r h1 h2 => .pair (List.mem_append_left _ (List.mem_map.2 ⟨r, List.mem_filter.2 ⟨h1, h2⟩, rfl⟩))
  unfold nextReps toMerge
  split
  · rcases hx with hx | hx
    · exact ⟨v, by simp, by rw [hx], by rw [hx]; exact .refl _⟩
    · exact ⟨x, List.mem_append_left _ hx, rfl, .refl _⟩
  · rename_i r hr
    have hrm := List.mem_filter.1 (hr ▸ List.mem_singleton.2 rfl : r ∈ reps.filter (may v))
    split
    · rcases hx with hx | hx
      · exact ⟨v, by simp, by rw [hx], by rw [hx]; exact .refl _⟩
      · exact ⟨x, List.mem_append_left _ hx, rfl, .refl _⟩
    · rename_i hty
      rcases hx with hx | hx
      · exact ⟨r, hrm.1, by rw [hx]; exact (Decidable.not_not.1 hty).symm, by rw [hx]; exact hpair r hrm.1 hrm.2⟩
      · exact ⟨x, hx, rfl, .refl _⟩
  · -- a representative stays or another of its type that may alias `v` does
    have hold : ∀ y, y ∈ reps → ∃ r, r ∈ keepReps may ty v [] reps ∧ ty r = ty y ∧
        Clos ((reps.filter (may v)).map (fun r => (r, v)) ++ P) r y := by
      intro y hy
      rcases C31.keep (may := may) (ty := ty) (v := v) reps [] hy with h | ⟨h1, h2 | ⟨r', a, b, c, d⟩⟩
      · exact ⟨y, h, rfl, .refl _⟩
      · cases h2
      · exact ⟨r', a, d, (hpair r' c b).trans (hpair y hy h1).symm⟩
    rcases hx with hx | hx
    · subst hx
      split
      · rename_i ht
        obtain ⟨y, hy, hty⟩ := List.mem_map.1 ht
        have hym := List.mem_filter.1 hy
        obtain ⟨r, a, b, c⟩ := hold y hym.1
        exact ⟨r, List.mem_append_left _ a, b.trans hty, c.trans (hpair y hym.1 hym.2)⟩
      · exact ⟨x, by simp, rfl, .refl _⟩
    · obtain ⟨r, a, b, c⟩ := hold x hx
      exact ⟨r, List.mem_append_left _ a, b, c⟩

/-- C31: dropping representatives loses nothing: every pointer added since the analysis of the current function
began has a representative of its own type in its class, so later pointers are still compared with its class. -/
theorem C31_representatives (may : V → V → Bool) (ty : V → Ty) (os : List (Op V)) (sp : Spec V)
    (h : specRun may ty ⟨[], [], []⟩ os = some sp) :
    ∀ x, x ∈ recent [] os → ∃ r, r ∈ sp.reps ∧ ty r = ty x ∧ Clos sp.pairs r x := by
  have key : ∀ (os : List (Op V)) (W : List V) (sp0 : Spec V),
      (∀ x, x ∈ W → ∃ r, r ∈ sp0.reps ∧ ty r = ty x ∧ Clos sp0.pairs r x) → specRun may ty sp0 os = some sp →
      ∀ x, x ∈ recent W os → ∃ r, r ∈ sp.reps ∧ ty r = ty x ∧ Clos sp.pairs r x := by
    intro os
    induction os with
    | nil => intro W sp0 hW hs; simp only [specRun, Option.some.injEq] at hs; subst hs; exact hW
    | cons o os ih =>
      intro W sp0 hW hs
      simp only [specRun] at hs
      cases h1 : specStep may ty sp0 o with
      | none => rw [h1] at hs; cases hs
      | some sp1 =>
        rw [h1] at hs
        cases o with
        | single v =>
          simp only [specStep, Option.some.injEq] at h1; subst h1
          exact ih W ⟨v :: sp0.known, sp0.reps, sp0.pairs⟩ hW hs
        | ptr v =>
          simp only [specStep, Option.some.injEq] at h1; subst h1
          refine ih (v :: W) _ ?_ hs
          intro x hx
          dsimp only
          rcases List.mem_cons.1 hx with hx | hx
          · exact C31.reps_step may ty v sp0.reps sp0.pairs x (Or.inl hx)
          · obtain ⟨r, h2, h3, h4⟩ := hW x hx
            obtain ⟨r', k1, k2, k3⟩ := C31.reps_step may ty v sp0.reps sp0.pairs r (Or.inr h2)
            exact ⟨r', k1, k2.trans h3, k3.trans (h4.mono (fun p hp => List.mem_append_right _ hp))⟩
        | merge v w =>
          simp only [specStep] at h1
          split at h1
          · simp only [Option.some.injEq] at h1; subst h1
            refine ih W _ ?_ hs
            intro x hx
            obtain ⟨r, h2, h3, h4⟩ := hW x hx
            exact ⟨r, h2, h3, h4.mono (fun p hp => List.mem_cons_of_mem _ hp)⟩
          · cases h1
        | newFn =>
          simp only [specStep, Option.some.injEq] at h1; subst h1
          exact ih [] _ (fun x hx => by cases hx) hs
  exact key os [] _ (fun x hx => by cases hx) h

/-- An allocator: one above all addresses ever used. -/
def bump (s : St V) : Nat := s.boxes.foldr (fun a b => max (a + 1) b) 0

theorem C31.bump_alloc : Alloc (bump : St V → Nat) := by
  intro s h
  cases hs : s.sets (bump s) with
  | none => rfl
  | some S =>
    have hm := h (bump s) (by rw [hs]; exact fun e => by cases e)
    have key : ∀ (l : List Nat) (x : Nat), x ∈ l → x < l.foldr (fun a b => max (a + 1) b) 0 := by
      intro l
      induction l with
      | nil => intro x hx; cases hx
      | cons y l ih =>
        intro x hx
        simp only [List.foldr_cons]
        rcases List.mem_cons.1 hx with e | e
        · omega
        · have := ih x e; omega
    exact absurd (key _ _ hm) (Nat.lt_irrefl _)

/-- C31 instance: four pointers of two types; 1 and 3 may alias, 2 and 4 are merged, 5 stays alone.  The hypotheses
hold, sets are released on the way, and the classes are {1,3}, {2,4}, {5}. -/
example :
    let may : Nat → Nat → Bool := fun a b => (a, b) == (3, 1) || (a, b) == (1, 3)
    let ty : Nat → Nat := fun v => v / 4
    let os : List (Op Nat) := [.newFn, .ptr 1, .ptr 2, .ptr 3, .newFn, .ptr 4, .ptr 5, .merge 4 2, .merge 2 4]
    (specRun may ty ⟨[], [], []⟩ os).isSome = true ∧ recent [] os = [5, 4] ∧
    (run bump may ty (empty, []) os).map (fun p => (aliasSet p.1 1, aliasSet p.1 2, aliasSet p.1 4, aliasSet p.1 5)) =
      some (some [1, 3], some [2, 4], some [2, 4], some [5]) := by
  decide

/-- A module with two functions and a global 0 used by both; for the use in function 1 the global is merged with 3. -/
def C31.mod : Mod Nat Nat where
  interesting := fun _ => true
  users := fun v => if v = 0 then some [(1, some (0, 3)), (2, none)] else none
  fn := fun v => if v < 4 then some 1 else if v < 6 then some 2 else none
  decl := fun f => f = 2
  events := fun f => if f = 1 then [.ptr 1, .ptr 2, .ptr 3, .merge 2 3] else []

theorem C31.mod_wf : MWf C31.mod := by
  refine ⟨?_, ?_⟩
  · intro f hf
    show Closed [] (if f = 1 then _ else _)
    split
    · simp [Closed]
    · simp [Closed]
  · intro g us hus u hu p hp
    simp only [C31.mod] at hus
    split at hus
    · rename_i hg
      cases hus
      simp only [List.mem_cons, List.not_mem_nil, or_false] at hu
      rcases hu with hu | hu
      · subst hu; cases hp
        subst hg
        exact ⟨by decide, Or.inl rfl, Or.inr (by decide)⟩
      · subst hu; cases hp
    · cases hus

example := C31_introduce bump C31.bump_alloc C31.mod C31.mod_wf (fun a b => a + 1 == b) (fun v => v % 2)
  [.compute 0, .compute 5] [.compute 2] 4 1 rfl rfl

/-- C31 instance: after computing the global's sets and introducing an alias, 0, 3 and 2 alias, and 4 and 1. -/
example :
    ((run bump (fun _ _ => false) (fun v => v % 2) (empty, [])
      (calls C31.mod [] [.compute 0, .introduce 4 1]).1).bind (fun p => aliasSet p.1 0)) = some [3, 2, 0] ∧
    ((run bump (fun _ _ => false) (fun v => v % 2) (empty, [])
      (calls C31.mod [] [.compute 0, .introduce 4 1]).1).bind (fun p => aliasQ p.1 1 4)) = some true := by
  decide

/-! ## C32 -/

/-- C32 (partial): if the other analysis relates no two pointers known here that were not related here already, then
`mergeWith` is defined, and afterwards the sets are the classes of the smallest equivalence relation containing the
pairs of both analyses, on the pointers known to either.  `ks` are the keys of the other map in any order.
Missing: analyses that overlap more (the claim is then false, see `C32_false`). -/
theorem C32_partial (fresh fresh' : St V → Nat) (hf : Alloc fresh) (hf' : Alloc fresh') (may may' : V → V → Bool) (ty : V → Ty)
    (os os' : List (Op V)) (sp sp' : Spec V) (h : specRun may ty ⟨[], [], []⟩ os = some sp)
    (h' : specRun may' ty ⟨[], [], []⟩ os' = some sp')
    (hc : ∀ x y, x ∈ sp.known → y ∈ sp.known → Clos sp'.pairs x y → Clos sp.pairs x y)
    (ks : List V) (hks : ∀ k, k ∈ ks ↔ k ∈ sp'.known) :
    ∃ s r s' r' t, run fresh may ty (empty, []) os = some (s, r) ∧ run fresh' may' ty (empty, []) os' = some (s', r') ∧
      mergeWith fresh s s' ks = some t ∧
      (∀ p, (∃ S, aliasSet t p = some S) ↔ p ∈ sp.known ∨ p ∈ sp'.known) ∧
      (∀ p S, aliasSet t p = some S → S.Nodup ∧
        ∀ q, q ∈ S ↔ (q ∈ sp.known ∨ q ∈ sp'.known) ∧ Clos (sp.pairs ++ sp'.pairs) p q) := by
  obtain ⟨⟨s, r⟩, h1, h2, _⟩ := run_spec hf os (p := (empty, [])) (sp := ⟨[], [], []⟩)
    ⟨inv_empty, rfl, fun x hx => by cases hx⟩ h
  obtain ⟨⟨s', r'⟩, h1', h2', _⟩ := run_spec hf' os' (p := (empty, [])) (sp := ⟨[], [], []⟩)
    ⟨inv_empty, rfl, fun x hx => by cases hx⟩ h'
  have hi : Inv s sp.known sp.pairs := h2.1
  have hi' : Inv s' sp'.known sp'.pairs := h2'.1
  obtain ⟨t, D, g1, g2, g3⟩ := mergeWith_run hf hi' hi.pk ks
    (MInv.start hi sp'.known sp'.pairs (fun x y hx hy _ _ => hc x y hx hy)) (fun k hk => (hks k).1 hk)
  have ht := g2.finish (fun v hv => g3 v (Or.inr ((hks v).2 hv))) hi.pk hi'.pk
  have hkn : ∀ p S, aliasSet t p = some S → p ∈ sp.known ++ sp'.known := by
    intro p S hS
    unfold aliasSet at hS
    cases hb : t.al p with
    | none => rw [hb] at hS; cases hS
    | some b => exact (ht.known p).1 ⟨b, hb⟩
  refine ⟨s, r, s', r', t, h1, h1', g1, ?_, ?_⟩
  · intro p
    rw [← List.mem_append]
    constructor
    · rintro ⟨S, hS⟩; exact hkn p S hS
    · intro hp
      obtain ⟨S, hS, _⟩ := ht.set_spec hp
      exact ⟨S, hS⟩
  · intro p S hS
    obtain ⟨S', k1, k2, k3⟩ := ht.set_spec (hkn p S hS)
    rw [hS] at k1
    cases k1
    refine ⟨k2, fun q => ?_⟩
    rw [k3 q, List.mem_append]

/-- C32 instance: both analyses know 1 and 2; the other relates 1, 5 and 6, and 7 and 8. -/
example :
    let may : Nat → Nat → Bool := fun _ _ => false
    (((run bump may id (empty, []) [.ptr 1, .ptr 2, .ptr 3, .merge 2 3]).bind (fun p =>
      (run bump may id (empty, []) [.ptr 8, .ptr 7, .ptr 6, .ptr 5, .ptr 2, .ptr 1, .merge 7 8, .merge 1 5, .merge 6 5]).bind
        (fun q => mergeWith bump p.1 q.1 [8, 6, 2, 1, 7, 5])))).map
      (fun t => ([1, 2, 3, 5, 6, 7, 8].map (aliasSet t))) =
    some [some [1, 5, 6], some [3, 2], some [3, 2], some [1, 5, 6], some [1, 5, 6], some [8, 7], some [8, 7]] := by
  decide

example := C32_partial bump bump C31.bump_alloc C31.bump_alloc (fun _ _ => false) (fun _ _ => false) id
  [.ptr 1, .ptr 2, .merge 2 1] [.ptr 1, .ptr 2, .ptr 3, .merge 1 2, .merge 2 3] ⟨[2, 1], [1, 2], [(2, 1)]⟩
  ⟨[3, 2, 1], [1, 2, 3], [(2, 3), (1, 2)]⟩ rfl rfl (by
    intro x y hx hy _
    simp at hx hy
    rcases hx with hx | hx <;> rcases hy with hy | hy <;> subst hx <;> subst hy
    · exact .refl _
    · exact .pair (by simp)
    · exact .symm (.pair (by simp))
    · exact .refl _) [1, 2, 3] (by intro k; simp; omega)

/-- The two analyses of `C32_false` merged. -/
def C32.merged : Option (St Nat × St Nat) :=
  (run bump (fun _ _ => false) id (empty, []) [.ptr 1, .ptr 2]).bind (fun p =>
    (run bump (fun _ _ => false) id (empty, []) [.ptr 1, .ptr 2, .merge 1 2]).bind (fun q =>
      (mergeWith bump p.1 q.1 [1, 2]).map (fun t => (q.1, t))))

/-- C32 is false in general: this analysis knows 1 and 2 as separate pointers, the other one as aliases.  After
`mergeWith`, 2 aliases 1 but 1 does not alias 2, although it did in the other analysis. -/
theorem C32_false : C32.merged.map (fun p => (aliasQ p.1 1 2, aliasQ p.2 2 1, aliasQ p.2 1 2)) =
    some (some true, some true, some false) := by
  decide

/-- The analyses of `C32_not_transitive` merged: {1, 4}, {2} here, {1, 2, 3} in the other. -/
def C32.merged3 : Option (St Nat) :=
  (run bump (fun _ _ => false) id (empty, []) [.ptr 1, .ptr 2, .ptr 4, .merge 1 4]).bind (fun p =>
    (run bump (fun _ _ => false) id (empty, []) [.ptr 1, .ptr 2, .ptr 3, .merge 1 2, .merge 2 3]).bind (fun q =>
      mergeWith bump p.1 q.1 [1, 2, 3]))

/-- C32: transitivity is lost as well: 3 aliases 1 and 1 aliases 4, but 3 does not alias 4. -/
theorem C32_not_transitive : C32.merged3.map (fun t => (aliasQ t 3 1, aliasQ t 1 4, aliasQ t 3 4)) =
    some (some true, some true, some false) := by
  decide

end Phasar.Alias
