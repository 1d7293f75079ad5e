import Verif.Analysis.XTaint
/-!
# C40: the sanitizer lattice of the extended taint analysis

Specification.  The levels, from "no information yet" to "nothing is known": top, sanitized, sanitized by one instruction,
not sanitized, bottom.  A value is unsanitized if it is `unsani` or `bot`.
-/
namespace Phasar.XTaint
set_option linter.unusedSectionVars false

variable {I : Type} [DecidableEq I]

/-- Spec: the level of a value. -/
def level : Dom I → Nat
  | .top => 0
  | .sanitized => 1
  | .sani _ => 2
  | .unsani => 3
  | .bot => 4

/-- Spec: the order of the lattice: higher values claim less. -/
def Le (a b : Dom I) : Prop := a = b ∨ level a < level b

/-- Spec: some path was unsanitized (or nothing is known). -/
def Unsanitized (a : Dom I) : Prop := a = .unsani ∨ a = .bot

/-- A merge of two branches that ends in the join point 2: the instructions 0 and 1 stand in blocks whose only successor
starts with 2. -/
def C40.G0 : Prog Nat where
  fn _ := 0
  succ i := if i = 0 ∨ i = 1 ∨ i = 3 then [2] else []
  before i j := decide (i < 2 ∧ j = 5)

theorem C40.joinSani_level (G : Prog I) (bbo : Bool) (s t : I) :
    (∃ m, joinSani G bbo s t = .sani m) ∨ joinSani G bbo s t = .unsani := by
  unfold joinSani
  split
  · exact Or.inr rfl
  split
  · exact Or.inl ⟨_, rfl⟩
  split
  · exact Or.inl ⟨_, rfl⟩
  split
  · exact Or.inl ⟨_, rfl⟩
  split
  · exact Or.inl ⟨_, rfl⟩
  split
  · exact Or.inl ⟨_, rfl⟩
  · exact Or.inr rfl

/-- Joining a value with itself changes nothing. -/
theorem C40_idempotent (G : Prog I) (bbo : Bool) (a : Dom I) : join G bbo a a = a := by
  simp [join]

/-- Top is neutral and bottom absorbs, on both sides. -/
theorem C40_bounds (G : Prog I) (bbo : Bool) (a : Dom I) :
    join G bbo .top a = a ∧ join G bbo a .top = a ∧ join G bbo .bot a = .bot ∧ join G bbo a .bot = .bot := by
  refine ⟨?_, ?_, ?_, ?_⟩ <;> cases a <;> simp [join]

/-- A join never goes down a level. -/
theorem C40_join_level (G : Prog I) (bbo : Bool) (a b : Dom I) :
    level a ≤ level (join G bbo a b) ∧ level b ≤ level (join G bbo a b) := by
  cases a <;> cases b <;> simp [join, level]
  rename_i s t
  by_cases hst : s = t
  · simp [hst]
  · rcases C40.joinSani_level G bbo s t with ⟨m, h⟩ | h <;> simp [h, hst]

/-- A join never forgets that a path was unsanitized. -/
theorem C40_unsanitized (G : Prog I) (bbo : Bool) (a b : Dom I) (h : Unsanitized a ∨ Unsanitized b) :
    Unsanitized (join G bbo a b) := by
  have key : ∀ x : Dom I, Unsanitized x ↔ 3 ≤ level x := by
    intro x; cases x <;> simp [Unsanitized, level]
  rw [key] at *
  rw [key] at h
  have := C40_join_level G bbo a b
  omega

/-- Conversely a join of values that are all sanitized before their common successor is only marked unsanitized by two
different sanitizers, an unsanitized argument never appears by itself. -/
theorem C40_unsanitized_only (G : Prog I) (bbo : Bool) (a b : Dom I) (h : Unsanitized (join G bbo a b)) :
    Unsanitized a ∨ Unsanitized b ∨ ∃ s t, a = .sani s ∧ b = .sani t ∧ s ≠ t := by
  cases a with
  | sani s =>
    cases b with
    | sani t =>
      by_cases hst : s = t
      · subst hst; simp [join, Unsanitized] at h
      · exact Or.inr (Or.inr ⟨s, t, rfl, rfl, hst⟩)
    | _ => simp [join, Unsanitized] at h ⊢
  | _ => cases b <;> simp [join, Unsanitized] at h ⊢

/-- Any number of joins in any order: once an unsanitized value was joined, the reported leak is never suppressed. -/
theorem C40_leak_kept (G : Prog I) (bbo : Bool) (start : Dom I) (vs : List (Dom I)) (load : Option I)
    (h : Unsanitized start ∨ ∃ v ∈ vs, Unsanitized v) :
    suppressed G (some (vs.foldl (join G bbo) start)) load = false := by
  have : Unsanitized (vs.foldl (join G bbo) start) := by
    induction vs generalizing start with
    | nil =>
      rcases h with h | ⟨v, hv, -⟩
      · exact h
      · simp at hv
    | cons v vs ih =>
      apply ih
      rcases h with h | ⟨u, hu, h⟩
      · exact Or.inl (C40_unsanitized G bbo _ _ (Or.inl h))
      · rcases List.mem_cons.1 hu with rfl | hu
        · exact Or.inl (C40_unsanitized G bbo _ _ (Or.inr h))
        · exact Or.inr ⟨u, hu, h⟩
  rcases this with h | h <;> rw [h] <;> rfl

/-- A potential leak is suppressed only if a value was found for it that is sanitized, or whose sanitizer is known to come
before the load, or for which no load is known. -/
theorem C40_suppressed (G : Prog I) (res : Option (Dom I)) (load : Option I) :
    suppressed G res load = true ↔ ∃ v, res = some v ∧
      (v = .sanitized ∨ ∃ s, v = .sani s ∧ (load = none ∨ ∃ l, load = some l ∧ G.before s l = true)) := by
  cases res with
  | none => simp [suppressed]
  | some v => cases v <;> cases load <;> simp [suppressed]

/-- Levels of the sequence of joined values only grow, so along any chain of joins the level changes at most four times.
(The values within the level of sanitizers may still alternate: `C40_oscillates_false`.) -/
theorem C40_chain (G : Prog I) (bbo : Bool) (a : Dom I) (vs : List (Dom I)) :
    level a ≤ level (vs.foldl (join G bbo) a) ∧ level (vs.foldl (join G bbo) a) ≤ 4 := by
  refine ⟨?_, ?_⟩
  · induction vs generalizing a with
    | nil => exact Nat.le_refl _
    | cons v vs ih => exact Nat.le_trans (C40_join_level G bbo a v).1 (ih _)
  · cases vs.foldl (join G bbo) a <;> simp [level]

theorem C40.filter_singleton {l l' : List I} {m : I}
    (h : l.filter (fun x => decide (x ∈ l')) = [m]) (hl' : l'.Nodup) :
    l'.filter (fun x => decide (x ∈ l)) = [m] := by
  have hm : ∀ x, (x ∈ l ∧ x ∈ l') ↔ x = m := by
    intro x
    have : x ∈ l.filter (fun x => decide (x ∈ l')) ↔ x ∈ [m] := by rw [h]
    simpa using this
  have hn : (l'.filter (fun x => decide (x ∈ l))).Nodup := hl'.filter _
  have hmem : ∀ x, x ∈ l'.filter (fun x => decide (x ∈ l)) ↔ x = m := by
    intro x
    simp only [List.mem_filter, decide_eq_true_eq]
    rw [← hm x]
    exact And.comm
  generalize l'.filter (fun x => decide (x ∈ l)) = k at *
  match k, hn, hmem with
  | [], _, hmem => exact absurd ((hmem m).2 rfl) (by simp)
  | [x], _, hmem => rw [(hmem x).1 (by simp)]
  | x :: y :: k, hn, hmem =>
    have hx := (hmem x).1 (by simp)
    have hy := (hmem y).1 (by simp)
    subst hx
    subst hy
    simp at hn

/-- The join is commutative, except for two sanitizers of which one is the first instruction of a successor of the other's
block, or whose blocks have several edges to the same successor.  Missing: those cases, where it is not
(`C40_comm_false`). -/
theorem C40_comm_partial (G : Prog I) (bbo : Bool) (a b : Dom I)
    (hanti : ∀ s t, G.before s t = true → G.before t s = false)
    (hadj : ∀ s t, a = .sani s → b = .sani t →
      t ∉ G.succ s ∧ s ∉ G.succ t ∧ (G.succ s).Nodup ∧ (G.succ t).Nodup) :
    join G bbo a b = join G bbo b a := by
  cases a with
  | sani s =>
    cases b with
    | sani t =>
      obtain ⟨h1, h2, h3, h4⟩ := hadj s t rfl rfl
      by_cases hst : s = t
      · subst hst; rfl
      · have hts : ¬ t = s := fun h => hst h.symm
        have key : joinSani G bbo s t = joinSani G bbo t s := by
          unfold joinSani
          by_cases hf : G.fn s ≠ G.fn t
          · rw [if_pos hf, if_pos (fun h => hf h.symm)]
          · have hf' : ¬ G.fn t ≠ G.fn s := fun h => hf fun h' => h h'.symm
            rw [if_neg hf, if_neg hf']
            by_cases hb1 : bbo = true ∧ G.before s t = true
            · have := hanti s t hb1.2
              rw [if_pos hb1, if_neg (by simp [this]), if_pos hb1]
            · rw [if_neg hb1]
              by_cases hb2 : bbo = true ∧ G.before t s = true
              · rw [if_pos hb2, if_pos hb2]
              · rw [if_neg hb2, if_neg hb2, if_neg hb1, if_neg h1, if_neg h2, if_neg h2, if_neg h1]
                split
                · rename_i m hm
                  rw [C40.filter_singleton hm h3]
                · rename_i hne
                  split
                  · rename_i m hm
                    exact absurd (C40.filter_singleton hm h4) (hne m)
                  · rfl
        simp [join, hst, hts, key]
    | _ => simp [join]
  | _ => cases b <;> simp [join]

/-- The join is associative on values that contain at most one sanitizer between them.  Missing: several sanitizers, where
it is not (`C40_assoc_false`). -/
theorem C40_assoc_partial (G : Prog I) (bbo : Bool) (a b c : Dom I) (s : I)
    (ha : ∀ t, a = .sani t → t = s) (hb : ∀ t, b = .sani t → t = s) (hc : ∀ t, c = .sani t → t = s) :
    join G bbo (join G bbo a b) c = join G bbo a (join G bbo b c) := by
  cases a <;> cases b <;> cases c <;> simp_all [join]

/-- `KillIfSanitizedEdgeFunction` is monotone. -/
theorem C40_kill_monotone (G : Prog I) (load : Option I) (a b : Dom I) (h : Le a b) :
    Le (kill G load a) (kill G load b) := by
  rcases h with rfl | h
  · exact Or.inl rfl
  · have hk : ∀ t : I, kill G load (.sani t) = .sanitized ∨ kill G load (.sani t) = .unsani := by
      intro t
      cases load with
      | none => exact Or.inl rfl
      | some l =>
        by_cases h : G.fn t = G.fn l ∧ G.before t l = true
        · exact Or.inl (if_pos h)
        · exact Or.inr (if_neg h)
    have hn : ∀ x : Dom I, x.sanitizer = none → kill G load x = x := by
      intro x hx; simp [kill, hx]
    have h1 : kill G load (.bot : Dom I) = .bot := hn _ rfl
    have h2 : kill G load (.top : Dom I) = .top := hn _ rfl
    have h3 : kill G load (.sanitized : Dom I) = .sanitized := hn _ rfl
    have h4 : kill G load (.unsani : Dom I) = .unsani := hn _ rfl
    cases a with
    | sani t =>
      cases b <;> simp [level] at h <;> rcases hk t with h | h <;> simp [h, h1, h4, Le, level]
    | _ =>
      cases b with
      | sani t =>
        simp [level] at h
        try (rcases hk t with h | h <;> simp [h, h2, h3, Le, level])
      | _ =>
        simp only [h1, h2, h3, h4]
        exact Or.inr h

/-- `TransferEdgeFunction` is monotone on all values but top.  Missing: top (`C40_transfer_top_false`). -/
theorem C40_transfer_monotone_partial (G : Prog I) (load to : Option I) (a b : Dom I) (ha : a ≠ .top) (h : Le a b) :
    Le (transfer G load to a) (transfer G load to b) := by
  rcases h with rfl | h
  · exact Or.inl rfl
  · have ht : ∀ x : Dom I, transfer G load to x = ofPtr to ∨ transfer G load to x = .unsani := by
      intro x
      unfold transfer
      split
      · split
        · exact Or.inl rfl
        · split
          · exact Or.inl rfl
          · exact Or.inr rfl
      · split
        · exact Or.inl rfl
        · exact Or.inr rfl
    have hle : ∀ x : Dom I, Le (ofPtr to) (transfer G load to x) := by
      intro x
      rcases ht x with h | h <;> rw [h]
      · exact Or.inl rfl
      · cases to <;> simp [Le, level, ofPtr]
    have hu : ∀ x : Dom I, 2 < level x → transfer G load to x = .unsani := by
      intro x hx
      cases x <;> simp [level, transfer, Dom.sanitizer] at hx ⊢
    by_cases hs : a = .sanitized
    · subst hs
      exact hle b
    · have h2 : 2 ≤ level a := by cases a <;> simp_all [level]
      have hb : 2 < level b := by omega
      rw [hu b hb]
      rcases ht a with h | h <;> rw [h]
      · cases to <;> simp [Le, level, ofPtr]
      · exact Or.inl rfl

/-- Neither edge function makes an unsanitized value sanitized. -/
theorem C40_functions_unsanitized (G : Prog I) (load to : Option I) (a : Dom I) (h : Unsanitized a) :
    Unsanitized (kill G load a) ∧ Unsanitized (transfer G load to a) := by
  rcases h with rfl | rfl <;> simp [kill, transfer, Dom.sanitizer, Unsanitized]

/-- Equal `KillIfSanitizedEdgeFunction`s behave equally (for the same program). -/
theorem C40_kill_eq (G : Prog I) (l l' : Option I) (h : killEq l l' = true) (a : Dom I) :
    kill G l a = kill G l' a := by
  simp [killEq] at h
  rw [h]

/-- Equal `TransferEdgeFunction`s behave equally on values without sanitizer.  Missing: values with one
(`C40_transfer_eq_false`). -/
theorem C40_transfer_eq_partial (G : Prog I) (l t l' t' : Option I) (h : transferEq l t l' t' = true) (a : Dom I)
    (ha : a.sanitizer = none) : transfer G l t a = transfer G l' t' a := by
  simp [transferEq] at h
  simp [transfer, ha, h]

/-- `AllSanitized::compose` over-approximates the composition for monotone second functions, on all values but top and except
for the all-top function.  Missing: these two (`C40_compose_false`). -/
theorem C40_compose_partial (g : Fn I) (hg : g ≠ .allTop) (hm : ∀ a b, Le a b → Le (g.app a) (g.app b)) (x : Dom I)
    (hx : x ≠ .top) : Le (g.app .sanitized) ((composeAllSanitized g).app x) := by
  cases g with
  | id => exact Or.inl rfl
  | allBottom => exact Or.inl rfl
  | allTop => exact absurd rfl hg
  | allSanitized => exact Or.inl rfl
  | const v => exact Or.inl rfl
  | other f =>
    have hm : ∀ a b, Le a b → Le (f a) (f b) := hm
    have hle : Le Dom.sanitized x := by
      cases x <;> simp [Le, level] at hx ⊢
    have hxs := hm _ _ hle
    show Le (f .sanitized) _
    cases hf : f .sanitized with
    | bot => exact Or.inl (by simp [composeAllSanitized, hf, Fn.app])
    | top => exact Or.inl (by simp [composeAllSanitized, hf, Fn.app])
    | sanitized => exact Or.inl (by simp [composeAllSanitized, hf, Fn.app])
    | unsani => rw [hf] at hxs; simpa [composeAllSanitized, hf, Fn.app] using hxs
    | sani s => rw [hf] at hxs; simpa [composeAllSanitized, hf, Fn.app] using hxs

/-! ## What is false -/

/-- The join is not commutative: instruction 2 is the first of the block after instruction 0, and the result is always the
second argument. -/
theorem C40_comm_false : join C40.G0 false (.sani 0) (.sani 2) = .sani 2 ∧ join C40.G0 false (.sani 2) (.sani 0) = .sani 0 := by
  decide

/-- Hence joining the same two values alternately never settles: each join replaces the value by the other one, and the
solver, which continues while values change, has no bound on the number of changes. -/
theorem C40_oscillates_false : ∀ n : Nat,
    ((List.replicate n [Dom.sani 0, Dom.sani 2]).flatten.foldl (join C40.G0 false) (.sani 2)) = .sani 2 ∧
    join C40.G0 false (.sani 2) (.sani 0) = .sani 0 := by
  intro n
  refine ⟨?_, by decide⟩
  induction n with
  | zero => rfl
  | succ n ih =>
    rw [List.replicate_succ, List.flatten_cons, List.foldl_append]
    have : [Dom.sani 0, Dom.sani 2].foldl (join C40.G0 false) (.sani 2) = .sani 2 := by decide
    rw [this, ih]

/-- The join is not associative: at a merge of three sanitized branches the result depends on the grouping. -/
theorem C40_assoc_false :
    join C40.G0 false (join C40.G0 false (.sani 0) (.sani 1)) (.sani 3) = .sani 3 ∧
    join C40.G0 false (.sani 0) (join C40.G0 false (.sani 1) (.sani 3)) = .sani 2 := by decide

/-- Two edges from one block to the same successor (a switch) make the join non-commutative as well. -/
theorem C40_comm_switch_false :
    let G : Prog Nat := ⟨fun _ => 0, fun i => if i = 0 then [2, 2] else if i = 1 then [2] else [], fun _ _ => false⟩
    join G false (.sani 0) (.sani 1) = .sani 2 ∧ join G false (.sani 1) (.sani 0) = .unsani := by decide

/-- The transfer function maps top to "not sanitized" although it maps the larger value "sanitized" to a sanitizer. -/
theorem C40_transfer_top_false :
    Le (Dom.top : Dom Nat) .sanitized ∧
    ¬ Le (transfer C40.G0 none (some 4) .top) (transfer C40.G0 none (some 4) .sanitized) := by
  refine ⟨Or.inr (by decide), ?_⟩
  rintro (h | h)
  · exact absurd h (by decide)
  · exact absurd h (by decide)

/-- Transfer functions with different loads compare equal although they differ: 0 comes before 5 but not before 6. -/
theorem C40_transfer_eq_false :
    transferEq (some 5) (some 4) (some 6) (some 4) = true ∧
    transfer C40.G0 (some 5) (some 4) (.sani 0) ≠ transfer C40.G0 (some 6) (some 4) (.sani 0) := by decide

/-- `AllSanitized` followed by all-top is not all-top; and followed by a transfer function it is that transfer function, which
does not ignore its argument. -/
theorem C40_compose_false :
    (composeAllSanitized (.allTop : Fn Nat)).app .unsani ≠ (.allTop : Fn Nat).app .sanitized ∧
    (composeAllSanitized (.other (transfer C40.G0 none (some 4)))).app .unsani ≠ transfer C40.G0 none (some 4) .sanitized := by
  decide

/-! ## Non-vacuity -/

example : join C40.G0 false (.sani 0) (.sani 1) = .sani 2 := by decide
example : ∀ s t, (Dom.sani 0 : Dom Nat) = .sani s → (Dom.sani 1 : Dom Nat) = .sani t →
    t ∉ C40.G0.succ s ∧ s ∉ C40.G0.succ t ∧ (C40.G0.succ s).Nodup ∧ (C40.G0.succ t).Nodup := by
  intro s t hs ht
  cases hs; cases ht
  decide
example : ∀ s t, C40.G0.before s t = true → C40.G0.before t s = false := by
  intro s t h
  simp [C40.G0] at h ⊢
  omega
example : Unsanitized (join C40.G0 false (.sani 0) .unsani) := Or.inl (by decide)
example : suppressed C40.G0 (some (.sani 0)) (some 5) = true := by decide
example : Le (kill C40.G0 (some 5) .sanitized) (kill C40.G0 (some 5) (.sani 3)) := Or.inr (by decide)
example : Le (transfer C40.G0 (some 5) (some 4) .sanitized) (transfer C40.G0 (some 5) (some 4) (.sani 3)) :=
  Or.inr (by decide)
example : kill C40.G0 (some 5) (.sani 0) = .sanitized := by decide
example : ∀ a b, Le a b → Le ((Fn.other (kill C40.G0 (some 5))).app a) ((Fn.other (kill C40.G0 (some 5))).app b) :=
  fun a b h => C40_kill_monotone C40.G0 (some 5) a b h

end Phasar.XTaint
