import Verif.DB.SlotTracker
/-! # C62: a module's slot tracker lives as long as its owners -/
namespace Phasar.DB

variable {M : Type} [DecidableEq M]

theorem C62.inv (isNull : M → Bool) (os : List (MOp M)) (hl : Legal isNull os) (hu : ∀ m, MOp.update m ∉ os) :
    ∃ t, mrun isNull os = some t ∧ (∀ m, isNull m = false → t m = if owners m os = 0 then none else some (some (some (owners m os)))) ∧
      ∀ m, isNull m = true → owners m os = 0 ∧ (t m = none ∨ t m = some (some (some 1))) := by
  induction os with
  | nil => exact ⟨_, rfl, fun _ _ => rfl, fun _ _ => ⟨rfl, .inl rfl⟩⟩
  | cons o os ih =>
    have hu' : ∀ m, MOp.update m ∉ os := fun m h => hu m (List.mem_cons_of_mem _ h)
    cases o with
    | create m =>
      obtain ⟨t, h1, h2, h3⟩ := ih hl.2 hu'
      have hm := h2 m hl.1
      have key : setMST t m = some (t.set m (some (some (some (owners m os + 1))))) := by
        unfold setMST
        by_cases h0 : owners m os = 0
        · rw [hm, if_pos h0, h0]
        · rw [hm, if_neg h0]
      refine ⟨t.set m (some (some (some (owners m os + 1)))), by simp [mrun, h1, mstep, key], fun n hn => ?_, fun n hn => ?_⟩
      · by_cases e : n = m
        · subst e; simp [MST.set, owners]
        · have e' : ¬ m = n := fun h => e h.symm
          simp [MST.set, owners, e, e', h2 n hn]
      · have e : n ≠ m := fun h => by subst h; rw [hl.1] at hn; cases hn
        have e' : ¬ m = n := fun h => e h.symm
        simpa [MST.set, owners, e, e'] using h3 n hn
    | destroy m =>
      obtain ⟨t, h1, h2, h3⟩ := ih hl.2.2 hu'
      have hm := h2 m hl.1
      have hp := hl.2.1
      have key : deleteMST t m = some (t.set m (if owners m os - 1 = 0 then none else some (some (some (owners m os - 1))))) := by
        unfold deleteMST
        rw [hm, if_neg (by omega)]
        dsimp only
        split <;> rfl
      refine ⟨_, by simp [mrun, h1, mstep, key]; rfl, fun n hn => ?_, fun n hn => ?_⟩
      · by_cases e : n = m
        · subst e; simp [MST.set, owners]
        · have e' : ¬ m = n := fun h => e h.symm
          simp [MST.set, owners, e, e', h2 n hn]
      · have e : n ≠ m := fun h => by subst h; rw [hl.1] at hn; cases hn
        have e' : ¬ m = n := fun h => e h.symm
        simpa [MST.set, owners, e, e'] using h3 n hn
    | update m => exact absurd List.mem_cons_self (hu m)
    | get m =>
      obtain ⟨t, h1, h2, h3⟩ := ih hl.2 hu'
      cases hn : isNull m with
      | false =>
        have hp : 0 < owners m os := by
          rcases hl.1 with h | h
          · rw [hn] at h; cases h
          · exact h
        have hm := h2 m hn
        rw [if_neg (by omega)] at hm
        exact ⟨t, by simp [mrun, h1, mstep, getSlotTracker, hm], h2, h3⟩
      | true =>
        obtain ⟨h0, hm | hm⟩ := h3 m hn
        · refine ⟨t.set m (some (some (some 1))), by simp [mrun, h1, mstep, getSlotTracker, hm, hn], fun k hk => ?_, fun k hk => ?_⟩
          · have e : k ≠ m := fun h => by subst h; rw [hk] at hn; cases hn
            refine Eq.trans ?_ (h2 k hk)
            simp [MST.set, e]
          · by_cases e : k = m
            · subst e; exact ⟨h0, .inr (by simp [MST.set])⟩
            · simpa [MST.set, owners, e] using h3 k hk
        · exact ⟨t, by simp [mrun, h1, mstep, getSlotTracker, hm], h2, h3⟩

/-- C62: without updates, every call of every history succeeds, and a module has a tracker exactly while one of its owners lives:
values can be printed until the last database of the module is gone, and nothing is kept after that. -/
theorem C62_lifetime_partial (isNull : M → Bool) (os : List (MOp M)) (hl : Legal isNull os) (hu : ∀ m, MOp.update m ∉ os) :
    ∃ t, mrun isNull os = some t ∧ ∀ m, isNull m = false → ((t m).isSome = true ↔ 0 < owners m os) := by
  obtain ⟨t, h1, h2, _⟩ := C62.inv isNull os hl hu
  refine ⟨t, h1, fun m hm => ?_⟩
  rw [h2 m hm]
  split
  · simp; omega
  · simp; omega

/-- C62: updates keep the tracker usable, until the reference count is looked at: whatever happens to other modules and however
often the tracker is used or updated, it is there. -/
theorem C62_update_get (isNull : M → Bool) (t : MST M) (m : M) (c : Option Nat) (h : t m = some (some c)) :
    ∃ t', updateMST t m = some t' ∧ t' m = some (some none) ∧ (∀ n, n ≠ m → t' n = t n) ∧
      getSlotTracker isNull t' m = some t' ∧ updateMST t' m = some t' := by
  have hs : t.set m (some (some none)) m = some (some none) := by simp [MST.set]
  refine ⟨t.set m (some (some none)), by simp [updateMST, h], hs, fun n hn => by simp [MST.set, hn], ?_, ?_⟩
  · unfold getSlotTracker; rw [hs]
  · unfold updateMST; rw [hs]
    simp only [Option.some.injEq]
    funext n
    by_cases e : n = m
    · simp [MST.set, e]
    · simp [MST.set, e]

/-- C62 is false with updates: after any update, the next creation or destruction of a database of the module reads a reference
count that no longer exists. -/
theorem C62_update_false (t t' : MST M) (m : M) (h : updateMST t m = some t') : setMST t' m = none ∧ deleteMST t' m = none := by
  unfold updateMST at h
  split at h
  · simp only [Option.some.injEq] at h
    subst h
    simp [setMST, deleteMST, MST.set]
  · cases h

/-- C62: so the history of every database for which the model of the global constructors is built - created, updated,
destroyed - is undefined, although it is legal. -/
theorem C62_history_false : Legal (fun m => m == 0) [MOp.destroy 1, .update 1, .create 1] ∧
    mrun (fun m => m == 0) [MOp.destroy 1, .update 1, .create 1] = none := by
  refine ⟨by simp [Legal, owners], rfl⟩

/-! ### The hypotheses can be met: two databases of a module, one of another, the null module, a module address used again -/

/-- The history. -/
def C62.ops : List (MOp Nat) :=
  [.get 1, .create 1, .get 0, .destroy 1, .get 1, .destroy 1, .get 2, .get 0, .create 2, .get 1, .create 1, .create 1]

theorem C62.ops_legal : Legal (fun m => m == 0) C62.ops := by simp [C62.ops, Legal, owners]

example := C62_lifetime_partial (fun m => m == 0) C62.ops C62.ops_legal (by simp [C62.ops])

example : ((mrun (fun m => m == 0) C62.ops).map (fun t => (t 0, t 1, t 2, t 3))) =
    some (some (some (some 1)), some (some (some 1)), some (some (some 1)), none) := rfl

example := C62_update_get (fun m => m == 0) (fun _ => some (some (some 1))) 3 (some 1) rfl

end Phasar.DB
