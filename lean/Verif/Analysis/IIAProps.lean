import Verif.Analysis.IIA
/-!
# Property C37: the edge functions of the instruction interaction analysis
-/
namespace Phasar.IIA
open JoinLat

theorem C37.ji (a b : Labels) : joinImpl a b = join a b := rfl

/-- Labels are never lost: position `i` is in the union if it is in one of the sets (the join is the union of the sets). -/
theorem C37_union (a b i : Nat) : (∃ u, joinImpl (.set a) (.set b) = .set u ∧ (u.testBit i = true ↔ a.testBit i = true ∨ b.testBit i = true)) :=
  ⟨a ||| b, rfl, by rw [Nat.testBit_or, Bool.or_eq_true]⟩

/-- C37: `extend` is composition of functions, unless the first function is `AllTop`; it never aborts. -/
theorem C37_extend (f g : EF) (hf : f ≠ .allTop) : ∃ h, f.extend g = some h ∧ ∀ x, h.ap x = g.ap (f.ap x) := by
  cases f <;> cases g <;>
    simp [EF.extend, EF.defaultCompose, EF.isConstant, EF.getData, EF.ap] at hf ⊢
  · intro _; exact (bottom_join (L := Labels) _).symm
  · intro x; exact (join_assoc x _ _).symm

/-- With `AllTop` first, `extend` over-approximates the composition. -/
theorem C37_extend_top (g : EF) : ∃ h, EF.allTop.extend g = some h ∧ ∀ x, g.ap (EF.allTop.ap x) ⊑ h.ap x := by
  cases g <;> refine ⟨_, rfl, fun x => ?_⟩
  · exact le_refl _
  · exact le_refl _
  · exact le_refl _
  · exact le_refl _
  · show joinImpl .top _ ⊑ joinImpl x _
    exact join_mono (top_le x) (le_refl _)

/-- ... strictly: adding labels after `AllTop` is not constant. -/
theorem C37_extend_top_false : EF.allTop.extend (.add (.set 1)) = some (.add (.set 1)) ∧
    (EF.add (.set 1)).ap (.set 2) ≠ (EF.add (.set 1)).ap (EF.allTop.ap (.set 2)) := by decide

theorem C37.extend_ne_top {f g h : EF} (hf : f ≠ .allTop) (hg : g ≠ .allTop) (he : f.extend g = some h) : h ≠ .allTop := by
  cases f <;> cases g <;> simp [EF.extend, EF.defaultCompose, EF.isConstant, EF.getData] at hf hg he <;> subst he <;> simp

/-- C37: along every path the extended jump function maps a value to what the edge functions compute one after the other. -/
theorem C37_path : ∀ (gs : List EF) (f : EF), f ≠ .allTop → (∀ g ∈ gs, g ≠ .allTop) →
    ∃ h, extendAll f gs = some h ∧ ∀ x, h.ap x = gs.foldl (fun v g => g.ap v) (f.ap x) := by
  intro gs
  induction gs with
  | nil => intro f _ _; exact ⟨f, rfl, fun _ => rfl⟩
  | cons g gs ih =>
    intro f hf hg
    obtain ⟨h, h1, h2⟩ := C37_extend f g hf
    obtain ⟨h', h3, h4⟩ := ih h (C37.extend_ne_top hf (hg g (by simp)) h1) (fun g' hg' => hg g' (by simp [hg']))
    refine ⟨h', by simp only [extendAll, h1]; exact h3, fun x => ?_⟩
    rw [h4, h2]; rfl

/-- The combinations that are under-approximated on purpose: joining the identity with a function that forgets labels. -/
def C37.Lossy (f g : EF) : Prop :=
  (f = .id ∧ (g = .allTop ∨ ∃ r, g = .kill r)) ∨ (g = .id ∧ ∃ r, f = .kill r)

/-- C37 (partial): `combine` never aborts and yields an upper bound of both functions.  Missing: joins of the identity with
functions that kill (`C37_combine_false`). -/
theorem C37_combine_partial (f g : EF) (hl : ¬ C37.Lossy f g) :
    ∃ h, f.combine g = some h ∧ ∀ x, f.ap x ⊑ h.ap x ∧ g.ap x ⊑ h.ap x := by
  cases f with
  | id =>
    cases g with
    | id => exact ⟨_, rfl, fun x => ⟨le_refl _, le_refl _⟩⟩
    | allTop => exact absurd (Or.inl ⟨rfl, Or.inl rfl⟩) hl
    | allBottom => exact ⟨_, rfl, fun x => ⟨le_bottom _, le_refl _⟩⟩
    | kill r => exact absurd (Or.inl ⟨rfl, Or.inr ⟨r, rfl⟩⟩) hl
    | add d => exact ⟨_, rfl, fun x => ⟨le_join_left x d, le_refl _⟩⟩
  | allTop => cases g <;> exact ⟨_, rfl, fun x => ⟨top_le _, le_refl _⟩⟩
  | allBottom =>
    cases g <;> exact ⟨_, rfl, fun x => ⟨le_refl _, le_bottom _⟩⟩
  | kill r =>
    cases g with
    | id => exact absurd (Or.inr ⟨rfl, ⟨r, rfl⟩⟩) hl
    | allTop => exact ⟨_, rfl, fun x => ⟨le_refl _, top_le _⟩⟩
    | allBottom => exact ⟨_, rfl, fun x => ⟨le_bottom _, le_refl _⟩⟩
    | kill r' =>
      by_cases h : r' = r
      · subst h
        exact ⟨.kill r', by simp [EF.combine, EF.defaultJoin], fun x => ⟨le_refl _, le_refl _⟩⟩
      · exact ⟨.kill (joinImpl r r'), by simp [EF.combine, EF.defaultJoin, EF.getData, h],
          fun x => ⟨le_join_left r r', le_join_right r r'⟩⟩
    | add d =>
      exact ⟨.add (joinImpl r d), by simp [EF.combine, EF.defaultJoin, EF.getData],
        fun x => ⟨le_trans (le_join_left r d) (le_join_right x _), join_mono (le_refl x) (le_join_right r d)⟩⟩
  | add d =>
    cases g with
    | id => exact ⟨_, rfl, fun x => ⟨le_refl _, le_join_left x d⟩⟩
    | allTop => exact ⟨_, rfl, fun x => ⟨le_refl _, top_le _⟩⟩
    | allBottom => exact ⟨_, rfl, fun x => ⟨le_bottom _, le_refl _⟩⟩
    | kill r =>
      exact ⟨.add (joinImpl d r), by simp [EF.combine, EF.defaultJoin, EF.getData],
        fun x => ⟨join_mono (le_refl x) (le_join_left d r), le_trans (le_join_right d r) (le_join_right x _)⟩⟩
    | add d' =>
      by_cases h : d' = d
      · subst h
        exact ⟨.add d', by simp [EF.combine, EF.defaultJoin], fun x => ⟨le_refl _, le_refl _⟩⟩
      · exact ⟨.add (joinImpl d d'), by simp [EF.combine, EF.defaultJoin, EF.getData, h],
          fun x => ⟨join_mono (le_refl x) (le_join_left d d'), join_mono (le_refl x) (le_join_right d d')⟩⟩

/-- `combine` never aborts. -/
theorem C37_combine_total (f g : EF) : (f.combine g).isSome := by
  cases f <;> cases g <;> simp [EF.combine, EF.defaultJoin, EF.getData] <;> split <;> simp

/-- Two functions of the same kind are joined exactly. -/
theorem C37_combine_exact (a b : Labels) :
    (∃ h, (EF.kill a).combine (.kill b) = some h ∧ ∀ x, h.ap x = join ((EF.kill a).ap x) ((EF.kill b).ap x)) ∧
    (∃ h, (EF.add a).combine (.add b) = some h ∧ ∀ x, h.ap x = join ((EF.add a).ap x) ((EF.add b).ap x)) := by
  constructor
  · by_cases h : b = a
    · subst h
      exact ⟨.kill b, by simp [EF.combine, EF.defaultJoin], fun x => (join_idem _).symm⟩
    · exact ⟨.kill (joinImpl a b), by simp [EF.combine, EF.defaultJoin, EF.getData, h], fun x => rfl⟩
  · by_cases h : b = a
    · subst h
      exact ⟨.add b, by simp [EF.combine, EF.defaultJoin], fun x => (join_idem _).symm⟩
    · refine ⟨.add (joinImpl a b), by simp [EF.combine, EF.defaultJoin, EF.getData, h], fun x => ?_⟩
      show join x (join a b) = join (join x a) (join x b)
      rw [join_assoc x a, ← join_assoc a x b, join_comm a x, join_assoc x a b, ← join_assoc x x, join_idem]

/-- The order of two functions does not matter, apart from the identity and `AllTop`. -/
theorem C37_combine_comm (f g : EF) (h1 : ¬ (f = .id ∧ g = .allTop)) (h2 : ¬ (f = .allTop ∧ g = .id)) :
    f.combine g = g.combine f := by
  cases f <;> cases g <;> simp [EF.combine, EF.defaultJoin, EF.getData, C37.ji] at h1 h2 ⊢ <;>
    first
      | exact join_comm _ _
      | (rename_i a b
         by_cases h : a = b
         · subst h; simp
         · simp [h, Ne.symm h]; exact join_comm _ _)

/-- Joining the identity with a function that kills labels is not an upper bound: the labels that the identity passes are
lost (line 1066 of the source says so).  With `AllTop` the result even depends on the order. -/
theorem C37_combine_false :
    EF.id.combine (.kill (.set 0)) = some (.kill (.set 0)) ∧ (EF.kill (.set 0)).combine .id = some (.kill (.set 0)) ∧
    ¬ (EF.id.ap (.set 1) ⊑ (EF.kill (.set 0)).ap (.set 1)) ∧
    EF.id.combine .allTop = some .allTop ∧ EF.allTop.combine .id = some .id := by
  refine ⟨rfl, rfl, ?_, rfl, rfl⟩
  show ¬ (joinImpl _ _ = _)
  decide

/-- C37: joining the functions of any number of paths that are of the same kind is the join of their results: with functions
that add labels the labels of all paths are added, with functions that replace labels the result is the union. -/
theorem C37_joins_partial (gs : List Labels) (a : Labels) :
    (∃ h, combineAll (.add a) (gs.map .add) = some h ∧ ∀ x, h.ap x = gs.foldl (fun v g => join v ((EF.add g).ap x)) ((EF.add a).ap x)) ∧
    (∃ h, combineAll (.kill a) (gs.map .kill) = some h ∧
      ∀ x, h.ap x = gs.foldl (fun v g => join v ((EF.kill g).ap x)) ((EF.kill a).ap x)) := by
  have hadd : ∀ a b : Labels, ∃ c, (EF.add a).combine (.add b) = some (.add c) ∧ ∀ x, joinImpl x c = join (joinImpl x a) (joinImpl x b) := by
    intro a b
    obtain ⟨h, h1, h2⟩ := (C37_combine_exact a b).2
    by_cases e : b = a
    · subst e; simp [EF.combine, EF.defaultJoin] at h1 ⊢; subst h1; exact h2
    · simp [EF.combine, EF.defaultJoin, EF.getData, e] at h1 ⊢; subst h1; exact h2
  have hkill : ∀ a b : Labels, (EF.kill a).combine (.kill b) = some (.kill (join a b)) := by
    intro a b
    by_cases e : b = a
    · subst e; simp [EF.combine, EF.defaultJoin, join_idem]
    · simp [EF.combine, EF.defaultJoin, EF.getData, e]; rfl
  constructor
  · induction gs generalizing a with
    | nil => exact ⟨_, rfl, fun _ => rfl⟩
    | cons g gs ih =>
      obtain ⟨c, h1, h2⟩ := hadd a g
      obtain ⟨h, h3, h4⟩ := ih c
      refine ⟨h, ?_, fun x => ?_⟩
      · rw [List.map_cons, combineAll, h1]; exact h3
      · rw [h4, List.foldl_cons]
        show List.foldl _ (joinImpl x c) gs = _
        rw [h2]; rfl
  · induction gs generalizing a with
    | nil => exact ⟨_, rfl, fun _ => rfl⟩
    | cons g gs ih =>
      obtain ⟨h, h3, h4⟩ := ih (join a g)
      refine ⟨h, ?_, fun x => ?_⟩
      · rw [List.map_cons, combineAll, hkill]; exact h3
      · rw [h4]; rfl

/-- Joining never aborts, for any functions. -/
theorem C37_joins_total : ∀ (gs : List EF) (f : EF), (combineAll f gs).isSome := by
  intro gs
  induction gs with
  | nil => intro f; rfl
  | cons g gs ih =>
    intro f
    unfold combineAll
    have := C37_combine_total f g
    split
    · exact ih _
    · rename_i h; rw [h] at this; cases this

example : combineAll (.add (.set 1)) [.add (.set 2), .add (.set 4)] = some (.add (.set 7)) := by decide

theorem C37.mono (f : EF) (x y : Labels) (h : x ⊑ y) : f.ap x ⊑ f.ap y := by
  cases f with
  | id => exact h
  | add d => exact join_mono h (le_refl d)
  | _ => exact le_refl _

/-- C37: the edge functions are monotone. -/
theorem C37_monotone (f : EF) (x y : Labels) (h : x ⊑ y) : f.ap x ⊑ f.ap y := C37.mono f x y h

/-- C37: the edge functions are distributive. -/
theorem C37_distributive (f : EF) (x y : Labels) : f.ap (join x y) = join (f.ap x) (f.ap y) := by
  cases f with
  | id => rfl
  | allTop => rfl
  | allBottom => rfl
  | kill r => exact (join_idem r).symm
  | add d =>
    show join (join x y) d = join (join x d) (join y d)
    rw [join_assoc x d, ← join_assoc d y d, join_comm d y, join_assoc y d d, join_idem, join_assoc]

example : ∃ h, extendAll .id [.add (.set 1), .kill (.set 4), .add (.set 2)] = some h ∧ h = .kill (.set 6) ∧
    h.ap (.set 8) = .set 6 := ⟨_, rfl, rfl, rfl⟩

example : ∃ h, (EF.kill (.set 1)).combine (.add (.set 2)) = some h ∧ h = .add (.set 3) ∧ ¬ C37.Lossy (.kill (.set 1)) (.add (.set 2)) :=
  ⟨_, rfl, rfl, by simp [C37.Lossy]⟩

end Phasar.IIA
