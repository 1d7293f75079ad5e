import Verif.EdgeFn.Model
import Verif.IDE.Termination
/-!
# Lemmas about the built-in edge functions
-/
set_option linter.unusedSectionVars false
namespace Phasar
open JoinLat
namespace EF
variable {P L : Type} [JoinLat L] [DecidableEq P] [DecidableEq L]

/-- The handle comparison never ties on functions that are not `operator==`-equal
(`EdgeFunction.h:546-553`: it compares address and type tag, which determine the function). -/
def NoTies (lt : EF P L → EF P L → Bool) : Prop :=
  ∀ a b, lt a b = false → lt b a = false → a = b

/-! ## computeTarget -/

theorem foldl_bottom (c : EFCfg P L) (fs : List (EF P L)) (x : L) :
    fs.foldl (fun v f => join v (ap c f x)) bottom = bottom := by
  induction fs with
  | nil => rfl
  | cons f fs ih => simp [bottom_join, ih]

theorem apJoin_eq (c : EFCfg P L) : ∀ (fs : EFs P L) (v x : L),
    apJoin c fs v x = fs.toList.foldl (fun v f => join v (ap c f x)) v
  | .nil, v, x => rfl
  | .cons f fs, v, x => by
    simp only [apJoin, EFs.toList, List.foldl_cons]
    split
    · rename_i h; rw [h, foldl_bottom]
    · exact apJoin_eq c fs _ x

theorem le_foldl (c : EFCfg P L) (fs : List (EF P L)) (v x : L) :
    v ⊑ fs.foldl (fun v f => join v (ap c f x)) v := by
  induction fs generalizing v with
  | nil => exact le_refl v
  | cons f fs ih => exact le_trans (le_join_left _ _) (ih _)

theorem mem_le_foldl (c : EFCfg P L) {fs : List (EF P L)} {f : EF P L} (h : f ∈ fs) (v x : L) :
    ap c f x ⊑ fs.foldl (fun v f => join v (ap c f x)) v := by
  induction fs generalizing v with
  | nil => cases h
  | cons g fs ih =>
    rcases List.mem_cons.1 h with rfl | h
    · exact le_trans (le_join_right _ _) (le_foldl c fs _ x)
    · exact ih h _

theorem foldl_le (c : EFCfg P L) {fs : List (EF P L)} {v x u : L} (hv : v ⊑ u)
    (h : ∀ f ∈ fs, ap c f x ⊑ u) : fs.foldl (fun v f => join v (ap c f x)) v ⊑ u := by
  induction fs generalizing v with
  | nil => exact hv
  | cons f fs ih =>
    exact ih (join_le hv (h f List.mem_cons_self)) fun g hg => h g (List.mem_cons_of_mem _ hg)

mutual
theorem ap_mono (c : EFCfg P L) (hm : ∀ p x y, x ⊑ y → c.pap p x ⊑ c.pap p y) :
    ∀ (f : EF P L) (x y : L), x ⊑ y → ap c f x ⊑ ap c f y
  | .id, x, y, h => h
  | .allBottom, x, y, h => le_refl _
  | .allTop, x, y, h => le_refl _
  | .const v, x, y, h => le_refl _
  | .prim p, x, y, h => hm p x y h
  | .comp f g, x, y, h => ap_mono c hm g _ _ (ap_mono c hm f x y h)
  | .joinEF s ms, x, y, h => by
    simp only [ap]
    exact apJoin_mono c hm ms s s x y (le_refl _) h
theorem apJoin_mono (c : EFCfg P L) (hm : ∀ p x y, x ⊑ y → c.pap p x ⊑ c.pap p y) :
    ∀ (fs : EFs P L) (v w x y : L), v ⊑ w → x ⊑ y → apJoin c fs v x ⊑ apJoin c fs w y
  | .nil, v, w, x, y, h, _ => h
  | .cons f fs, v, w, x, y, h, hx => by
    rw [apJoin_eq, apJoin_eq]
    simp only [EFs.toList, List.foldl_cons]
    rw [← apJoin_eq, ← apJoin_eq]
    exact apJoin_mono c hm fs _ _ x y (join_mono h (ap_mono c hm f x y hx)) hx
end

theorem isConstant_ap (c : EFCfg P L) {f : EF P L} (h : f.isConstant = true) (x y : L) :
    ap c f x = ap c f y := by
  cases f <;> simp_all [isConstant, ap]

/-! ## compose -/

theorem defaultCompose_ap (c : EFCfg P L) {f g r : EF P L} (h : defaultComposeOrNull f g = some r)
    (x : L) : ap c r x = ap c g (ap c f x) := by
  unfold defaultComposeOrNull at h
  split at h
  · rename_i hg; cases h; rw [hg]; rfl
  · split at h
    · rename_i hg; cases h; exact isConstant_ap c hg _ _
    · cases h

theorem constCompose_ap (c : EFCfg P L) (v : L) (g : EF P L) (x : L) :
    ap c (compose c (.const v) g) x = ap c g v := by
  simp only [compose]
  split
  · rename_i r hr; exact defaultCompose_ap c hr x
  · split
    · rename_i h; simp only [ap]; exact h.2.symm
    · split
      · rename_i h; simp only [ap]; exact h
      · split
        · rename_i h; simp only [ap]; exact h
        · rfl

theorem compose_over (c : EFCfg P L) (hm : ∀ p x y, x ⊑ y → c.pap p x ⊑ c.pap p y) (f : EF P L) :
    ∀ (g : EF P L) (x : L), ap c g (ap c f x) ⊑ ap c (compose c f g) x := by
  match f with
  | .id => intro g x; exact le_refl _
  | .allBottom =>
    intro g x
    simp only [compose]
    split
    · rename_i h; exact le_of_eq (isConstant_ap c h _ _)
    · exact le_bottom _
  | .allTop =>
    intro g x
    simp only [compose]
    split
    · rename_i h; rw [h]; exact le_refl _
    · exact ap_mono c hm g _ _ (top_le _)
  | .const v => intro g x; exact le_of_eq (constCompose_ap c v g x).symm
  | .prim p =>
    intro g x
    simp only [compose]
    split
    · rename_i r hr; exact le_of_eq (defaultCompose_ap c hr x).symm
    · exact le_refl _
  | .comp a b =>
    intro g x
    simp only [compose]
    split
    · rename_i r hr; exact le_of_eq (defaultCompose_ap c hr x).symm
    · simp only [ap]
      exact le_trans (compose_over c hm b g _) (compose_over c hm a _ x)
  | .joinEF s ms =>
    intro g x
    simp only [compose]
    split
    · rename_i r hr; exact le_of_eq (defaultCompose_ap c hr x).symm
    · exact le_refl _

/-- No composer contains all-top or all-bottom as its first part (the composers that `compose`
builds never do). -/
def Proper : EF P L → Prop
  | .comp a b => Proper a ∧ Proper b ∧ a ≠ .allTop ∧ a ≠ .allBottom ∧ b ≠ .allTop ∧ b ≠ .allBottom
  | _ => True

theorem compose_exact (c : EFCfg P L) (f : EF P L) : ∀ (_ : Proper f) (_ : f ≠ .allTop)
    (_ : f ≠ .allBottom) (g : EF P L) (x : L), ap c (compose c f g) x = ap c g (ap c f x) := by
  match f with
  | .id => intro _ _ _ g x; rfl
  | .allBottom => intro _ _ h; exact absurd rfl h
  | .allTop => intro _ h; exact absurd rfl h
  | .const v => intro _ _ _ g x; exact constCompose_ap c v g x
  | .prim p =>
    intro _ _ _ g x
    simp only [compose]
    split
    · rename_i r hr; exact defaultCompose_ap c hr x
    · rfl
  | .comp a b =>
    intro hp _ _ g x
    obtain ⟨ha, hb, ha1, ha2, hb1, hb2⟩ := hp
    simp only [compose]
    split
    · rename_i r hr; exact defaultCompose_ap c hr x
    · simp only [ap]
      rw [compose_exact c a ha ha1 ha2, compose_exact c b hb hb1 hb2]
  | .joinEF s ms =>
    intro _ _ _ g x
    simp only [compose]
    split
    · rename_i r hr; exact defaultCompose_ap c hr x
    · rfl

theorem defaultCompose_proper {f g r : EF P L} (hf : Proper f) (hg : Proper g)
    (h : defaultComposeOrNull f g = some r) : Proper r := by
  unfold defaultComposeOrNull at h
  split at h
  · cases h; exact hf
  · split at h
    · cases h; exact hg
    · cases h

theorem not_const_ne {g : EF P L} {f : EF P L} (h : defaultComposeOrNull f g = none) :
    g ≠ .allTop ∧ g ≠ .allBottom ∧ g ≠ .id ∧ g.isConstant = false := by
  unfold defaultComposeOrNull at h
  split at h
  · cases h
  · split at h
    · cases h
    · rename_i h1 h2
      refine ⟨?_, ?_, h1, by simpa using h2⟩ <;> (rintro rfl; exact h2 rfl)

theorem compose_proper (c : EFCfg P L) (f : EF P L) : ∀ (_ : Proper f) (g : EF P L) (_ : Proper g),
    Proper (compose c f g) := by
  match f with
  | .id => intro _ g hg; exact hg
  | .allBottom => intro _ g hg; simp only [compose]; split <;> trivial
  | .allTop => intro _ g hg; simp only [compose]; split <;> trivial
  | .const v =>
    intro hf g hg
    simp only [compose]
    split
    · rename_i r hr; exact defaultCompose_proper hf hg hr
    · repeat' split
      all_goals trivial
  | .prim p =>
    intro hf g hg
    simp only [compose]
    split
    · rename_i r hr; exact defaultCompose_proper hf hg hr
    · rename_i h
      obtain ⟨h1, h2, _⟩ := not_const_ne h
      exact ⟨trivial, hg, by simp, by simp, h1, h2⟩
  | .comp a b =>
    intro hf g hg
    simp only [compose]
    split
    · rename_i r hr; exact defaultCompose_proper hf hg hr
    · exact compose_proper c a hf.1 _ (compose_proper c b hf.2.1 g hg)
  | .joinEF s ms =>
    intro hf g hg
    simp only [compose]
    split
    · rename_i r hr; exact defaultCompose_proper hf hg hr
    · rename_i h
      obtain ⟨h1, h2, _⟩ := not_const_ne h
      exact ⟨trivial, hg, by simp, by simp, h1, h2⟩

/-! ## set_union -/

theorem setUnion_nil (lt : EF P L → EF P L → Bool) (l : List (EF P L)) : setUnion lt l [] = l := by
  induction l with
  | nil => rfl
  | cons a l ih => simp [setUnion, mergeInto, ih]

theorem mem_mergeInto_left {lt : EF P L → EF P L → Bool} {a x : EF P L}
    {k : List (EF P L) → List (EF P L)} (hk : ∀ r, x = a ∨ x ∈ k r) (r : List (EF P L)) :
    x ∈ mergeInto lt a k r := by
  induction r with
  | nil => simp only [mergeInto, List.mem_cons]; exact hk []
  | cons b r ih =>
    simp only [mergeInto]
    split
    · rw [List.mem_cons]; exact hk _
    · split
      · exact List.mem_cons_of_mem _ ih
      · rw [List.mem_cons]; exact hk _

theorem mem_setUnion_left {lt : EF P L → EF P L → Bool} {x : EF P L} {l : List (EF P L)}
    (h : x ∈ l) : ∀ r, x ∈ setUnion lt l r := by
  induction l with
  | nil => cases h
  | cons a l ih =>
    intro r
    simp only [setUnion]
    refine mem_mergeInto_left (fun r => ?_) r
    rcases List.mem_cons.1 h with h | h
    · exact .inl h
    · exact .inr (ih h r)

theorem mem_mergeInto_right {lt : EF P L → EF P L → Bool} (hlt : NoTies lt) {a x : EF P L}
    {k : List (EF P L) → List (EF P L)} (hk : ∀ r, x ∈ r → x ∈ k r) {r : List (EF P L)}
    (h : x ∈ r) : x ∈ mergeInto lt a k r := by
  induction r with
  | nil => cases h
  | cons b r ih =>
    simp only [mergeInto]
    split
    · exact List.mem_cons_of_mem _ (hk _ h)
    · rename_i h1
      split
      · rcases List.mem_cons.1 h with h | h
        · rw [h]; exact List.mem_cons_self
        · exact List.mem_cons_of_mem _ (ih h)
      · rename_i h2
        rcases List.mem_cons.1 h with h | h
        · rw [h, hlt a b (by simpa using h1) (by simpa using h2)]; exact List.mem_cons_self
        · exact List.mem_cons_of_mem _ (hk _ h)

theorem mem_setUnion_right {lt : EF P L → EF P L → Bool} (hlt : NoTies lt) {x : EF P L}
    (l : List (EF P L)) : ∀ r, x ∈ r → x ∈ setUnion lt l r := by
  induction l with
  | nil => intro r h; exact h
  | cons a l ih => intro r h; exact mem_mergeInto_right hlt ih h

theorem mem_mergeInto {lt : EF P L → EF P L → Bool} {a x : EF P L} {l : List (EF P L)}
    {k : List (EF P L) → List (EF P L)} (hk : ∀ r, x ∈ k r → x ∈ l ∨ x ∈ r) {r : List (EF P L)}
    (h : x ∈ mergeInto lt a k r) : x ∈ a :: l ∨ x ∈ r := by
  induction r with
  | nil =>
    simp only [mergeInto, List.mem_cons] at h ⊢
    rcases h with h | h
    · exact .inl (.inl h)
    · rcases hk [] h with h | h
      · exact .inl (.inr h)
      · cases h
  | cons b r ih =>
    simp only [mergeInto] at h
    split at h
    · rcases List.mem_cons.1 h with h | h
      · exact .inl (by simp [h])
      · rcases hk _ h with h | h
        · exact .inl (List.mem_cons_of_mem _ h)
        · exact .inr h
    · split at h
      · rcases List.mem_cons.1 h with h | h
        · exact .inr (by simp [h])
        · rcases ih h with h | h
          · exact .inl h
          · exact .inr (List.mem_cons_of_mem _ h)
      · rcases List.mem_cons.1 h with h | h
        · exact .inl (by simp [h])
        · rcases hk _ h with h | h
          · exact .inl (List.mem_cons_of_mem _ h)
          · exact .inr (List.mem_cons_of_mem _ h)

theorem mem_setUnion {lt : EF P L → EF P L → Bool} {x : EF P L} (l : List (EF P L)) :
    ∀ r, x ∈ setUnion lt l r → x ∈ l ∨ x ∈ r := by
  induction l with
  | nil => intro r h; exact .inr h
  | cons a l ih => intro r h; exact mem_mergeInto ih h

/-- The union is at least as long as its first range, and equal to it if it is not longer. -/
theorem setUnion_length (lt : EF P L → EF P L → Bool) (l : List (EF P L)) : ∀ r,
    l.length ≤ (setUnion lt l r).length ∧
      ((setUnion lt l r).length = l.length → setUnion lt l r = l) := by
  induction l with
  | nil =>
    intro r
    refine ⟨Nat.zero_le _, fun h => ?_⟩
    exact List.eq_nil_of_length_eq_zero h
  | cons a l ih =>
    intro r
    simp only [setUnion]
    induction r with
    | nil =>
      simp only [mergeInto, setUnion_nil]
      simp
    | cons b r ih' =>
      simp only [mergeInto]
      split
      · obtain ⟨h1, h2⟩ := ih (b :: r)
        simp only [List.length_cons]
        refine ⟨by omega, fun h => ?_⟩
        rw [h2 (by omega)]
      · split
        · simp only [List.length_cons] at ih' ⊢
          exact ⟨by omega, fun h => by omega⟩
        · obtain ⟨h1, h2⟩ := ih r
          simp only [List.length_cons]
          refine ⟨by omega, fun h => ?_⟩
          rw [h2 (by omega)]

/-! ## join -/

theorem arrayAndSeed_ap (c : EFCfg P L) (f : EF P L) (x : L) :
    ap c f x = (arrayAndSeed f).1.foldl (fun v g => join v (ap c g x)) (arrayAndSeed f).2 := by
  cases f <;> simp [arrayAndSeed, top_join]
  case joinEF s ms => simp [ap, apJoin_eq]

/-- `g` is pointwise above `f`. -/
def Above (c : EFCfg P L) (f g : EF P L) : Prop := ∀ x, ap c f x ⊑ ap c g x

theorem above_refl (c : EFCfg P L) (f : EF P L) : Above c f f := fun _ => le_refl _
theorem above_bot (c : EFCfg P L) (f : EF P L) : Above c f .allBottom := fun _ => le_bottom _
theorem top_above (c : EFCfg P L) (f : EF P L) : Above c .allTop f := fun _ => top_le _

theorem create_above (c : EFCfg P L) {lt : EF P L → EF P L → Bool} (hlt : NoTies lt) (f g : EF P L) :
    Above c f (create c lt f g) ∧ Above c g (create c lt f g) := by
  unfold create
  dsimp only
  split
  · exact ⟨above_bot c f, above_bot c g⟩
  · split
    · exact ⟨above_bot c f, above_bot c g⟩
    · refine ⟨fun x => ?_, fun x => ?_⟩
      · rw [arrayAndSeed_ap c f x]
        simp only [ap, apJoin_eq, EFs.toList_ofList]
        exact foldl_le c (le_trans (le_join_left _ _) (le_foldl c _ _ x))
          fun h hh => mem_le_foldl c (mem_setUnion_left hh _) _ x
      · rw [arrayAndSeed_ap c g x]
        simp only [ap, apJoin_eq, EFs.toList_ofList]
        exact foldl_le c (le_trans (le_join_right _ _) (le_foldl c _ _ x))
          fun h hh => mem_le_foldl c (mem_setUnion_right hlt _ _ hh) _ x

theorem defaultJoin_above (c : EFCfg P L) {lt : EF P L → EF P L → Bool} (hlt : NoTies lt) {N : Nat}
    {f g r : EF P L} (h : defaultJoinOrNull c lt N f g = some r) : Above c f r ∧ Above c g r := by
  unfold defaultJoinOrNull at h
  split at h
  · rename_i hg; cases h; subst hg; exact ⟨above_bot c _, above_refl c _⟩
  · split at h
    · rename_i hg
      cases h
      rcases hg with rfl | rfl
      · exact ⟨above_refl c _, top_above c _⟩
      · exact ⟨above_refl c _, above_refl c _⟩
    · split at h
      · split at h
        · cases h; exact create_above c hlt f g
        · cases h; exact ⟨above_bot c _, above_bot c _⟩
      · cases h

theorem joinGeneric_above (c : EFCfg P L) {lt : EF P L → EF P L → Bool} (hlt : NoTies lt)
    (f g : EF P L) : Above c f (joinGeneric c lt f g) ∧ Above c g (joinGeneric c lt f g) := by
  unfold joinGeneric
  split
  · split
    · rename_i hg; subst hg; exact ⟨above_bot c _, above_refl c _⟩
    · split
      · rename_i hg
        rcases hg with rfl | rfl
        · exact ⟨above_refl c _, top_above c _⟩
        · exact ⟨above_refl c _, above_refl c _⟩
      · exact create_above c hlt _ _
  · split
    · rename_i r hr; exact defaultJoin_above c hlt hr
    · exact create_above c hlt _ _

theorem joinConst_above (c : EFCfg P L) {lt : EF P L → EF P L → Bool} (hlt : NoTies lt)
    (v : L) (g : EF P L) :
    Above c (.const v) (joinConst c lt v g) ∧ Above c g (joinConst c lt v g) := by
  unfold joinConst
  split
  · rename_i r hr; exact defaultJoin_above c hlt hr
  · split
    · exact ⟨above_bot c _, above_bot c _⟩
    · split
      · exact (joinGeneric_above c hlt g (.const v)).symm
      · rename_i hc
        have hc : g.isConstant = true := by simpa using hc
        dsimp only
        have hg : ∀ x, ap c g x = ap c g top := fun x => isConstant_ap c hc x top
        split
        · exact ⟨above_bot c _, above_bot c _⟩
        · split
          · rename_i h
            refine ⟨fun x => ?_, above_refl c _⟩
            rw [hg x, ← h.2]
            exact le_join_left _ _
          · split
            · rename_i h
              refine ⟨above_refl c _, fun x => ?_⟩
              rw [hg x]
              have := le_join_right v (ap c g top)
              rw [h.2] at this
              exact this
            · refine ⟨fun x => le_join_left _ _, fun x => ?_⟩
              rw [hg x]
              exact le_join_right _ _

theorem joinWith_above (c : EFCfg P L) {lt : EF P L → EF P L → Bool} (hlt : NoTies lt)
    (f g : EF P L) : Above c f (joinWith c lt f g) ∧ Above c g (joinWith c lt f g) := by
  cases f with
  | id =>
    simp only [joinWith]
    split
    · rename_i h
      rcases h with rfl | rfl
      · exact ⟨above_refl c _, above_refl c _⟩
      · exact ⟨above_refl c _, top_above c _⟩
    · split
      · rename_i h; subst h; exact ⟨above_bot c _, above_refl c _⟩
      · split
        · exact (joinConst_above c hlt _ .id).symm
        · exact (joinGeneric_above c hlt _ .id).symm
  | allBottom => exact ⟨above_refl c _, above_bot c _⟩
  | allTop => exact ⟨top_above c _, above_refl c _⟩
  | const v => exact joinConst_above c hlt v g
  | prim p => exact joinGeneric_above c hlt _ g
  | comp a b => exact joinGeneric_above c hlt _ g
  | joinEF s ms => exact joinGeneric_above c hlt _ g

/-! ## precision of the join -/

/-- `r` is pointwise below the join of `f` and `g`. -/
def Below (c : EFCfg P L) (f g r : EF P L) : Prop := ∀ x, ap c r x ⊑ join (ap c f x) (ap c g x)

theorem Below.symm {c : EFCfg P L} {f g r : EF P L} (h : Below c f g r) : Below c g f r :=
  fun x => by rw [join_comm]; exact h x

/-- Number of functions a function counts for in a join: the members of a `JoinEdgeFunction`, else one. -/
def width : EF P L → Nat
  | .joinEF _ ms => ms.toList.length
  | _ => 1

theorem width_eq (f : EF P L) : (arrayAndSeed f).1.length = width f := by
  cases f <;> rfl

theorem mergeInto_length_le (lt : EF P L → EF P L → Bool) (a : EF P L) (n : Nat)
    {k : List (EF P L) → List (EF P L)} (hk : ∀ r, (k r).length ≤ n + r.length) (r : List (EF P L)) :
    (mergeInto lt a k r).length ≤ n + 1 + r.length := by
  induction r with
  | nil => have := hk []; simp only [mergeInto, List.length_cons, List.length_nil] at *; omega
  | cons b r ih =>
    simp only [mergeInto]
    split
    · have := hk (b :: r); simp only [List.length_cons] at *; omega
    · split
      · simp only [List.length_cons] at *; omega
      · have := hk r; simp only [List.length_cons] at *; omega

theorem setUnion_length_le (lt : EF P L → EF P L → Bool) (l : List (EF P L)) : ∀ r,
    (setUnion lt l r).length ≤ l.length + r.length := by
  induction l with
  | nil => intro r; simp [setUnion]
  | cons a l ih => intro r; exact mergeInto_length_le lt a l.length ih r

theorem seed_le (c : EFCfg P L) (f : EF P L) (x : L) : (arrayAndSeed f).2 ⊑ ap c f x := by
  rw [arrayAndSeed_ap]; exact le_foldl c _ _ x

theorem member_le (c : EFCfg P L) {f g : EF P L} (h : g ∈ (arrayAndSeed f).1) (x : L) :
    ap c g x ⊑ ap c f x := by
  rw [arrayAndSeed_ap c f x]; exact mem_le_foldl c h _ x

theorem create_below (c : EFCfg P L) (lt : EF P L → EF P L → Bool) (f g : EF P L)
    (h : width f + width g ≤ c.N) : Below c f g (create c lt f g) := by
  intro x
  unfold create
  dsimp only
  split
  · rename_i hs
    have h1 := join_mono (seed_le c f x) (seed_le c g x)
    rw [hs] at h1
    exact h1
  · split
    · rename_i hl
      have := setUnion_length_le lt (arrayAndSeed f).1 (arrayAndSeed g).1
      rw [width_eq, width_eq] at this
      omega
    · simp only [ap, apJoin_eq, EFs.toList_ofList]
      refine foldl_le c (join_mono (seed_le c f x) (seed_le c g x)) fun k hk => ?_
      rcases mem_setUnion _ _ hk with hk | hk
      · exact le_trans (member_le c hk x) (le_join_left _ _)
      · exact le_trans (member_le c hk x) (le_join_right _ _)

theorem defaultJoin_below (c : EFCfg P L) {lt : EF P L → EF P L → Bool} {N : Nat} {f g r : EF P L}
    (hN : g = .id → 0 < N) (hw : width f + width g ≤ c.N) (h : defaultJoinOrNull c lt N f g = some r) :
    Below c f g r := by
  unfold defaultJoinOrNull at h
  split at h
  · cases h; exact fun x => le_join_right _ _
  · split at h
    · cases h; exact fun x => le_join_left _ _
    · split at h
      · rename_i hid
        rw [if_pos (hN hid)] at h
        cases h; exact create_below c lt _ _ hw
      · cases h

theorem joinGeneric_below (c : EFCfg P L) {lt : EF P L → EF P L → Bool} {f g : EF P L}
    (hw : width f + width g ≤ c.N) : Below c f g (joinGeneric c lt f g) := by
  unfold joinGeneric
  split
  · split
    · exact fun x => le_join_right _ _
    · split
      · exact fun x => le_join_left _ _
      · exact create_below c lt _ _ hw
  · split
    · rename_i r hr
      refine defaultJoin_below c (fun hid => ?_) hw hr
      subst hid
      have : width (.id : EF P L) = 1 := rfl
      omega
    · exact create_below c lt _ _ hw

theorem joinConst_below (c : EFCfg P L) {lt : EF P L → EF P L → Bool} {v : L} {g : EF P L}
    (hid : g ≠ .id) (hw : width (.const v : EF P L) + width g ≤ c.N) :
    Below c (.const v) g (joinConst c lt v g) := by
  unfold joinConst
  split
  · rename_i r hr
    exact defaultJoin_below c (fun h => absurd h hid) hw hr
  · rw [if_neg hid]
    split
    · exact (joinGeneric_below c (by omega)).symm
    · rename_i hc
      have hc : g.isConstant = true := by simpa using hc
      dsimp only
      intro x
      have hg : ap c g x = ap c g top := isConstant_ap c hc x top
      split
      · rename_i h
        rw [hg]
        simp only [ap]
        rw [← h]
        exact le_refl _
      · split
        · exact le_join_right _ _
        · split
          · exact le_join_left _ _
          · rw [hg]; exact le_refl _

theorem joinWith_below (c : EFCfg P L) {lt : EF P L → EF P L → Bool} {f g : EF P L}
    (h1 : ∀ v, f = .const v → g ≠ .id) (h2 : ∀ v, g = .const v → f ≠ .id)
    (hw : width f + width g ≤ c.N) : Below c f g (joinWith c lt f g) := by
  cases f with
  | id =>
    simp only [joinWith]
    split
    · exact fun x => le_join_left _ _
    · split
      · exact fun x => le_join_right _ _
      · split
        · exact absurd rfl (h2 _ rfl)
        · exact (joinGeneric_below c (by omega)).symm
  | allBottom => exact fun x => le_join_left _ _
  | allTop => exact fun x => le_join_right _ _
  | const v => exact joinConst_below c (h1 v rfl) hw
  | prim p => exact joinGeneric_below c hw
  | comp a b => exact joinGeneric_below c hw
  | joinEF s ms => exact joinGeneric_below c hw

/-! ## bound on the number of members -/

/-- Members of top-level `JoinEdgeFunction`s do not exceed the bound. -/
def Bounded (c : EFCfg P L) : EF P L → Prop
  | .joinEF _ ms => ms.toList.length ≤ c.N
  | _ => True

theorem create_bounded (c : EFCfg P L) (lt : EF P L → EF P L → Bool) (f g : EF P L) :
    Bounded c (create c lt f g) := by
  unfold create
  dsimp only
  split
  · trivial
  · split
    · trivial
    · rename_i h
      simp only [Bounded, EFs.toList_ofList]
      omega

theorem defaultJoin_cases (c : EFCfg P L) {lt : EF P L → EF P L → Bool} {N : Nat} {f g r : EF P L}
    (h : defaultJoinOrNull c lt N f g = some r) :
    r = .allBottom ∨ r = f ∨ r = create c lt f g := by
  unfold defaultJoinOrNull at h
  split at h
  · rename_i hg; cases h; exact .inl hg
  · split at h
    · cases h; exact .inr (.inl rfl)
    · split at h
      · split at h
        · cases h; exact .inr (.inr rfl)
        · cases h; exact .inl rfl
      · cases h

theorem joinGeneric_cases (c : EFCfg P L) (lt : EF P L → EF P L → Bool) (f g : EF P L) :
    joinGeneric c lt f g = .allBottom ∨ joinGeneric c lt f g = f ∨
      joinGeneric c lt f g = create c lt f g := by
  unfold joinGeneric
  split
  · split
    · rename_i h; exact .inl h
    · split
      · exact .inr (.inl rfl)
      · exact .inr (.inr rfl)
  · split
    · rename_i r hr; exact defaultJoin_cases c hr
    · exact .inr (.inr rfl)

theorem joinGeneric_bounded (c : EFCfg P L) (lt : EF P L → EF P L → Bool) {f : EF P L} (g : EF P L)
    (hf : Bounded c f) : Bounded c (joinGeneric c lt f g) := by
  rcases joinGeneric_cases c lt f g with h | h | h <;> rw [h]
  · trivial
  · exact hf
  · exact create_bounded c lt f g

theorem joinConst_cases (c : EFCfg P L) (lt : EF P L → EF P L → Bool) (v : L) (g : EF P L) :
    joinConst c lt v g = .allBottom ∨ joinConst c lt v g = .const v ∨
    (∃ w, g = .const w ∧ (joinConst c lt v g = .const (join v w)) ∧ join v w ≠ bottom) ∨
    (g.isConstant = false ∧ g ≠ .id ∧ joinConst c lt v g = joinGeneric c lt g (.const v)) := by
  cases g with
  | id => left; simp [joinConst, defaultJoinOrNull]
  | allBottom => left; simp [joinConst, defaultJoinOrNull]
  | allTop => right; left; simp [joinConst, defaultJoinOrNull]
  | const w =>
    by_cases hw : w = v
    · right; left; simp [joinConst, defaultJoinOrNull, hw]
    · by_cases hb : bottom = join v w
      · left; simp [joinConst, defaultJoinOrNull, hw, isConstant, ap, hb]
      · by_cases h1 : c.soo = false ∧ join v w = w
        · right; right; left
          refine ⟨w, rfl, ?_, fun h => hb h.symm⟩
          rw [h1.2] at hb
          simp only [joinConst, defaultJoinOrNull, isConstant, ap]
          simp [hw, hb, h1.1, h1.2]
        · by_cases h2 : c.soo = false ∧ join v w = v
          · right; left
            simp only [joinConst, defaultJoinOrNull, isConstant, ap]
            rw [h2.2] at hb
            simp [hw, hb, h2.1, h2.2, Ne.symm hw]
          · right; right; left
            refine ⟨w, rfl, ?_, fun h => hb h.symm⟩
            simp only [joinConst, defaultJoinOrNull, isConstant, ap]
            simp [hw, hb, h1, h2]
  | prim p => right; right; right; simp [joinConst, defaultJoinOrNull, isConstant]
  | comp a b => right; right; right; simp [joinConst, defaultJoinOrNull, isConstant]
  | joinEF s ms => right; right; right; simp [joinConst, defaultJoinOrNull, isConstant]

theorem joinConst_bounded (c : EFCfg P L) (lt : EF P L → EF P L → Bool) (v : L) {g : EF P L}
    (hg : Bounded c g) : Bounded c (joinConst c lt v g) := by
  rcases joinConst_cases c lt v g with h | h | ⟨w, _, h, _⟩ | ⟨_, _, h⟩ <;> rw [h]
  · trivial
  · trivial
  · trivial
  · exact joinGeneric_bounded c lt _ hg

theorem joinWith_bounded (c : EFCfg P L) (lt : EF P L → EF P L → Bool) {f g : EF P L}
    (hf : Bounded c f) (hg : Bounded c g) : Bounded c (joinWith c lt f g) := by
  cases f with
  | id =>
    simp only [joinWith]
    split
    · trivial
    · split
      · exact hg
      · split
        · exact joinConst_bounded c lt _ trivial
        · exact joinGeneric_bounded c lt _ hg
  | allBottom => trivial
  | allTop => exact hg
  | const v => exact joinConst_bounded c lt v hg
  | prim p => exact joinGeneric_bounded c lt g hf
  | comp a b => exact joinGeneric_bounded c lt g hf
  | joinEF s ms => exact joinGeneric_bounded c lt g hf

/-! ## convergence -/

/-- Potential of an edge function: strictly decreases whenever a join changes it. -/
def pot (c : EFCfg P L) (rank : L → Nat) : EF P L → Nat
  | .allBottom => 0
  | .joinEF s ms => 1 + rank s * (c.N + 1) + (c.N - ms.toList.length)
  | .id => 2 + rank top * (c.N + 1) + c.N
  | .prim _ => 2 + rank top * (c.N + 1) + c.N
  | .comp _ _ => 2 + rank top * (c.N + 1) + c.N
  | .const v => 3 + rank top * (c.N + 1) + c.N + rank v
  | .allTop => 4 + rank top * (c.N + 1) + c.N + rank top

variable {rank : L → Nat}

theorem rank_le_top (hr : IDE.FiniteHeightL L rank) (a : L) : rank a ≤ rank top :=
  (IDE.rank_le hr (top_le a)).1

theorem pot_joinEF_le (c : EFCfg P L) (hr : IDE.FiniteHeightL L rank) (s : L) (ms : EFs P L) :
    pot c rank (.joinEF s ms) ≤ 1 + rank top * (c.N + 1) + c.N := by
  have h := Nat.mul_le_mul_right (c.N + 1) (rank_le_top hr s)
  simp only [pot]
  omega

theorem create_pot_lt (c : EFCfg P L) (hr : IDE.FiniteHeightL L rank) (lt : EF P L → EF P L → Bool)
    (f g : EF P L) : pot c rank (create c lt f g) ≤ 1 + rank top * (c.N + 1) + c.N := by
  unfold create
  dsimp only
  split
  · simp only [pot]; omega
  · split
    · simp only [pot]; omega
    · exact pot_joinEF_le c hr _ _

theorem create_joinEF_pot (c : EFCfg P L) (hr : IDE.FiniteHeightL L rank)
    (lt : EF P L → EF P L → Bool) (s : L) (ms : EFs P L) (g : EF P L)
    (hne : create c lt (.joinEF s ms) g ≠ .joinEF s ms) :
    pot c rank (create c lt (.joinEF s ms) g) < pot c rank (.joinEF s ms) := by
  revert hne
  have ha : arrayAndSeed (.joinEF s ms) = (ms.toList, s) := rfl
  unfold create
  rw [ha]
  dsimp only
  split
  · intro _; simp only [pot]; omega
  · split
    · intro _; simp only [pot]; omega
    · rename_i hlen
      intro hne
      obtain ⟨h1, h2⟩ := setUnion_length lt ms.toList (arrayAndSeed g).1
      by_cases hs : join s (arrayAndSeed g).2 = s
      · rw [hs] at hne ⊢
        have : (setUnion lt ms.toList (arrayAndSeed g).1).length ≠ ms.toList.length := by
          intro h
          apply hne
          rw [h2 h]
          simp
        simp only [pot, EFs.toList_ofList]
        omega
      · have h3 := hr s _ hs
        have h4 : (rank (join s (arrayAndSeed g).2) + 1) * (c.N + 1) ≤ rank s * (c.N + 1) :=
          Nat.mul_le_mul_right _ h3
        rw [Nat.add_mul] at h4
        simp only [pot]
        omega

theorem joinGeneric_pot (c : EFCfg P L) (hr : IDE.FiniteHeightL L rank)
    (lt : EF P L → EF P L → Bool) (f g : EF P L) (ht : f ≠ .allTop) (hb : f ≠ .allBottom)
    (hne : joinGeneric c lt f g ≠ f) : pot c rank (joinGeneric c lt f g) < pot c rank f := by
  rcases joinGeneric_cases c lt f g with h | h | h
  · rw [h] at hne ⊢
    cases f <;> simp only [pot] <;> first | omega | exact absurd rfl hne
  · exact absurd h hne
  · rw [h] at hne ⊢
    have h5 := create_pot_lt c hr lt f g
    cases f with
    | joinEF s ms => exact create_joinEF_pot c hr lt s ms g hne
    | allBottom => exact absurd rfl hb
    | allTop => exact absurd rfl ht
    | _ => simp only [pot] at h5 ⊢; omega

/-- The first argument of a symmetric dispatch: everything below `const`/`id` in potential. -/
theorem joinGeneric_swap_pot (c : EFCfg P L) (hr : IDE.FiniteHeightL L rank)
    (lt : EF P L → EF P L → Bool) {f g : EF P L} (hf : f = .id ∨ ∃ v, f = .const v)
    (hg : g.isConstant = false) (hgi : g ≠ .id) :
    pot c rank (joinGeneric c lt g f) ≤ 1 + rank top * (c.N + 1) + c.N := by
  have hd : g ≠ f := by
    rintro rfl
    rcases hf with h | ⟨v, h⟩
    · exact hgi h
    · rw [h] at hg; cases hg
  have hnb : f ≠ .allBottom := by rcases hf with h | ⟨v, h⟩ <;> rw [h] <;> simp
  have hnt : f ≠ .allTop := by rcases hf with h | ⟨v, h⟩ <;> rw [h] <;> simp
  unfold joinGeneric
  split
  · rw [if_neg hnb, if_neg (fun h => h.elim hnt fun h => hd h.symm)]
    exact create_pot_lt c hr lt _ _
  · unfold defaultJoinOrNull
    rw [if_neg hnb, if_neg (fun h => h.elim hnt fun h => hd h.symm)]
    split
    · rename_i r hr'
      split at hr'
      · split at hr'
        · cases hr'; exact create_pot_lt c hr lt _ _
        · cases hr'; simp only [pot]; omega
      · cases hr'
    · exact create_pot_lt c hr lt _ _

theorem joinConst_pot (c : EFCfg P L) (hr : IDE.FiniteHeightL L rank)
    (lt : EF P L → EF P L → Bool) (v : L) (g : EF P L) (hne : joinConst c lt v g ≠ .const v) :
    pot c rank (joinConst c lt v g) < pot c rank (.const v : EF P L) := by
  rcases joinConst_cases c lt v g with h | h | ⟨w, _, h, _⟩ | ⟨h1, h2, h⟩
  · rw [h]; simp only [pot]; omega
  · exact absurd h hne
  · rw [h] at hne ⊢
    have := hr v w (fun h => hne (by rw [h]))
    simp only [pot]
    omega
  · rw [h]
    have := joinGeneric_swap_pot c hr lt (f := .const v) (.inr ⟨v, rfl⟩) h1 h2
    refine Nat.lt_of_le_of_lt this ?_
    simp only [pot]
    omega

theorem joinWith_pot (c : EFCfg P L) (hr : IDE.FiniteHeightL L rank)
    (lt : EF P L → EF P L → Bool) (f g : EF P L) (hne : joinWith c lt f g ≠ f) :
    pot c rank (joinWith c lt f g) < pot c rank f := by
  cases f with
  | id =>
    cases g with
    | const v =>
      have : joinWith c lt .id (.const v) = .allBottom := by
        simp [joinWith, joinConst, defaultJoinOrNull]
      rw [this]; simp only [pot]; omega
    | id => simp [joinWith] at hne
    | allTop => simp [joinWith] at hne
    | allBottom => simp only [joinWith, pot]; simp; omega
    | prim p =>
      have := joinGeneric_swap_pot c hr lt (f := .id) (g := .prim p) (.inl rfl) rfl (by simp)
      simp only [joinWith]; simp
      exact Nat.lt_of_le_of_lt this (by simp only [pot]; omega)
    | comp a b =>
      have := joinGeneric_swap_pot c hr lt (f := .id) (g := .comp a b) (.inl rfl) rfl (by simp)
      simp only [joinWith]; simp
      exact Nat.lt_of_le_of_lt this (by simp only [pot]; omega)
    | joinEF s ms =>
      have := joinGeneric_swap_pot c hr lt (f := .id) (g := .joinEF s ms) (.inl rfl) rfl (by simp)
      simp only [joinWith]; simp
      exact Nat.lt_of_le_of_lt this (by simp only [pot]; omega)
  | allBottom => exact absurd rfl hne
  | allTop =>
    simp only [joinWith] at hne ⊢
    cases g with
    | allTop => exact absurd rfl hne
    | joinEF s ms => have := pot_joinEF_le c hr s ms; simp only [pot] at this ⊢; omega
    | const v => have := rank_le_top hr v; simp only [pot]; omega
    | _ => simp only [pot]; omega
  | const v => exact joinConst_pot c hr lt v g hne
  | prim p => exact joinGeneric_pot c hr lt (.prim p) g (by simp) (by simp) hne
  | comp a b => exact joinGeneric_pot c hr lt (.comp a b) g (by simp) (by simp) hne
  | joinEF s ms => exact joinGeneric_pot c hr lt (.joinEF s ms) g (by simp) (by simp) hne

/-! ## The edge-function algebra handed to the solver -/

/-- The edge functions as seen by the solver: `extend` = `composeWith`, `combine` = `joinWith`
(`include/phasar/Utils/SemiRing.h:17-34`), `allTopFunction()` = `AllTop{}`
(`IDETabulationProblem.h:56-58`). Simplification: one handle comparison for the whole run. -/
def alg (c : EFCfg P L) (lt : EF P L → EF P L → Bool) : IDE.EdgeAlg L (EF P L) where
  ap := ap c
  extend := compose c
  combine := joinWith c lt
  eqE := fun f g => decide (f = g)
  idE := .id
  allTop := .allTop

mutual
/-- Edge functions that never turn a value other than Top into Top. -/
def Live (c : EFCfg P L) : EF P L → Prop
  | .id => True
  | .allBottom => (bottom : L) ≠ top
  | .allTop => False
  | .const v => v ≠ top
  | .prim p => ∀ x, x ≠ top → c.pap p x ≠ top
  | .comp f g => Live c f ∧ Live c g
  | .joinEF s ms => LiveAll c ms ∧ (s ≠ top ∨ ms ≠ .nil)
/-- All members are live. -/
def LiveAll (c : EFCfg P L) : EFs P L → Prop
  | .nil => True
  | .cons f fs => Live c f ∧ LiveAll c fs
end

theorem liveAll_iff (c : EFCfg P L) : ∀ fs : EFs P L, LiveAll c fs ↔ ∀ f ∈ fs.toList, Live c f
  | .nil => by simp [LiveAll, EFs.toList]
  | .cons f fs => by simp [LiveAll, EFs.toList, liveAll_iff c fs]

theorem ne_top_of_le' {a b : L} (h : a ⊑ b) (ha : a ≠ top) : b ≠ top := fun hb =>
  ha (eq_top_of_le_top (hb ▸ h))

mutual
theorem live_ap (c : EFCfg P L) : ∀ (f : EF P L), Live c f → ∀ x, x ≠ top → ap c f x ≠ top
  | .id, _, x, hx => hx
  | .allBottom, h, x, _ => h
  | .allTop, h, _, _ => h.elim
  | .const v, h, _, _ => h
  | .prim p, h, x, hx => h x hx
  | .comp f g, h, x, hx => live_ap c g h.2 _ (live_ap c f h.1 x hx)
  | .joinEF s ms, h, x, hx => by
    simp only [ap]
    exact live_apJoin c ms h.1 s x hx h.2
theorem live_apJoin (c : EFCfg P L) : ∀ (fs : EFs P L), LiveAll c fs → ∀ v x, x ≠ top →
    (v ≠ top ∨ fs ≠ .nil) → apJoin c fs v x ≠ top
  | .nil, _, v, x, _, h => by
    simp only [apJoin]
    exact h.resolve_right (by simp)
  | .cons f fs, hl, v, x, hx, _ => by
    rw [apJoin_eq]
    simp only [EFs.toList, List.foldl_cons]
    exact ne_top_of_le' (le_trans (le_join_right _ _) (le_foldl c _ _ x)) (live_ap c f hl.1 x hx)
end

theorem live_compose (c : EFCfg P L) (hbt : (bottom : L) ≠ top) (f : EF P L) :
    ∀ (_ : Live c f) (g : EF P L) (_ : Live c g), Live c (compose c f g) := by
  have hdef : ∀ {f g r : EF P L}, Live c f → Live c g → defaultComposeOrNull f g = some r →
      Live c r := by
    intro f g r hf hg h
    unfold defaultComposeOrNull at h
    split at h
    · cases h; exact hf
    · split at h
      · cases h; exact hg
      · cases h
  match f with
  | .id => intro _ g hg; exact hg
  | .allBottom => intro h g hg; simp only [compose]; split <;> assumption
  | .allTop => intro h; exact h.elim
  | .const v =>
    intro h g hg
    simp only [compose]
    split
    · rename_i r hr; exact hdef h hg hr
    · split
      · exact h
      · split
        · exact hbt
        · split
          · rename_i ht; exact absurd ht.symm (live_ap c g hg v h)
          · rename_i ht; exact fun h => ht h.symm
  | .prim p =>
    intro h g hg
    simp only [compose]
    split
    · rename_i r hr; exact hdef h hg hr
    · exact ⟨h, hg⟩
  | .comp a b =>
    intro h g hg
    simp only [compose]
    split
    · rename_i r hr; exact hdef h hg hr
    · exact live_compose c hbt a h.1 _ (live_compose c hbt b h.2 g hg)
  | .joinEF s ms =>
    intro h g hg
    simp only [compose]
    split
    · rename_i r hr; exact hdef h hg hr
    · exact ⟨h, hg⟩

theorem live_array (c : EFCfg P L) {f : EF P L} (h : Live c f) :
    (∀ g ∈ (arrayAndSeed f).1, Live c g) ∧ ((arrayAndSeed f).2 ≠ top ∨ (arrayAndSeed f).1 ≠ []) := by
  cases f with
  | joinEF s ms =>
    refine ⟨(liveAll_iff c ms).1 h.1, h.2.imp_right fun hm hn => hm ?_⟩
    have hn : ms.toList = [] := hn
    rw [← EFs.ofList_toList ms, hn]
    rfl
  | _ => exact ⟨by intro g hg; simp only [arrayAndSeed, List.mem_singleton] at hg; rw [hg]; exact h,
      .inr (by simp [arrayAndSeed])⟩

theorem live_create (c : EFCfg P L) (hbt : (bottom : L) ≠ top) (lt : EF P L → EF P L → Bool)
    {f g : EF P L} (hf : Live c f) (hg : Live c g) : Live c (create c lt f g) := by
  obtain ⟨hf1, hf2⟩ := live_array c hf
  obtain ⟨hg1, hg2⟩ := live_array c hg
  unfold create
  dsimp only
  split
  · exact hbt
  · split
    · exact hbt
    · refine ⟨(liveAll_iff c _).2 fun h hh => ?_, ?_⟩
      · rw [EFs.toList_ofList] at hh
        rcases mem_setUnion _ _ hh with h | h
        · exact hf1 _ h
        · exact hg1 _ h
      · rcases hf2 with h | h
        · exact .inl (ne_top_of_le' (le_join_left _ _) h)
        · right
          intro hn
          obtain ⟨a, ha⟩ := List.exists_mem_of_ne_nil _ h
          have := mem_setUnion_left (lt := lt) ha (arrayAndSeed g).1
          rw [← EFs.toList_ofList (setUnion lt _ _), hn] at this
          cases this

theorem live_joinGeneric (c : EFCfg P L) (hbt : (bottom : L) ≠ top) (lt : EF P L → EF P L → Bool)
    {f g : EF P L} (hf : Live c f) (hg : Live c g) : Live c (joinGeneric c lt f g) := by
  rcases joinGeneric_cases c lt f g with h | h | h <;> rw [h]
  · exact hbt
  · exact hf
  · exact live_create c hbt lt hf hg

theorem live_joinConst (c : EFCfg P L) (hbt : (bottom : L) ≠ top) (lt : EF P L → EF P L → Bool)
    {v : L} {g : EF P L} (hf : v ≠ top) (hg : Live c g) : Live c (joinConst c lt v g) := by
  rcases joinConst_cases c lt v g with h | h | ⟨w, _, h, _⟩ | ⟨_, _, h⟩ <;> rw [h]
  · exact hbt
  · exact hf
  · exact ne_top_of_le' (le_join_left _ _) hf
  · exact live_joinGeneric c hbt lt hg hf

theorem live_joinWith (c : EFCfg P L) (hbt : (bottom : L) ≠ top) (lt : EF P L → EF P L → Bool)
    {f g : EF P L} (hf : Live c f) (hg : Live c g) : Live c (joinWith c lt f g) := by
  cases f with
  | id =>
    simp only [joinWith]
    split
    · trivial
    · split
      · exact hg
      · split
        · exact live_joinConst c hbt lt hg trivial
        · exact live_joinGeneric c hbt lt hg trivial
  | allBottom => exact hbt
  | allTop => exact hf.elim
  | const v => exact live_joinConst c hbt lt hf hg
  | prim p => exact live_joinGeneric c hbt lt (f := .prim p) hf hg
  | comp a b => exact live_joinGeneric c hbt lt (f := .comp a b) hf hg
  | joinEF s ms => exact live_joinGeneric c hbt lt (f := .joinEF s ms) hf hg

/-- The built-in edge functions meet the solver's soundness requirements. -/
theorem alg_sound (c : EFCfg P L) {lt : EF P L → EF P L → Bool} (hlt : NoTies lt)
    (hbt : (bottom : L) ≠ top) (hm : ∀ p x y, x ⊑ y → c.pap p x ⊑ c.pap p y) :
    (alg c lt).Sound (Live c) where
  ok_id := trivial
  ok_extend := fun f g hf hg => live_compose c hbt f hf g hg
  ok_combine := fun f g hf hg => live_joinWith c hbt lt hf hg
  ok_first := fun f hf => hf
  not_top := fun f hf => by
    simp only [alg, decide_eq_false_iff_not]
    rintro rfl
    exact hf
  eq_sound := fun f g _ _ h x => by
    simp only [alg, decide_eq_true_eq] at h
    rw [h]
  ap_id := fun x => le_refl x
  mono := fun f _ x y _ h => ap_mono c hm f x y h
  extend_ge := fun f g _ _ x => compose_over c hm f g x
  combine_ge_left := fun f g _ _ x => (joinWith_above c hlt f g).1 x
  combine_ge_right := fun f g _ _ x => (joinWith_above c hlt f g).2 x
  first_ge := fun f _ x => le_refl _

/-- The built-in edge functions have finite height if the value lattice has. -/
theorem alg_finiteHeight (c : EFCfg P L) (hr : IDE.FiniteHeightL L rank)
    (lt : EF P L → EF P L → Bool) (ok : EF P L → Prop) :
    (alg c lt).FiniteHeight ok (pot c rank) (pot c rank (.allTop : EF P L)) where
  first := fun f _ => by
    by_cases h : f = .allTop
    · rw [h]; exact Nat.le_refl _
    · exact Nat.le_of_lt (joinWith_pot c hr lt .allTop f (by simpa [joinWith] using h))
  next := fun e f _ _ h => joinWith_pot c hr lt e f (by simpa [alg] using h)

end EF
end Phasar
