import Verif.Analysis.TSSem
import Verif.Analysis.TypeStateProps
import Verif.IDE.FactsProps
/-!
# The edge functions of the typestate analysis meet the requirements of the solver
-/
namespace Phasar.TypeState
open JoinLat IDE

variable {S : Type} [DecidableEq S] {D : Desc S}

/-- The edge functions that occur: composed properly, consuming calls only, constants are not top. -/
def EF.Parts (D : Desc S) : EF S → Prop
  | .id => True
  | .allBottom => True
  | .allTop => False
  | .const v => v ≠ D.top
  | .ts tok _ => D.isConsuming tok = true
  | .comp f g => EF.Parts D f ∧ EF.Parts D g

/-- The edge functions that occur. -/
def EF.Ok (D : Desc S) (f : EF S) : Prop := f.Proper ∧ EF.Parts D f

omit [DecidableEq S] in
theorem parts_ne_top {f : EF S} (h : EF.Parts D f) : f ≠ .allTop := by rintro rfl; exact h

theorem ap_total (hr : Prog.Regular D) : ∀ {f : EF S}, EF.Parts D f → ∀ x, ∃ u, f.ap D x = some u ∧ (x ≠ D.top → u ≠ D.top) := by
  intro f
  induction f with
  | id => exact fun _ x => ⟨x, rfl, id⟩
  | allBottom => exact fun _ x => ⟨_, rfl, fun _ => hr.distinct⟩
  | allTop => exact fun h => h.elim
  | const v => exact fun h x => ⟨v, rfl, fun _ => h⟩
  | ts tok cs =>
    intro h x
    by_cases hx : x = D.top
    · obtain ⟨u, hu⟩ := hr.consuming tok D.uninit cs h hr.uninit
      exact ⟨u, by simp [EF.ap, hx, hu], fun h => absurd hx h⟩
    · obtain ⟨u, hu⟩ := hr.consuming tok x cs h hx
      exact ⟨u, by simp [EF.ap, hx, hu], fun _ e => hr.noTop tok x cs (by rw [hu, e])⟩
  | comp a b iha ihb =>
    intro h x
    obtain ⟨u, hu, h1⟩ := iha h.1 x
    obtain ⟨v, hv, h2⟩ := ihb h.2 u
    exact ⟨v, by simp only [EF.ap, hu, Option.bind_some, hv], fun hx => h2 (h1 hx)⟩

theorem alg_ap (hr : Prog.Regular D) {f : EF S} (h : EF.Ok D f) (x : S) : f.ap D x = some ((Prog.alg D).ap f x) := by
  obtain ⟨u, hu, _⟩ := ap_total hr h.2 x
  simp [Prog.alg, hu]

/-- The functions are constant or leave bottom alone. -/
theorem ap_bottom (hr : Prog.Regular D) : ∀ {f : EF S}, EF.Parts D f →
    f.ap D D.bottom = some D.bottom ∨ ∃ v, ∀ x, f.ap D x = some v := by
  intro f
  induction f with
  | id => exact fun _ => .inl rfl
  | allBottom => exact fun _ => .inl rfl
  | allTop => exact fun h => h.elim
  | const v => exact fun h => .inr ⟨v, fun _ => rfl⟩
  | ts tok cs => intro h; exact .inl (by simp [EF.ap, hr.distinct, hr.bottom tok cs h])
  | comp a b iha ihb =>
    intro h
    rcases ihb h.2 with hb | ⟨v, hv⟩
    · rcases iha h.1 with ha | ⟨u, hu⟩
      · exact .inl (by simp [EF.ap, ha, hb])
      · obtain ⟨v, hv, _⟩ := ap_total hr h.2 u
        exact .inr ⟨v, fun x => by simp [EF.ap, hu x, hv]⟩
    · refine .inr ⟨v, fun x => ?_⟩
      obtain ⟨u, hu, _⟩ := ap_total hr h.1 x
      simp [EF.ap, hu, hv]

theorem compose_total (hr : Prog.Regular D) : ∀ {f g : EF S}, EF.Parts D f → EF.Parts D g →
    ∃ h, f.compose D g = some h ∧ EF.Parts D h := by
  have hd : ∀ {f g r : EF S}, EF.Parts D f → EF.Parts D g → EF.defaultCompose f g = some r → EF.Parts D r := by
    intro f g r hf hg h
    unfold EF.defaultCompose at h
    split at h
    · cases h; exact hf
    · split at h
      · cases h; exact hg
      · cases h
  intro f
  induction f with
  | id => exact fun _ hg => ⟨_, rfl, hg⟩
  | allBottom =>
    intro g _ hg; refine ⟨_, rfl, ?_⟩; split
    · exact hg
    · exact trivial
  | allTop => exact fun h => h.elim
  | const v =>
    intro g hf hg
    simp only [EF.compose]
    cases hdc : EF.defaultCompose (.const v) g with
    | some r => exact ⟨r, rfl, hd hf hg hdc⟩
    | none =>
      obtain ⟨u, hu, hne⟩ := ap_total hr hg v
      rw [hu]
      simp only
      split
      · exact ⟨_, rfl, hf⟩
      · split
        · exact ⟨_, rfl, trivial⟩
        · exact ⟨_, rfl, hne hf⟩
  | ts tok cs =>
    intro g hf hg
    simp only [EF.compose]
    cases hdc : EF.defaultCompose (.ts tok cs) g with
    | some r => exact ⟨r, rfl, hd hf hg hdc⟩
    | none => exact ⟨_, rfl, hf, hg⟩
  | comp a b iha ihb =>
    intro g hf hg
    simp only [EF.compose]
    cases hdc : EF.defaultCompose (.comp a b) g with
    | some r => exact ⟨r, rfl, hd (f := .comp a b) hf hg hdc⟩
    | none =>
      obtain ⟨h, hh, hhs⟩ := ihb hf.2 hg
      obtain ⟨k, hk, hks⟩ := iha hf.1 hhs
      exact ⟨k, by simp only [hh, Option.bind_some, hk], hks⟩

/-- The join is one of the functions or all-bottom. -/
theorem join_cases {f g : EF S} (hf : EF.Parts D f) (hg : EF.Parts D g) : f.joinWith D g = f ∨ f.joinWith D g = .allBottom := by
  have hft := parts_ne_top hf
  have hgt := parts_ne_top hg
  have hts : ∀ a b : EF S, b ≠ .allTop → (EF.joinTS a b = a ∨ EF.joinTS a b = .allBottom) := by
    intro a b hb
    unfold EF.joinTS EF.defaultJoin
    by_cases h1 : b = .allBottom
    · simp [h1]
    · by_cases h2 : b = a
      · subst h2; simp [h1]
      · by_cases h3 : b = .id <;> simp [h1, h2, h3, hb] <;> try (first | (left; rintro rfl; contradiction) | skip)
        all_goals grind
  have hcn : ∀ v (b : EF S), EF.Parts D (.const v) → EF.Parts D b → (EF.joinConst D v b = .const v ∨ EF.joinConst D v b = .allBottom) := by
    intro v b hv hb
    have hbt := parts_ne_top hb
    unfold EF.joinConst EF.defaultJoin
    by_cases h1 : b = .allBottom
    · simp [h1]
    · by_cases h2 : b = .const v
      · subst h2; simp
      · by_cases h3 : b = .id
        · subst h3; simp
        · rw [if_neg h1, if_neg (by simp [hbt, h2]), if_neg h3]
          cases b <;> simp at * <;> grind [EF.Parts]
  cases f with
  | id =>
    cases g with
    | id => exact .inl rfl
    | allBottom => exact .inr rfl
    | allTop => exact absurd rfl hgt
    | const v => exact .inr (by simp [EF.joinWith, EF.joinConst, EF.defaultJoin])
    | ts t c => exact .inr (by simp [EF.joinWith, EF.joinTS, EF.defaultJoin])
    | comp a b => exact .inr (by simp [EF.joinWith, EF.joinTS, EF.defaultJoin])
  | allBottom => exact .inl rfl
  | allTop => exact absurd rfl hft
  | const v => exact hcn v g hf hg
  | ts t c => exact hts _ _ hgt
  | comp a b => exact hts _ _ hgt

omit [DecidableEq S] in
theorem ok_bottom : EF.Ok D (.allBottom : EF S) := ⟨trivial, trivial⟩

variable [JoinLat S]

theorem le_iff (hl : Lawful D) (hd : D.bottom ≠ D.top) (a b : S) : a ⊑ b ↔ D.le a b := by
  show JoinLat.join a b = b ↔ _
  rw [hl.join]
  unfold Desc.join Desc.le
  grind

theorem alg_sound (hl : Lawful D) (hr : Prog.Regular D) : (Prog.alg D).Sound (EF.Ok D) where
  ok_id := ⟨trivial, trivial⟩
  ok_extend f g hf hg := by
    obtain ⟨h, hh, hp⟩ := compose_total hr hf.2 hg.2
    have he : (Prog.alg D).extend f g = h := by simp [Prog.alg, hh]
    rw [he]; exact ⟨C38.proper_compose D f g h hf.1 hg.1 hh, hp⟩
  ok_combine f g hf hg := by
    rcases join_cases hf.2 hg.2 with h | h
    · show EF.Ok D (f.joinWith D g); rw [h]; exact hf
    · show EF.Ok D (f.joinWith D g); rw [h]; exact ok_bottom
  ok_first f hf := hf
  not_top f h := by simpa [Prog.alg] using parts_ne_top h.2
  eq_sound f g _ _ h x := by rw [of_decide_eq_true h]
  ap_id x := le_refl x
  mono f hf x y hx hxy := by
    rw [le_iff hl hr.distinct] at hxy ⊢
    rw [hl.top] at hx
    rcases hxy with h | rfl | rfl
    · exact absurd h hx
    · exact C38.le_refl D _
    · rcases ap_bottom hr hf.2 with h | ⟨v, h⟩
      · have : (Prog.alg D).ap f D.bottom = D.bottom := by simp [Prog.alg, h]
        rw [this]; exact C38.le_bottom D _
      · have : ∀ x, (Prog.alg D).ap f x = v := fun x => by simp [Prog.alg, h]
        rw [this, this]; exact C38.le_refl D _
  extend_ge f g hf hg x := by
    rw [le_iff hl hr.distinct]
    obtain ⟨h, hh, hp⟩ := compose_total hr hf.2 hg.2
    have he : (Prog.alg D).extend f g = h := by simp [Prog.alg, hh]
    rw [he]
    by_cases hb : f = .allBottom
    · subst hb
      simp only [EF.compose, Option.some.injEq] at hh
      split at hh
      · subst hh
        rename_i hc
        have : ∀ x y, (Prog.alg D).ap g x = (Prog.alg D).ap g y := by
          intro x y; cases g <;> simp [EF.isConstant] at hc <;> rfl
        rw [this _ x]; exact C38.le_refl D _
      · subst hh; exact C38.le_bottom D _
    · have := C38_compose D f g h hf.1 (parts_ne_top hf.2) hb hh x _ (alg_ap hr hf x)
      have h2 : (Prog.alg D).ap h x = (Prog.alg D).ap g ((Prog.alg D).ap f x) := by
        simp only [Prog.alg] at this ⊢; rw [this]
      rw [h2]; exact C38.le_refl D _
  combine_ge_left f g hf hg x := by
    obtain ⟨w, hw, h1, _⟩ := C38_join D f g x _ _ (alg_ap hr hf x) (alg_ap hr hg x)
    have : (Prog.alg D).ap ((Prog.alg D).combine f g) x = w := by simp [Prog.alg, hw]
    rw [this, le_iff hl hr.distinct]; exact h1
  combine_ge_right f g hf hg x := by
    obtain ⟨w, hw, _, h1⟩ := C38_join D f g x _ _ (alg_ap hr hf x) (alg_ap hr hg x)
    have : (Prog.alg D).ap ((Prog.alg D).combine f g) x = w := by simp [Prog.alg, hw]
    rw [this, le_iff hl hr.distinct]; exact h1
  first_ge _ _ _ := le_refl _

/-- The number of times an edge function can still change. -/
def EF.rank : EF S → Nat
  | .allBottom => 0
  | _ => 1

omit [JoinLat S] in
theorem alg_finite : (Prog.alg D).FiniteHeight (EF.Ok D) EF.rank 1 where
  first f _ := by
    show f.rank ≤ 1
    unfold EF.rank
    split <;> decide
  next e f he hf h := by
    change decide (e.joinWith D f = e) = false at h
    show (e.joinWith D f).rank < e.rank
    rcases join_cases he.2 hf.2 with hj | hj
    · rw [hj] at h; simp at h
    · rw [hj] at h ⊢
      cases e <;> simp [EF.rank] at h ⊢

/-- The number of times a value can still change. -/
def vrank (D : Desc S) (x : S) : Nat := if x = D.top then 2 else if x = D.bottom then 0 else 1

theorem v_finite (hl : Lawful D) (hd : D.bottom ≠ D.top) : FiniteHeightL S (vrank D) := by
  intro a b
  rw [hl.join]
  unfold vrank Desc.join
  grind

end Phasar.TypeState
