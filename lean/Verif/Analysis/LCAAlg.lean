import Verif.Analysis.LCAFlow
import Verif.Analysis.LCAProps
import Verif.IDE.FactsProps
/-!
# The edge functions of the linear constant analysis meet the requirements of the solver
-/
namespace Phasar.LCA
open JoinLat IDE

/-- All remainders in the function are safe. -/
def EF.Safe : EF → Prop
  | .bin b => Prog.SafeOp b.op b.lop b.rop
  | .comp f g => f.Safe ∧ g.Safe
  | _ => True

/-- The edge functions that occur. -/
def EF.Ok (f : EF) : Prop := f.Proper ∧ f.Safe ∧ f ≠ .allTop

theorem proper_wf : ∀ {f : EF}, f.Proper → f.WF := by
  intro f
  induction f with
  | bin b => exact id
  | comp a b iha ihb => exact fun h => ⟨iha h.1, ihb h.2.1⟩
  | _ => exact fun _ => trivial

theorem fold_some {op : Op} {a b : BitVec 64} (h : (op = .srem ∨ op = .urem) → ¬ (a = BitVec.intMin 64 ∧ b = -1#64)) :
    ∃ u, foldConst op a b = some u := by
  cases hf : foldConst op a b with
  | some u => exact ⟨u, rfl⟩
  | none => obtain ⟨h1, h2⟩ := (C35_undefined op a b).1 hf; exact absurd h2 (h h1)

/-- What a well-formed `BinOp` computes, in terms of its operands. -/
theorem bin_spec {b : BinOp} (h : b.WF) :
    (∃ l r, b.curr = .zero ∧ b.lop = .const l ∧ b.rop = .const r ∧ ∀ s, b.ap s = foldConst b.op l r) ∨
    (∃ r, b.lop = b.curr ∧ b.rop = .const r ∧ ∀ s, b.ap s = if s = .bottom then some .bottom else execute b.op s (.val r)) ∨
    (∃ l, b.rop = b.curr ∧ b.lop = .const l ∧ ∀ s, b.ap s = if s = .bottom then some .bottom else execute b.op (.val l) s) := by
  obtain ⟨op, lop, rop, curr⟩ := b
  obtain ⟨hc, h⟩ := h
  simp only at hc h ⊢
  rcases h with ⟨rfl, h2, h3⟩ | ⟨rfl, h2⟩ | ⟨rfl, h2⟩
  · cases lop <;> simp [Val.constInt?] at h2
    cases rop <;> simp [Val.constInt?] at h3
    exact .inl ⟨_, _, rfl, rfl, rfl, fun s => rfl⟩
  · cases rop <;> simp [Val.constInt?] at h2
    refine .inr (.inl ⟨_, rfl, rfl, fun s => ?_⟩)
    cases lop <;> simp [BinOp.ap, Val.constInt?] at hc ⊢ <;> split <;> simp_all
  · cases lop <;> simp [Val.constInt?] at h2
    refine .inr (.inr ⟨_, rfl, rfl, fun s => ?_⟩)
    cases rop <;> simp [BinOp.ap, Val.constInt?] at hc ⊢ <;> split <;> simp_all

theorem bin_total {b : BinOp} (h : b.WF) (hs : Prog.SafeOp b.op b.lop b.rop) (s : V) : ∃ u, b.ap s = some u := by
  rcases bin_spec h with ⟨l, r, _, hl, hr, h⟩ | ⟨r, _, hr, h⟩ | ⟨l, _, hl, h⟩
  · rw [h]; exact fold_some fun ho he => (hs ho).1 (by rw [hl, he.1])
  · rw [h]; split
    · exact ⟨_, rfl⟩
    · unfold execute; split
      · rename_i hb _; cases hb; exact fold_some fun ho he => (hs ho).2 (by rw [hr, he.2])
      · exact ⟨_, rfl⟩
  · rw [h]; split
    · exact ⟨_, rfl⟩
    · unfold execute; split
      · rename_i ha _; cases ha; exact fold_some fun ho he => (hs ho).1 (by rw [hl, he.1])
      · exact ⟨_, rfl⟩

theorem bin_ne_top {b : BinOp} (h : b.WF) (s : V) : b.ap s ≠ some .top := by
  rcases bin_spec h with ⟨l, r, _, _, _, h⟩ | ⟨r, _, _, h⟩ | ⟨l, _, _, h⟩
  · rw [h]; exact C36.fold_ne_top _ _ _
  · rw [h]; split
    · exact fun h => by cases h
    · exact C36.execute_ne_top _ _ _
  · rw [h]; split
    · exact fun h => by cases h
    · exact C36.execute_ne_top _ _ _

theorem ap_total : ∀ {f : EF}, f.Proper → f.Safe → ∀ x, ∃ u, f.ap x = some u := by
  intro f
  induction f with
  | bin b => exact fun h hs x => bin_total h hs x
  | comp a b iha ihb =>
    intro h hs x
    obtain ⟨u, hu⟩ := iha h.1 hs.1 x
    obtain ⟨v, hv⟩ := ihb h.2.1 hs.2 u
    exact ⟨v, by simp only [EF.ap, hu, Option.bind_some, hv]⟩
  | _ => exact fun _ _ _ => ⟨_, rfl⟩

theorem ap_ne_top : ∀ {f : EF}, f.Proper → f ≠ .allTop → ∀ x, x ≠ .top → f.ap x ≠ some .top := by
  intro f
  induction f with
  | id => intro _ _ x hx h; cases h; exact hx rfl
  | allBottom => intro _ _ x hx h; cases h
  | allTop => intro _ ht; exact absurd rfl ht
  | const g c => intro _ _ x hx h; cases h
  | bin b => intro h _ x _; exact bin_ne_top h x
  | comp a b iha ihb =>
    intro h _ x hx hh
    obtain ⟨h1, h2, ⟨b', rfl⟩, h4, _⟩ := h
    simp only [EF.ap] at hh
    cases hu : b'.ap x with
    | none => rw [hu] at hh; cases hh
    | some u =>
      rw [hu] at hh
      refine ihb h2 (by rintro rfl; cases h4) u ?_ hh
      rintro rfl; exact bin_ne_top h1 x hu

theorem compose_total : ∀ {f g : EF}, f.Proper → f.Safe → g.Proper → g.Safe → ∃ h, f.compose g = some h ∧ h.Safe := by
  have hd : ∀ {f g r : EF}, f.Safe → g.Safe → EF.defaultCompose f g = some r → r.Safe := by
    intro f g r hf hg h
    unfold EF.defaultCompose at h
    split at h
    · cases h; exact hf
    · split at h
      · cases h; exact hg
      · cases h
  intro f
  induction f with
  | id => exact fun _ _ _ hg => ⟨_, rfl, hg⟩
  | allBottom =>
    intro g _ _ _ hg; refine ⟨_, rfl, ?_⟩; split
    · exact hg
    · exact trivial
  | allTop =>
    intro g _ _ _ hg; refine ⟨_, rfl, ?_⟩; split
    · exact trivial
    · exact hg
  | const gen c =>
    intro g hf hs hg hgs
    simp only [EF.compose]
    cases hdc : EF.defaultCompose (.const gen c) g with
    | some r => exact ⟨r, rfl, hd hs hgs hdc⟩
    | none =>
      obtain ⟨u, hu⟩ := ap_total hg hgs (.val c)
      rw [hu]
      cases u <;> exact ⟨_, rfl, trivial⟩
  | bin b =>
    intro g hf hs hg hgs
    simp only [EF.compose]
    cases hdc : EF.defaultCompose (.bin b) g with
    | some r => exact ⟨r, rfl, hd hs hgs hdc⟩
    | none => exact ⟨_, rfl, hs, hgs⟩
  | comp a b iha ihb =>
    intro g hf hs hg hgs
    simp only [EF.compose]
    cases hdc : EF.defaultCompose (.comp a b) g with
    | some r => exact ⟨r, rfl, hd (f := .comp a b) hs hgs hdc⟩
    | none =>
      obtain ⟨h, hh, hhs⟩ := ihb hf.2.1 hs.2 hg hgs
      obtain ⟨k, hk, hks⟩ := iha hf.1 hs.1 (C36.proper_compose _ _ _ hf.2.1 hg hh) hhs
      exact ⟨k, by simp only [hh, Option.bind_some, hk], hks⟩

theorem compose_ne_top : ∀ {f g h : EF}, f.Proper → f ≠ .allTop → g.Proper → g ≠ .allTop → f.compose g = some h → h ≠ .allTop := by
  have hd : ∀ {f g r : EF}, f ≠ .allTop → g ≠ .allTop → EF.defaultCompose f g = some r → r ≠ .allTop := by
    intro f g r hf hg h
    unfold EF.defaultCompose at h
    split at h
    · cases h; exact hf
    · split at h
      · cases h; exact hg
      · cases h
  intro f
  induction f with
  | id => intro g h _ _ _ hg hh; cases hh; exact hg
  | allBottom =>
    intro g h _ _ _ hg hh; cases hh; split
    · exact hg
    · exact fun h => by cases h
  | allTop => intro _ _ _ ht; exact absurd rfl ht
  | const gen c =>
    intro g h _ hf hgp hg hh
    simp only [EF.compose] at hh
    cases hdc : EF.defaultCompose (.const gen c) g with
    | some r => rw [hdc] at hh; cases hh; exact hd hf hg hdc
    | none =>
      rw [hdc] at hh
      cases hu : g.ap (.val c) with
      | none => rw [hu] at hh; cases hh
      | some u =>
        rw [hu] at hh
        cases u with
        | top => exact absurd hu (ap_ne_top hgp hg _ (fun h => by cases h))
        | bottom => cases hh; exact fun h => by cases h
        | val v => cases hh; exact fun h => by cases h
  | bin b =>
    intro g h _ hf _ hg hh
    simp only [EF.compose] at hh
    cases hdc : EF.defaultCompose (.bin b) g with
    | some r => rw [hdc] at hh; cases hh; exact hd hf hg hdc
    | none => rw [hdc] at hh; cases hh; exact fun h => by cases h
  | comp a b iha ihb =>
    intro g h hp hf hgp hg hh
    simp only [EF.compose] at hh
    cases hdc : EF.defaultCompose (.comp a b) g with
    | some r => rw [hdc] at hh; cases hh; exact hd hf hg hdc
    | none =>
      rw [hdc] at hh
      obtain ⟨h1, h2, ⟨b', rfl⟩, h4, _⟩ := hp
      cases hk : b.compose g with
      | none => simp [hk] at hh
      | some k =>
        simp only [hk, Option.bind_some] at hh
        exact iha h1 (fun h => by cases h) (C36.proper_compose _ _ _ h2 hgp hk)
          (ihb h2 (by rintro rfl; cases h4) hgp hg hk) hh

/-- The join of `f` and `g` is one of them, or bottom, or the plain constant. -/
theorem join_cases (f g : EF) : f.joinWith g = f ∨ (f = .allTop ∧ f.joinWith g = g) ∨ f.joinWith g = .allBottom ∨
    (∃ c gen gen', f = .const gen c ∧ g = .const gen' c ∧ f.joinWith g = .const false c) := by
  have hlin : ∀ f g : EF, EF.joinLin f g = f ∨ EF.joinLin f g = .allBottom := by
    intro f g
    unfold EF.joinLin EF.defaultJoin
    cases h1 : g.isBot
    · cases h2 : (g.isTop || g.eq f)
      · cases h3 : g.isId <;> simp
      · simp
    · simp only [if_true]
      cases g <;> simp [EF.isBot] at h1
      exact .inr rfl
  cases f with
  | id =>
    cases g with
    | id => exact .inl rfl
    | allTop => exact .inl rfl
    | allBottom => exact .inr (.inr (.inl rfl))
    | const gen c => exact .inr (.inr (.inl rfl))
    | bin b => exact .inr (.inr (.inl rfl))
    | comp a b => exact .inr (.inr (.inl rfl))
  | allBottom => exact .inl rfl
  | allTop => exact .inr (.inl ⟨rfl, rfl⟩)
  | const gen c =>
    cases g with
    | id => exact .inr (.inr (.inl rfl))
    | allTop => exact .inl rfl
    | allBottom => exact .inr (.inr (.inl rfl))
    | const gen' c' =>
      simp only [EF.joinWith, EF.joinConst, EF.defaultJoin, EF.isBot, EF.isTop, EF.isId, Bool.false_or]
      by_cases h : (EF.const gen' c').eq (.const gen c) = true
      · simp [h]
      · by_cases hc : c = c'
        · subst hc
          refine .inr (.inr (.inr ⟨c, gen, gen', rfl, rfl, ?_⟩))
          have : LatticeDomain.join (.val c) (.val c) = (.val c : V) := join_idem (L := V) (.val c)
          simp [h, this]
        · refine .inr (.inr (.inl ?_))
          have : LatticeDomain.join (.val c) (.val c') = (.bottom : V) :=
            C36.join_ne (fun h => by cases h) (fun h => by cases h) (fun h => hc (by cases h; rfl))
          simp [h, this]
    | bin b => exact .inr (.inr (.inl rfl))
    | comp a b => exact .inr (.inr (.inl rfl))
  | bin b =>
    rcases hlin (.bin b) g with h | h
    · exact .inl h
    · exact .inr (.inr (.inl h))
  | comp a b =>
    rcases hlin (.comp a b) g with h | h
    · exact .inl h
    · exact .inr (.inr (.inl h))

theorem eq_refl : ∀ f : EF, f.eq f = true := by
  intro f
  induction f with
  | bin b => simp [EF.eq, BinOp.eq]
  | comp a b iha ihb => simp [EF.eq, iha, ihb]
  | _ => simp [EF.eq]

theorem ok_extend {f g : EF} (hf : f.Ok) (hg : g.Ok) : (Prog.alg.extend f g).Ok := by
  obtain ⟨h, hh, hhs⟩ := compose_total hf.1 hf.2.1 hg.1 hg.2.1
  have : Prog.alg.extend f g = h := by simp [Prog.alg, hh]
  rw [this]
  exact ⟨C36.proper_compose _ _ _ hf.1 hg.1 hh, hhs, compose_ne_top hf.1 hf.2.2 hg.1 hg.2.2 hh⟩

theorem ok_combine {f g : EF} (hf : f.Ok) : (f.joinWith g).Ok := by
  rcases join_cases f g with h | ⟨h, _⟩ | h | ⟨c, _, _, _, _, h⟩
  · rw [h]; exact hf
  · exact absurd h hf.2.2
  · rw [h]; exact ⟨trivial, trivial, fun h => by cases h⟩
  · rw [h]; exact ⟨trivial, trivial, fun h => by cases h⟩

theorem alg_ap {f : EF} (hf : f.Ok) (x : V) : f.ap x = some (Prog.alg.ap f x) := by
  obtain ⟨u, hu⟩ := ap_total hf.1 hf.2.1 x
  simp [Prog.alg, hu]

/-- The algebra of the analysis meets the requirements of the solver. -/
theorem alg_sound : Prog.alg.Sound EF.Ok where
  ok_id := ⟨trivial, trivial, fun h => by cases h⟩
  ok_extend _ _ := ok_extend
  ok_combine _ _ hf _ := ok_combine hf
  ok_first _ h := h
  not_top f h := by
    have h3 := h.2.2
    cases f <;> simp [Prog.alg, EF.eq] at h3 ⊢
  eq_sound f g hf hg h x := by rw [C36_equal f g hf.1 hg.1 h]
  ap_id x := le_refl x
  mono f hf x y hx hxy := C36_monotone f (proper_wf hf.1) x y _ _ hx hxy (alg_ap hf x) (alg_ap hf y)
  extend_ge f g hf hg x := by
    obtain ⟨h, hh, _⟩ := compose_total hf.1 hf.2.1 hg.1 hg.2.1
    have he : Prog.alg.extend f g = h := by simp [Prog.alg, hh]
    by_cases hb : f = .allBottom
    · subst hb
      obtain ⟨w, hw, hle⟩ := C36_compose_bottom g h hh x _ (alg_ap hg _)
      have : Prog.alg.ap (Prog.alg.extend .allBottom g) x = w := by rw [he]; simp [Prog.alg, hw]
      rw [this]; exact hle
    · have := C36_compose f g h hf.1 hf.2.2 hb hh x _ (alg_ap hf x)
      have h2 : Prog.alg.ap (Prog.alg.extend f g) x = Prog.alg.ap g (Prog.alg.ap f x) := by
        rw [he]; simp only [Prog.alg] at this ⊢; rw [this]
      exact le_of_eq h2.symm
  combine_ge_left f g hf hg x := by
    obtain ⟨w, hw, h1, _⟩ := C36_join f g hf.1 hg.1 x _ _ (alg_ap hf x) (alg_ap hg x)
    have : Prog.alg.ap (Prog.alg.combine f g) x = w := by simp [Prog.alg, hw]
    rw [this]; exact h1
  combine_ge_right f g hf hg x := by
    obtain ⟨w, hw, _, h1⟩ := C36_join f g hf.1 hg.1 x _ _ (alg_ap hf x) (alg_ap hg x)
    have : Prog.alg.ap (Prog.alg.combine f g) x = w := by simp [Prog.alg, hw]
    rw [this]; exact h1
  first_ge _ _ _ := le_refl _

/-- The number of times an edge function can still change. -/
def EF.rank : EF → Nat
  | .allBottom => 0
  | .const true _ => 2
  | _ => 1

theorem alg_finite : Prog.alg.FiniteHeight EF.Ok EF.rank 2 where
  first f hf := by
    show f.rank ≤ 2
    unfold EF.rank
    split <;> decide
  next e f he hf h := by
    change (e.joinWith f).eq e = false at h
    show (e.joinWith f).rank < e.rank
    rcases join_cases e f with hj | ⟨hj, _⟩ | hj | ⟨c, gen, gen', rfl, rfl, hj⟩
    · rw [hj, eq_refl] at h; cases h
    · exact absurd hj he.2.2
    · rw [hj] at h ⊢
      cases e <;> simp [EF.rank, EF.eq] at h ⊢
      rename_i gen c
      cases gen <;> simp
    · rw [hj] at h ⊢
      cases gen
      · rw [eq_refl] at h; cases h
      · simp [EF.rank]

/-- The number of times a value can still change. -/
def vrank : V → Nat
  | .top => 2
  | .val _ => 1
  | .bottom => 0

theorem v_finite : FiniteHeightL V vrank := by
  intro a b
  change LatticeDomain.join a b ≠ a → vrank (LatticeDomain.join a b) < vrank a
  cases a <;> cases b <;> simp only [LatticeDomain.join, LatticeDomain.isTop, LatticeDomain.index] <;>
    simp_all [vrank]
  rename_i x y
  by_cases h : x = y <;> simp [h]

end Phasar.LCA
