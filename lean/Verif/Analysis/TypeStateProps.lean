import Verif.Analysis.TypeState
/-!
# Property C38: the typestate analysis follows the protocol automaton
-/
set_option linter.unusedSectionVars false
namespace Phasar.TypeState
variable {S : Type} [DecidableEq S]

/-! ## The lattice -/

/-- C38: the states join to bottom when they differ (and none of them is top, which is neutral). -/
theorem C38_join_states (D : Desc S) (a b : S) :
    D.join a a = a ∧ D.join D.top b = b ∧ D.join a D.top = a ∧ (a ≠ b → a ≠ D.top → b ≠ D.top → D.join a b = D.bottom) := by
  refine ⟨by simp [Desc.join], ?_, ?_, fun h1 h2 h3 => by simp [Desc.join, h1, h2, h3]⟩
  · by_cases h : D.top = b <;> simp [Desc.join, h]
  · by_cases h : a = D.top <;> simp [Desc.join, h]

/-- C38: the join is the least upper bound, for every state machine. -/
theorem C38_join_lub (D : Desc S) (a b : S) :
    D.le a (D.join a b) ∧ D.le b (D.join a b) ∧ ∀ c, D.le a c → D.le b c → D.le (D.join a b) c := by
  by_cases h : a = b
  · subst h
    rw [(C38_join_states D a a).1]
    exact ⟨Or.inr (Or.inl rfl), Or.inr (Or.inl rfl), fun c h _ => h⟩
  · by_cases h1 : a = D.top
    · subst h1
      rw [(C38_join_states D D.top b).2.1]
      exact ⟨Or.inl rfl, Or.inr (Or.inl rfl), fun c _ h => h⟩
    · by_cases h2 : b = D.top
      · subst h2
        rw [(C38_join_states D a D.top).2.2.1]
        exact ⟨Or.inr (Or.inl rfl), Or.inl rfl, fun c h _ => h⟩
      · rw [(C38_join_states D a b).2.2.2 h h1 h2]
        refine ⟨Or.inr (Or.inr rfl), Or.inr (Or.inr rfl), fun c h3 h4 => ?_⟩
        rcases h3 with h3 | h3 | h3
        · exact absurd h3 h1
        · rcases h4 with h4 | h4 | h4
          · exact absurd h4 h2
          · exact absurd (h3.trans h4.symm) h
          · exact Or.inr (Or.inr h4)
        · exact Or.inr (Or.inr h3)

theorem C38.le_refl (D : Desc S) (a : S) : D.le a a := Or.inr (Or.inl rfl)
theorem C38.le_bottom (D : Desc S) (a : S) : D.le a D.bottom := Or.inr (Or.inr rfl)
theorem C38.top_le (D : Desc S) (a : S) : D.le D.top a := Or.inl rfl

/-- The `join` of `JoinLatticeTraits<CSTDFILEIOState>` is a different one: joining a state with itself gives bottom. -/
theorem C38_traits_join_false : fileTraitsJoin .OPENED .OPENED = .BOT ∧ fileDesc.join .OPENED .OPENED = .OPENED := by decide

/-- Apart from that, both joins agree. -/
theorem C38_traits_join_partial (a b : FileState) (h : a = b → a = .TOP ∨ a = .BOT) : fileTraitsJoin a b = fileDesc.join a b := by
  cases a <;> cases b <;> simp at h <;> decide

/-! ## Composition -/

/-- The composed functions that occur: the first part is a `TSEdgeFunction`, the second neither constant nor the identity. -/
def EF.Proper : EF S → Prop
  | .comp f g => f.Proper ∧ g.Proper ∧ (∃ t c, f = .ts t c) ∧ g.isConstant = false ∧ g.isId = false
  | _ => True

theorem C38.default_ap {D : Desc S} {f g r : EF S} (h : EF.defaultCompose f g = some r) (x : S) (u : S) (hu : f.ap D x = some u) :
    r.ap D x = g.ap D u := by
  unfold EF.defaultCompose at h
  split at h
  · cases h
    cases g <;> simp [EF.isId] at *
    simp only [EF.ap, hu]
  · split at h
    · cases h
      cases g <;> simp [EF.isConstant] at * <;> rfl
    · cases h

theorem C38.default_eq_none {f g : EF S} (h1 : g.isId = false) (h2 : g.isConstant = false) : EF.defaultCompose f g = none := by
  simp [EF.defaultCompose, h1, h2]

theorem C38.default_none {f g : EF S} (h : EF.defaultCompose f g = none) : g.isId = false ∧ g.isConstant = false := by
  unfold EF.defaultCompose at h
  split at h
  · cases h
  · split at h
    · cases h
    · simp_all

/-- C38: `compose` is composition of functions. -/
theorem C38_compose (D : Desc S) : ∀ (f g h : EF S), f.Proper → f ≠ .allTop → f ≠ .allBottom → f.compose D g = some h →
    ∀ x u, f.ap D x = some u → h.ap D x = g.ap D u := by
  intro f
  induction f with
  | id => intro g h _ _ _ hc x u hu; cases hc; cases hu; rfl
  | allBottom => intro _ _ _ _ hb; exact absurd rfl hb
  | allTop => intro _ _ _ ht; exact absurd rfl ht
  | const c =>
    intro g h _ _ _ hc x u hu
    unfold EF.compose at hc
    split at hc
    · rename_i r hr
      cases hc
      exact C38.default_ap hr x u hu
    · simp only [EF.ap, Option.some.injEq] at hu
      subst hu
      split at hc
      · cases hc
      · rename_i ret e
        rw [e]
        split at hc
        · rename_i e'; cases hc; rw [e']; rfl
        · split at hc
          · rename_i e'; cases hc; rw [e']; rfl
          · cases hc; rfl
  | ts t c =>
    intro g h _ _ _ hc x u hu
    unfold EF.compose at hc
    split at hc
    · rename_i r hr
      cases hc
      exact C38.default_ap hr x u hu
    · cases hc
      rw [EF.ap, hu, Option.bind_some]
  | comp a b iha ihb =>
    intro g h hp _ _ hc x u hu
    unfold EF.compose at hc
    split at hc
    · rename_i r hr
      cases hc
      exact C38.default_ap hr x u hu
    · obtain ⟨h1, h2, ⟨t, c, h3⟩, h4, h5⟩ := hp
      cases hb : b.compose D g with
      | none => rw [hb] at hc; cases hc
      | some m =>
        rw [hb, Option.bind_some] at hc
        cases ha : a.ap D x with
        | none => rw [EF.ap, ha] at hu; cases hu
        | some y =>
          rw [EF.ap, ha, Option.bind_some] at hu
          have e1 := iha m h h1 (by rw [h3]; simp) (by rw [h3]; simp) hc x y ha
          have e2 := ihb g m h2 (fun hh => by rw [hh] at h4; simp [EF.isConstant] at h4)
            (fun hh => by rw [hh] at h4; simp [EF.isConstant] at h4) hb y u hu
          rw [e1, e2]

theorem C38.proper_compose (D : Desc S) : ∀ (f g h : EF S), f.Proper → g.Proper → f.compose D g = some h → h.Proper := by
  have hd : ∀ {f g r : EF S}, f.Proper → g.Proper → EF.defaultCompose f g = some r → r.Proper := by
    intro f g r hf hg h
    unfold EF.defaultCompose at h
    split at h
    · cases h; exact hf
    · split at h
      · cases h; exact hg
      · cases h
  intro f
  induction f with
  | id => intro g h _ hg hc; cases hc; exact hg
  | allBottom =>
    intro g h _ hg hc
    unfold EF.compose at hc
    injection hc with hc
    split at hc <;> subst hc
    · exact hg
    · trivial
  | allTop =>
    intro g h _ hg hc
    unfold EF.compose at hc
    injection hc with hc
    split at hc <;> subst hc
    · trivial
    · exact hg
  | const c =>
    intro g h hf hg hc
    unfold EF.compose at hc
    split at hc
    · rename_i r hr
      cases hc
      exact hd hf hg hr
    · split at hc
      · cases hc
      · split at hc
        · cases hc; trivial
        · split at hc <;> cases hc <;> trivial
  | ts t c =>
    intro g h hf hg hc
    unfold EF.compose at hc
    split at hc
    · rename_i r hr
      cases hc
      exact hd hf hg hr
    · rename_i hn
      cases hc
      exact ⟨hf, hg, ⟨t, c, rfl⟩, (C38.default_none hn).2, (C38.default_none hn).1⟩
  | comp a b iha ihb =>
    intro g h hf hg hc
    unfold EF.compose at hc
    split at hc
    · rename_i r hr
      cases hc
      exact hd hf hg hr
    · cases hb : b.compose D g with
      | none => rw [hb] at hc; cases hc
      | some m =>
        rw [hb, Option.bind_some] at hc
        exact iha m h hf.1 (ihb g m hf.2.1 hg hb) hc

/-! ## Paths -/

/-- The edge functions of a sequence of consuming calls. -/
def C38.edges (calls : List (String × Nat)) : List (EF S) := calls.map fun c => .ts c.1 c.2

/-- The state machine never goes to the top state. -/
def C38.NoTop (D : Desc S) : Prop := ∀ t s c, D.next t s c ≠ some D.top

/-- A function that only consists of consuming calls (or nothing at all). -/
def C38.Calls : EF S → Prop
  | .id => True
  | .ts _ _ => True
  | .comp f g => C38.Calls f ∧ C38.Calls g
  | _ => False

theorem C38.calls_compose (D : Desc S) : ∀ (f : EF S) (t : String) (c : Nat), f.Proper → C38.Calls f →
    ∃ h, f.compose D (.ts t c) = some h ∧ h.Proper ∧ C38.Calls h ∧ h.isId = false ∧ h.isConstant = false := by
  intro f
  induction f with
  | id => intro t c _ _; exact ⟨_, rfl, trivial, trivial, rfl, rfl⟩
  | allBottom => intro _ _ _ h; exact h.elim
  | allTop => intro _ _ _ h; exact h.elim
  | const v => intro _ _ _ h; exact h.elim
  | ts t' c' => intro t c _ _; exact ⟨_, rfl, ⟨trivial, trivial, ⟨_, _, rfl⟩, rfl, rfl⟩, ⟨trivial, trivial⟩, rfl, rfl⟩
  | comp a b iha ihb =>
    intro t c hp hc
    obtain ⟨h1, h2, ⟨t', c', h3⟩, h4, h5⟩ := hp
    obtain ⟨m, m1, m2, m3, m4, m5⟩ := ihb t c h2 hc.2
    subst h3
    refine ⟨.comp (.ts t' c') m, ?_, ⟨trivial, m2, ⟨_, _, rfl⟩, m5, m4⟩, ⟨trivial, m3⟩, rfl, rfl⟩
    rw [EF.compose, C38.default_eq_none (g := .ts t c) rfl rfl]
    simp only [m1, Option.bind_some]
    rw [EF.compose, C38.default_eq_none m4 m5]

/-- C38: the jump function from the start of a function maps every state but top to the state of the automaton after the
calls on the path, in order. -/
theorem C38_path_function (D : Desc S) (hnt : C38.NoTop D) (calls : List (String × Nat)) (x : S) (hx : x ≠ D.top) :
    ∃ h, composeAll D .id (C38.edges calls) = some h ∧ h.ap D x = run D x calls := by
  suffices H : ∀ (calls : List (String × Nat)) (f : EF S), f.Proper → C38.Calls f → f.ap D x ≠ some D.top →
      ∃ h, composeAll D f (C38.edges calls) = some h ∧ h.ap D x = (f.ap D x).bind fun s => run D s calls by
    obtain ⟨h, h1, h2⟩ := H calls .id trivial trivial (by simpa [EF.ap] using hx)
    exact ⟨h, h1, h2⟩
  intro calls
  induction calls with
  | nil => intro f _ _ _; exact ⟨f, rfl, by cases f.ap D x <;> rfl⟩
  | cons c calls ih =>
    intro f hp hc hf
    obtain ⟨m, m1, m2, m3, _⟩ := C38.calls_compose D f c.1 c.2 hp hc
    have hne1 : f ≠ .allTop := by rintro rfl; exact hc
    have hne2 : f ≠ .allBottom := by rintro rfl; exact hc
    have hm : m.ap D x = (f.ap D x).bind fun s => D.next c.1 s c.2 := by
      cases hu : f.ap D x with
      | some u =>
        rw [C38_compose D f _ m hp hne1 hne2 m1 x u hu, Option.bind_some, EF.ap,
          if_neg (fun e => hf (by rw [hu, e]))]
      | none =>
        rw [Option.bind_none]
        clear ih hf hne1 hne2 m2 m3
        induction f generalizing m x with
        | id => cases hu
        | allBottom => exact hc.elim
        | allTop => exact hc.elim
        | const v => exact hc.elim
        | ts t c' => cases m1; rw [EF.ap, hu]; rfl
        | comp a b iha ihb =>
          obtain ⟨h1, h2, ⟨t', c', h3⟩, h4, h5⟩ := hp
          obtain ⟨m', e1, e2, e3, e4, e5⟩ := C38.calls_compose D b c.1 c.2 h2 hc.2
          subst h3
          rw [EF.compose, C38.default_eq_none (g := .ts c.1 c.2) rfl rfl] at m1
          simp only [e1, Option.bind_some] at m1
          rw [EF.compose, C38.default_eq_none e4 e5] at m1
          injection m1 with m1
          subst m1
          cases ha : (EF.ts t' c').ap D x with
          | none => rw [EF.ap, ha]; rfl
          | some y =>
            rw [EF.ap, ha, Option.bind_some] at hu ⊢
            by_cases hy : y = D.top
            · simp only [EF.ap] at ha; exact absurd (hy ▸ ha) (hnt _ _ _)
            · exact ihb y hy h2 hc.2 m' e1 ⟨e4, e5⟩ hu
    obtain ⟨h, h1, h2⟩ := ih m m2 m3 (by
      rw [hm]
      cases f.ap D x with
      | none => simp
      | some u => exact hnt _ _ _)
    refine ⟨h, by simp only [C38.edges, List.map_cons, composeAll, m1, Option.bind_some]; exact h1, ?_⟩
    rw [h2, hm]
    cases f.ap D x with
    | none => rfl
    | some u => obtain ⟨t, cc⟩ := c; rfl

/-- C38: from a state set by the analysis (at an `alloca` or a factory call), the composed function is the state of the
automaton after the calls, or bottom once the automaton has been in its bottom state. -/
theorem C38_path (D : Desc S) (hnt : C38.NoTop D) : ∀ (calls : List (String × Nat)) (s r : S), s ≠ D.top →
    run D s calls = some r →
    ∃ h, composeAll D (.const s) (C38.edges calls) = some h ∧ ∀ x, ∃ w, h.ap D x = some w ∧ D.le r w ∧
      ((∀ p q, calls = p ++ q → p ≠ [] → run D s p ≠ some D.bottom) → w = r) := by
  have hbot : ∀ calls : List (String × Nat), composeAll D (.allBottom : EF S) (C38.edges calls) = some .allBottom := by
    intro calls
    induction calls with
    | nil => rfl
    | cons c calls ih => exact ih
  intro calls
  induction calls with
  | nil =>
    intro s r hs hr
    cases hr
    exact ⟨_, rfl, fun x => ⟨s, rfl, C38.le_refl D s, fun _ => rfl⟩⟩
  | cons c calls ih =>
    intro s r hs hr
    obtain ⟨t, cs⟩ := c
    simp only [run] at hr
    cases hn : D.next t s cs with
    | none => rw [hn] at hr; cases hr
    | some s' =>
      rw [hn, Option.bind_some] at hr
      have hs' : s' ≠ D.top := fun e => hnt t s cs (e ▸ hn)
      have hap : (EF.ts t cs).ap D s = some s' := by rw [EF.ap, if_neg hs, hn]
      have hcomp : composeAll D (.const s) (C38.edges ((t, cs) :: calls)) =
          composeAll D (if s' = s then .const s else if s' = D.bottom then .allBottom else .const s') (C38.edges calls) := by
        simp only [C38.edges, List.map_cons, composeAll, EF.compose, EF.defaultCompose, EF.isId, EF.isConstant, hap,
          Bool.false_eq_true, if_false]
        split
        · rfl
        · split <;> rfl
      have hex : ∀ p, run D s ((t, cs) :: p) = run D s' p := by intro p; simp only [run, hn, Option.bind_some]
      by_cases h1 : s' = s ∨ s' ≠ D.bottom
      · obtain ⟨h, e1, e2⟩ := ih s' r hs' hr
        refine ⟨h, ?_, fun x => ?_⟩
        · rw [hcomp]
          by_cases h2 : s' = s
          · rw [if_pos h2, ← h2]; exact e1
          · rw [if_neg h2, if_neg (h1.resolve_left h2)]; exact e1
        · obtain ⟨w, w1, w2, w3⟩ := e2 x
          exact ⟨w, w1, w2, fun hh => w3 fun p q hpq _ => by
            have := hh ((t, cs) :: p) q (by rw [hpq]; rfl) (by simp)
            rwa [hex] at this⟩
      · have h2 : s' ≠ s := fun e => h1 (Or.inl e)
        have h3 : s' = D.bottom := Classical.byContradiction fun e => h1 (Or.inr e)
        refine ⟨.allBottom, by rw [hcomp, if_neg h2, if_pos h3]; exact hbot _, fun x => ⟨D.bottom, rfl, C38.le_bottom D r, fun hh => ?_⟩⟩
        refine absurd ?_ (hh [(t, cs)] calls rfl (by simp))
        rw [hex, h3]; rfl

/-! ## Joins -/

/-- The function `h` lies above `f` and `g` where both have a result. -/
def C38.Upper (D : Desc S) (f g h : EF S) : Prop :=
  ∀ x u v, f.ap D x = some u → g.ap D x = some v → ∃ w, h.ap D x = some w ∧ D.le u w ∧ D.le v w

theorem C38.upper_bot (D : Desc S) (f g : EF S) : C38.Upper D f g .allBottom :=
  fun _ u v _ _ => ⟨_, rfl, C38.le_bottom D u, C38.le_bottom D v⟩

theorem C38.upper_symm {D : Desc S} {f g h : EF S} (H : C38.Upper D f g h) : C38.Upper D g f h := fun x u v hu hv =>
  let ⟨w, h1, h2, h3⟩ := H x v u hv hu
  ⟨w, h1, h3, h2⟩

theorem C38.default_upper {D : Desc S} {f g r : EF S} (h : EF.defaultJoin f g = some r) : C38.Upper D f g r := by
  unfold EF.defaultJoin at h
  split at h
  · cases h; rename_i hb; subst hb; exact C38.upper_bot _ _ _
  · split at h
    · cases h
      rename_i ht
      rcases ht with ht | ht
      · subst ht
        intro x u v hu hv
        cases hv
        exact ⟨u, hu, C38.le_refl D u, C38.top_le D u⟩
      · subst ht
        intro x u v hu hv
        rw [hu] at hv
        cases hv
        exact ⟨u, hu, C38.le_refl D u, C38.le_refl D u⟩
    · split at h
      · cases h; exact C38.upper_bot _ _ _
      · cases h

theorem C38.ts_upper (D : Desc S) (f g : EF S) : C38.Upper D f g (EF.joinTS f g) := by
  unfold EF.joinTS
  split
  · rename_i r hr; exact C38.default_upper hr
  · exact C38.upper_bot _ _ _

theorem C38.const_upper (D : Desc S) (v : S) (g : EF S) : C38.Upper D (.const v) g (EF.joinConst D v g) := by
  unfold EF.joinConst
  split
  · rename_i r hr; exact C38.default_upper hr
  · split
    · rename_i c _
      intro x u w hu hw
      cases hu
      cases hw
      split
      · rename_i h
        refine ⟨v, rfl, C38.le_refl D v, ?_⟩
        rcases h with h | h
        · exact h ▸ C38.le_refl D c
        · exact h ▸ C38.top_le D v
      · split
        · rename_i h; exact ⟨c, rfl, h ▸ C38.top_le D c, C38.le_refl D c⟩
        · exact ⟨_, rfl, C38.le_bottom D _, C38.le_bottom D _⟩
    · exact C38.upper_bot _ _ _

/-- C38: the join of two edge functions lies above both of them. -/
theorem C38_join (D : Desc S) (f g : EF S) (x u v : S) (hu : f.ap D x = some u) (hv : g.ap D x = some v) :
    ∃ w, (f.joinWith D g).ap D x = some w ∧ D.le u w ∧ D.le v w := by
  have H : C38.Upper D f g (f.joinWith D g) := by
    cases f with
    | id =>
      cases g with
      | id => exact fun x u v hu hv => by cases hu; cases hv; exact ⟨_, rfl, C38.le_refl D _, C38.le_refl D _⟩
      | allTop => exact fun x u v hu hv => by cases hu; cases hv; exact ⟨_, rfl, C38.le_refl D _, C38.top_le D _⟩
      | allBottom => exact C38.upper_bot _ _ _
      | const c => exact C38.upper_symm (C38.const_upper D c .id)
      | ts t c => exact C38.upper_symm (C38.ts_upper D (.ts t c) .id)
      | comp a b => exact C38.upper_symm (C38.ts_upper D (.comp a b) .id)
    | allBottom => exact C38.upper_bot _ _ _
    | allTop => exact fun x u v hu hv => by cases hu; exact ⟨v, hv, C38.top_le D _, C38.le_refl D _⟩
    | const c => exact C38.const_upper D c g
    | ts t c => exact C38.ts_upper D _ _
    | comp a b => exact C38.ts_upper D _ _
  exact H x u v hu hv

/-- C38: joining the states of two paths agrees with the join of the states. -/
theorem C38_join_exact (D : Desc S) (a b x : S) : ((EF.const a).joinWith D (.const b)).ap D x = some (D.join a b) := by
  simp only [EF.joinWith, EF.joinConst, EF.defaultJoin, Desc.join]
  by_cases h : b = a
  · simp [h, EF.ap]
  · have h' : a ≠ b := fun e => h e.symm
    by_cases h1 : b = D.top
    · by_cases h2 : a = D.top
      · exact absurd (h1.trans h2.symm) h
      · have h3 : ¬ D.top = a := fun e => h2 e.symm
        simp [h1, h2, h3, EF.ap]
    · by_cases h2 : a = D.top
      · have h3 : ¬ D.top = b := fun e => h1 e.symm
        simp [h1, h2, h3, EF.ap]
      · simp [h, h', h1, h2, EF.ap]

/-! ## C standard I/O -/

theorem C38.file_noTop : C38.NoTop fileDesc := by
  intro t s c
  simp only [fileDesc]
  split
  · generalize fileTok t = k
    cases k <;> cases s <;> simp [fileDelta]
  · simp

/-- The protocol: what has to be reported for a file handle returned by `fopen` on which the given functions were called. -/
def fileSpec (calls : List String) : FileState :=
  if "fclose" ∉ calls then .OPENED
  else if calls.getLast? = some "fclose" ∧ calls.count "fclose" = 1 then .CLOSED
  else .ERROR

theorem C38.consuming {f : String} (h : fileIsConsuming f = true) :
    fileIsAPI f = true ∧ fileTok f = (if f = "fclose" then .FCLOSE else .STAR) := by
  refine ⟨?_, ?_⟩
  · unfold fileIsConsuming at h
    unfold fileIsAPI
    cases hl : fileFuncs.lookup f with
    | none => rw [hl] at h; cases h
    | some l => rfl
  · unfold fileTok
    split
    · rename_i h'
      rcases h' with rfl | rfl
      · exact absurd h (by decide +kernel)
      · exact absurd h (by decide +kernel)
    · rfl

theorem C38.file_next {f : String} (h : fileIsConsuming f = true) (s : FileState) (cs : Nat) :
    fileDesc.next f s cs = fileDelta (if f = "fclose" then .FCLOSE else .STAR) s := by
  show (if fileIsAPI f then _ else _) = _
  rw [(C38.consuming h).1, if_pos rfl, (C38.consuming h).2]

theorem C38.file_error : ∀ (calls : List (String × Nat)), (∀ c ∈ calls, fileIsConsuming c.1 = true) →
    run fileDesc .ERROR calls = some .ERROR := by
  intro calls
  induction calls with
  | nil => intro _; rfl
  | cons c calls ih =>
    intro h
    simp only [run]
    rw [C38.file_next (h c (by simp))]
    split <;> exact ih fun c' hc' => h c' (by simp [hc'])

/-- C38: the automaton for C's file I/O implements the protocol: a file is open until it is closed, closed if the only
`fclose` is the last call, and in the error state otherwise. -/
theorem C38_file_protocol : ∀ (calls : List (String × Nat)), (∀ c ∈ calls, fileIsConsuming c.1 = true) →
    run fileDesc .OPENED calls = some (fileSpec (calls.map Prod.fst)) := by
  intro calls
  induction calls with
  | nil => intro _; rfl
  | cons c calls ih =>
    intro h
    obtain ⟨f, cs⟩ := c
    have hf := h (f, cs) (by simp)
    have hr := fun c' hc' => h c' (List.mem_cons_of_mem _ hc')
    simp only [run]
    rw [C38.file_next hf]
    by_cases e : f = "fclose"
    · subst e
      rw [if_pos rfl]
      simp only [fileDelta, Option.bind_some]
      cases calls with
      | nil => rfl
      | cons c' calls =>
        obtain ⟨f', cs'⟩ := c'
        simp only [run]
        rw [C38.file_next (hr (f', cs') (by simp))]
        have : (fileDelta (if f' = "fclose" then .FCLOSE else .STAR) .CLOSED) = some .ERROR := by split <;> rfl
        rw [this, Option.bind_some, C38.file_error calls fun c hc => hr c (by simp [hc])]
        simp only [fileSpec, List.map_cons, List.mem_cons, true_or, not_true_eq_false, if_false]
        rw [if_neg]
        rintro ⟨h1, h2⟩
        simp only [List.count_cons_self, Nat.add_eq_right] at h2
        rw [List.getLast?_cons_cons] at h1
        exact absurd (List.mem_of_getLast? h1) (by rw [← List.count_pos_iff]; omega)
    · rw [if_neg e]
      simp only [fileDelta, Option.bind_some]
      rw [ih hr]
      have e' : ¬ "fclose" = f := fun x => e x.symm
      simp only [fileSpec, List.map_cons, List.mem_cons, e', false_or]
      by_cases hm : "fclose" ∈ calls.map Prod.fst
      · simp only [hm, not_true_eq_false, if_false]
        rw [List.count_cons_of_ne e]
        cases hc : calls.map Prod.fst with
        | nil => rw [hc] at hm; cases hm
        | cons a l => rw [List.getLast?_cons_cons]
      · simp only [hm, not_false_eq_true, if_true]

theorem C38.mem_lookup {f : String} {v : List Int} : ∀ l : List (String × List Int), l.lookup f = some v → (f, v) ∈ l := by
  intro l
  induction l with
  | nil => intro h; cases h
  | cons a l ih =>
    intro h
    rw [List.lookup_cons] at h
    split at h
    · rename_i e
      cases h
      have := LawfulBEq.eq_of_beq e
      subst this
      exact List.mem_cons_self
    · exact List.mem_cons_of_mem _ (ih h)

theorem C38.factories : ∀ p ∈ fileFuncs, p.2.contains (-1) = true → p.1 = "fopen" ∨ p.1 = "fdopen" := by decide +kernel

/-- C38: end to end for C's file I/O.  The analysis sets the handle to `OPENED` at the call of `fopen` or `fdopen`
(`callToRetEdge`), and after any sequence of consuming calls reports what the protocol says. -/
theorem C38_file (f : String) (hf : fileIsFactory f = true) (cs : Nat) (al : Nat → Bool) (calls : List (String × Nat))
    (h : ∀ c ∈ calls, fileIsConsuming c.1 = true) :
    ∃ e, callToRetEdge fileDesc cs true al [f] = some e ∧
      ∃ g, composeAll fileDesc e (C38.edges calls) = some g ∧ ∀ x, g.ap fileDesc x = some (fileSpec (calls.map Prod.fst)) := by
  have hn : fileDesc.next f .UNINIT cs = some .OPENED := by
    show (if fileIsAPI f then fileDelta (fileTok f) .UNINIT else _) = _
    have h1 : fileIsAPI f = true := by
      unfold fileIsFactory at hf
      unfold fileIsAPI
      cases hl : fileFuncs.lookup f with
      | none => rw [hl] at hf; cases hf
      | some l => rfl
    have h2 : fileTok f = .FOPEN := by
      unfold fileIsFactory at hf
      split at hf
      · rename_i l hl
        have := C38.factories (f, l) (C38.mem_lookup _ hl) hf
        unfold fileTok
        exact if_pos this
      · cases hf
    rw [if_pos h1, h2]; rfl
  refine ⟨.const .OPENED, ?_, ?_⟩
  · have : fileDesc.isFactory f = true := hf
    simp only [callToRetEdge, this, Bool.and_self, if_true]
    show (fileDesc.next f .UNINIT cs).map _ = _
    rw [hn]; rfl
  · have hr := C38_file_protocol calls h
    obtain ⟨g, g1, g2⟩ := C38_path fileDesc C38.file_noTop calls .OPENED _ (by decide) hr
    refine ⟨g, g1, fun x => ?_⟩
    obtain ⟨w, w1, _, w3⟩ := g2 x
    rw [w1, w3]
    intro p q hpq _ hb
    have := C38_file_protocol p fun c hc => h c (by rw [hpq]; simp [hc])
    rw [this] at hb
    simp only [fileSpec, fileDesc] at hb
    split at hb
    · cases hb
    · split at hb <;> cases hb

/-- C38: a handle that was never opened is in the error state after any call. -/
theorem C38_file_uninit (c : String × Nat) (calls : List (String × Nat)) (h : ∀ c' ∈ c :: calls, fileIsConsuming c'.1 = true) :
    ∃ g, composeAll fileDesc (normalEdge fileDesc true) (C38.edges (c :: calls)) = some g ∧
      ∀ x, g.ap fileDesc x = some .ERROR := by
  have hrun : ∀ p, (∀ c' ∈ c :: p, fileIsConsuming c'.1 = true) → run fileDesc .UNINIT (c :: p) = some .ERROR := by
    intro p hp
    simp only [run]
    rw [C38.file_next (hp c (by simp))]
    split <;> exact C38.file_error p fun c' hc' => hp c' (by simp [hc'])
  obtain ⟨g, g1, g2⟩ := C38_path fileDesc C38.file_noTop (c :: calls) .UNINIT .ERROR (by decide) (hrun calls h)
  refine ⟨g, g1, fun x => ?_⟩
  obtain ⟨w, w1, _, w3⟩ := g2 x
  rw [w1, w3]
  intro p q hpq hne hb
  cases p with
  | nil => exact hne rfl
  | cons c' p =>
    injection hpq with e1 e2
    subst e1
    rw [hrun p fun c' hc' => h c' (by
      rw [e2]; rcases List.mem_cons.1 hc' with h | h <;> simp [h])] at hb
    cases hb

/-- C38: the functions of the consuming calls are monotone on the states other than top. -/
theorem C38_file_monotone (f : String) (hf : fileIsConsuming f = true) (cs : Nat) (x y u v : FileState) (hx : x ≠ .TOP)
    (hxy : fileDesc.le x y) (hu : (EF.ts f cs).ap fileDesc x = some u) (hv : (EF.ts f cs).ap fileDesc y = some v) :
    fileDesc.le u v := by
  have hy : y ≠ .TOP := by
    rcases hxy with h | h | h
    · exact absurd h hx
    · exact h ▸ hx
    · rw [h]; decide
  rw [EF.ap, if_neg (show ¬ x = fileDesc.top from hx), C38.file_next hf] at hu
  rw [EF.ap, if_neg (show ¬ y = fileDesc.top from hy), C38.file_next hf] at hv
  revert hu hv
  split <;> (cases x <;> cases y <;> simp [Desc.le, fileDesc, fileDelta] at * <;> (rintro rfl rfl; simp))

/-- C38: which functions concern a file handle, and where.  The prototypes of the C library (`ISO C 7.21, 7.29`, POSIX and the
glibc internals `_IO_getc`, `_IO_putc`, `__isoc99_fscanf`): name, whether a `FILE *` is returned, and for each parameter
whether it is a `FILE *`. -/
def C38.prototypes : List (String × Bool × List Bool) :=
  let FILE := true
  let x := false
  [("fopen", true, [x, x]), ("fdopen", true, [x, x]), ("fclose", false, [FILE]), ("fread", false, [x, x, x, FILE]),
   ("fwrite", false, [x, x, x, FILE]), ("fgetc", false, [FILE]), ("fgetwc", false, [FILE]), ("fgets", false, [x, x, FILE]),
   ("getc", false, [FILE]), ("getwc", false, [FILE]), ("_IO_getc", false, [FILE]), ("ungetc", false, [x, FILE]),
   ("ungetwc", false, [x, FILE]), ("fputc", false, [x, FILE]), ("fputwc", false, [x, FILE]), ("fputs", false, [x, FILE]),
   ("putc", false, [x, FILE]), ("putwc", false, [x, FILE]), ("_IO_putc", false, [x, FILE]), ("fprintf", false, [FILE, x]),
   ("fwprintf", false, [FILE, x]), ("vfprintf", false, [FILE, x, x]), ("vfwprintf", false, [FILE, x, x]),
   ("__isoc99_fscanf", false, [FILE, x]), ("fscanf", false, [FILE, x]), ("fwscanf", false, [FILE, x]),
   ("vfscanf", false, [FILE, x, x]), ("vfwscanf", false, [FILE, x, x]), ("fflush", false, [FILE]),
   ("fseek", false, [FILE, x, x]), ("ftell", false, [FILE]), ("rewind", false, [FILE]), ("fgetpos", false, [FILE, x]),
   ("fsetpos", false, [FILE, x]), ("fileno", false, [FILE])]

/-- C38: the description classifies the functions as their prototypes say: exactly the functions that return a file are
factories, exactly those with a file parameter consume it, and the index given is that of the file parameter. -/
theorem C38_file_signatures : (∀ q ∈ C38.prototypes, fileIsFactory q.1 = q.2.1 ∧ fileIsConsuming q.1 = q.2.2.contains true ∧
    ∀ i, i ∈ fileConsumerIdx q.1 ↔ q.2.2[i]? = some true) ∧
    ∀ f, f ∉ C38.prototypes.map Prod.fst → fileIsFactory f = false ∧ fileIsConsuming f = false ∧ fileConsumerIdx f = [] := by
  constructor
  · have h : ∀ q ∈ C38.prototypes, fileIsFactory q.1 = q.2.1 ∧ fileIsConsuming q.1 = q.2.2.contains true ∧
        (∀ i ∈ fileConsumerIdx q.1, q.2.2[i]? = some true) ∧
        ∀ i ∈ List.range q.2.2.length, q.2.2[i]? = some true → i ∈ fileConsumerIdx q.1 := by decide +kernel
    intro q hq
    obtain ⟨h1, h2, h3, h4⟩ := h q hq
    refine ⟨h1, h2, fun i => ⟨h3 i, fun hi => h4 i ?_ hi⟩⟩
    obtain ⟨hl, _⟩ := List.getElem?_eq_some_iff.1 hi
    exact List.mem_range.2 hl
  · intro f hf
    have hn : C38.prototypes.map Prod.fst = fileFuncs.map Prod.fst := by decide +kernel
    have hl : fileFuncs.lookup f = none := by
      cases h : fileFuncs.lookup f with
      | none => rfl
      | some v => exact absurd (List.mem_map.2 ⟨_, C38.mem_lookup _ h, rfl⟩) (hn ▸ hf)
    simp [fileIsFactory, fileIsConsuming, fileConsumerIdx, hl]

/-- C38: opening again makes the handle usable from every state other than the error state, in which it stays. -/
theorem C38_file_reopen (f : String) (hf : fileIsFactory f = true) (cs : Nat) (s : FileState) (hs : s ≠ .TOP) :
    fileDesc.next f s cs = some (if s = .ERROR then .ERROR else .OPENED) := by
  have h1 : fileIsAPI f = true := by
    unfold fileIsFactory at hf
    unfold fileIsAPI
    cases hl : fileFuncs.lookup f with
    | none => rw [hl] at hf; cases hf
    | some l => rfl
  have h2 : fileTok f = .FOPEN := by
    unfold fileIsFactory at hf
    split at hf
    · rename_i l hl
      exact if_pos (C38.factories (f, l) (C38.mem_lookup _ hl) hf)
    · cases hf
  show (if fileIsAPI f then fileDelta (fileTok f) s else _) = _
  rw [if_pos h1, h2]
  cases s <;> first | exact absurd rfl hs | rfl

example : fileIsFactory "fdopen" = true ∧ fileDesc.next "fdopen" .CLOSED 0 = some .OPENED := by decide +kernel

/-! ## Edge functions at calls -/

/-- C38: the edge function at a call: the first callee that creates the state (for the edge from zero to the call) or consumes
the argument decides; a factory puts the handle into the state after the call from the uninitialized state, a consumer that
gets the handle or an alias of it as one of its consumed parameters advances the automaton, all other callees do nothing. -/
theorem C38_call_edge (D : Desc S) (cs : Nat) (zc : Bool) (al : Nat → Bool) (pre : List String) (f : String)
    (post : List String) (hpre : ∀ g ∈ pre, ¬ (D.isFactory g = true ∧ zc = true) ∧
      ¬ (D.isConsuming g = true ∧ ∃ i ∈ D.consumerParamIdx g, al i = true)) :
    (D.isFactory f = true → zc = true → ∀ s, D.next f D.uninit cs = some s →
      callToRetEdge D cs zc al (pre ++ f :: post) = some (.const s)) ∧
    (zc = false → D.isConsuming f = true → (∃ i ∈ D.consumerParamIdx f, al i = true) →
      callToRetEdge D cs zc al (pre ++ f :: post) = some (.ts f cs)) ∧
    callToRetEdge D cs zc al pre = some .id := by
  have skip : ∀ rest, callToRetEdge D cs zc al (pre ++ rest) = callToRetEdge D cs zc al rest := by
    intro rest
    induction pre with
    | nil => rfl
    | cons g pre ih =>
      obtain ⟨h1, h2⟩ := hpre g (by simp)
      have h1' : ¬ ((D.isFactory g && zc) = true) := by simpa using h1
      have h2' : ¬ ((D.isConsuming g && (D.consumerParamIdx g).any al) = true) := by simpa using h2
      rw [List.cons_append]
      simp only [callToRetEdge, if_neg h1', if_neg h2']
      exact ih fun g' hg' => hpre g' (by simp [hg'])
  refine ⟨fun h1 h2 s hs => ?_, fun h0 h1 h2 => ?_, ?_⟩
  · rw [skip]
    simp only [callToRetEdge, h1, h2, Bool.and_self, if_true, hs, Option.map_some]
  · rw [skip]
    have h2' : (D.consumerParamIdx f).any al = true := List.any_eq_true.2 h2
    simp [callToRetEdge, h0, h1, h2']
  · have := skip []
    rwa [List.append_nil] at this

example : callToRetEdge fileDesc 0 false (fun i => i = 3) ["malloc", "fclose", "fread", "fclose"] = some (.ts "fread" 0) ∧
    (∀ g ∈ ["malloc", "fclose"], ¬ (fileDesc.isFactory g = true ∧ false = true) ∧
      ¬ (fileDesc.isConsuming g = true ∧ ∃ i ∈ fileDesc.consumerParamIdx g, decide (i = 3) = true)) := by decide +kernel

/-! ## OpenSSL's key derivation -/

/-- May the function `f` be called on a context on which `prev` was called last (`none`: not yet initialised)?  A context may
be (re)created at any time; parameters may be set from the creation on; deriving requires parameters; a context is freed once.
-/
def C38.kdfLegal : Option String → String → Prop
  | _, "EVP_KDF_CTX_new" => True
  | some p, "EVP_KDF_CTX_set_params" => p ≠ "EVP_KDF_CTX_free"
  | some p, "EVP_KDF_derive" => p = "EVP_KDF_CTX_set_params" ∨ p = "EVP_KDF_derive"
  | some p, "EVP_KDF_CTX_free" => p ≠ "EVP_KDF_CTX_free"
  | _, _ => False

/-- Each call is legal after the one before. -/
def C38.kdfOk : Option String → List String → Prop
  | _, [] => True
  | prev, f :: fs => C38.kdfLegal prev f ∧ C38.kdfOk (some f) fs

/-- The state after the given last call. -/
def C38.kdfAfter : Option String → KdfState
  | some "EVP_KDF_CTX_new" => .CTX_ATTACHED
  | some "EVP_KDF_CTX_set_params" => .PARAM_INIT
  | some "EVP_KDF_derive" => .DERIVED
  | _ => .UNINIT

def C38.kdfApi : List String := ["EVP_KDF_CTX_new", "EVP_KDF_CTX_set_params", "EVP_KDF_derive", "EVP_KDF_CTX_free"]

theorem C38.kdf_step (fetched : Nat → Bool) (prev : Option String) (hp : ∀ p ∈ prev, p ∈ C38.kdfApi) (f : String)
    (hf : f ∈ C38.kdfApi) (cs : Nat) (hc : f = "EVP_KDF_CTX_new" → fetched cs = true) :
    (C38.kdfLegal prev f → (kdfDesc fetched).next f (C38.kdfAfter prev) cs = some (C38.kdfAfter (some f))) ∧
    (¬ C38.kdfLegal prev f → (kdfDesc fetched).next f (C38.kdfAfter prev) cs = some .ERROR) := by
  have hn : ∀ s, (kdfDesc fetched).next f s cs = kdfDelta f s := by
    intro s
    show (if _ then _ else _) = _
    rw [if_neg]
    rintro ⟨h1, h2⟩
    rw [hc h1] at h2; cases h2
  rw [hn]
  simp only [C38.kdfApi, List.mem_cons, List.not_mem_nil, or_false] at hf hp
  clear hn
  cases prev with
  | none => rcases hf with rfl | rfl | rfl | rfl <;> simp [C38.kdfLegal, C38.kdfAfter, kdfDelta]
  | some p =>
    have hp := hp p rfl
    rcases hp with rfl | rfl | rfl | rfl <;> rcases hf with rfl | rfl | rfl | rfl <;>
      simp [C38.kdfLegal, C38.kdfAfter, kdfDelta]

theorem C38.kdf_error (fetched : Nat → Bool) : ∀ (calls : List (String × Nat)), (∀ c ∈ calls, c.1 ∈ C38.kdfApi) →
    run (kdfDesc fetched) .ERROR calls = some .ERROR := by
  intro calls
  induction calls with
  | nil => intro _; rfl
  | cons c calls ih =>
    intro h
    have hc := h c (by simp)
    simp only [run]
    have : (kdfDesc fetched).next c.1 .ERROR c.2 = some .ERROR := by
      simp only [C38.kdfApi, List.mem_cons, List.not_mem_nil, or_false] at hc
      have e : kdfDelta c.1 .ERROR = some .ERROR := by
        rcases hc with h | h | h | h <;> rw [h] <;> rfl
      show (if _ then _ else _) = _
      rw [e]; split <;> rfl
    rw [this]
    exact ih fun c' hc' => h c' (by simp [hc'])

/-- C38: the automaton for OpenSSL's key derivation implements the protocol: after any sequence of calls on a context, whose
key derivation function was fetched, the state is that of the last call if each call is legal after the one before, and the
error state otherwise. -/
theorem C38_kdf_protocol (fetched : Nat → Bool) (calls : List (String × Nat)) (h : ∀ c ∈ calls, c.1 ∈ C38.kdfApi)
    (hc : ∀ c ∈ calls, c.1 = "EVP_KDF_CTX_new" → fetched c.2 = true) :
    (C38.kdfOk none (calls.map Prod.fst) →
      run (kdfDesc fetched) .UNINIT calls = some (C38.kdfAfter (calls.map Prod.fst).getLast?)) ∧
    (¬ C38.kdfOk none (calls.map Prod.fst) → run (kdfDesc fetched) .UNINIT calls = some .ERROR) := by
  have key : ∀ (calls : List (String × Nat)) (prev : Option String), (∀ p ∈ prev, p ∈ C38.kdfApi) →
      (∀ c ∈ calls, c.1 ∈ C38.kdfApi) → (∀ c ∈ calls, c.1 = "EVP_KDF_CTX_new" → fetched c.2 = true) →
      (C38.kdfOk prev (calls.map Prod.fst) → run (kdfDesc fetched) (C38.kdfAfter prev) calls =
        some (C38.kdfAfter (if calls = [] then prev else (calls.map Prod.fst).getLast?))) ∧
      (¬ C38.kdfOk prev (calls.map Prod.fst) → run (kdfDesc fetched) (C38.kdfAfter prev) calls = some .ERROR) := by
    intro calls
    induction calls with
    | nil => intro prev _ _ _; exact ⟨fun _ => rfl, fun h => absurd trivial h⟩
    | cons c calls ih =>
      intro prev hp h hc
      have hst := C38.kdf_step fetched prev hp c.1 (h c (by simp)) c.2 (hc c (by simp))
      have hih := ih (some c.1) (by rintro p ⟨⟩; exact h c (by simp)) (fun c' hc' => h c' (by simp [hc']))
        fun c' hc' => hc c' (by simp [hc'])
      constructor
      · rintro ⟨h1, h2⟩
        simp only [run]
        rw [hst.1 h1, Option.bind_some, hih.1 h2, if_neg (List.cons_ne_nil _ _)]
        cases calls with
        | nil => rfl
        | cons d calls => simp
      · intro hn
        simp only [run]
        by_cases h1 : C38.kdfLegal prev c.1
        · rw [hst.1 h1, Option.bind_some]
          exact hih.2 fun h2 => hn ⟨h1, h2⟩
        · rw [hst.2 h1, Option.bind_some]
          exact C38.kdf_error fetched calls fun c' hc' => h c' (by simp [hc'])
  have := key calls none (by simp) h hc
  refine ⟨fun h => (this.1 h).trans ?_, this.2⟩
  cases calls with
  | nil => rfl
  | cons c calls => simp

/-- C38: a context created with a key derivation function that was not fetched is in the error state for ever. -/
theorem C38_kdf_unfetched (fetched : Nat → Bool) (s : KdfState) (hs : s ≠ .TOP) (cs : Nat) (hcs : fetched cs = false)
    (calls : List (String × Nat)) (h : ∀ c ∈ calls, c.1 ∈ C38.kdfApi) :
    run (kdfDesc fetched) s (("EVP_KDF_CTX_new", cs) :: calls) = some .ERROR := by
  have : (kdfDesc fetched).next "EVP_KDF_CTX_new" s cs = some .ERROR := by
    show (if _ then _ else _) = _
    rw [if_pos ⟨rfl, hcs⟩]
    cases s <;> first | exact absurd rfl hs | rfl
  simp only [run]
  rw [this]
  exact C38.kdf_error fetched calls h

example : C38.kdfOk none ["EVP_KDF_CTX_new", "EVP_KDF_CTX_set_params", "EVP_KDF_derive", "EVP_KDF_CTX_free"] ∧
    ¬ C38.kdfOk none ["EVP_KDF_CTX_new", "EVP_KDF_derive"] := by simp [C38.kdfOk, C38.kdfLegal]

/-- C38: creating a context gives an attached context whatever was known before, except that the error state stays. -/
theorem C38_kdf_new (fetched : Nat → Bool) (cs : Nat) (hcs : fetched cs = true) (s : KdfState) (hs : s ≠ .TOP) :
    (kdfDesc fetched).next "EVP_KDF_CTX_new" s cs = some (if s = .ERROR then .ERROR else .CTX_ATTACHED) := by
  show (if _ then _ else _) = _
  rw [if_neg (by simp [hcs])]
  cases s <;> first | exact absurd rfl hs | rfl

/-! ## Fetching of key derivation functions, the secure heap, secure memory -/

/-- Each call is legal after the one before (`legal prev f`), which leads to the state `after`. -/
def C38.Legal (legal : Option String → String → Prop) : Option String → List String → Prop
  | _, [] => True
  | prev, f :: fs => legal prev f ∧ C38.Legal legal (some f) fs

theorem C38.protocol (D : Desc S) (api : String → Prop) (good : Nat → Prop) (legal : Option String → String → Prop)
    (after : Option String → S) (err : S)
    (hstep : ∀ prev f cs, (∀ p ∈ prev, api p) → api f → good cs →
      (legal prev f → D.next f (after prev) cs = some (after (some f))) ∧ (¬ legal prev f → D.next f (after prev) cs = some err))
    (herr : ∀ f cs, api f → good cs → D.next f err cs = some err) :
    ∀ (calls : List (String × Nat)) (prev : Option String), (∀ p ∈ prev, api p) → (∀ c ∈ calls, api c.1 ∧ good c.2) →
      (C38.Legal legal prev (calls.map Prod.fst) → run D (after prev) calls =
        some (after (if calls = [] then prev else (calls.map Prod.fst).getLast?))) ∧
      (¬ C38.Legal legal prev (calls.map Prod.fst) → run D (after prev) calls = some err) := by
  have hrunerr : ∀ (calls : List (String × Nat)), (∀ c ∈ calls, api c.1 ∧ good c.2) → run D err calls = some err := by
    intro calls
    induction calls with
    | nil => intro _; rfl
    | cons c calls ih =>
      intro h
      simp only [run]
      rw [herr c.1 c.2 (h c (by simp)).1 (h c (by simp)).2]
      exact ih fun c' hc' => h c' (by simp [hc'])
  intro calls
  induction calls with
  | nil => intro prev _ _; exact ⟨fun _ => rfl, fun h => absurd trivial h⟩
  | cons c calls ih =>
    intro prev hp h
    have hst := hstep prev c.1 c.2 hp (h c (by simp)).1 (h c (by simp)).2
    have hih := ih (some c.1) (by rintro p ⟨⟩; exact (h c (by simp)).1) (fun c' hc' => h c' (by simp [hc']))
    constructor
    · rintro ⟨h1, h2⟩
      simp only [run]
      rw [hst.1 h1, Option.bind_some, hih.1 h2, if_neg (List.cons_ne_nil _ _)]
      cases calls with
      | nil => rfl
      | cons d calls => simp
    · intro hn
      simp only [run]
      by_cases h1 : legal prev c.1
      · rw [hst.1 h1, Option.bind_some]
        exact hih.2 fun h2 => hn ⟨h1, h2⟩
      · rw [hst.2 h1, Option.bind_some]
        exact hrunerr calls fun c' hc' => h c' (by simp [hc'])

/-- A key derivation function is fetched if it is not, and freed if it is. -/
def C38.fetchLegal : Option String → String → Prop
  | none, "EVP_KDF_fetch" => True
  | some "EVP_KDF_free", "EVP_KDF_fetch" => True
  | some "EVP_KDF_fetch", "EVP_KDF_free" => True
  | _, _ => False

/-- C38: the automaton for key derivation functions: fetched after an alternating sequence of `fetch` and `free` that ends with
`fetch`, uninitialized if it ends with `free`, the error state after any other sequence. -/
theorem C38_fetch_protocol (calls : List (String × Nat)) (h : ∀ c ∈ calls, c.1 = "EVP_KDF_fetch" ∨ c.1 = "EVP_KDF_free") :
    (C38.Legal C38.fetchLegal none (calls.map Prod.fst) → run fetchDesc .UNINIT calls =
      some (if (calls.map Prod.fst).getLast? = some "EVP_KDF_fetch" then .KDF_FETCHED else .UNINIT)) ∧
    (¬ C38.Legal C38.fetchLegal none (calls.map Prod.fst) → run fetchDesc .UNINIT calls = some .ERROR) := by
  have := C38.protocol fetchDesc (fun f => f = "EVP_KDF_fetch" ∨ f = "EVP_KDF_free") (fun _ => True) C38.fetchLegal
    (fun q => if q = some "EVP_KDF_fetch" then .KDF_FETCHED else .UNINIT) .ERROR
    (by
      intro prev f cs hp hf _
      cases prev with
      | none => rcases hf with rfl | rfl <;> simp [C38.fetchLegal, fetchDesc, fetchDelta]
      | some p =>
        rcases hp p rfl with rfl | rfl <;> rcases hf with rfl | rfl <;> simp [C38.fetchLegal, fetchDesc, fetchDelta])
    (by intro f cs hf _; rcases hf with rfl | rfl <;> rfl) calls none (by simp) fun c hc => ⟨h c hc, trivial⟩
  refine ⟨fun h => (this.1 h).trans ?_, this.2⟩
  cases calls with
  | nil => rfl
  | cons c calls => simp

/-- The state of a pointer to the secure heap given what was called on it since it was allocated last, and by which function:
memory that was allocated with zeros may be freed in both ways, other memory must be cleared; and it is freed once. -/
def C38.heapSince (zeroed : Bool) : List String → HeapState
  | [] => if zeroed then .ZEROED else .ALLOCATED
  | ["CRYPTO_secure_clear_free"] => .FREED
  | ["CRYPTO_secure_free"] => if zeroed then .FREED else .ERROR
  | _ => .ERROR

/-- C38: the automaton for the secure heap (initialized at all calls): after an allocation followed by any frees, the state is
that of the memory. -/
theorem C38_heap_protocol (init : Nat → Bool) (s : HeapState) (hs : s ≠ .TOP) (zeroed : Bool) (cs : Nat) (hcs : init cs = true)
    (calls : List (String × Nat))
    (h : ∀ c ∈ calls, (c.1 = "CRYPTO_secure_free" ∨ c.1 = "CRYPTO_secure_clear_free") ∧ init c.2 = true) :
    run (heapDesc init) s ((if zeroed then "CRYPTO_secure_zalloc" else "CRYPTO_secure_malloc", cs) :: calls) =
      some (C38.heapSince zeroed (calls.map Prod.fst)) := by
  have hn : ∀ f s cs, f ∈ heapApi → init cs = true → (heapDesc init).next f s cs = heapDelta f s := by
    intro f s cs h1 h2
    exact if_pos ⟨h1, h2⟩
  have herr : ∀ (s : HeapState), s = .FREED ∨ s = .ERROR → ∀ (calls : List (String × Nat)), calls ≠ [] ∨ s = .ERROR →
      (∀ c ∈ calls, (c.1 = "CRYPTO_secure_free" ∨ c.1 = "CRYPTO_secure_clear_free") ∧ init c.2 = true) →
      run (heapDesc init) s calls = some .ERROR := by
    intro s hs calls
    induction calls generalizing s with
    | nil => intro h _; rw [h.resolve_left (fun h => h rfl)]; rfl
    | cons c calls ih =>
      intro _ h
      obtain ⟨h1, h2⟩ := h c (by simp)
      have : (heapDesc init).next c.1 s c.2 = some .ERROR := by
        rw [hn _ _ _ (by rcases h1 with h1 | h1 <;> rw [h1] <;> decide) h2]
        rcases h1 with h1 | h1 <;> rw [h1] <;> rcases hs with rfl | rfl <;> rfl
      simp only [run]
      rw [this]
      exact ih .ERROR (Or.inr rfl) (Or.inr rfl) fun c' hc' => h c' (by simp [hc'])
  have h0 : (heapDesc init).next (if zeroed then "CRYPTO_secure_zalloc" else "CRYPTO_secure_malloc") s cs =
      some (if zeroed then .ZEROED else .ALLOCATED) := by
    rw [hn _ _ _ (by cases zeroed <;> decide) hcs]
    cases zeroed <;> cases s <;> first | exact absurd rfl hs | rfl
  simp only [run]
  rw [h0, Option.bind_some]
  cases calls with
  | nil => rfl
  | cons c calls =>
    obtain ⟨h1, h2⟩ := h c (by simp)
    have hr := fun c' hc' => h c' (List.mem_cons_of_mem c hc')
    simp only [run]
    rw [hn _ _ _ (by rcases h1 with h1 | h1 <;> rw [h1] <;> decide) h2]
    obtain ⟨f, cs'⟩ := c
    simp only at h1
    cases calls with
    | nil => rcases h1 with rfl | rfl <;> cases zeroed <;> rfl
    | cons d calls =>
      have hsp : C38.heapSince zeroed (((f, cs') :: d :: calls).map Prod.fst) = .ERROR := by
        simp only [List.map_cons]
        unfold C38.heapSince
        split <;> first | rfl | (rename_i h; cases h)
      rw [hsp]
      have : heapDelta f (if zeroed then .ZEROED else .ALLOCATED) = some .FREED ∨
          heapDelta f (if zeroed then .ZEROED else .ALLOCATED) = some .ERROR := by
        rcases h1 with rfl | rfl <;> cases zeroed <;> decide
      rcases this with e | e <;> rw [e]
      · exact herr _ (Or.inl rfl) _ (Or.inl (List.cons_ne_nil _ _)) hr
      · exact herr _ (Or.inr rfl) _ (Or.inl (List.cons_ne_nil _ _)) hr

/-- C38: use of the secure heap before it was initialized is an error. -/
theorem C38_heap_uninit (init : Nat → Bool) (f : String) (s : HeapState) (cs : Nat) (hcs : init cs = false) :
    (heapDesc init).next f s cs = some .ERROR := if_neg (by simp [hcs])

/-- Memory may be allocated at any time, cleared unless it was freed, and freed once it was zeroed. -/
def C38.memLegal : Option String → String → Prop
  | _, "CRYPTO_malloc" => True
  | _, "CRYPTO_zalloc" => True
  | some p, "OPENSSL_cleanse" => p ≠ "CRYPTO_free"
  | some p, "CRYPTO_free" => p = "CRYPTO_zalloc" ∨ p = "OPENSSL_cleanse"
  | _, _ => False

/-- C38: the automaton for secure memory: after an allocation followed by any calls, the state is that of the last call if each
call is legal after the one before, and the error state otherwise. -/
theorem C38_mem_protocol (s : MemState) (hs : s ≠ .TOP ∧ s ≠ .ERROR) (zeroed : Bool) (cs : Nat) (calls : List (String × Nat))
    (h : ∀ c ∈ calls, c.1 = "CRYPTO_malloc" ∨ c.1 = "CRYPTO_zalloc" ∨ c.1 = "CRYPTO_free" ∨ c.1 = "OPENSSL_cleanse") :
    let alloc := if zeroed then "CRYPTO_zalloc" else "CRYPTO_malloc"
    let fs := alloc :: calls.map Prod.fst
    (C38.Legal C38.memLegal none fs → run memDesc s ((alloc, cs) :: calls) = some (match fs.getLast? with
      | some "CRYPTO_malloc" => .ALLOCATED
      | some "CRYPTO_free" => .FREED
      | _ => .ZEROED)) ∧
    (¬ C38.Legal C38.memLegal none fs → run memDesc s ((alloc, cs) :: calls) = some .ERROR) := by
  intro alloc fs
  have ha : alloc = "CRYPTO_zalloc" ∨ alloc = "CRYPTO_malloc" := by cases zeroed <;> simp [alloc]
  have := C38.protocol memDesc (fun f => f = "CRYPTO_malloc" ∨ f = "CRYPTO_zalloc" ∨ f = "CRYPTO_free" ∨ f = "OPENSSL_cleanse")
    (fun _ => True) (fun q f => q ≠ none ∧ C38.memLegal q f)
    (fun q => match q with
      | some "CRYPTO_malloc" => .ALLOCATED
      | some "CRYPTO_free" => .FREED
      | none => .ERROR
      | _ => .ZEROED) .ERROR
    (by
      intro prev f cs hp hf _
      cases prev with
      | none => rcases hf with rfl | rfl | rfl | rfl <;> simp [memDesc, memDelta]
      | some p =>
        rcases hp p rfl with rfl | rfl | rfl | rfl <;> rcases hf with rfl | rfl | rfl | rfl <;>
          simp [C38.memLegal, memDesc, memDelta])
    (by
      intro f cs hf _
      rcases hf with rfl | rfl | rfl | rfl <;> rfl)
    calls (some alloc) (by rintro p ⟨⟩; rcases ha with h | h <;> simp [h]) fun c hc => ⟨h c hc, trivial⟩
  have hleg : ∀ (l : List String) (q : String), C38.Legal (fun q f => q ≠ none ∧ C38.memLegal q f) (some q) l ↔
      C38.Legal C38.memLegal (some q) l := by
    intro l
    induction l with
    | nil => intro q; exact Iff.rfl
    | cons f l ih =>
      intro q
      show (_ ∧ _) ↔ (_ ∧ _)
      rw [ih f]
      exact ⟨fun h => ⟨h.1.2, h.2⟩, fun h => ⟨⟨nofun, h.1⟩, h.2⟩⟩
  rw [hleg] at this
  have h1 : C38.Legal C38.memLegal none fs ↔ C38.Legal C38.memLegal (some alloc) (calls.map Prod.fst) := by
    show (_ ∧ _) ↔ _
    refine ⟨fun h => h.2, fun h => ⟨?_, h⟩⟩
    rcases ha with h | h <;> rw [h] <;> trivial
  have h2 : run memDesc s ((alloc, cs) :: calls) = run memDesc (if alloc = "CRYPTO_malloc" then .ALLOCATED else .ZEROED) calls := by
    simp only [run]
    have : memDesc.next alloc s cs = some (if alloc = "CRYPTO_malloc" then .ALLOCATED else .ZEROED) := by
      rcases ha with h | h <;> rw [h] <;> cases s <;>
        first | exact absurd rfl hs.1 | exact absurd rfl hs.2 | rfl
    rw [this, Option.bind_some]
  have h3 : (match (some alloc) with
      | some "CRYPTO_malloc" => MemState.ALLOCATED
      | some "CRYPTO_free" => .FREED
      | none => .ERROR
      | _ => .ZEROED) = if alloc = "CRYPTO_malloc" then .ALLOCATED else .ZEROED := by
    rcases ha with h | h <;> rw [h] <;> rfl
  rw [h3] at this
  rw [h1, h2]
  refine ⟨fun h => (this.1 h).trans ?_, this.2⟩
  congr 1
  cases calls with
  | nil => rcases ha with h | h <;> simp [fs, h]
  | cons c calls =>
    rw [if_neg (List.cons_ne_nil _ _)]
    have : fs.getLast? = ((c :: calls).map Prod.fst).getLast? := by simp [fs]
    rw [this]
    cases hl : ((c :: calls).map Prod.fst).getLast? with
    | none => simp at hl
    | some q =>
      split <;> first | rfl | (rename_i e; simp at e; subst e; rfl) | (split <;> first | rfl | (simp_all))

example : run memDesc .BOT [("CRYPTO_malloc", 0), ("OPENSSL_cleanse", 1), ("CRYPTO_free", 2)] = some .FREED ∧
    run memDesc .BOT [("CRYPTO_malloc", 0), ("CRYPTO_free", 2)] = some .ERROR ∧
    C38.Legal C38.memLegal none ["CRYPTO_malloc", "OPENSSL_cleanse", "CRYPTO_free"] ∧
    ¬ C38.Legal C38.memLegal none ["CRYPTO_malloc", "CRYPTO_free"] := by
  refine ⟨by decide +kernel, by decide +kernel, ?_, ?_⟩ <;> simp [C38.Legal, C38.memLegal]

example : run fetchDesc .UNINIT [("EVP_KDF_fetch", 0), ("EVP_KDF_free", 1), ("EVP_KDF_fetch", 2)] = some .KDF_FETCHED ∧
    C38.Legal C38.fetchLegal none ["EVP_KDF_fetch", "EVP_KDF_free", "EVP_KDF_fetch"] ∧
    ¬ C38.Legal C38.fetchLegal none ["EVP_KDF_fetch", "EVP_KDF_fetch"] := by
  refine ⟨by decide +kernel, ?_, ?_⟩ <;> simp [C38.Legal, C38.fetchLegal]

example : run (heapDesc fun _ => true) .ERROR [("CRYPTO_secure_malloc", 0), ("CRYPTO_secure_free", 1)] = some .ERROR ∧
    run (heapDesc fun _ => true) .ERROR [("CRYPTO_secure_malloc", 0), ("CRYPTO_secure_clear_free", 1)] = some .FREED := by
  decide +kernel

/-! ## What does not hold -/

/-- Top is treated as the uninitialized state, which is not monotone: top is below `OPENED`, but `fclose` leads to the error
state from top, and to `CLOSED` from `OPENED`. -/
theorem C38_top_false : fileDesc.le .TOP .OPENED ∧ (EF.ts "fclose" 0).ap fileDesc .TOP = some .ERROR ∧
    (EF.ts "fclose" 0).ap fileDesc .OPENED = some .CLOSED ∧ ¬ fileDesc.le .ERROR .CLOSED := by
  refine ⟨Or.inl rfl, by decide +kernel, by decide +kernel, ?_⟩
  simp [Desc.le, fileDesc]

/-- If a call has several callees, only the first one that consumes the handle is taken into account: the handle is reported
`OPENED` after a call of `fread` or `fclose`. -/
theorem C38_callees_false : callToRetEdge fileDesc 0 false (fun i => i = 0 ∨ i = 3) ["fread", "fclose"] = some (.ts "fread" 0) ∧
    (EF.ts "fread" 0).ap fileDesc .OPENED = some .OPENED ∧ (EF.ts "fclose" 0).ap fileDesc .OPENED = some .CLOSED ∧
    ¬ fileDesc.le .CLOSED .OPENED := by
  refine ⟨by decide +kernel, by decide +kernel, by decide +kernel, ?_⟩
  simp [Desc.le, fileDesc]

/-- The automaton for OpenSSL's key derivation is not monotone: in the bottom state (any state is possible) it reports an
error for every call.  A handle that is `CTX_ATTACHED` on one path and `PARAM_INIT` on another one is fine after
`EVP_KDF_CTX_set_params` on both paths, but the function applied to the join of the states gives `ERROR`, which is not
above `PARAM_INIT`. -/
theorem C38_kdf_false : let D := kdfDesc fun _ => true
    D.join .CTX_ATTACHED .PARAM_INIT = .BOT ∧
    (EF.ts "EVP_KDF_CTX_set_params" 0).ap D .CTX_ATTACHED = some .PARAM_INIT ∧
    (EF.ts "EVP_KDF_CTX_set_params" 0).ap D .PARAM_INIT = some .PARAM_INIT ∧
    (EF.ts "EVP_KDF_CTX_set_params" 0).ap D .BOT = some .ERROR ∧ ¬ D.le .PARAM_INIT .ERROR := by
  refine ⟨by decide, by decide +kernel, by decide +kernel, by decide +kernel, ?_⟩
  simp [Desc.le, kdfDesc]

/-- ... whereas the composed edge functions give bottom, so that the result depends on whether the join happens before or
after the propagation over the call. -/
theorem C38_kdf_compose_false : let D := kdfDesc fun _ => true
    (EF.allBottom).compose D (.ts "EVP_KDF_CTX_set_params" 0) = some .allBottom ∧
    (EF.const KdfState.BOT).compose D (.ts "EVP_KDF_CTX_set_params" 0) = some (.const .ERROR) := by decide +kernel

/-- The automata for the secure heap and for secure memory are not monotone either: from the bottom state, freeing is an error,
although it is fine from a state below. -/
theorem C38_heap_false : (let D := heapDesc fun _ => true
    D.le .ZEROED .BOT ∧ D.next "CRYPTO_secure_free" .ZEROED 0 = some .FREED ∧ D.next "CRYPTO_secure_free" .BOT 0 = some .ERROR ∧
    ¬ D.le .FREED .ERROR) ∧
    memDesc.le .ZEROED .BOT ∧ memDesc.next "CRYPTO_free" .ZEROED 0 = some .FREED ∧
    memDesc.next "CRYPTO_free" .BOT 0 = some .ERROR ∧ ¬ memDesc.le .FREED .ERROR := by
  refine ⟨⟨Or.inr (Or.inr rfl), by decide +kernel, by decide +kernel, ?_⟩, Or.inr (Or.inr rfl), by decide +kernel,
    by decide +kernel, ?_⟩ <;> simp [Desc.le, heapDesc, memDesc]

/-! ## Examples -/

example : fileSpec ["fread", "fwrite"] = .OPENED ∧ fileSpec ["fread", "fclose"] = .CLOSED ∧
    fileSpec ["fclose", "fread"] = .ERROR ∧ fileSpec ["fclose", "fclose"] = .ERROR := by decide

example : ∀ c ∈ [("fread", 1), ("fputs", 2), ("fclose", 3)], fileIsConsuming c.1 = true := by decide +kernel

example : composeAll fileDesc (.const .OPENED) (C38.edges [("fread", 1), ("fclose", 2)]) = some (.const .CLOSED) ∧
    composeAll fileDesc (.const .OPENED) (C38.edges [("fclose", 1), ("fclose", 2)]) = some (.const .ERROR) := by decide +kernel

example : composeAll fileDesc .id (C38.edges [("fread", 1), ("fclose", 2)]) = some (.comp (.ts "fread" 1) (.ts "fclose" 2)) ∧
    (EF.comp (.ts "fread" 1) (.ts "fclose" 2)).ap fileDesc .CLOSED = some .ERROR := by decide +kernel

example : (EF.const FileState.OPENED).joinWith fileDesc (.const .CLOSED) = .allBottom := by decide

example : C38.NoTop fileDesc ∧ (EF.comp (.ts "fread" 1) (.ts "fclose" 2) : EF FileState).Proper :=
  ⟨C38.file_noTop, trivial, trivial, ⟨_, _, rfl⟩, rfl, rfl⟩

end Phasar.TypeState
