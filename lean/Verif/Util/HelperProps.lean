import Verif.Util.Helper
/-!
# The helper analyses: properties (C93)
-/
namespace Phasar.Helper

theorem C93.at_new (o : Obj) (l : List Obj) : (o :: l).reverse[l.length]? = some o := by
  simp

theorem C93.at_old {o x : Obj} {l : List Obj} {a : Nat} (h : l.reverse[a]? = some x) : (o :: l).reverse[a]? = some x := by
  have h1 := (List.getElem?_eq_some_iff.1 h).1
  rw [List.reverse_cons, List.getElem?_append_left h1]
  exact h

/-- The alias information a configuration asks for. -/
def C93.aliasObj (c : Config) (i : Nat) : Obj :=
  match c.pts with
  | some j => .aliasJson i j
  | none => .alias i c.lazyPts c.ptaTy

/-- The invariant of the members. -/
structure C93.Inv (c : Config) (s : State) : Prop where
  irdb : ∀ a, s.irdb = some a → s.made.reverse[a]? = some (.irdb c.src)
  pt : ∀ a, s.pt = some a → ∃ i, s.irdb = some i ∧ s.made.reverse[a]? = some (C93.aliasObj c i)
  th : ∀ a, s.th = some a → ∃ i, s.irdb = some i ∧ s.made.reverse[a]? = some (.th i)
  icfJ : ∀ a j, s.icf = some a → c.cg = some j → ∃ i, s.irdb = some i ∧ s.made.reverse[a]? = some (.icfgJson i j)
  icf : ∀ a, s.icf = some a → c.cg = none → ∃ i t p, s.irdb = some i ∧ s.th = some t ∧
    (c.otf = true → p.isSome = true ∧ p = s.pt) ∧ (c.otf = false → p = none) ∧
    s.made.reverse[a]? = some (.icfg i c.cgTy c.entries t p c.sound c.autoGlobals)
  cfg : ∀ a, s.cfg = some a → s.made.reverse[a]? = some .cfg
  ent : s.icf = none → s.entries = c.entries
  cov : ∀ a, a < s.made.length → s.irdb = some a ∨ s.pt = some a ∨ s.th = some a ∨ s.icf = some a ∨ s.cfg = some a

/-- Members that are set stay, objects stay. -/
structure C93.Ext (s s' : State) : Prop where
  irdb : ∀ a, s.irdb = some a → s'.irdb = some a
  pt : ∀ a, s.pt = some a → s'.pt = some a
  th : ∀ a, s.th = some a → s'.th = some a
  icf : ∀ a, s.icf = some a → s'.icf = some a
  cfg : ∀ a, s.cfg = some a → s'.cfg = some a
  made : ∀ (a : Nat) (o : Obj), s.made.reverse[a]? = some o → s'.made.reverse[a]? = some o

theorem C93.Ext.refl (s : State) : C93.Ext s s := ⟨fun _ h => h, fun _ h => h, fun _ h => h, fun _ h => h, fun _ h => h, fun _ _ h => h⟩

theorem C93.Ext.trans {s t u : State} (h : C93.Ext s t) (k : C93.Ext t u) : C93.Ext s u :=
  ⟨fun a x => k.irdb a (h.irdb a x), fun a x => k.pt a (h.pt a x), fun a x => k.th a (h.th a x), fun a x => k.icf a (h.icf a x),
    fun a x => k.cfg a (h.cfg a x), fun a o x => k.made a o (h.made a o x)⟩

theorem C93.lt_cons {o : Obj} {l : List Obj} {a : Nat} (h : a < (o :: l).length) : a < l.length ∨ a = l.length := by
  simp at h; omega

theorem C93.irdb_spec {c : Config} {s : State} (h : C93.Inv c s) :
    C93.Inv c (getIRDB c s).2 ∧ C93.Ext s (getIRDB c s).2 ∧ (getIRDB c s).2.irdb = some (getIRDB c s).1 ∧
    (getIRDB c s).2.pt = s.pt ∧ (getIRDB c s).2.th = s.th ∧ (getIRDB c s).2.icf = s.icf ∧ (getIRDB c s).2.cfg = s.cfg ∧
    (getIRDB c s).2.entries = s.entries := by
  unfold getIRDB
  cases hi : s.irdb with
  | some a => exact ⟨h, C93.Ext.refl s, hi, rfl, rfl, rfl, rfl, rfl⟩
  | none =>
    have hp : ∀ a, s.pt ≠ some a := fun a x => by obtain ⟨i, h1, _⟩ := h.pt a x; rw [hi] at h1; cases h1
    have ht : ∀ a, s.th ≠ some a := fun a x => by obtain ⟨i, h1, _⟩ := h.th a x; rw [hi] at h1; cases h1
    have hc : ∀ a, s.icf ≠ some a := fun a x => by
      cases hg : c.cg with
      | some j => obtain ⟨i, h1, _⟩ := h.icfJ a j x hg; rw [hi] at h1; cases h1
      | none => obtain ⟨i, _, _, h1, _⟩ := h.icf a x hg; rw [hi] at h1; cases h1
    refine ⟨⟨?_, ?_, ?_, ?_, ?_, ?_, ?_, ?_⟩, ⟨?_, fun _ x => x, fun _ x => x, fun _ x => x, fun _ x => x, fun _ _ x => C93.at_old x⟩,
      rfl, rfl, rfl, rfl, rfl, rfl⟩
    · intro a ha
      cases ha
      exact C93.at_new _ _
    · intro a ha; exact absurd ha (hp a)
    · intro a ha; exact absurd ha (ht a)
    · intro a j ha; exact absurd ha (hc a)
    · intro a ha; exact absurd ha (hc a)
    · intro a ha; exact C93.at_old (h.cfg a ha)
    · exact h.ent
    · intro a ha
      rcases C93.lt_cons ha with h1 | h1
      · have := h.cov a h1
        rw [hi] at this
        rcases this with h2 | h2
        · cases h2
        · exact Or.inr h2
      · exact Or.inl (by rw [h1]; rfl)
    · intro a ha; rw [hi] at ha; cases ha

theorem C93.alias_spec {c : Config} {s : State} (h : C93.Inv c s) :
    C93.Inv c (getAlias c s).2 ∧ C93.Ext s (getAlias c s).2 ∧ (getAlias c s).2.pt = some (getAlias c s).1 ∧
    (getAlias c s).2.irdb.isSome = true ∧ (getAlias c s).2.th = s.th ∧ (getAlias c s).2.icf = s.icf ∧ (getAlias c s).2.cfg = s.cfg ∧
    (getAlias c s).2.entries = s.entries := by
  unfold getAlias
  cases hi : s.pt with
  | some a =>
    obtain ⟨i, h1, _⟩ := h.pt a hi
    exact ⟨h, C93.Ext.refl s, hi, by simp [h1], rfl, rfl, rfl, rfl⟩
  | none =>
    obtain ⟨d1, d2, d3, d4, d5, d6, d7, d8⟩ := C93.irdb_spec h
    rw [hi] at d4
    simp only
    generalize getIRDB c s = d at *
    refine ⟨⟨?_, ?_, ?_, ?_, ?_, ?_, ?_, ?_⟩, d2.trans ⟨fun _ x => x, ?_, fun _ x => x, fun _ x => x, fun _ x => x, fun _ _ x => C93.at_old x⟩,
      by first | exact rfl | trivial, by show d.2.irdb.isSome = true; rw [d3]; rfl, d5, d6, d7, d8⟩
    · intro a ha; exact C93.at_old (d1.irdb a ha)
    · intro a ha
      cases ha
      exact ⟨d.1, d3, C93.at_new _ _⟩
    · intro a ha; obtain ⟨i, h1, h2⟩ := d1.th a ha; exact ⟨i, h1, C93.at_old h2⟩
    · intro a j ha hj; obtain ⟨i, h1, h2⟩ := d1.icfJ a j ha hj; exact ⟨i, h1, C93.at_old h2⟩
    · intro a ha hj
      obtain ⟨i, t, p, h1, h2, h3, h4, h5⟩ := d1.icf a ha hj
      refine ⟨i, t, p, h1, h2, fun ho => ?_, h4, C93.at_old h5⟩
      have h6 := h3 ho
      rw [h6.2, d4] at h6
      simp at h6
    · intro a ha; exact C93.at_old (d1.cfg a ha)
    · exact d1.ent
    · intro a ha
      rcases C93.lt_cons ha with h1 | h1
      · rcases d1.cov a h1 with h2 | h2 | h2
        · exact Or.inl h2
        · rw [d4] at h2; cases h2
        · exact Or.inr (Or.inr h2)
      · exact Or.inr (Or.inl (by rw [h1]; rfl))
    · intro a ha; rw [d4] at ha; cases ha

theorem C93.th_spec {c : Config} {s : State} (h : C93.Inv c s) :
    C93.Inv c (getTH c s).2 ∧ C93.Ext s (getTH c s).2 ∧ (getTH c s).2.th = some (getTH c s).1 ∧
    (getTH c s).2.irdb.isSome = true ∧ (getTH c s).2.pt = s.pt ∧ (getTH c s).2.icf = s.icf ∧ (getTH c s).2.cfg = s.cfg ∧
    (getTH c s).2.entries = s.entries := by
  unfold getTH
  cases hi : s.th with
  | some a =>
    obtain ⟨i, h1, _⟩ := h.th a hi
    exact ⟨h, C93.Ext.refl s, hi, by simp [h1], rfl, rfl, rfl, rfl⟩
  | none =>
    obtain ⟨d1, d2, d3, d4, d5, d6, d7, d8⟩ := C93.irdb_spec h
    rw [hi] at d5
    simp only
    generalize getIRDB c s = d at *
    refine ⟨⟨?_, ?_, ?_, ?_, ?_, ?_, ?_, ?_⟩, d2.trans ⟨fun _ x => x, fun _ x => x, ?_, fun _ x => x, fun _ x => x, fun _ _ x => C93.at_old x⟩,
      by first | exact rfl | trivial, by show d.2.irdb.isSome = true; rw [d3]; rfl, d4, d6, d7, d8⟩
    · intro a ha; exact C93.at_old (d1.irdb a ha)
    · intro a ha; obtain ⟨i, h1, h2⟩ := d1.pt a ha; exact ⟨i, h1, C93.at_old h2⟩
    · intro a ha
      cases ha
      exact ⟨d.1, d3, C93.at_new _ _⟩
    · intro a j ha hj; obtain ⟨i, h1, h2⟩ := d1.icfJ a j ha hj; exact ⟨i, h1, C93.at_old h2⟩
    · intro a ha hj
      obtain ⟨i, t, p, h1, h2, h3, h4, h5⟩ := d1.icf a ha hj
      rw [d5] at h2; cases h2
    · intro a ha; exact C93.at_old (d1.cfg a ha)
    · exact d1.ent
    · intro a ha
      rcases C93.lt_cons ha with h1 | h1
      · rcases d1.cov a h1 with h2 | h2 | h2 | h2
        · exact Or.inl h2
        · exact Or.inr (Or.inl h2)
        · rw [d5] at h2; cases h2
        · exact Or.inr (Or.inr (Or.inr h2))
      · exact Or.inr (Or.inr (Or.inl (by rw [h1]; rfl)))
    · intro a ha; rw [d5] at ha; cases ha

theorem C93.aliasIf_spec {c : Config} {s : State} (h : C93.Inv c s) :
    C93.Inv c (getAliasIf c s).2 ∧ C93.Ext s (getAliasIf c s).2 ∧
    (c.otf = true → (getAliasIf c s).1.isSome = true ∧ (getAliasIf c s).1 = (getAliasIf c s).2.pt) ∧
    (c.otf = false → (getAliasIf c s).1 = none ∧ (getAliasIf c s).2.pt = s.pt) ∧
    (getAliasIf c s).2.th = s.th ∧ (getAliasIf c s).2.icf = s.icf ∧ (getAliasIf c s).2.cfg = s.cfg ∧
    (getAliasIf c s).2.entries = s.entries := by
  unfold getAliasIf
  cases ho : c.otf with
  | false => exact ⟨h, C93.Ext.refl s, by simp, by simp, rfl, rfl, rfl, rfl⟩
  | true =>
    obtain ⟨d1, d2, d3, d4, d5, d6, d7, d8⟩ := C93.alias_spec h
    exact ⟨d1, d2, fun _ => ⟨rfl, d3.symm⟩, by simp, d5, d6, d7, d8⟩

/-- What `getICFG` does to the other members. -/
def C93.IcfgRest (c : Config) (s s' : State) : Prop :=
  (c.cg = none → s'.th.isSome = true ∧ (c.otf = true → s'.pt.isSome = true) ∧ (c.otf = false → s'.pt = s.pt)) ∧
  (c.cg ≠ none → s'.th = s.th ∧ s'.pt = s.pt)

theorem C93.icfg_spec {c : Config} {s : State} (h : C93.Inv c s) :
    C93.Inv c (getICFG c s).2 ∧ C93.Ext s (getICFG c s).2 ∧ (getICFG c s).2.icf = some (getICFG c s).1 ∧
    (getICFG c s).2.irdb.isSome = true ∧ (getICFG c s).2.cfg = s.cfg ∧ C93.IcfgRest c s (getICFG c s).2 := by
  unfold getICFG
  cases hi : s.icf with
  | some a =>
    refine ⟨h, C93.Ext.refl s, hi, ?_, rfl, ?_, fun _ => ⟨rfl, rfl⟩⟩
    · cases hg : c.cg with
      | some j => obtain ⟨i, h1, _⟩ := h.icfJ a j hi hg; simp [h1]
      | none => obtain ⟨i, _, _, h1, _⟩ := h.icf a hi hg; simp [h1]
    · intro hg
      obtain ⟨i, t, p, h1, h2, h3, h4, h5⟩ := h.icf a hi hg
      refine ⟨by simp [h2], fun ho => ?_, fun _ => rfl⟩
      rw [← (h3 ho).2]; exact (h3 ho).1
  | none =>
    cases hg : c.cg with
    | some j =>
      obtain ⟨d1, d2, d3, d4, d5, d6, d7, d8⟩ := C93.irdb_spec h
      rw [hi] at d6
      simp only
      generalize getIRDB c s = d at *
      refine ⟨⟨?_, ?_, ?_, ?_, ?_, ?_, ?_, ?_⟩, d2.trans ⟨fun _ x => x, fun _ x => x, fun _ x => x, ?_, fun _ x => x, fun _ _ x => C93.at_old x⟩,
        by first | exact rfl | trivial, by show d.2.irdb.isSome = true; rw [d3]; rfl, d7, by simp [hg], fun _ => ⟨d5, d4⟩⟩
      · intro a ha; exact C93.at_old (d1.irdb a ha)
      · intro a ha; obtain ⟨i, h1, h2⟩ := d1.pt a ha; exact ⟨i, h1, C93.at_old h2⟩
      · intro a ha; obtain ⟨i, h1, h2⟩ := d1.th a ha; exact ⟨i, h1, C93.at_old h2⟩
      · intro a j' ha hj
        cases ha
        rw [hg] at hj; cases hj
        exact ⟨d.1, d3, C93.at_new _ _⟩
      · intro a ha hj; rw [hg] at hj; cases hj
      · intro a ha; exact C93.at_old (d1.cfg a ha)
      · intro x; cases x
      · intro a ha
        rcases C93.lt_cons ha with h1 | h1
        · rcases d1.cov a h1 with h2 | h2 | h2 | h2 | h2
          · exact Or.inl h2
          · exact Or.inr (Or.inl h2)
          · exact Or.inr (Or.inr (Or.inl h2))
          · rw [d6] at h2; cases h2
          · exact Or.inr (Or.inr (Or.inr (Or.inr h2)))
        · exact Or.inr (Or.inr (Or.inr (Or.inl (by rw [h1]; rfl))))
      · intro a ha; rw [d6] at ha; cases ha
    | none =>
      obtain ⟨d1, d2, d3, d4, d5, d6, d7, d8⟩ := C93.irdb_spec h
      simp only
      generalize getIRDB c s = d at *
      obtain ⟨t1, t2, t3, t4, t5, t6, t7, t8⟩ := C93.th_spec d1
      generalize getTH c d.2 = t at *
      obtain ⟨p1, p2, p3, p4, p5, p6, p7, p8⟩ := C93.aliasIf_spec t1
      generalize getAliasIf c t.2 = p at *
      have hicf : p.2.icf = none := by rw [p6, t6, d6, hi]
      have hent : p.2.entries = c.entries := p1.ent hicf
      have hirdb : p.2.irdb = some d.1 := p2.irdb _ (t2.irdb _ d3)
      have hth : p.2.th = some t.1 := by rw [p5, t3]
      refine ⟨⟨?_, ?_, ?_, ?_, ?_, ?_, ?_, ?_⟩, (d2.trans (t2.trans p2)).trans
        ⟨fun _ x => x, fun _ x => x, fun _ x => x, ?_, fun _ x => x, fun _ _ x => C93.at_old x⟩,
        by first | exact rfl | trivial, by show p.2.irdb.isSome = true; rw [hirdb]; rfl, by show p.2.cfg = s.cfg; rw [p7, t7, d7], ?_, fun x => absurd hg x⟩
      · intro a ha; exact C93.at_old (p1.irdb a ha)
      · intro a ha; obtain ⟨i, h1, h2⟩ := p1.pt a ha; exact ⟨i, h1, C93.at_old h2⟩
      · intro a ha; obtain ⟨i, h1, h2⟩ := p1.th a ha; exact ⟨i, h1, C93.at_old h2⟩
      · intro a j' ha hj; rw [hg] at hj; cases hj
      · intro a ha _
        cases ha
        refine ⟨d.1, t.1, p.1, hirdb, hth, p3, fun x => (p4 x).1, ?_⟩
        rw [← hent]
        exact C93.at_new _ _
      · intro a ha; exact C93.at_old (p1.cfg a ha)
      · intro x; cases x
      · intro a ha
        rcases C93.lt_cons ha with h1 | h1
        · rcases p1.cov a h1 with h2 | h2 | h2 | h2 | h2
          · exact Or.inl h2
          · exact Or.inr (Or.inl h2)
          · exact Or.inr (Or.inr (Or.inl h2))
          · rw [hicf] at h2; cases h2
          · exact Or.inr (Or.inr (Or.inr (Or.inr h2)))
        · exact Or.inr (Or.inr (Or.inr (Or.inl (by rw [h1]; rfl))))
      · intro a ha; rw [hicf] at ha; cases ha
      · intro _
        refine ⟨by show p.2.th.isSome = true; rw [hth]; rfl, fun ho => ?_, fun ho => ?_⟩
        · show p.2.pt.isSome = true
          rw [← (p3 ho).2]; exact (p3 ho).1
        · show p.2.pt = s.pt
          rw [(p4 ho).2, t5, d4]

theorem C93.cfg_spec {c : Config} {s : State} (h : C93.Inv c s) :
    C93.Inv c (getCFG s).2 ∧ C93.Ext s (getCFG s).2 ∧ (getCFG s).2.irdb = s.irdb ∧ (getCFG s).2.pt = s.pt ∧ (getCFG s).2.th = s.th ∧
    (getCFG s).2.icf = s.icf ∧
    ((getCFG s).2.cfg = some (getCFG s).1 ∨ ((getCFG s).2.cfg = none ∧ s.cfg = none ∧ s.icf = some (getCFG s).1)) ∧
    (s.icf ≠ none → (getCFG s).2.cfg = s.cfg) ∧ (s.icf = none → (getCFG s).2.cfg = some (getCFG s).1) := by
  unfold getCFG
  cases hi : s.cfg with
  | some a => exact ⟨h, C93.Ext.refl s, rfl, rfl, rfl, rfl, Or.inl hi, fun _ => hi, fun _ => hi⟩
  | none =>
    cases hc : s.icf with
    | some a => exact ⟨h, C93.Ext.refl s, rfl, rfl, rfl, hc, Or.inr ⟨hi, rfl, rfl⟩, fun _ => hi, by simp⟩
    | none =>
      refine ⟨⟨?_, ?_, ?_, ?_, ?_, ?_, ?_, ?_⟩, ⟨fun _ x => x, fun _ x => x, fun _ x => x, fun _ x => x, ?_, fun _ _ x => C93.at_old x⟩,
        rfl, rfl, rfl, hc, Or.inl rfl, by simp, fun _ => rfl⟩
      · intro a ha; exact C93.at_old (h.irdb a ha)
      · intro a ha; obtain ⟨i, h1, h2⟩ := h.pt a ha; exact ⟨i, h1, C93.at_old h2⟩
      · intro a ha; obtain ⟨i, h1, h2⟩ := h.th a ha; exact ⟨i, h1, C93.at_old h2⟩
      · intro a j ha; have ha' : s.icf = some a := ha; rw [hc] at ha'; cases ha'
      · intro a ha; have ha' : s.icf = some a := ha; rw [hc] at ha'; cases ha'
      · intro a ha
        cases ha
        exact C93.at_new _ _
      · exact h.ent
      · intro a ha
        rcases C93.lt_cons ha with h1 | h1
        · rcases h.cov a h1 with h2 | h2 | h2 | h2 | h2
          · exact Or.inl h2
          · exact Or.inr (Or.inl h2)
          · exact Or.inr (Or.inr (Or.inl h2))
          · exact Or.inr (Or.inr (Or.inr (Or.inl h2)))
          · rw [hi] at h2; cases h2
        · exact Or.inr (Or.inr (Or.inr (Or.inr (by rw [h1]; rfl))))
      · intro a ha; rw [hi] at ha; cases ha

theorem C93.ask_spec {c : Config} {s : State} (h : C93.Inv c s) (q : Query) :
    C93.Inv c (ask c s q).2 ∧ C93.Ext s (ask c s q).2 := by
  cases q with
  | irdb => exact ⟨(C93.irdb_spec h).1, (C93.irdb_spec h).2.1⟩
  | alias => exact ⟨(C93.alias_spec h).1, (C93.alias_spec h).2.1⟩
  | th => exact ⟨(C93.th_spec h).1, (C93.th_spec h).2.1⟩
  | icfg => exact ⟨(C93.icfg_spec h).1, (C93.icfg_spec h).2.1⟩
  | cfg => exact ⟨(C93.cfg_spec h).1, (C93.cfg_spec h).2.1⟩

theorem C93.inv0 (c : Config) : C93.Inv c ⟨none, none, none, none, none, c.entries, []⟩ :=
  ⟨by simp, by simp, by simp, by simp, by simp, by simp, by simp, by simp⟩

theorem C93.inv_init (c : Config) : C93.Inv c (init c) := by
  unfold init
  cases c.src with
  | file f => exact C93.inv0 c
  | given m p => exact (C93.irdb_spec (C93.inv0 c)).1

theorem C93.foldl_spec (c : Config) (qs : List Query) (s : State) (h : C93.Inv c s) :
    C93.Inv c (qs.foldl (fun s q => (ask c s q).2) s) ∧ C93.Ext s (qs.foldl (fun s q => (ask c s q).2) s) := by
  induction qs generalizing s with
  | nil => exact ⟨h, C93.Ext.refl s⟩
  | cons q qs ih =>
    have h1 := C93.ask_spec h q
    have h2 := ih _ h1.1
    exact ⟨h2.1, h1.2.trans h2.2⟩

theorem C93.inv_after (c : Config) (qs : List Query) : C93.Inv c (after c qs) := (C93.foldl_spec c qs _ (C93.inv_init c)).1

/-! ## Answers -/

theorem C93.irdb_set {c : Config} {s : State} {a : Nat} (h : s.irdb = some a) : getIRDB c s = (a, s) := by simp [getIRDB, h]
theorem C93.alias_set {c : Config} {s : State} {a : Nat} (h : s.pt = some a) : getAlias c s = (a, s) := by simp [getAlias, h]
theorem C93.th_set {c : Config} {s : State} {a : Nat} (h : s.th = some a) : getTH c s = (a, s) := by simp [getTH, h]
theorem C93.icfg_set {c : Config} {s : State} {a : Nat} (h : s.icf = some a) : getICFG c s = (a, s) := by simp [getICFG, h]
theorem C93.cfg_set {s : State} {a : Nat} (h : s.cfg = some a) : getCFG s = (a, s) := by simp [getCFG, h]
theorem C93.cfg_icf {s : State} {a : Nat} (h : s.cfg = none) (h1 : s.icf = some a) : getCFG s = (a, s) := by simp [getCFG, h, h1]

/-- **C93.** Whatever was asked before, a getter returns an object of the kind it declares, made from the arguments of the constructor
and from the objects that the other getters return: the database from the given file or module; the alias information from the JSON, if
there is one, else with the given options; the call graph from the JSON, if there is one, else for the given entry points, with the
alias information iff it is of type `OTF`. -/
theorem C93_answer (c : Config) (qs : List Query) :
    (let r := ask c (after c qs) .irdb
     r.2.at r.1 = some (.irdb c.src)) ∧
    (let r := ask c (after c qs) .alias
     let i := (ask c r.2 .irdb).1
     (∀ j, c.pts = some j → r.2.at r.1 = some (.aliasJson i j)) ∧
     (c.pts = none → r.2.at r.1 = some (.alias i c.lazyPts c.ptaTy))) ∧
    (let r := ask c (after c qs) .th
     r.2.at r.1 = some (.th (ask c r.2 .irdb).1)) ∧
    (let r := ask c (after c qs) .icfg
     let i := (ask c r.2 .irdb).1
     (∀ j, c.cg = some j → r.2.at r.1 = some (.icfgJson i j)) ∧
     (c.cg = none → r.2.at r.1 = some (.icfg i c.cgTy c.entries (ask c r.2 .th).1
       (if c.otf then some (ask c r.2 .alias).1 else none) c.sound c.autoGlobals))) := by
  have h := C93.inv_after c qs
  refine ⟨?_, ?_, ?_, ?_⟩
  · obtain ⟨d1, _, d3, _⟩ := C93.irdb_spec h
    exact d1.irdb _ d3
  · obtain ⟨d1, _, d3, _⟩ := C93.alias_spec h
    obtain ⟨i, h1, h2⟩ := d1.pt _ d3
    have h3 : (ask c (getAlias c (after c qs)).2 .irdb).1 = i := by simp [ask, C93.irdb_set h1]
    refine ⟨fun j hj => ?_, fun hj => ?_⟩
    · show (getAlias c (after c qs)).2.made.reverse[(getAlias c (after c qs)).1]? = some (.aliasJson (ask c (getAlias c (after c qs)).2 .irdb).1 j)
      rw [h3, h2]; simp [C93.aliasObj, hj]
    · show (getAlias c (after c qs)).2.made.reverse[(getAlias c (after c qs)).1]? =
        some (.alias (ask c (getAlias c (after c qs)).2 .irdb).1 c.lazyPts c.ptaTy)
      rw [h3, h2]; simp [C93.aliasObj, hj]
  · obtain ⟨d1, _, d3, _⟩ := C93.th_spec h
    obtain ⟨i, h1, h2⟩ := d1.th _ d3
    have h3 : (ask c (getTH c (after c qs)).2 .irdb).1 = i := by simp [ask, C93.irdb_set h1]
    show (getTH c (after c qs)).2.made.reverse[(getTH c (after c qs)).1]? = some (.th (ask c (getTH c (after c qs)).2 .irdb).1)
    rw [h3, h2]
  · obtain ⟨d1, _, d3, _⟩ := C93.icfg_spec h
    refine ⟨fun j hj => ?_, fun hj => ?_⟩
    · obtain ⟨i, h1, h2⟩ := d1.icfJ _ j d3 hj
      have h3 : (ask c (getICFG c (after c qs)).2 .irdb).1 = i := by simp [ask, C93.irdb_set h1]
      show (getICFG c (after c qs)).2.made.reverse[(getICFG c (after c qs)).1]? =
        some (.icfgJson (ask c (getICFG c (after c qs)).2 .irdb).1 j)
      rw [h3, h2]
    · obtain ⟨i, t, p, h1, h2, h3, h4, h5⟩ := d1.icf _ d3 hj
      have e1 : (ask c (getICFG c (after c qs)).2 .irdb).1 = i := by simp [ask, C93.irdb_set h1]
      have e2 : (ask c (getICFG c (after c qs)).2 .th).1 = t := by simp [ask, C93.th_set h2]
      have e3 : (if c.otf then some (ask c (getICFG c (after c qs)).2 .alias).1 else none) = p := by
        cases ho : c.otf with
        | false => simp [h4 ho]
        | true =>
          obtain ⟨h6, h7⟩ := h3 ho
          obtain ⟨a, rfl⟩ := Option.isSome_iff_exists.1 h6
          simp [ask, C93.alias_set h7.symm]
      show (getICFG c (after c qs)).2.made.reverse[(getICFG c (after c qs)).1]? =
        some (.icfg (ask c (getICFG c (after c qs)).2 .irdb).1 c.cgTy c.entries (ask c (getICFG c (after c qs)).2 .th).1
          (if c.otf then some (ask c (getICFG c (after c qs)).2 .alias).1 else none) c.sound c.autoGlobals)
      rw [e1, e2, e3, h5]

theorem C93.keep_cfg {c : Config} {s : State} (h : C93.Inv c s) (hi : s.icf ≠ none) (q : Query) : (ask c s q).2.cfg = s.cfg := by
  cases q with
  | irdb => exact (C93.irdb_spec h).2.2.2.2.2.2.1
  | alias => exact (C93.alias_spec h).2.2.2.2.2.2.1
  | th => exact (C93.th_spec h).2.2.2.2.2.2.1
  | icfg => exact (C93.icfg_spec h).2.2.2.2.1
  | cfg => exact (C93.cfg_spec h).2.2.2.2.2.2.2.1 hi

theorem C93.keep_cfg_all (c : Config) (qs : List Query) (s : State) (h : C93.Inv c s) (hi : s.icf ≠ none) :
    (qs.foldl (fun s q => (ask c s q).2) s).cfg = s.cfg := by
  induction qs generalizing s with
  | nil => rfl
  | cons q qs ih =>
    have h1 := C93.ask_spec h q
    obtain ⟨a, ha⟩ := Option.ne_none_iff_exists'.1 hi
    have h2 : (ask c s q).2.icf ≠ none := by rw [h1.2.icf a ha]; simp
    rw [List.foldl_cons, ih _ h1.1 h2, C93.keep_cfg h hi]

/-- **C93.** A reference that a getter has returned stays: the same getter returns it again, whatever is asked between, and the object is
not replaced. -/
theorem C93_stable (c : Config) (qs : List Query) (q : Query) (qs' : List Query) :
    (ask c (after c (qs ++ q :: qs')) q).1 = (ask c (after c qs) q).1 ∧
    ∃ o, (ask c (after c qs) q).2.at (ask c (after c qs) q).1 = some o ∧
      (after c (qs ++ q :: qs')).at (ask c (after c qs) q).1 = some o := by
  have h := C93.inv_after c qs
  have e : after c (qs ++ q :: qs') = qs'.foldl (fun s q => (ask c s q).2) (ask c (after c qs) q).2 := by
    simp [after]
  rw [e]
  generalize after c qs = s at *
  have h1 := (C93.ask_spec h q).1
  obtain ⟨_, h2⟩ := C93.foldl_spec c qs' _ h1
  have hk := C93.keep_cfg_all c qs' (ask c s q).2 h1
  generalize qs'.foldl (fun s q => (ask c s q).2) (ask c s q).2 = u at *
  have obj : ∀ {a : Nat} {o : Obj}, (ask c s q).2.made.reverse[a]? = some o →
      ∃ o, (ask c s q).2.at a = some o ∧ u.at a = some o := fun {a o} x => ⟨o, x, h2.made a o x⟩
  cases q with
  | irdb =>
    have h3 := (C93.irdb_spec h).2.2.1
    exact ⟨by show (getIRDB c u).1 = _; rw [C93.irdb_set (h2.irdb _ h3)]; rfl, obj (h1.irdb _ h3)⟩
  | alias =>
    have h3 := (C93.alias_spec h).2.2.1
    obtain ⟨i, _, h4⟩ := h1.pt _ h3
    exact ⟨by show (getAlias c u).1 = _; rw [C93.alias_set (h2.pt _ h3)]; rfl, obj h4⟩
  | th =>
    have h3 := (C93.th_spec h).2.2.1
    obtain ⟨i, _, h4⟩ := h1.th _ h3
    exact ⟨by show (getTH c u).1 = _; rw [C93.th_set (h2.th _ h3)]; rfl, obj h4⟩
  | icfg =>
    have h3 := (C93.icfg_spec h).2.2.1
    refine ⟨by show (getICFG c u).1 = _; rw [C93.icfg_set (h2.icf _ h3)]; rfl, ?_⟩
    cases hg : c.cg with
    | some j => obtain ⟨i, _, h4⟩ := h1.icfJ _ j h3 hg; exact obj h4
    | none => obtain ⟨i, t, p, _, _, _, _, h4⟩ := h1.icf _ h3 hg; exact obj h4
  | cfg =>
    rcases (C93.cfg_spec h).2.2.2.2.2.2.1 with h3 | ⟨h3, _, h4⟩
    · exact ⟨by show (getCFG u).1 = _; rw [C93.cfg_set (h2.cfg _ h3)]; rfl, obj (h1.cfg _ h3)⟩
    · have h5 : (ask c s .cfg).2.icf = some (getCFG s).1 := by
        show (getCFG s).2.icf = _
        rw [(C93.cfg_spec h).2.2.2.2.2.1, h4]
      have h6 : u.cfg = none := by rw [hk (by rw [h5]; simp)]; exact h3
      refine ⟨by show (getCFG u).1 = _; rw [C93.cfg_icf h6 (h2.icf _ h5)]; rfl, ?_⟩
      cases hg : c.cg with
      | some j => obtain ⟨i, _, h7⟩ := h1.icfJ _ j h5 hg; exact obj h7
      | none => obtain ⟨i, t, p, _, _, _, _, h7⟩ := h1.icf _ h5 hg; exact obj h7

/-! ## Objects -/

/-- The member of a kind. -/
def C93.slot (s : State) : Query → Option Nat
  | .irdb => s.irdb
  | .alias => s.pt
  | .th => s.th
  | .icfg => s.icf
  | .cfg => s.cfg

theorem C93.slot_obj {c : Config} {s : State} (h : C93.Inv c s) (k : Query) (a : Nat) (hk : C93.slot s k = some a) :
    ∃ o, s.made.reverse[a]? = some o ∧ o.kind = k := by
  cases k with
  | irdb => exact ⟨_, h.irdb a hk, rfl⟩
  | alias =>
    obtain ⟨i, _, h1⟩ := h.pt a hk
    refine ⟨_, h1, ?_⟩
    unfold C93.aliasObj
    cases c.pts <;> rfl
  | th => obtain ⟨i, _, h1⟩ := h.th a hk; exact ⟨_, h1, rfl⟩
  | icfg =>
    cases hg : c.cg with
    | some j => obtain ⟨i, _, h1⟩ := h.icfJ a j hk hg; exact ⟨_, h1, rfl⟩
    | none => obtain ⟨i, t, p, _, _, _, _, h1⟩ := h.icf a hk hg; exact ⟨_, h1, rfl⟩
  | cfg => exact ⟨_, h.cfg a hk, rfl⟩

theorem C93.obj_slot {c : Config} {s : State} (h : C93.Inv c s) (a : Nat) (o : Obj) (ha : s.made.reverse[a]? = some o) :
    C93.slot s o.kind = some a := by
  have h1 : a < s.made.length := by simpa using (List.getElem?_eq_some_iff.1 ha).1
  have key : ∀ k, C93.slot s k = some a → C93.slot s o.kind = some a := by
    intro k hk
    obtain ⟨o', h2, h3⟩ := C93.slot_obj h k a hk
    rw [ha] at h2; cases h2
    rw [h3]; exact hk
  rcases h.cov a h1 with h2 | h2 | h2 | h2 | h2
  · exact key .irdb h2
  · exact key .alias h2
  · exact key .th h2
  · exact key .icfg h2
  · exact key .cfg h2

/-- **C93.** No two objects of a kind are made. -/
theorem C93_once (c : Config) (qs : List Query) (a b : Nat) (o o' : Obj) (ha : (after c qs).at a = some o)
    (hb : (after c qs).at b = some o') (h : o.kind = o'.kind) : a = b := by
  have h1 := C93.obj_slot (C93.inv_after c qs) a o ha
  have h2 := C93.obj_slot (C93.inv_after c qs) b o' hb
  rw [h, h2] at h1
  exact (Option.some.inj h1).symm

/-- Specification: the getters that were called need an object of this kind. -/
def C93.needed (c : Config) (qs : List Query) : Query → Prop
  | .irdb => (∃ m p, c.src = .given m p) ∨ ∃ q ∈ qs, q ≠ .cfg
  | .alias => .alias ∈ qs ∨ (.icfg ∈ qs ∧ c.cg = none ∧ c.otf = true)
  | .th => .th ∈ qs ∨ (.icfg ∈ qs ∧ c.cg = none)
  | .icfg => .icfg ∈ qs
  | .cfg => ∃ l r, qs = l ++ .cfg :: r ∧ .icfg ∉ l

theorem C93.snoc_ind {α : Type} {P : List α → Prop} (h0 : P []) (h1 : ∀ l a, P l → P (l ++ [a])) (l : List α) : P l := by
  have : ∀ r : List α, P r.reverse := by
    intro r
    induction r with
    | nil => simpa using h0
    | cons a r ih => simpa using h1 _ a ih
  simpa using this l.reverse

theorem C93.cfg_snoc (qs : List Query) (q : Query) :
    (∃ l r, qs ++ [q] = l ++ .cfg :: r ∧ .icfg ∉ l) ↔ (∃ l r, qs = l ++ .cfg :: r ∧ .icfg ∉ l) ∨ (q = .cfg ∧ .icfg ∉ qs) := by
  constructor
  · rintro ⟨l, r, h, hl⟩
    rcases List.eq_nil_or_concat r with rfl | ⟨r', x, rfl⟩
    · obtain ⟨h1, h2⟩ := List.append_inj' h rfl
      cases h2
      exact Or.inr ⟨rfl, h1 ▸ hl⟩
    · have h' : qs ++ [q] = (l ++ .cfg :: r') ++ [x] := by simpa using h
      obtain ⟨h1, _⟩ := List.append_inj' h' rfl
      exact Or.inl ⟨l, r', h1, hl⟩
  · rintro (⟨l, r, h, hl⟩ | ⟨rfl, h⟩)
    · exact ⟨l, r ++ [q], by simp [h], hl⟩
    · exact ⟨qs, [], rfl, h⟩

theorem C93.after_snoc (c : Config) (qs : List Query) (q : Query) : after c (qs ++ [q]) = (ask c (after c qs) q).2 := by
  simp [after]

theorem C93.slot_needed (c : Config) (qs : List Query) (k : Query) :
    (C93.slot (after c qs) k).isSome = true ↔ C93.needed c qs k := by
  induction qs using C93.snoc_ind generalizing k with
  | h0 =>
    have e : after c [] = init c := rfl
    rw [e]
    unfold init
    cases hs : c.src with
    | file f => cases k <;> simp [C93.slot, C93.needed, hs]
    | given m p => cases k <;> simp [C93.slot, C93.needed, hs, getIRDB, make]
  | h1 qs q ih =>
    have h := C93.inv_after c qs
    rw [C93.after_snoc]
    have i1 := ih .irdb
    have i2 := ih .alias
    have i3 := ih .th
    have i4 := ih .icfg
    have i5 := ih .cfg
    clear ih
    generalize after c qs = s at *
    simp only [C93.slot, C93.needed] at i1 i2 i3 i4 i5
    cases q with
    | irdb =>
      obtain ⟨_, _, d3, d4, d5, d6, d7, _⟩ := C93.irdb_spec h
      cases k <;> simp only [C93.slot, C93.needed, ask, d3, d4, d5, d6, d7, i2, i3, i4, i5, C93.cfg_snoc] <;> simp
    | alias =>
      obtain ⟨_, _, d3, d4, d5, d6, d7, _⟩ := C93.alias_spec h
      cases k <;> simp only [C93.slot, C93.needed, ask, d3, d4, d5, d6, d7, i3, i4, i5, C93.cfg_snoc] <;> simp
    | th =>
      obtain ⟨_, _, d3, d4, d5, d6, d7, _⟩ := C93.th_spec h
      cases k <;> simp only [C93.slot, C93.needed, ask, d3, d4, d5, d6, d7, i2, i4, i5, C93.cfg_snoc] <;> simp
    | icfg =>
      obtain ⟨_, _, d3, d4, d5, d6, d7⟩ := C93.icfg_spec h
      cases k with
      | irdb =>
        simp only [C93.slot, C93.needed, ask, d4, true_iff]
        exact Or.inr ⟨.icfg, by simp, by simp⟩
      | alias =>
        simp only [C93.slot, C93.needed, ask]
        cases hg : c.cg with
        | some j => rw [(d7 (by simp [hg])).2, i2, hg]; simp
        | none =>
          cases ho : c.otf with
          | true => rw [(d6 hg).2.1 ho]; simp
          | false => rw [(d6 hg).2.2 ho, i2, ho]; simp
      | th =>
        simp only [C93.slot, C93.needed, ask]
        cases hg : c.cg with
        | some j => rw [(d7 (by simp [hg])).1, i3, hg]; simp
        | none => rw [(d6 hg).1]; simp
      | icfg => simp [C93.slot, C93.needed, ask, d3]
      | cfg =>
        simp only [C93.slot, C93.needed, ask, d5, i5, C93.cfg_snoc]
        simp
    | cfg =>
      obtain ⟨_, _, d3, d4, d5, d6, _, d8, d9⟩ := C93.cfg_spec h
      cases k with
      | irdb => simp only [C93.slot, C93.needed, ask, d3, i1]; simp [or_and_right, exists_or]
      | alias => simp only [C93.slot, C93.needed, ask, d4, i2]; simp
      | th => simp only [C93.slot, C93.needed, ask, d5, i3]; simp
      | icfg => simp only [C93.slot, C93.needed, ask, d6, i4]; simp
      | cfg =>
        simp only [C93.slot, C93.needed, ask, C93.cfg_snoc, true_and]
        cases hi : s.icf with
        | none =>
          rw [d9 hi]
          rw [hi] at i4
          have : Query.icfg ∉ qs := fun x => by have := i4.2 x; cases this
          simp [this]
        | some a =>
          rw [d8 (by simp [hi]), i5]
          have : Query.icfg ∈ qs := i4.1 (by rw [hi]; rfl)
          simp [this]

/-- **C93.** Nothing is made that is not needed, and what is needed is made: there is a database iff a module was given or something but
the CFG was asked for; alias information iff it was asked for, or the call graph is computed on the fly; a type hierarchy iff it was asked
for, or the call graph is computed; a call graph iff it was asked for; a CFG iff it was asked for before the call graph. -/
theorem C93_lazy (c : Config) (qs : List Query) (k : Query) :
    (∃ o ∈ (after c qs).made, o.kind = k) ↔ C93.needed c qs k := by
  rw [← C93.slot_needed]
  have h := C93.inv_after c qs
  constructor
  · rintro ⟨o, ho, rfl⟩
    obtain ⟨a, ha⟩ := List.getElem?_of_mem (List.mem_reverse.2 ho)
    rw [C93.obj_slot h a o ha]; rfl
  · intro hs
    obtain ⟨a, ha⟩ := Option.isSome_iff_exists.1 hs
    obtain ⟨o, h1, h2⟩ := C93.slot_obj h k a ha
    exact ⟨o, List.mem_reverse.1 (List.mem_of_getElem? h1), h2⟩

/-- **C93.** `getCFG` returns the call graph if that was asked for before any CFG, else a CFG of its own. -/
theorem C93_cfg (c : Config) (qs : List Query) :
    ((.icfg ∈ qs ∧ ¬ ∃ l r, qs = l ++ .cfg :: r ∧ .icfg ∉ l) →
      (ask c (after c qs) .cfg).1 = (ask c (after c qs) .icfg).1) ∧
    (¬ (.icfg ∈ qs ∧ ¬ ∃ l r, qs = l ++ .cfg :: r ∧ .icfg ∉ l) →
      (ask c (after c qs) .cfg).2.at (ask c (after c qs) .cfg).1 = some .cfg) := by
  have h := C93.inv_after c qs
  have i4 := C93.slot_needed c qs .icfg
  have i5 := C93.slot_needed c qs .cfg
  simp only [C93.slot, C93.needed] at i4 i5
  rw [← i4, ← i5]
  obtain ⟨d1, _, _, _, _, _, d7, d8, d9⟩ := C93.cfg_spec h
  generalize after c qs = s at *
  constructor
  · rintro ⟨h1, h2⟩
    obtain ⟨a, ha⟩ := Option.isSome_iff_exists.1 h1
    have hc : s.cfg = none := by
      cases hs : s.cfg with
      | none => rfl
      | some b => rw [hs] at h2; simp at h2
    show (getCFG s).1 = (getICFG c s).1
    rw [C93.cfg_icf hc ha, C93.icfg_set ha]
  · intro h1
    have h2 : (getCFG s).2.cfg = some (getCFG s).1 := by
      rcases d7 with h3 | ⟨_, h4, h5⟩
      · exact h3
      · exact absurd ⟨by rw [h5]; rfl, by rw [h4]; simp⟩ h1
    exact d1.cfg _ h2

/-- **C93.** False: that what `getCFG` returns does not depend on the order of the calls. -/
theorem C93_cfg_false (c : Config) :
    (ask c (after c [.icfg, .cfg]) .cfg).1 = (ask c (after c [.icfg, .cfg]) .icfg).1 ∧
    (ask c (after c [.cfg, .icfg]) .cfg).1 ≠ (ask c (after c [.cfg, .icfg]) .icfg).1 := by
  constructor
  · refine (C93_cfg c _).1 ⟨by simp, ?_⟩
    rintro ⟨l, r, h, hl⟩
    cases l with
    | nil => simp at h
    | cons x l => simp at h; simp [← h.1] at hl
  · intro e
    have h := C93.inv_after c [.cfg, .icfg]
    have h1 := C93.slot_needed c [.cfg, .icfg] .cfg
    have h2 := C93.slot_needed c [.cfg, .icfg] .icfg
    obtain ⟨a, ha⟩ := Option.isSome_iff_exists.1 (h1.2 ⟨[], [.icfg], rfl, by simp⟩)
    obtain ⟨b, hb⟩ := Option.isSome_iff_exists.1 (h2.2 (by simp [C93.needed]))
    have ea : (ask c (after c [.cfg, .icfg]) .cfg).1 = a := by show (getCFG _).1 = a; rw [C93.cfg_set ha]
    have eb : (ask c (after c [.cfg, .icfg]) .icfg).1 = b := by show (getICFG c _).1 = b; rw [C93.icfg_set hb]
    rw [ea, eb] at e
    subst e
    obtain ⟨o, p1, p2⟩ := C93.slot_obj h .cfg a ha
    obtain ⟨o', q1, q2⟩ := C93.slot_obj h .icfg a hb
    rw [p1] at q1; cases q1
    rw [p2] at q2; cases q2

/-- **C93.** The destructor destroys each object once, and an object before those it refers to. -/
theorem C93_destroy (c : Config) (qs : List Query) :
    (∀ a, a ∈ destroyed (after c qs) ↔ a < (after c qs).made.length) ∧ (destroyed (after c qs)).Nodup ∧
    ∀ l a r o, destroyed (after c qs) = l ++ a :: r → (after c qs).at a = some o → ∀ x ∈ o.refs, x ∈ r := by
  have h := C93.inv_after c qs
  generalize after c qs = s at *
  have mem : ∀ a, a ∈ destroyed s ↔ ∃ k, C93.slot s k = some a := by
    intro a
    simp only [destroyed, List.mem_filterMap, List.mem_cons, List.not_mem_nil, or_false, id_eq]
    constructor
    · rintro ⟨x, h1 | h1 | h1 | h1 | h1, h2⟩
      · exact ⟨.cfg, h1.symm.trans h2⟩
      · exact ⟨.icfg, h1.symm.trans h2⟩
      · exact ⟨.th, h1.symm.trans h2⟩
      · exact ⟨.alias, h1.symm.trans h2⟩
      · exact ⟨.irdb, h1.symm.trans h2⟩
    · rintro ⟨k, hk⟩
      refine ⟨_, ?_, hk⟩
      cases k <;> simp [C93.slot]
  have ne : ∀ k k' a, C93.slot s k = some a → C93.slot s k' = some a → k = k' := by
    intro k k' a h1 h2
    obtain ⟨o, p1, p2⟩ := C93.slot_obj h k a h1
    obtain ⟨o', q1, q2⟩ := C93.slot_obj h k' a h2
    rw [p1] at q1; cases q1
    exact p2.symm.trans q2
  have hnd : (destroyed s).Nodup := by
    have e : destroyed s = [Query.cfg, .icfg, .th, .alias, .irdb].filterMap (C93.slot s) := by
      simp [destroyed, List.filterMap_cons, C93.slot]
    rw [e]
    have gen : ∀ ks : List Query, ks.Nodup → (ks.filterMap (C93.slot s)).Nodup := by
      intro ks
      induction ks with
      | nil => simp
      | cons k ks ih =>
        intro hn
        obtain ⟨hn1, hn2⟩ := List.nodup_cons.1 hn
        cases hk : C93.slot s k with
        | none => rw [List.filterMap_cons_none hk]; exact ih hn2
        | some a =>
          rw [List.filterMap_cons_some hk]
          refine List.nodup_cons.2 ⟨fun hm => ?_, ih hn2⟩
          obtain ⟨k', h1, h2⟩ := List.mem_filterMap.1 hm
          exact hn1 (ne k k' a hk h2 ▸ h1)
    exact gen _ (by decide)
  refine ⟨fun a => ?_, hnd, ?_⟩
  · rw [mem]
    constructor
    · rintro ⟨k, hk⟩
      obtain ⟨o, h1, _⟩ := C93.slot_obj h k a hk
      simpa using (List.getElem?_eq_some_iff.1 h1).1
    · intro ha
      have h1 : s.made.reverse[a]? = some (s.made.reverse[a]'(by simpa using ha)) := List.getElem?_eq_getElem _
      exact ⟨_, C93.obj_slot h a _ h1⟩
  · intro l a r o hd ha x hx
    have hs := C93.obj_slot h a o ha
    have split : ∀ (u v : List Nat), destroyed s = u ++ a :: v → v = r := by
      intro u v huv
      have hn1 : (l ++ a :: r).Nodup := hd ▸ hnd
      rw [huv] at hd
      clear huv
      have nl : a ∉ l := fun hm => by
        have := (List.nodup_append.1 hn1).2.2 a hm a (by simp)
        exact this rfl
      have nu : a ∉ u := fun hm => by
        rw [← hd] at hn1
        have := (List.nodup_append.1 hn1).2.2 a hm a (by simp)
        exact this rfl
      rcases List.append_eq_append_iff.1 hd with ⟨t, h1, h2⟩ | ⟨t, h1, h2⟩
      · cases t with
        | nil => simpa using h2
        | cons y t => simp at h2; exact absurd (h1 ▸ by simp [h2.1]) nl
      · cases t with
        | nil => simpa using h2.symm
        | cons y t => simp at h2; exact absurd (h1 ▸ by simp [h2.1]) nu
    cases o with
    | irdb src => cases hx
    | cfg => cases hx
    | aliasJson i j =>
      have hp : s.pt = some a := hs
      obtain ⟨i', h1, h2⟩ := h.pt a hp
      have h3 : s.made.reverse[a]? = some (.aliasJson i j) := ha
      have hi : x = i := by simpa [Obj.refs] using hx
      rw [h3] at h2
      have : i' = i := by unfold C93.aliasObj at h2; cases hc : c.pts <;> simp [hc] at h2; exact h2.1.symm
      have hr := split ([s.cfg, s.icf, s.th].filterMap id) [i'] (by simp [destroyed, List.filterMap_cons, hp, h1]; cases s.cfg <;> cases s.icf <;> cases s.th <;> simp)
      rw [← hr, hi, this]; simp
    | alias i z ty =>
      have hp : s.pt = some a := hs
      obtain ⟨i', h1, h2⟩ := h.pt a hp
      have h3 : s.made.reverse[a]? = some (.alias i z ty) := ha
      have hi : x = i := by simpa [Obj.refs] using hx
      rw [h3] at h2
      have : i' = i := by unfold C93.aliasObj at h2; cases hc : c.pts <;> simp [hc] at h2; exact h2.1.symm
      have hr := split ([s.cfg, s.icf, s.th].filterMap id) [i'] (by simp [destroyed, List.filterMap_cons, hp, h1]; cases s.cfg <;> cases s.icf <;> cases s.th <;> simp)
      rw [← hr, hi, this]; simp
    | th i =>
      have hp : s.th = some a := hs
      obtain ⟨i', h1, h2⟩ := h.th a hp
      have h3 : s.made.reverse[a]? = some (.th i) := ha
      have hi : x = i := by simpa [Obj.refs] using hx
      rw [h3] at h2; cases h2
      have hr := split ([s.cfg, s.icf].filterMap id) ([s.pt].filterMap id ++ [i]) (by simp [destroyed, List.filterMap_cons, hp, h1]; cases s.cfg <;> cases s.icf <;> cases s.pt <;> simp)
      rw [← hr, hi]; simp
    | icfgJson i j =>
      have hp : s.icf = some a := hs
      have h3 : s.made.reverse[a]? = some (.icfgJson i j) := ha
      have hi : x = i := by simpa [Obj.refs] using hx
      have h1 : s.irdb = some i := by
        cases hg : c.cg with
        | some j' => obtain ⟨i', h1, h2⟩ := h.icfJ a j' hp hg; rw [h3] at h2; cases h2; exact h1
        | none => obtain ⟨_, _, _, _, _, _, _, h2⟩ := h.icf a hp hg; rw [h3] at h2; cases h2
      have hr := split ([s.cfg].filterMap id) ([s.th, s.pt].filterMap id ++ [i]) (by simp [destroyed, List.filterMap_cons, hp, h1]; cases s.cfg <;> cases s.th <;> cases s.pt <;> simp)
      rw [← hr, hi]; simp
    | icfg i ct es t p sd ag =>
      have hp : s.icf = some a := hs
      have h3 : s.made.reverse[a]? = some (.icfg i ct es t p sd ag) := ha
      have hq : s.irdb = some i ∧ s.th = some t ∧ ∀ y, p = some y → s.pt = some y := by
        cases hg : c.cg with
        | some j' => obtain ⟨i', h1, h2⟩ := h.icfJ a j' hp hg; rw [h3] at h2; cases h2
        | none =>
          obtain ⟨_, _, _, e1, e2, e3, e4, h2⟩ := h.icf a hp hg
          rw [h3] at h2; cases h2
          refine ⟨e1, e2, fun y hy => ?_⟩
          cases ho : c.otf with
          | true => rw [← (e3 ho).2]; exact hy
          | false => rw [e4 ho] at hy; cases hy
      have hr := split ([s.cfg].filterMap id) (t :: ([s.pt].filterMap id ++ [i])) (by simp [destroyed, List.filterMap_cons, hp, hq.1, hq.2.1]; cases s.cfg <;> cases s.pt <;> simp)
      rw [← hr]
      rcases (by simpa [Obj.refs] using hx : x = i ∨ x = t ∨ p = some x) with h4 | h4 | h4
      · simp [h4]
      · simp [h4]
      · simp [hq.2.2 x h4]

/-! ## Examples -/

/-- The default configuration. -/
def C93.exC : Config := ⟨.file "a.ll", none, 1, true, none, ["main"], 5, true, 2, true⟩

example : (after C93.exC [.cfg, .icfg, .th, .alias]).made =
    [.icfg 1 5 ["main"] 2 (some 3) 2 true, .alias 1 true 1, .th 1, .irdb (.file "a.ll"), .cfg] ∧
    destroyed (after C93.exC [.cfg, .icfg, .th, .alias]) = [0, 4, 2, 3, 1] ∧
    (ask C93.exC (after C93.exC [.cfg, .icfg, .th, .alias]) .alias).1 = 3 := by decide

example : (after { C93.exC with cg := some 9, src := .given 3 true } [.icfg]).made = [.icfgJson 0 9, .irdb (.given 3 true)] := by decide

end Phasar.Helper
