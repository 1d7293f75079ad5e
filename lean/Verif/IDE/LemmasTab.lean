import Verif.IDE.Spec
/-!
# Lemmas about the solver's tables
-/
set_option linter.unusedSectionVars false
namespace Phasar.IDE
open Phasar JoinLat

section
variable {N D F L E : Type} [DecidableEq N] [DecidableEq D]

theorem mem_set {K V : Type} [DecidableEq K] {m : AMap K V} {k : K} {v : V} {p : K × V}
    (h : p ∈ m.set k v) : p = (k, v) ∨ p ∈ m := by
  induction m with
  | nil => simpa [AMap.set] using h
  | cons q m ih =>
    obtain ⟨a, b⟩ := q
    simp only [AMap.set] at h
    by_cases hk : a = k
    · simp only [hk, if_true, List.mem_cons] at h
      rcases h with h | h
      · exact .inl h
      · exact .inr (List.mem_cons_of_mem _ h)
    · simp only [hk, if_false, List.mem_cons] at h
      rcases h with h | h
      · exact .inr (h ▸ List.mem_cons_self)
      · rcases ih h with h | h
        · exact .inl h
        · exact .inr (List.mem_cons_of_mem _ h)

theorem mem_insertSet {A : Type} [DecidableEq A] {l : List A} {a b : A} :
    b ∈ insertSet l a ↔ b ∈ l ∨ b = a := by
  unfold insertSet
  split
  · constructor
    · exact .inl
    · rintro (h | h)
      · exact h
      · exact h ▸ ‹_›
  · simp

/-- `d2 ∈ IncomingTab(sp, d)[c]`. -/
def HasInc (inc : AMap (N × D) (AMap N (List D))) (sp : N) (d : D) (c : N) (d2 : D) : Prop :=
  ∃ m ds, inc.get (sp, d) = some m ∧ m.get c = some ds ∧ d2 ∈ ds

theorem hasInc_nil (sp : N) (d : D) (c : N) (d2 : D) : ¬ HasInc [] sp d c d2 := by
  rintro ⟨m, ds, h, _⟩
  simp at h

theorem hasInc_addIncoming {inc : AMap (N × D) (AMap N (List D))} {sp : N} {d3 : D} {n : N} {d2 : D}
    {sp' : N} {d' : D} {c : N} {d4 : D} :
    HasInc (addIncoming inc sp d3 n d2) sp' d' c d4 ↔
      HasInc inc sp' d' c d4 ∨ (sp' = sp ∧ d' = d3 ∧ c = n ∧ d4 = d2) := by
  unfold HasInc addIncoming
  by_cases hk : (sp, d3) = (sp', d')
  · obtain ⟨rfl, rfl⟩ := Prod.mk.inj hk
    simp only [AMap.get_set, if_true, Option.some.injEq]
    cases hm : inc.get (sp, d3) with
    | none =>
      simp only [AMap.get_nil]
      constructor
      · rintro ⟨m, ds, rfl, h, hd⟩
        simp only [AMap.get_set, AMap.get_nil] at h
        split at h
        · rename_i hc
          cases h
          rw [mem_insertSet] at hd
          simp at hd
          exact .inr ⟨trivial, trivial, hc.symm, hd⟩
        · exact absurd h (by simp)
      · rintro (⟨m, ds, h, _⟩ | ⟨_, _, rfl, rfl⟩)
        · exact absurd h (by simp)
        · exact ⟨_, _, rfl, AMap.get_set_self _ _ _, mem_insertSet.2 (.inr rfl)⟩
    | some m0 =>
      simp only [Option.some.injEq]
      constructor
      · rintro ⟨m, ds, rfl, h, hd⟩
        simp only [AMap.get_set] at h
        split at h
        · rename_i hc
          cases h
          rw [mem_insertSet] at hd
          rcases hd with hd | hd
          · cases hg : m0.get n with
            | none => simp [hg] at hd
            | some ds => exact .inl ⟨m0, ds, rfl, hc ▸ hg, by simpa [hg] using hd⟩
          · exact .inr ⟨trivial, trivial, hc.symm, hd⟩
        · exact .inl ⟨m0, ds, rfl, h, hd⟩
      · rintro (⟨m, ds, rfl, h, hd⟩ | ⟨_, _, rfl, rfl⟩)
        · refine ⟨_, if n = c then insertSet ds d2 else ds, rfl, ?_, ?_⟩
          · simp only [AMap.get_set]
            by_cases hc : n = c
            · subst hc; simp [h]
            · simp [hc, h]
          · split
            · exact mem_insertSet.2 (.inl hd)
            · exact hd
        · refine ⟨_, _, rfl, AMap.get_set_self _ _ _, mem_insertSet.2 (.inr rfl)⟩
  · simp only [AMap.get_set, hk, if_false]
    constructor
    · exact .inl
    · rintro (h | ⟨rfl, rfl, _⟩)
      · exact h
      · exact absurd rfl hk

theorem hasInc_foldl {n : N} {d2 : D} {sp' : N} {d' : D} {c : N} {d4 : D} (l : List (N × D))
    (inc : AMap (N × D) (AMap N (List D))) :
    HasInc (l.foldl (fun inc p => addIncoming inc p.1 p.2 n d2) inc) sp' d' c d4 ↔
      HasInc inc sp' d' c d4 ∨ ((sp', d') ∈ l ∧ c = n ∧ d4 = d2) := by
  induction l generalizing inc with
  | nil => simp
  | cons p l ih =>
    simp only [List.foldl_cons, ih, hasInc_addIncoming, List.mem_cons]
    constructor
    · rintro ((h | ⟨rfl, rfl, rfl, rfl⟩) | ⟨h, h2⟩)
      · exact .inl h
      · exact .inr ⟨.inl rfl, rfl, rfl⟩
      · exact .inr ⟨.inr h, h2⟩
    · rintro (h | ⟨(h | h), h2⟩)
      · exact .inl (.inl h)
      · obtain ⟨rfl, rfl⟩ := Prod.mk.inj (h.trans (Prod.eta p).symm)
        exact .inl (.inr ⟨rfl, rfl, h2⟩)
      · exact .inr ⟨h, h2⟩

/-- Inner maps of `IncomingTab` have unique keys. -/
def IncNodup (inc : AMap (N × D) (AMap N (List D))) : Prop :=
  ∀ k m, inc.get k = some m → m.NodupKeys

theorem incNodup_addIncoming {inc : AMap (N × D) (AMap N (List D))} (h : IncNodup inc)
    (sp : N) (d3 : D) (n : N) (d2 : D) : IncNodup (addIncoming inc sp d3 n d2) := by
  intro k m hm
  unfold addIncoming at hm
  simp only [AMap.get_set] at hm
  split at hm
  · cases hm
    cases hg : inc.get (sp, d3) with
    | none => exact AMap.nodupKeys_set AMap.nodupKeys_nil _ _
    | some m0 => exact AMap.nodupKeys_set (h _ _ hg) _ _
  · exact h k m hm

theorem incNodup_foldl {n : N} {d2 : D} (l : List (N × D))
    (inc : AMap (N × D) (AMap N (List D))) (h : IncNodup inc) :
    IncNodup (l.foldl (fun inc p => addIncoming inc p.1 p.2 n d2) inc) := by
  induction l generalizing inc with
  | nil => exact h
  | cons p l ih => exact ih _ (incNodup_addIncoming h _ _ _ _)

theorem get_foldl_set {K V : Type} [DecidableEq K] (m : AMap K V) (hm : m.NodupKeys)
    (i : AMap K V) (c : K) :
    (m.foldl (fun inc en => inc.set en.1 en.2) i).get c =
      match m.get c with
      | some ds => some ds
      | none => i.get c := by
  induction m generalizing i with
  | nil => rfl
  | cons p m ih =>
    obtain ⟨a, b⟩ := p
    have hn := List.nodup_cons.1 hm
    simp only [List.foldl_cons, ih hn.2, AMap.get]
    by_cases hac : a = c
    · subst hac
      have : AMap.get m a = none := by
        cases hg : AMap.get m a with
        | none => rfl
        | some w => exact absurd (List.mem_map.2 ⟨_, AMap.mem_of_get hg, rfl⟩) hn.1
      simp [this]
    · simp [hac]

/-- Every call site known for some start point is in `Inc`, with the facts of some start point. -/
theorem incMap_get {s : St N D E} {d1 : D} (hn : IncNodup s.incoming) (l : List N) (i : AMap N (List D))
    {c : N} (h : ∃ sp ∈ l, ∃ ds, (incomingAt s sp d1).get c = some ds) :
    ∃ sp ∈ l, ∃ ds, (incomingAt s sp d1).get c = some ds ∧
      (l.foldl (fun inc sp => (incomingAt s sp d1).foldl (fun inc en => inc.set en.1 en.2) inc) i).get c
        = some ds := by
  have hnd : ∀ sp, (incomingAt s sp d1).NodupKeys := by
    intro sp
    unfold incomingAt
    cases hg : s.incoming.get (sp, d1) with
    | none => exact AMap.nodupKeys_nil
    | some m => exact hn _ _ hg
  have key : ∀ (l : List N) (i : AMap N (List D)),
      (∃ sp ∈ l, ∃ ds, (incomingAt s sp d1).get c = some ds ∧
        (l.foldl (fun inc sp => (incomingAt s sp d1).foldl (fun inc en => inc.set en.1 en.2) inc)
          i).get c = some ds) ∨
      ((∀ sp ∈ l, (incomingAt s sp d1).get c = none) ∧
        (l.foldl (fun inc sp => (incomingAt s sp d1).foldl (fun inc en => inc.set en.1 en.2) inc)
          i).get c = i.get c) := by
    intro l
    induction l with
    | nil => intro i; exact .inr ⟨by simp, rfl⟩
    | cons a l ih =>
      intro i
      simp only [List.foldl_cons]
      rcases ih ((incomingAt s a d1).foldl (fun inc en => inc.set en.1 en.2) i) with
        ⟨sp, hsp, ds, h1, h2⟩ | ⟨h1, h2⟩
      · exact .inl ⟨sp, List.mem_cons_of_mem _ hsp, ds, h1, h2⟩
      · rw [get_foldl_set _ (hnd a)] at h2
        cases hg : (incomingAt s a d1).get c with
        | none =>
          right
          refine ⟨?_, ?_⟩
          · intro sp hsp
            rcases List.mem_cons.1 hsp with rfl | hsp
            · exact hg
            · exact h1 sp hsp
          · rw [h2, hg]
        | some ds =>
          left
          refine ⟨a, List.mem_cons_self, ds, hg, ?_⟩
          rw [h2, hg]
  rcases key l i with h' | ⟨h1, _⟩
  · exact h'
  · obtain ⟨sp, hsp, ds, hds⟩ := h
    rw [h1 sp hsp] at hds
    cases hds

theorem mem_incMap {P : Problem N D F L E} {s : St N D E} {d1 : D} {n : N} {en : N × List D}
    (h : en ∈ incMap P s d1 n) :
    ∃ sp ∈ P.icf.starts (P.icf.funOf n), en ∈ incomingAt s sp d1 := by
  have inner : ∀ (m i : AMap N (List D)),
      en ∈ m.foldl (fun inc en => inc.set en.1 en.2) i → en ∈ m ∨ en ∈ i := by
    intro m
    induction m with
    | nil => intro i h; exact .inr h
    | cons p m ih =>
      intro i h
      rcases ih _ h with h | h
      · exact .inl (List.mem_cons_of_mem _ h)
      · rcases mem_set h with h | h
        · exact .inl (by rw [h]; exact List.mem_cons_self)
        · exact .inr h
  have outer : ∀ (l : List N) (i : AMap N (List D)),
      en ∈ l.foldl (fun inc sp => (incomingAt s sp d1).foldl (fun inc en => inc.set en.1 en.2) inc) i →
      (∃ sp ∈ l, en ∈ incomingAt s sp d1) ∨ en ∈ i := by
    intro l
    induction l with
    | nil => intro i h; exact .inr h
    | cons a l ih =>
      intro i h
      rcases ih _ h with ⟨sp, hsp, h⟩ | h
      · exact .inl ⟨sp, List.mem_cons_of_mem _ hsp, h⟩
      · rcases inner _ _ h with h | h
        · exact .inl ⟨a, List.mem_cons_self, h⟩
        · exact .inr h
  rcases outer _ _ h with h | h
  · exact h
  · simp at h

theorem get_foldl_endSum {es : AMap (N × D × N × D) E} (l : List N) (d1 : D) (n : N) (d2 : D) (f : E)
    (k : N × D × N × D) :
    (l.foldl (fun es sp => es.set (sp, d1, n, d2) f) es).get k =
      if k.1 ∈ l ∧ k.2 = (d1, n, d2) then some f else es.get k := by
  induction l generalizing es with
  | nil => simp
  | cons a l ih =>
    simp only [List.foldl_cons, ih, AMap.get_set, List.mem_cons]
    obtain ⟨k1, k2⟩ := k
    by_cases h1 : k1 ∈ l ∧ k2 = (d1, n, d2)
    · rw [if_pos h1, if_pos ⟨.inr h1.1, h1.2⟩]
    · rw [if_neg h1]
      by_cases h2 : k1 = a ∧ k2 = (d1, n, d2)
      · rw [if_pos (by rw [h2.1, h2.2]), if_pos ⟨.inl h2.1, h2.2⟩]
      · rw [if_neg, if_neg]
        · rintro ⟨h | h, h'⟩
          · exact h2 ⟨h, h'⟩
          · exact h1 ⟨h, h'⟩
        · intro h
          obtain ⟨h3, h4⟩ := Prod.mk.inj h
          exact h2 ⟨h3.symm, h4.symm⟩

theorem nodup_foldl_endSum {es : AMap (N × D × N × D) E} (hn : es.NodupKeys) (l : List N) (d1 : D)
    (n : N) (d2 : D) (f : E) :
    (l.foldl (fun es sp => es.set (sp, d1, n, d2) f) es).NodupKeys := by
  induction l generalizing es with
  | nil => exact hn
  | cons a l ih => exact ih (AMap.nodupKeys_set hn _ _)

theorem mem_endSummary {s : St N D E} {sp : N} {d3 : D} {eP : N} {d4 : D} {f : E}
    (hn : s.endSum.NodupKeys) :
    (eP, d4, f) ∈ endSummary s sp d3 ↔ s.endSum.get (sp, d3, eP, d4) = some f := by
  unfold endSummary
  rw [List.mem_filterMap]
  constructor
  · rintro ⟨p, hp, h⟩
    obtain ⟨⟨a, b, c, e⟩, g⟩ := p
    simp only [Option.ite_none_right_eq_some, Option.some.injEq, Prod.mk.injEq] at h
    obtain ⟨⟨rfl, rfl⟩, rfl, rfl, rfl⟩ := h
    exact AMap.get_of_mem hn hp
  · intro h
    exact ⟨_, AMap.mem_of_get h, by simp⟩

theorem mem_reverseLookup {s : St N D E} {n : N} {d2 : D} {d1 : D} {f : E} (hn : s.jump.NodupKeys) :
    (d1, f) ∈ reverseLookup s n d2 ↔ s.jump.get (d1, n, d2) = some f := by
  unfold reverseLookup
  rw [List.mem_filterMap]
  constructor
  · rintro ⟨p, hp, h⟩
    obtain ⟨⟨a, b, c⟩, g⟩ := p
    simp only [Option.ite_none_right_eq_some, Option.some.injEq, Prod.mk.injEq] at h
    obtain ⟨⟨rfl, rfl⟩, rfl, rfl⟩ := h
    exact AMap.get_of_mem hn hp
  · intro h
    exact ⟨_, AMap.mem_of_get h, by simp⟩

theorem mem_forwardLookup {J : AMap (D × N × D) E} {n : N} {d2 : D} {d1 : D} {f : E}
    (hn : J.NodupKeys) :
    (d2, f) ∈ forwardLookup J d1 n ↔ J.get (d1, n, d2) = some f := by
  unfold forwardLookup
  rw [List.mem_filterMap]
  constructor
  · rintro ⟨p, hp, h⟩
    obtain ⟨⟨a, b, c⟩, g⟩ := p
    simp only [Option.ite_none_right_eq_some, Option.some.injEq, Prod.mk.injEq] at h
    obtain ⟨⟨rfl, rfl⟩, rfl, rfl⟩ := h
    exact AMap.get_of_mem hn hp
  · intro h
    exact ⟨_, AMap.mem_of_get h, by simp⟩

omit [DecidableEq D] in
theorem mem_lookupByTarget [DecidableEq D] {J : AMap (D × N × D) E} {n : N} {d2 : D} {d1 : D} {f : E}
    (hn : J.NodupKeys) :
    (d1, d2, f) ∈ lookupByTarget J n ↔ J.get (d1, n, d2) = some f := by
  unfold lookupByTarget
  rw [List.mem_filterMap]
  constructor
  · rintro ⟨p, hp, h⟩
    obtain ⟨⟨a, b, c⟩, g⟩ := p
    simp only [Option.ite_none_right_eq_some, Option.some.injEq, Prod.mk.injEq] at h
    obtain ⟨rfl, rfl, rfl, rfl⟩ := h
    exact AMap.get_of_mem hn hp
  · intro h
    exact ⟨_, AMap.mem_of_get h, by simp⟩

theorem mem_incomingAdds {P : Problem N D F L E} {n : N} {d2 : D} {sp : N} {d3 : D} :
    (sp, d3) ∈ incomingAdds P n d2 ↔
      ∃ g ∈ P.icf.callees n, P.summaryFlow n g = none ∧ sp ∈ P.icf.starts g ∧
        d3 ∈ P.callFlow n g d2 := by
  unfold incomingAdds
  rw [List.mem_flatMap]
  constructor
  · rintro ⟨g, hg, h⟩
    split at h
    · simp at h
    · rename_i hs
      rw [List.mem_flatMap] at h
      obtain ⟨sp', hsp', h⟩ := h
      rw [List.mem_map] at h
      obtain ⟨d', hd', h⟩ := h
      obtain ⟨rfl, rfl⟩ := Prod.mk.inj h
      exact ⟨g, hg, hs, hsp', hd'⟩
  · rintro ⟨g, hg, hs, hsp, hd⟩
    refine ⟨g, hg, ?_⟩
    simp only [hs]
    exact List.mem_flatMap.2 ⟨sp, hsp, List.mem_map.2 ⟨d3, hd, rfl⟩⟩

/-! ## Which pushes happen -/

/-- A statement the pushed worklist items of one processed path edge fulfil, written out. -/
inductive Pushed (P : Problem N D F L E) (s : St N D E) (f : E) (d1 : D) (n : N) (d2 : D) :
    PathEdge N D → E → Prop
  | normal {n' d3} : P.icf.isCall n = false → n' ∈ P.icf.succs n → d3 ∈ P.normalFlow n n' d2 →
      Pushed P s f d1 n d2 ⟨d1, n', d3⟩ (P.alg.extend f (P.normalEdge n d2 n' d3))
  | sum {g sm r d3} : P.icf.isCall n = true → g ∈ P.icf.callees n → P.summaryFlow n g = some sm →
      r ∈ P.icf.retSites n → d3 ∈ sm d2 →
      Pushed P s f d1 n d2 ⟨d1, r, d3⟩ (P.alg.extend f (P.sumEdge n d2 r d3))
  | ctr {r d3} : P.icf.isCall n = true → r ∈ P.icf.retSites n → d3 ∈ P.ctrFlow n r d2 →
      Pushed P s f d1 n d2 ⟨d1, r, d3⟩ (P.alg.extend f (P.ctrEdge n d2 r d3))
  | call {g sp d3} : P.icf.isCall n = true → g ∈ P.icf.callees n → P.summaryFlow n g = none →
      sp ∈ P.icf.starts g → d3 ∈ P.callFlow n g d2 →
      Pushed P s f d1 n d2 ⟨d3, sp, d3⟩ P.alg.idE
  | callSum {g sp d3 eP d4 fs r d5} : P.icf.isCall n = true → g ∈ P.icf.callees n →
      P.summaryFlow n g = none → sp ∈ P.icf.starts g → d3 ∈ P.callFlow n g d2 →
      (eP, d4, fs) ∈ endSummary s sp d3 → r ∈ P.icf.retSites n → d5 ∈ P.retFlow n g eP r d4 →
      Pushed P s f d1 n d2 ⟨d1, r, d5⟩
        (P.alg.extend f (P.alg.extend (P.alg.extend (P.callEdge n d2 g d3) fs)
          (P.retEdge n g eP d4 r d5)))
  | exit {c ds r d4 d5 d3 f3} : P.icf.isCall n = false → P.icf.isExit n = true →
      (c, ds) ∈ incMap P s d1 n → r ∈ P.icf.retSites c → d4 ∈ ds →
      d5 ∈ P.retFlow c (P.icf.funOf n) n r d2 → (d3, f3) ∈ reverseLookup s c d4 →
      P.alg.eqE f3 P.alg.allTop = false →
      Pushed P s f d1 n d2 ⟨d3, r, d5⟩
        (P.alg.extend f3 (P.alg.extend (P.alg.extend (P.callEdge c d4 (P.icf.funOf n) d1) f)
          (P.retEdge c (P.icf.funOf n) n d2 r d5)))
  | unbal {c r d5} : P.followReturnsPastSeeds = true → P.icf.isCall n = false →
      P.icf.isExit n = true → incMap P s d1 n = [] →
      c ∈ P.icf.callers (P.icf.funOf n) → r ∈ P.icf.retSites c →
      d5 ∈ P.retFlow c (P.icf.funOf n) n r d2 →
      Pushed P s f d1 n d2 ⟨P.zero, r, d5⟩
        (P.alg.extend f (P.retEdge c (P.icf.funOf n) n d2 r d5))

theorem mem_exitPushes {P : Problem N D F L E} {s : St N D E} {f : E} {d1 : D} {n : N} {d2 : D}
    {inc : AMap N (List D)} {x : PathEdge N D × E} :
    x ∈ exitPushes P s f d1 n d2 inc ↔ ∃ c ds r d4 d5 d3 f3, (c, ds) ∈ inc ∧ r ∈ P.icf.retSites c ∧
      d4 ∈ ds ∧ d5 ∈ P.retFlow c (P.icf.funOf n) n r d2 ∧ (d3, f3) ∈ reverseLookup s c d4 ∧
      P.alg.eqE f3 P.alg.allTop = false ∧
      x = (⟨d3, r, d5⟩,
        P.alg.extend f3 (P.alg.extend (P.alg.extend (P.callEdge c d4 (P.icf.funOf n) d1) f)
          (P.retEdge c (P.icf.funOf n) n d2 r d5))) := by
  unfold exitPushes
  simp only [List.mem_flatMap]
  constructor
  · rintro ⟨⟨c, ds⟩, hc, r, hr, d4, hd4, d5, hd5, ⟨d3, f3⟩, hj, h⟩
    split at h
    · simp at h
    · rename_i hne
      simp only [List.mem_singleton] at h
      exact ⟨c, ds, r, d4, d5, d3, f3, hc, hr, hd4, hd5, hj, by simpa using hne, h⟩
  · rintro ⟨c, ds, r, d4, d5, d3, f3, hc, hr, hd4, hd5, hj, hne, h⟩
    refine ⟨(c, ds), hc, r, hr, d4, hd4, d5, hd5, (d3, f3), hj, ?_⟩
    simp [hne, h]

theorem mem_unbalancedPushes {P : Problem N D F L E} {f : E} {n : N} {d2 : D}
    {x : PathEdge N D × E} :
    x ∈ unbalancedPushes P f n d2 ↔ ∃ c r d5, c ∈ P.icf.callers (P.icf.funOf n) ∧
      r ∈ P.icf.retSites c ∧ d5 ∈ P.retFlow c (P.icf.funOf n) n r d2 ∧
      x = (⟨P.zero, r, d5⟩, P.alg.extend f (P.retEdge c (P.icf.funOf n) n d2 r d5)) := by
  unfold unbalancedPushes
  simp only [List.mem_flatMap, List.mem_map]
  constructor
  · rintro ⟨c, hc, r, hr, d5, hd5, h⟩
    exact ⟨c, r, d5, hc, hr, hd5, h.symm⟩
  · rintro ⟨c, r, d5, hc, hr, hd5, h⟩
    exact ⟨c, hc, r, hr, d5, hd5, h.symm⟩

theorem mem_processExit_wl {P : Problem N D F L E} {s : St N D E} {d1 : D} {n : N} {d2 : D}
    {x : PathEdge N D × E} :
    x ∈ (processExit P s d1 n d2).wl ↔ x ∈ s.wl ∨
      x ∈ exitPushes P s (jumpFunction P s d1 n d2) d1 n d2 (incMap P s d1 n) ∨
      (P.followReturnsPastSeeds = true ∧ incMap P s d1 n = [] ∧
        x ∈ unbalancedPushes P (jumpFunction P s d1 n d2) n d2) := by
  unfold processExit
  by_cases h : (P.followReturnsPastSeeds && (incMap P s d1 n).isEmpty) = true
  · simp only [h, if_true, List.mem_append]
    simp only [Bool.and_eq_true, List.isEmpty_iff] at h
    constructor
    · rintro ((h1 | h1) | h1)
      · exact .inl h1
      · exact .inr (.inl h1)
      · exact .inr (.inr ⟨h.1, h.2, h1⟩)
    · rintro (h1 | h1 | h1)
      · exact .inl (.inl h1)
      · exact .inl (.inr h1)
      · exact .inr h1.2.2
  · simp only [h, Bool.false_eq_true, if_false, List.mem_append]
    simp only [Bool.and_eq_true, List.isEmpty_iff] at h
    constructor
    · rintro (h1 | h1)
      · exact .inl h1
      · exact .inr (.inl h1)
    · rintro (h1 | h1 | h1)
      · exact .inl h1
      · exact .inr h1
      · exact absurd ⟨h1.1, h1.2.1⟩ h

theorem processExit_jump (P : Problem N D F L E) (s : St N D E) (d1 : D) (n : N) (d2 : D) :
    (processExit P s d1 n d2).jump = s.jump := by
  unfold processExit
  dsimp only
  split <;> rfl

theorem processExit_incoming (P : Problem N D F L E) (s : St N D E) (d1 : D) (n : N) (d2 : D) :
    (processExit P s d1 n d2).incoming = s.incoming := by
  unfold processExit
  dsimp only
  split <;> rfl

theorem processExit_endSum (P : Problem N D F L E) (s : St N D E) (d1 : D) (n : N) (d2 : D) :
    (processExit P s d1 n d2).endSum =
      (P.icf.starts (P.icf.funOf n)).foldl
        (fun es sp => es.set (sp, d1, n, d2) (jumpFunction P s d1 n d2)) s.endSum := by
  unfold processExit
  dsimp only
  split <;> rfl

theorem task_jump (P : Problem N D F L E) (s : St N D E) (d1 : D) (n : N) (d2 : D) :
    (pathEdgeProcessingTask P s d1 n d2).jump = s.jump := by
  unfold pathEdgeProcessingTask
  split
  · rfl
  · split <;> split <;> simp [processNormalFlow, processExit_jump]

theorem task_incoming (P : Problem N D F L E) (s : St N D E) (d1 : D) (n : N) (d2 : D) :
    (pathEdgeProcessingTask P s d1 n d2).incoming =
      if P.icf.isCall n then
        (incomingAdds P n d2).foldl (fun inc p => addIncoming inc p.1 p.2 n d2) s.incoming
      else s.incoming := by
  unfold pathEdgeProcessingTask
  split
  · rfl
  · split <;> split <;> simp [processNormalFlow, processExit_incoming]

theorem task_endSum (P : Problem N D F L E) (s : St N D E) (d1 : D) (n : N) (d2 : D) :
    (pathEdgeProcessingTask P s d1 n d2).endSum =
      if P.icf.isCall n = false ∧ P.icf.isExit n = true then
        (P.icf.starts (P.icf.funOf n)).foldl
          (fun es sp => es.set (sp, d1, n, d2) (jumpFunction P s d1 n d2)) s.endSum
      else s.endSum := by
  unfold pathEdgeProcessingTask
  split
  · rename_i h; simp [h, processCall]
  · rename_i h
    simp only [Bool.not_eq_true] at h
    split
    · rename_i h2
      split <;> simp [h, h2, processNormalFlow, processExit_endSum]
    · rename_i h2
      split <;> simp [h2, processNormalFlow]

/-- `unbal` stays empty when unbalanced returns are not followed. -/
theorem task_unbal (P : Problem N D F L E) (s : St N D E) (d1 : D) (n : N) (d2 : D)
    (hf : P.followReturnsPastSeeds = false) :
    (pathEdgeProcessingTask P s d1 n d2).unbal = s.unbal := by
  unfold pathEdgeProcessingTask
  split
  · rfl
  · split <;> split <;> simp [processNormalFlow, processExit, hf]

/-- The worklist after processing one path edge: the old items and exactly the pushes. -/
theorem mem_task_wl (P : Problem N D F L E) (s : St N D E) (d1 : D) (n : N) (d2 : D)
    (x : PathEdge N D × E) :
    x ∈ (pathEdgeProcessingTask P s d1 n d2).wl ↔
      x ∈ s.wl ∨ Pushed P s (jumpFunction P s d1 n d2) d1 n d2 x.1 x.2 := by
  unfold pathEdgeProcessingTask
  by_cases hc : P.icf.isCall n = true
  · simp only [hc, if_true, processCall, List.mem_append, List.mem_flatMap, ctrPushes, List.mem_map,
      or_assoc]
    refine or_congr_right ?_
    constructor
    · rintro (⟨g, hg, h⟩ | ⟨r, hr, d3, hd3, rfl⟩)
      · split at h
        · rename_i sm hs
          simp only [summaryPushes, List.mem_flatMap, List.mem_map] at h
          obtain ⟨r, hr, d3, hd3, rfl⟩ := h
          exact .sum hc hg hs hr hd3
        · rename_i hs
          simp only [calleePushes, List.mem_flatMap, List.mem_cons, List.mem_map] at h
          obtain ⟨sp, hsp, d3, hd3, rfl | ⟨⟨eP, d4, fs⟩, hen, r, hr, d5, hd5, rfl⟩⟩ := h
          · exact .call hc hg hs hsp hd3
          · exact .callSum hc hg hs hsp hd3 hen hr hd5
      · exact .ctr hc hr hd3
    · intro h
      obtain ⟨x, e⟩ := x
      cases h with
      | normal h1 => rw [hc] at h1; cases h1
      | sum _ hg hs hr hd =>
        refine .inl ⟨_, hg, ?_⟩
        simp only [hs, summaryPushes, List.mem_flatMap, List.mem_map]
        exact ⟨_, hr, _, hd, rfl⟩
      | ctr _ hr hd => exact .inr ⟨_, hr, _, hd, rfl⟩
      | call _ hg hs hsp hd =>
        refine .inl ⟨_, hg, ?_⟩
        simp only [hs, calleePushes, List.mem_flatMap, List.mem_cons]
        exact ⟨_, hsp, _, hd, .inl rfl⟩
      | callSum _ hg hs hsp hd hen hr hd5 =>
        refine .inl ⟨_, hg, ?_⟩
        simp only [hs, calleePushes, List.mem_flatMap, List.mem_cons, List.mem_map]
        exact ⟨_, hsp, _, hd, .inr ⟨_, hen, _, hr, _, hd5, rfl⟩⟩
      | exit h1 => rw [hc] at h1; cases h1
      | unbal _ h1 => rw [hc] at h1; cases h1
  · have hc' : P.icf.isCall n = false := by simpa using hc
    simp only [hc', Bool.false_eq_true, if_false]
    have hN : ∀ (t : St N D E), t.jump = s.jump → (x ∈ (if (P.icf.succs n).isEmpty then t
        else processNormalFlow P t d1 n d2).wl ↔ x ∈ t.wl ∨ ∃ n' ∈ P.icf.succs n,
          ∃ d3 ∈ P.normalFlow n n' d2, x = (⟨d1, n', d3⟩,
            P.alg.extend (jumpFunction P s d1 n d2) (P.normalEdge n d2 n' d3))) := by
      intro t ht
      have hj : jumpFunction P t d1 n d2 = jumpFunction P s d1 n d2 := by
        simp [jumpFunction, ht]
      by_cases he : (P.icf.succs n).isEmpty = true
      · have he' : P.icf.succs n = [] := by simpa using he
        simp [he']
      · rw [if_neg he]
        simp only [processNormalFlow, hj, List.mem_append, List.mem_flatMap, List.mem_map]
        refine or_congr_right ?_
        constructor
        · rintro ⟨n', hn', d3, hd3, h⟩; exact ⟨n', hn', d3, hd3, h.symm⟩
        · rintro ⟨n', hn', d3, hd3, h⟩; exact ⟨n', hn', d3, hd3, h.symm⟩
    by_cases hx : P.icf.isExit n = true
    · simp only [hx, if_true]
      rw [hN _ (processExit_jump P s d1 n d2), mem_processExit_wl, mem_exitPushes,
        mem_unbalancedPushes]
      obtain ⟨x, e⟩ := x
      constructor
      · rintro ((h | ⟨c, ds, r, d4, d5, d3, f3, hc, hr, hd4, hd5, hj, hne, h⟩ |
          ⟨hf, hi, c, r, d5, hc, hr, hd5, h⟩) | ⟨n', hn', d3, hd3, h⟩)
        · exact .inl h
        · obtain ⟨rfl, rfl⟩ := Prod.mk.inj h
          exact .inr (.exit hc' hx hc hr hd4 hd5 hj hne)
        · obtain ⟨rfl, rfl⟩ := Prod.mk.inj h
          exact .inr (.unbal hf hc' hx hi hc hr hd5)
        · obtain ⟨rfl, rfl⟩ := Prod.mk.inj h
          exact .inr (.normal hc' hn' hd3)
      · rintro (h | h)
        · exact .inl (.inl h)
        · cases h with
          | normal _ hn' hd3 => exact .inr ⟨_, hn', _, hd3, rfl⟩
          | sum h1 => rw [hc'] at h1; cases h1
          | ctr h1 => rw [hc'] at h1; cases h1
          | call h1 => rw [hc'] at h1; cases h1
          | callSum h1 => rw [hc'] at h1; cases h1
          | exit _ _ hc hr hd4 hd5 hj hne =>
            exact .inl (.inr (.inl ⟨_, _, _, _, _, _, _, hc, hr, hd4, hd5, hj, hne, rfl⟩))
          | unbal hf _ _ hi hc hr hd5 =>
            exact .inl (.inr (.inr ⟨hf, hi, _, _, _, hc, hr, hd5, rfl⟩))
    · simp only [hx, Bool.false_eq_true, if_false]
      rw [hN s rfl]
      refine or_congr_right ?_
      obtain ⟨x, e⟩ := x
      constructor
      · rintro ⟨n', hn', d3, hd3, h⟩
        obtain ⟨rfl, rfl⟩ := Prod.mk.inj h
        exact .normal hc' hn' hd3
      · intro h
        cases h with
        | normal _ hn' hd3 => exact ⟨_, hn', _, hd3, rfl⟩
        | sum h1 => rw [hc'] at h1; cases h1
        | ctr h1 => rw [hc'] at h1; cases h1
        | call h1 => rw [hc'] at h1; cases h1
        | callSum h1 => rw [hc'] at h1; cases h1
        | exit _ h1 => exact absurd h1 hx
        | unbal _ _ h1 => exact absurd h1 hx

end
end Phasar.IDE
