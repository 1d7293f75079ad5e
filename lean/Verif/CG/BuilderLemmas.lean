import Verif.CG.Builder
import Verif.CG.CallGraphLemmas
/-!
# Lemmas about call-graph construction
-/
set_option linter.unusedSectionVars false
namespace Phasar.CG

variable {N F I σ : Type} [DecidableEq N] [DecidableEq F]

/-! ## Lists -/

theorem nodup_len {α : Type} [DecidableEq α] : ∀ {l L : List α}, l.Nodup → (∀ x ∈ l, x ∈ L) → l.length ≤ L.length := by
  intro l
  induction l with
  | nil => intro L _ _; simp
  | cons x l ih =>
    intro L hn hs
    have hx : x ∈ L := hs x (by simp)
    have h1 := ih (L := L.erase x) (List.nodup_cons.1 hn).2 (fun y hy => by
      have hne : y ≠ x := fun h => (List.nodup_cons.1 hn).1 (h ▸ hy)
      exact (List.mem_erase_of_ne hne).2 (hs y (by simp [hy])))
    rw [List.length_erase_of_mem hx] at h1
    have : 0 < L.length := List.length_pos_of_mem hx
    simp only [List.length_cons]; omega

theorem nodup_mem {α : Type} [DecidableEq α] {l L : List α} (hn : l.Nodup) (hs : ∀ x ∈ l, x ∈ L) (hl : L.length ≤ l.length) :
    ∀ y ∈ L, y ∈ l := by
  intro y hy
  by_cases h : y ∈ l
  · exact h
  · have := nodup_len (l := y :: l) (L := L) (List.nodup_cons.2 ⟨h, hn⟩) (fun x hx => by
      rcases List.mem_cons.1 hx with h1 | h1
      · rw [h1]; exact hy
      · exact hs x h1)
    simp only [List.length_cons] at this; omega

theorem getInd_setInd (c c' : N) (n : Nat) (l : List (N × Nat)) :
    getInd c' (setInd c n l) = if c = c' then some n else getInd c' l := by
  induction l with
  | nil => simp only [setInd, getInd]
  | cons p l ih =>
    simp only [setInd]
    by_cases h : p.1 = c
    · rw [if_pos h]
      simp only [getInd]
      by_cases hc : c = c'
      · simp [hc]
      · have : p.1 ≠ c' := fun h' => hc (h.symm.trans h')
        simp [hc, this]
    · rw [if_neg h]
      simp only [getInd]
      by_cases hp : p.1 = c'
      · have : c ≠ c' := fun h' => h (hp.trans h'.symm)
        simp [hp, this]
      · simp only [if_neg hp]; exact ih

theorem getInd_mem (c : N) (l : List (N × Nat)) : (∃ n, getInd c l = some n) ↔ c ∈ l.map (·.1) := by
  induction l with
  | nil => simp [getInd]
  | cons p l ih =>
    simp only [getInd, List.map_cons, List.mem_cons]
    by_cases h : p.1 = c
    · simp [h]
    · rw [if_neg h, ih]
      constructor
      · exact Or.inr
      · rintro (h1 | h1)
        · exact absurd h1.symm h
        · exact h1

theorem mem_calleesIn (E : List (N × F)) (c : N) (g : F) : g ∈ calleesIn E c ↔ (c, g) ∈ E := by
  unfold calleesIn
  simp only [List.mem_map, List.mem_filter, decide_eq_true_eq]
  constructor
  · rintro ⟨⟨c', g'⟩, ⟨h1, h2⟩, h3⟩
    simp only at h2 h3
    rw [← h2, ← h3]; exact h1
  · intro h; exact ⟨(c, g), ⟨h, rfl⟩, rfl⟩

/-! ## The graph is always well formed -/

/-- The invariant that holds for every resolver. -/
structure Base (m : Mod N F I) (fs : List F) (s : St N F σ) (sp : Spec N F) : Prop where
  inv : Inv m.num s.g [] sp
  fns : ∀ f ∈ sp.fns, f ∈ fs
  fnsN : sp.fns.Nodup
  wl : ∀ f ∈ s.wl, f ∈ fs
  vis : ∀ f ∈ s.visited, f ∈ fs
  visN : s.visited.Nodup
  ind : ∀ c n, getInd c s.ind = some n → n ≤ fs.length ∧ ∃ i, s.g.calleesAt c = some i
  vtx : ∀ f, f ∈ sp.fns ↔ f ∈ s.visited ∨ ∃ c, (c, f) ∈ sp.edges
  visB : ∀ f ∈ s.visited, m.body f ≠ none

theorem addTo_le {m : Mod N F I} {fs : List F} {l : List F} {f : F} (hl : ∀ f ∈ l, f ∈ fs) (hn : l.Nodup)
    (hf : f ∈ fs) (hc : fs.length ≤ m.num) : (addTo l f).length ≤ m.num ∧ (addTo l f).Nodup ∧ ∀ x ∈ addTo l f, x ∈ fs := by
  have h1 : ∀ x ∈ addTo l f, x ∈ fs := by
    intro x hx
    rcases (mem_addTo l f x).1 hx with h | h
    · exact hl x h
    · rw [h]; exact hf
  have h2 : (addTo l f).Nodup := by
    unfold addTo
    split
    · exact hn
    · rename_i h
      rw [List.nodup_append]
      refine ⟨hn, by simp, fun a ha b hb => ?_⟩
      simp only [List.mem_singleton] at hb
      intro he; exact h (by rw [← hb, ← he]; exact ha)
  exact ⟨Nat.le_trans (nodup_len h2 h1) hc, h2, h1⟩

theorem addTargets_ok {m : Mod N F I} {fs : List F} (hcap : fs.length ≤ m.num) (c : N) (i : Nat) (ts : List F) :
    ∀ {s : St N F σ} {sp : Spec N F}, Base m fs s sp → s.g.calleesAt c = some i → (∀ t ∈ ts, t ∈ fs) →
    ∃ s' sp', addTargets c i ts s = some s' ∧ Base m fs s' sp' ∧ sp'.edges = sp.edges ++ ts.map (fun t => (c, t)) ∧
      s'.wl = ts.reverse ++ s.wl ∧ s'.visited = s.visited ∧ s'.ind = s.ind ∧ s'.res = s.res ∧ Keeps s.g s'.g := by
  induction ts with
  | nil =>
    intro s sp hb _ _
    exact ⟨s, sp, rfl, hb, by simp, by simp, rfl, rfl, rfl, fun _ _ h => h, fun _ _ h => h, rfl⟩
  | cons t ts ih =>
    intro s sp hb hi ht
    obtain ⟨a1, a2, a3⟩ := addTo_le (f := t) hb.fns hb.fnsN (ht t (by simp)) hcap
    obtain ⟨g', e1, e2, e3⟩ := addEdgeI_inv hb.inv c t hi a1
    have hb' : Base m fs { s with g := g', wl := t :: s.wl } ⟨sp.edges ++ [(c, t)], addTo sp.fns t, sp.tags⟩ := by
      refine ⟨e2, a3, a2, ?_, hb.vis, hb.visN, ?_, ?_, hb.visB⟩
      rotate_right
      · intro f
        simp only [mem_addTo, hb.vtx f, List.mem_append, List.mem_singleton, Prod.mk.injEq]
        constructor
        · rintro ((h | ⟨c', h⟩) | h)
          · exact Or.inl h
          · exact Or.inr ⟨c', Or.inl h⟩
          · exact Or.inr ⟨c, Or.inr ⟨rfl, h⟩⟩
        · rintro (h | ⟨c', h | ⟨_, h⟩⟩)
          · exact Or.inl (Or.inl h)
          · exact Or.inl (Or.inr ⟨c', h⟩)
          · exact Or.inr h
      · intro f hf
        rcases List.mem_cons.1 hf with h | h
        · rw [h]; exact ht t (by simp)
        · exact hb.wl f h
      · intro c' n h
        obtain ⟨h1, j, h2⟩ := hb.ind c' n h
        exact ⟨h1, j, e3.1 c' j h2⟩
    obtain ⟨s', sp', f1, f2, f3, f4, f5, f6, f7, f8⟩ := ih hb' (e3.1 c i hi) (fun x hx => ht x (by simp [hx]))
    refine ⟨s', sp', by simp only [addTargets, e1, Option.bind]; exact f1, f2, by rw [f3]; simp, by rw [f4]; simp, f5, f6, f7, e3.trans f8⟩

/-- What one call does. -/
theorem call_ok {m : Mod N F I} {R : Resolver σ N F I} {entries fs : List F} (hF : Finite m R entries fs) {s : St N F σ}
    {sp : Spec N F} (hb : Base m fs s sp) (c : N) :
    ∃ s' sp', instr m R s (.call c) = some (s', (fill m R c s).2.1) ∧ Base m fs s' sp' ∧
      sp'.edges = sp.edges ++ (fill m R c s).1.map (fun t => (c, t)) ∧ s'.wl = (fill m R c s).1.reverse ++ s.wl ∧
      s'.visited = s.visited ∧ s'.ind = (fill m R c s).2.2.ind ∧
      s'.res = R.handle (fill m R c s).2.2.res c (fill m R c s).1 ∧ ∀ c n, getInd c s.ind = some n → ∃ n, getInd c s'.ind = some n := by
  have hts : ∀ t ∈ (fill m R c s).1, t ∈ fs := by
    unfold fill
    cases hc : m.callee c with
    | direct f => simp only [List.mem_singleton]; intro t ht; rw [ht]; exact hF.direct c f hc
    | asm => simp
    | dynamic => exact hF.ans s.res c
  have hg : (fill m R c s).2.2.g = s.g ∧ (fill m R c s).2.2.wl = s.wl ∧ (fill m R c s).2.2.visited = s.visited := by
    unfold fill; cases m.callee c <;> exact ⟨rfl, rfl, rfl⟩
  have hind : ∀ c' n, getInd c' (fill m R c s).2.2.ind = some n → (n ≤ fs.length) ∧ (c' = c ∨ getInd c' s.ind = some n) := by
    unfold fill
    cases hc : m.callee c with
    | direct f => intro c' n h; exact ⟨(hb.ind c' n h).1, Or.inr h⟩
    | asm => intro c' n h; exact ⟨(hb.ind c' n h).1, Or.inr h⟩
    | dynamic =>
      intro c' n h
      simp only [getInd_setInd] at h
      by_cases he : c = c'
      · rw [if_pos he] at h
        cases h
        exact ⟨nodup_len (hF.nodupAns s.res c) (hF.ans s.res c), Or.inl he.symm⟩
      · rw [if_neg he] at h
        exact ⟨(hb.ind c' n h).1, Or.inr h⟩
  have hind2 : ∀ c' n, getInd c' s.ind = some n → ∃ n, getInd c' (fill m R c s).2.2.ind = some n := by
    intro c' n h
    unfold fill
    cases hc : m.callee c with
    | direct f => exact ⟨n, h⟩
    | asm => exact ⟨n, h⟩
    | dynamic =>
      simp only [getInd_setInd]
      by_cases he : c = c'
      · exact ⟨_, if_pos he⟩
      · rw [if_neg he]; exact ⟨n, h⟩
  obtain ⟨i1, i2, i3, i4, i5⟩ := addInst_inv hb.inv c
  have hb1 : Base m fs { (fill m R c s).2.2 with
      res := R.handle (fill m R c s).2.2.res c (fill m R c s).1, g := (addInst s.g c).1 } sp := by
    refine ⟨i1, hb.fns, hb.fnsN, ?_, ?_, ?_, ?_, ?_, ?_⟩
    rotate_right
    · show ∀ f ∈ (fill m R c s).2.2.visited, _
      rw [hg.2.2]; exact hb.visB
    rotate_right
    · show ∀ f, f ∈ sp.fns ↔ f ∈ (fill m R c s).2.2.visited ∨ _
      rw [hg.2.2]; exact hb.vtx
    · show ∀ f ∈ (fill m R c s).2.2.wl, f ∈ fs
      rw [hg.2.1]; exact hb.wl
    · show ∀ f ∈ (fill m R c s).2.2.visited, f ∈ fs
      rw [hg.2.2]; exact hb.vis
    · show (fill m R c s).2.2.visited.Nodup
      rw [hg.2.2]; exact hb.visN
    · intro c' n h
      obtain ⟨h1, h2⟩ := hind c' n h
      refine ⟨h1, ?_⟩
      rcases h2 with h2 | h2
      · rw [h2]; exact ⟨_, i2⟩
      · obtain ⟨_, j, h3⟩ := hb.ind c' n h2
        exact ⟨j, i3 c' j h3⟩
  obtain ⟨s', sp', f1, f2, f3, f4, f5, f6, f7, f8⟩ := addTargets_ok hF.len c (addInst s.g c).2 (fill m R c s).1 hb1 i2 hts
  refine ⟨s', sp', ?_, f2, f3, ?_, ?_, f6, f7, ?_⟩
  · simp only [instr, hg.1]
    rw [f1]; rfl
  · rw [f4]; show _ ++ (fill m R c s).2.2.wl = _; rw [hg.2.1]
  · rw [f5]; exact hg.2.2
  · intro c' n h; rw [f6]; exact hind2 c' n h

theorem base_init {m : Mod N F I} {R : Resolver σ N F I} {entries fs : List F} (hF : Finite m R entries fs) (r : σ) :
    Base m fs (init m entries r) ⟨[], [], []⟩ :=
  ⟨inv_reserve m.num, by simp, by simp, fun f hf => hF.entries f (by simpa [init] using hf), by simp [init], by simp [init], by
    intro c n h; simp [init, getInd] at h, by simp [init], by simp [init]⟩

theorem base_other {m : Mod N F I} {fs : List F} {s : St N F σ} {sp : Spec N F} (hb : Base m fs s sp) (r : σ) :
    Base m fs { s with res := r } sp := ⟨hb.inv, hb.fns, hb.fnsN, hb.wl, hb.vis, hb.visN, hb.ind, hb.vtx, hb.visB⟩

/-- Entering a function. -/
theorem base_enter {m : Mod N F I} {R : Resolver σ N F I} {entries fs : List F} (hF : Finite m R entries fs) {s : St N F σ}
    {sp : Spec N F} (hb : Base m fs s sp) {f : F} (hf : f ∈ fs) (hv : f ∉ s.visited) (hbd : m.body f ≠ none) :
    Base m fs { s with visited := f :: s.visited, g := (addFun s.g f).1 } ⟨sp.edges, addTo sp.fns f, sp.tags⟩ := by
  obtain ⟨a1, a2, a3⟩ := addTo_le (f := f) hb.fns hb.fnsN hf hF.len
  obtain ⟨e1, e2, e3, e4, e5⟩ := addFun_inv hb.inv f a1
  refine ⟨e1, a3, a2, hb.wl, ?_, List.nodup_cons.2 ⟨hv, hb.visN⟩, ?_, ?_, ?_⟩
  rotate_right
  · intro x hx
    rcases List.mem_cons.1 hx with h | h
    · rw [h]; exact hbd
    · exact hb.visB x h
  rotate_right
  · intro x
    simp only [mem_addTo, hb.vtx x, List.mem_cons]
    constructor
    · rintro ((h | h) | h)
      · exact Or.inl (Or.inr h)
      · exact Or.inr h
      · exact Or.inl (Or.inl h)
    · rintro ((h | h) | h)
      · exact Or.inr h
      · exact Or.inl (Or.inl h)
      · exact Or.inl (Or.inr h)
  · intro x hx
    rcases List.mem_cons.1 hx with h | h
    · rw [h]; exact hf
    · exact hb.vis x h
  · intro c n h
    obtain ⟨h1, j, h2⟩ := hb.ind c n h
    exact ⟨h1, j, e3 c j h2⟩

/-- What `constructDynamicCall` does. -/
theorem dynamicCall_ok {m : Mod N F I} {R : Resolver σ N F I} {entries fs : List F} (hF : Finite m R entries fs) {s : St N F σ}
    {sp : Spec N F} (hb : Base m fs s sp) {c : N} {n : Nat} (hn : getInd c s.ind = some n) :
    ((R.resolve s.res c).1.length ≤ n ∧ dynamicCall R c s = some ({ s with res := (R.resolve s.res c).2 }, false)) ∨
    (n < (R.resolve s.res c).1.length ∧ ∃ s' sp' ts, dynamicCall R c s = some (s', true) ∧
      ts = (R.resolve s.res c).1.filter (fun t => decide (t ∉ calleesIn sp.edges c)) ∧ Base m fs s' sp' ∧
      sp'.edges = sp.edges ++ ts.map (fun t => (c, t)) ∧ s'.wl = ts.reverse ++ s.wl ∧ s'.visited = s.visited ∧
      s'.ind = setInd c (R.resolve s.res c).1.length s.ind ∧ s'.res = R.handle (R.resolve s.res c).2 c ts) := by
  obtain ⟨h1, i, h2⟩ := hb.ind c n hn
  by_cases hl : (R.resolve s.res c).1.length ≤ n
  · left
    refine ⟨hl, ?_⟩
    simp only [dynamicCall, h2, hn, if_pos hl]
  · right
    refine ⟨by omega, ?_⟩
    have hci := hb.inv.ci c i h2
    have hb1 : Base m fs { s with
        ind := setInd c (R.resolve s.res c).1.length s.ind,
        res := R.handle (R.resolve s.res c).2 c
          ((R.resolve s.res c).1.filter (fun t => decide (t ∉ calleesIn sp.edges c))) } sp := by
      refine ⟨hb.inv, hb.fns, hb.fnsN, hb.wl, hb.vis, hb.visN, ?_, hb.vtx, hb.visB⟩
      intro c' k h
      simp only [getInd_setInd] at h
      by_cases he : c = c'
      · rw [if_pos he] at h
        cases h
        exact ⟨nodup_len (hF.nodupAns s.res c) (hF.ans s.res c), i, he ▸ h2⟩
      · rw [if_neg he] at h; exact hb.ind c' k h
    obtain ⟨s', sp', f1, f2, f3, f4, f5, f6, f7, f8⟩ := addTargets_ok hF.len c i _ hb1 h2 (fun t ht =>
      hF.ans s.res c t (List.mem_filter.1 ht).1)
    refine ⟨s', sp', _, ?_, rfl, f2, f3, f4, f5, f6, f7⟩
    simp only [dynamicCall, h2, hn, if_neg hl, hci]
    rw [f1]; rfl

end Phasar.CG
