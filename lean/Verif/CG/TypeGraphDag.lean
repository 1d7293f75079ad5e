import Verif.CG.TypeGraphRun

/-!
# Type graphs: `aggregateTypes` on graphs without cycles
-/

namespace Phasar.TypeGraph

variable {m : List SType} {L : List (SType × SType)} {g : Graph}

theorem Reach.cases_head {α : Type} {R : α → α → Prop} {a c : α} (h : Reach R a c) : a = c ∨ ∃ b, R a b ∧ Reach R b c := by
  induction h with
  | refl => exact .inl rfl
  | step _ hr ih =>
    rcases ih with rfl | ⟨b, h1, h2⟩
    · exact .inr ⟨_, hr, .refl⟩
    · exact .inr ⟨b, h1, .step h2 hr⟩

/-- Each vertex has its own type only. -/
def Raw (g : Graph) : Prop :=
  ∀ v t, t ∈ types g.vs v ↔ ∃ x, g.vs[v]? = some x ∧ t = x.base

theorem addVertex_raw {key : SType → String} (W : Wf key m L g) (F : Raw g) (t : SType) : Raw (addVertex g (key t) t [t]).1 := by
  obtain ⟨_, _, _, _, h | hvs⟩ := addVertex_ok W t [t]
  · rw [h]; exact F
  · intro v s
    rw [hvs]
    rcases Nat.lt_trichotomy v g.vs.length with h | h | h
    · have : types (g.vs ++ [({ name := key t, base := t, types := [t] } : Vtx)]) v = types g.vs v := by
        unfold types; rw [List.getElem?_append_left h]
      rw [this, F v s, List.getElem?_append_left h]
    · subst h
      unfold types; simp
    · unfold types
      rw [List.getElem?_eq_none (by simp; omega)]
      simp

theorem runW_ok : ∀ (l : List (SType × SType)) {m : List SType} {L : List (SType × SType)} {g : Graph}, Wf keyC m L g → Raw g →
    g.busy = false → Wf keyC (m ++ mentions (l.map fun p => .link p.1 p.2)) (L ++ l) (runW l g) ∧ Raw (runW l g) ∧ (runW l g).busy = false := by
  intro l
  induction l with
  | nil => intro m L g W F h; exact ⟨by simpa [mentions, runW] using W, F, h⟩
  | cons p l ih =>
    intro m L g W F h
    obtain ⟨a, b⟩ := p
    have W0 := wf_busy W true
    have F0 : Raw { g with busy := true } := F
    obtain ⟨W2, ⟨x, hx, hxa⟩, ⟨y, hy, hyb⟩, _⟩ := addBoth_ok W0 a b [a] [b]
    obtain ⟨W1, _⟩ := addVertex_ok W0 a [a]
    have F2 := addVertex_raw W1 (addVertex_raw W0 F0 a) b
    obtain ⟨W3, hvs, _⟩ := addEdge_wf (a := a) (b := b) W2 hx hy hxa hyb
    have F3 : Raw (addLinkWithoutReversePropagation g a b).1 := by
      unfold addLinkWithoutReversePropagation
      simp only [h, Bool.false_eq_true, if_false]
      intro v t
      show t ∈ types (addEdge _ _ _).1.vs v ↔ ∃ x, (addEdge _ _ _).1.vs[v]? = some x ∧ _
      have := F2 v t
      unfold addTypeC
      rw [hvs]
      exact this
    have W4 : Wf keyC (m ++ [a, b]) (L ++ [(a, b)]) (addLinkWithoutReversePropagation g a b).1 := by
      unfold addLinkWithoutReversePropagation
      simp only [h, Bool.false_eq_true, if_false]
      exact wf_busy W3 false
    have h4 : (addLinkWithoutReversePropagation g a b).1.busy = false := by
      unfold addLinkWithoutReversePropagation
      simp only [h, Bool.false_eq_true, if_false]
    obtain ⟨W5, F5, h5⟩ := ih W4 F3 h4
    exact ⟨by simpa [mentions, runW] using W5, F5, h5⟩

/-- All types that can be reached are there. -/
def Complete (g : Graph) (vs : List Vtx) (w : Nat) : Prop :=
  ∀ u x, Reach (E g) w u → g.vs[u]? = some x → x.base ∈ types vs w

/-- What holds throughout. -/
structure Mid (g : Graph) (vs : List Vtx) : Prop where
  len : vs.length = g.vs.length
  bases : ∀ w : Nat, (vs[w]?).map Vtx.base = (g.vs[w]?).map Vtx.base
  own : ∀ w x, g.vs[w]? = some x → x.base ∈ types vs w
  sound : ∀ w t, t ∈ types vs w → ∃ u x, Reach (E g) w u ∧ g.vs[u]? = some x ∧ t = x.base

/-- More types than before. -/
def Grew (vs vs' : List Vtx) : Prop := ∀ w t, t ∈ types vs w → t ∈ types vs' w

theorem Complete.grew {g : Graph} {vs vs' : List Vtx} {w : Nat} (h : Complete g vs w) (hg : Grew vs vs') : Complete g vs' w :=
  fun u x hr hx => hg _ _ (h u x hr hx)

theorem grew_addTypes {a b : Nat} {vs : List Vtx} : Grew vs (addTypes a b vs) := by
  intro w t h
  by_cases hb : b < vs.length
  · exact (mem_addTypes hb).mpr (.inl h)
  · unfold addTypes
    rw [List.modify_eq_self (by omega)]
    exact h

theorem mid_addTypes {vs : List Vtx} (M : Mid g vs) {u v : Nat} (h : E g v u) (hv : v < g.vs.length) : Mid g (addTypes u v vs) := by
  refine ⟨by rw [length_addTypes, M.len], fun w => by rw [base_addTypes, M.bases], fun w x hx => grew_addTypes _ _ (M.own w x hx), ?_⟩
  intro w t ht
  rcases (mem_addTypes (by rw [M.len]; exact hv)).mp ht with ht' | ⟨rfl, ht'⟩
  · exact M.sound w t ht'
  · obtain ⟨z, x, hz, hx, hxt⟩ := M.sound u t ht'
    exact ⟨z, x, Reach.head h hz, hx, hxt⟩

theorem dag_dfs (hac : ∀ u v, E g u v → ¬ Reach (E g) v u) (hb : ∀ u v, (u, v) ∈ g.es → u < g.vs.length ∧ v < g.vs.length) :
    ∀ (f v : Nat) (s : List Nat × List Vtx), v < g.vs.length → v ∉ s.1 → white g.vs.length s.1 ≤ f → Mid g s.2 →
    (∀ w ∈ s.1, Complete g s.2 w ∨ Reach (E g) w v) →
    let r := dfs (succs g) (fun _ _ vs => vs) (fun s t vs => addTypes t s vs) f v s
    Mid g r.2 ∧ (∀ w ∈ s.1, w ∈ r.1) ∧ v ∈ r.1 ∧ Grew s.2 r.2 ∧ ∀ w ∈ r.1, w ∈ s.1 ∨ Complete g r.2 w := by
  intro f
  induction f with
  | zero =>
    intro v s hv hn hw
    have := white_lt hv hn
    omega
  | succ f ih =>
    intro v s hv hn hw hM hs r
    have hlt := white_lt hv hn
    obtain ⟨step, hstep⟩ : ∃ step : List Nat × List Vtx → Nat → List Nat × List Vtx, step = fun s u =>
      let s1 := (s.1, s.2)
      let s2 := if u ∈ s1.1 then s1 else dfs (succs g) (fun _ _ vs => vs) (fun s t vs => addTypes t s vs) f u s1
      (s2.1, addTypes u v s2.2) := ⟨_, rfl⟩
    have hr : r = (succs g v).foldl step (v :: s.1, s.2) := by rw [hstep]; rfl
    have key : ∀ (l : List Nat) (t : List Nat × List Vtx), (∀ u ∈ l, u ∈ succs g v) → v ∈ t.1 → white g.vs.length t.1 ≤ f → Mid g t.2 →
        (∀ w ∈ t.1, Complete g t.2 w ∨ Reach (E g) w v) →
        Mid g (l.foldl step t).2 ∧ (∀ w ∈ t.1, w ∈ (l.foldl step t).1) ∧ Grew t.2 (l.foldl step t).2 ∧
        (∀ w ∈ (l.foldl step t).1, w ∈ t.1 ∨ Complete g (l.foldl step t).2 w) ∧
        ∀ u ∈ l, ∀ z x, Reach (E g) u z → g.vs[z]? = some x → x.base ∈ types (l.foldl step t).2 v := by
      intro l
      induction l with
      | nil =>
        intro t _ _ _ hM _
        exact ⟨hM, fun _ h => h, fun _ _ h => h, fun w h => .inl h, (fun u hu => by cases hu)⟩
      | cons u l ihl =>
        intro t hl hvt hwt hM hs
        have hu := mem_succs.mp (hl u List.mem_cons_self)
        obtain ⟨t', ht'⟩ : ∃ t', t' = (if u ∈ t.1 then (t.1, t.2) else
          dfs (succs g) (fun _ _ vs => vs) (fun s t vs => addTypes t s vs) f u (t.1, t.2)) := ⟨_, rfl⟩
        have hD : Mid g t'.2 ∧ (∀ w ∈ t.1, w ∈ t'.1) ∧ Grew t.2 t'.2 ∧ (∀ w ∈ t'.1, w ∈ t.1 ∨ Complete g t'.2 w) ∧ Complete g t'.2 u := by
          by_cases hm : u ∈ t.1
          · rw [if_pos hm] at ht'
            subst ht'
            refine ⟨hM, fun _ h => h, fun _ _ h => h, fun w h => .inl h, ?_⟩
            rcases hs u hm with h | h
            · exact h
            · exact absurd h (hac v u hu.2)
          · rw [if_neg hm] at ht'
            have := ih u (t.1, t.2) hu.1 hm hwt hM (fun w hw => (hs w hw).imp id (fun h => .step h hu.2))
            simp only at this
            rw [← ht'] at this
            obtain ⟨h1, h2, h3, h4, h5⟩ := this
            refine ⟨h1, h2, h4, h5, ?_⟩
            rcases h5 u h3 with h | h
            · exact absurd h hm
            · exact h
        obtain ⟨h1, h2, h3, h4, h5⟩ := hD
        have hst : step t u = (t'.1, addTypes u v t'.2) := by rw [hstep, ht']
        rw [List.foldl_cons, hst]
        have hgr : Grew t'.2 (addTypes u v t'.2) := grew_addTypes
        obtain ⟨k1, k2, k3, k4, k5⟩ := ihl (t'.1, addTypes u v t'.2) (fun w hw => hl w (List.mem_cons_of_mem _ hw)) (h2 v hvt)
          (Nat.le_trans (white_mono h2) hwt) (mid_addTypes h1 hu.2 hv) (by
            intro w hw
            rcases h4 w hw with h | h
            · rcases hs w h with h | h
              · exact .inl ((h.grew h3).grew hgr)
              · exact .inr h
            · exact .inl (h.grew hgr))
        refine ⟨k1, fun w hw => k2 w (h2 w hw), fun w x h => k3 _ _ (hgr _ _ (h3 _ _ h)), fun w hw => ?_, ?_⟩
        · rcases k4 w hw with h | h
          · rcases h4 w h with h | h
            · exact .inl h
            · exact .inr ((h.grew hgr).grew k3)
          · exact .inr h
        · intro w hw z x hr hx
          rcases List.mem_cons.mp hw with rfl | hw
          · exact k3 _ _ ((mem_addTypes (by rw [h1.len]; exact hv)).mpr (.inr ⟨rfl, h5 z x hr hx⟩))
          · exact k5 w hw z x hr hx
    obtain ⟨k1, k2, k3, k4, k5⟩ := key (succs g v) (v :: s.1, s.2) (fun _ h => h) List.mem_cons_self
      (show white g.vs.length (v :: s.1) ≤ f by omega) hM (by
        intro w hw
        rcases List.mem_cons.mp hw with rfl | hw
        · exact .inr .refl
        · exact hs w hw)
    rw [← hr] at k1 k2 k3 k4 k5
    refine ⟨k1, fun w hw => k2 w (List.mem_cons_of_mem _ hw), k2 v List.mem_cons_self, k3, fun w hw => ?_⟩
    rcases k4 w hw with h | h
    · rcases List.mem_cons.mp h with rfl | h
      · refine .inr fun z x hz hx => ?_
        rcases hz.cases_head with rfl | ⟨u, hu, hz⟩
        · exact k1.own w x hx
        · exact k5 u (mem_succs.mpr ⟨(hb _ _ hu).2, hu⟩) z x hz hx
      · exact .inl h
    · exact .inr h

theorem aggregate_full (hac : ∀ u v, E g u v → ¬ Reach (E g) v u) (hb : ∀ u v, (u, v) ∈ g.es → u < g.vs.length ∧ v < g.vs.length) (F : Raw g) :
    Full (aggregateTypes g) ∧ ∀ w : Nat, ((aggregateTypes g).vs[w]?).map Vtx.base = (g.vs[w]?).map Vtx.base := by
  have key : ∀ (l : List Nat) (s : List Nat × List Vtx), (∀ v ∈ l, v < g.vs.length) → Mid g s.2 → (∀ w ∈ s.1, Complete g s.2 w) →
      let r := l.foldl (fun s v => if v ∈ s.1 then s else dfs (succs g) (fun _ _ vs => vs) (fun s t vs => addTypes t s vs) g.vs.length v s) s
      Mid g r.2 ∧ (∀ w ∈ s.1, w ∈ r.1) ∧ (∀ w ∈ r.1, Complete g r.2 w) ∧ ∀ v ∈ l, v ∈ r.1 := by
    intro l
    induction l with
    | nil => intro s _ hM hs; exact ⟨hM, fun _ h => h, hs, (fun v hv => by cases hv)⟩
    | cons v l ih =>
      intro s hl hM hs
      simp only [List.foldl_cons]
      have hD : ∃ s', s' = (if v ∈ s.1 then s else dfs (succs g) (fun _ _ vs => vs) (fun s t vs => addTypes t s vs) g.vs.length v s) ∧
          Mid g s'.2 ∧ (∀ w ∈ s.1, w ∈ s'.1) ∧ (∀ w ∈ s'.1, Complete g s'.2 w) ∧ v ∈ s'.1 := by
        refine ⟨_, rfl, ?_⟩
        by_cases hv : v ∈ s.1
        · rw [if_pos hv]; exact ⟨hM, fun _ h => h, hs, hv⟩
        · rw [if_neg hv]
          obtain ⟨h1, h2, h3, h4, h5⟩ := dag_dfs hac hb g.vs.length v s (hl v List.mem_cons_self) hv (white_le _ _) hM (fun w hw => .inl (hs w hw))
          refine ⟨h1, h2, fun w hw => ?_, h3⟩
          rcases h5 w hw with h | h
          · exact (hs w h).grew h4
          · exact h
      obtain ⟨s', hs', h1, h2, h3, h4⟩ := hD
      rw [← hs']
      obtain ⟨k1, k2, k3, k4⟩ := ih s' (fun w hw => hl w (List.mem_cons_of_mem _ hw)) h1 h3
      refine ⟨k1, fun w hw => k2 w (h2 w hw), k3, fun w hw => ?_⟩
      rcases List.mem_cons.mp hw with rfl | hw
      · exact k2 _ h4
      · exact k4 w hw
  have hM : Mid g g.vs := ⟨rfl, fun _ => rfl, fun w x hx => (F w _).mpr ⟨x, hx, rfl⟩, fun w t ht => by
    obtain ⟨x, hx, h⟩ := (F w t).mp ht
    exact ⟨w, x, .refl, hx, h⟩⟩
  obtain ⟨h1, _, h3, h4⟩ := key (List.range g.vs.length) ([], g.vs) (fun v hv => List.mem_range.mp hv) hM (fun w hw => by cases hw)
  have hvs : (aggregateTypes g).vs = (List.foldl (fun s v => if v ∈ s.1 then s else
    dfs (succs g) (fun _ _ vs => vs) (fun s t vs => addTypes t s vs) g.vs.length v s) ([], g.vs) (List.range g.vs.length)).2 := rfl
  have hb' : ∀ w : Nat, ((aggregateTypes g).vs[w]?).map Vtx.base = (g.vs[w]?).map Vtx.base := by
    intro w; rw [hvs]; exact h1.bases w
  refine ⟨fun v t => ⟨fun ht => ?_, ?_⟩, hb'⟩
  · rw [hvs] at ht
    obtain ⟨z, x, hz, hx, hxt⟩ := h1.sound v t ht
    have := hb' z
    rw [hx] at this
    cases hr : (aggregateTypes g).vs[z]? with
    | none => rw [hr] at this; cases this
    | some y =>
      rw [hr] at this
      simp only [Option.map_some, Option.some.injEq] at this
      exact ⟨z, y, hz, hr, by rw [this]; exact hxt⟩
  · rintro ⟨z, y, hz, hy, rfl⟩
    have hz : Reach (E g) v z := hz
    have := hb' z
    rw [hy] at this
    cases hr : g.vs[z]? with
    | none => rw [hr] at this; cases this
    | some x =>
      rw [hr] at this
      simp only [Option.map_some, Option.some.injEq] at this
      rw [this, hvs]
      have hv : v < g.vs.length := by
        rcases reach_range hb hz with rfl | h
        · exact getElem?_lt hr
        · exact h.1
      exact h3 v (h4 v (List.mem_range.mpr hv)) z x hz hr

end Phasar.TypeGraph
