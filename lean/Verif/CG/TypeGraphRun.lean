import Verif.CG.TypeGraphInv

/-!
# Type graphs: sequences of calls
-/

namespace Phasar.TypeGraph

variable {key : SType → String} {m : List SType} {L : List (SType × SType)} {g : Graph}

/-- Both types of a link. -/
theorem addBoth_ok (W : Wf key m L g) (a b : SType) (ta tb : List SType) :
    let ga := addVertex g (key a) a ta
    let gb := addVertex ga.1 (key b) b tb
    Wf key (m ++ [a, b]) L gb.1 ∧ (∃ x, gb.1.vs[ga.2]? = some x ∧ key x.base = key a) ∧ (∃ y, gb.1.vs[gb.2]? = some y ∧ key y.base = key b) ∧
    gb.1.busy = g.busy := by
  intro ga gb
  obtain ⟨W1, ⟨x, hx, hk⟩, _, h4, _⟩ := addVertex_ok W a ta
  obtain ⟨W2, h5, _, h7, h8⟩ := addVertex_ok W1 b tb
  refine ⟨by simpa using W2, ⟨x, ?_, hk⟩, h5, by rw [h7, h4]⟩
  rcases h8 with h8 | h8
  · show (addVertex ga.1 (key b) b tb).1.vs[ga.2]? = _
    rw [h8]; exact hx
  · show (addVertex ga.1 (key b) b tb).1.vs[ga.2]? = _
    rw [h8, List.getElem?_append_left (getElem?_lt hx)]; exact hx

theorem wf_busy (W : Wf key m L g) (b : Bool) : Wf key m L { g with busy := b } :=
  ⟨W.names, W.edges, W.links, W.owner, W.known⟩

theorem addEdge_E {g : Graph} {u v : Nat} (a b : Nat) : E (addEdge g u v).1 a b ↔ E g a b ∨ (a = u ∧ b = v) := by
  unfold addEdge
  split
  · rename_i h
    constructor
    · exact .inl
    · rintro (h' | ⟨rfl, rfl⟩)
      · exact h'
      · exact h
  · simp [E]

theorem getName_keyC {as : Bool} {t : SType} (h : t.lit = false) : getName as t = some (keyC t) := by
  simp [getName, keyC, h]

theorem addLinkC_ok (W : Wf keyC m L g) (F : Full g) (hbz : g.busy = false) (as : Bool) (a : SType) {b : SType} (hb : b.lit = false) :
    ∃ g' n, addLinkC as g a b = some (g', n) ∧ Wf keyC (m ++ [a, b]) (L ++ [(a, b)]) g' ∧ Full g' ∧ g'.busy = false ∧
    (n = true ↔ ¬ LinkedKeys keyC L (keyC a) (keyC b)) := by
  unfold addLinkC
  rw [hbz]
  simp only [Bool.false_eq_true, if_false]
  have W0 := wf_busy W true
  have F0 : Full { g with busy := true } := F
  obtain ⟨W2, ⟨x, hx, hxa⟩, ⟨y, hy, hyb⟩, hbz2⟩ := addBoth_ok W0 a b [a] [b]
  have F1 := addVertex_full W0 F0 a
  obtain ⟨W1, _⟩ := addVertex_ok W0 a [a]
  have F2 := addVertex_full W1 F1 b
  obtain ⟨ga, hga⟩ : ∃ ga, ga = addTypeC { g with busy := true } a := ⟨_, rfl⟩
  obtain ⟨gb, hgb⟩ : ∃ gb, gb = addTypeC ga.1 b := ⟨_, rfl⟩
  rw [← hga, ← hgb]
  have e : gb = addVertex (addVertex { g with busy := true } (keyC a) a [a]).1 (keyC b) b [b] := by rw [hgb, hga]; rfl
  have e' : ga = addVertex { g with busy := true } (keyC a) a [a] := by rw [hga]; rfl
  rw [← e, ← e'] at hx
  rw [← e] at W2 hy F2
  obtain ⟨W3, hvs, hmap, _, hnew⟩ := addEdge_wf (a := a) (b := b) W2 hx hy hxa hyb
  split
  · rename_i hn
    have hf : find (addEdge gb.1 ga.2 gb.2).1.map (keyC b) = some gb.2 := by
      rw [hmap]; exact (W2.names _ _).mpr ⟨y, hy, hyb⟩
    have hp := propagate (g := gb.1) (g' := (addEdge gb.1 ga.2 gb.2).1) (u := ga.2) (v := gb.2) (getElem?_lt hy) hvs
      (fun p q => addEdge_E p q) W3.range F2
    obtain ⟨h1, h2, h3⟩ := hp
    unfold reverseTypePropagation
    rw [getName_keyC hb]
    simp only [hf]
    refine ⟨_, _, rfl, ?_, ?_, rfl, by simpa [hn] using hnew⟩
    · refine wf_congr W3 ?_ rfl ?_
      · rfl
      · intro w
        exact (h2 w).trans (by rw [hvs])
    · intro w t
      refine (h3 w t).trans ⟨?_, ?_⟩
      · rintro ⟨z, x', hz, hx', ht⟩
        have := h2 z
        rw [hx'] at this
        cases hr : (dfs (preds (addEdge gb.1 ga.2 gb.2).1) (fun s t vs => addTypes s t vs) (fun _ _ vs => vs)
          (addEdge gb.1 ga.2 gb.2).1.vs.length gb.2 ([], (addEdge gb.1 ga.2 gb.2).1.vs)).2[z]? with
        | none => rw [hr] at this; cases this
        | some x'' =>
          rw [hr] at this
          simp only [Option.map_some, Option.some.injEq] at this
          exact ⟨z, x'', hz, hr, by rw [this]; exact ht⟩
      · rintro ⟨z, x', hz, hx', ht⟩
        have := h2 z
        simp only [hx'] at this
        cases hr : gb.1.vs[z]? with
        | none => rw [hr] at this; cases this
        | some x'' =>
          rw [hr] at this
          simp only [Option.map_some, Option.some.injEq] at this
          exact ⟨z, x'', hz, hr, by rw [← this]; exact ht⟩
  · rename_i hn
    refine ⟨_, _, rfl, wf_busy W3 false, ?_, rfl, by simpa [hn] using hnew⟩
    have : (addEdge gb.1 ga.2 gb.2).1 = gb.1 := by
      unfold addEdge at hn ⊢
      split
      · rfl
      · rename_i h; simp [h] at hn
    rw [this]
    exact F2

theorem runC_ok (as : Bool) : ∀ (ops : List Op) {m : List SType} {L : List (SType × SType)} {g : Graph}, Wf keyC m L g → Full g →
    g.busy = false → (∀ a b, Op.link a b ∈ ops → b.lit = false) →
    ∃ g', runC as ops g = some g' ∧ Wf keyC (m ++ mentions ops) (L ++ links ops) g' ∧ Full g' ∧ g'.busy = false := by
  intro ops
  induction ops with
  | nil => intro m L g W F h _; exact ⟨g, rfl, by simpa [mentions, links] using W, F, h⟩
  | cons o ops ih =>
    intro m L g W F h hl
    have hl' : ∀ a b, Op.link a b ∈ ops → b.lit = false := fun a b h => hl a b (List.mem_cons_of_mem _ h)
    cases o with
    | link a b =>
      obtain ⟨g1, n, h1, W1, F1, h2, _⟩ := addLinkC_ok W F h as a (hl a b List.mem_cons_self)
      obtain ⟨g2, h3, W2, F2⟩ := ih W1 F1 h2 hl'
      exact ⟨g2, by simp only [runC, h1, h3], by simpa [mentions, links] using W2, F2⟩
    | get a =>
      obtain ⟨W1, _, _, h4, _⟩ := addVertex_ok W a [a]
      obtain ⟨g2, h3, W2, F2⟩ := ih W1 (addVertex_full W F a) (h4.trans h) hl'
      exact ⟨g2, by simp only [runC, getTypesC, addTypeC, h3], by simpa [mentions, links] using W2, F2⟩

theorem getName_keyL {as : Bool} {t : SType} (h : as = true → t.lit = false) : getName as t = some (keyL t) := by
  unfold getName keyL
  cases hl : t.lit <;> cases as <;> simp_all

theorem addLinkL_ok (W : Wf keyL m L g) (hbz : g.busy = false) {as : Bool} {a b : SType} (ha : as = true → a.lit = false)
    (hb : as = true → b.lit = false) :
    ∃ g' n, addLinkL as g a b = some (g', n) ∧ Wf keyL (m ++ [a, b]) (L ++ [(a, b)]) g' ∧ g'.busy = false ∧
    (n = true ↔ ¬ LinkedKeys keyL L (keyL a) (keyL b)) := by
  unfold addLinkL
  rw [hbz]
  simp only [Bool.false_eq_true, if_false, addTypeL, getName_keyL ha, getName_keyL hb]
  have W0 := wf_busy W true
  obtain ⟨W2, ⟨x, hx, hxa⟩, ⟨y, hy, hyb⟩, hbz2⟩ := addBoth_ok W0 a b [] []
  obtain ⟨W3, hvs, hmap, _, hnew⟩ := addEdge_wf (a := a) (b := b) W2 hx hy hxa hyb
  exact ⟨_, _, rfl, wf_busy W3 false, rfl, hnew⟩

theorem runL_ok (as : Bool) : ∀ (ops : List Op) {m : List SType} {L : List (SType × SType)} {g : Graph}, Wf keyL m L g →
    g.busy = false → (as = true → ∀ t ∈ mentions ops, t.lit = false) →
    ∃ g', runL as ops g = some g' ∧ Wf keyL (m ++ mentions ops) (L ++ links ops) g' ∧ g'.busy = false := by
  intro ops
  induction ops with
  | nil => intro m L g W h _; exact ⟨g, rfl, by simpa [mentions, links] using W, h⟩
  | cons o ops ih =>
    intro m L g W h hl
    cases o with
    | link a b =>
      obtain ⟨g1, n, h1, W1, h2, _⟩ := addLinkL_ok (a := a) (b := b) W h (fun h => hl h a (by simp [mentions])) (fun h => hl h b (by simp [mentions]))
      obtain ⟨g2, h3, W2, h4⟩ := ih W1 h2 (fun h t ht => hl h t (by simp [mentions, ht]))
      exact ⟨g2, by simp only [runL, h1, h3], by simpa [mentions, links] using W2, h4⟩
    | get a =>
      obtain ⟨W1, _, _, h4, _⟩ := addVertex_ok W a []
      obtain ⟨g2, h3, W2, h5⟩ := ih W1 (h4.trans h) (fun h t ht => hl h t (by simp [mentions, ht]))
      refine ⟨g2, ?_, by simpa [mentions, links] using W2, h5⟩
      simp only [runL, getTypesL, addTypeL, getName_keyL (fun h => hl h a (by simp [mentions])), h3]

/-! ## Names and vertices -/

theorem Wf.keyReach (W : Wf key m L g) {u v : Nat} {x y : Vtx} (hx : g.vs[u]? = some x) (h : Reach (E g) u v) (hy : g.vs[v]? = some y) :
    Reach (LinkedKeys key L) (key x.base) (key y.base) := by
  induction h generalizing y with
  | refl => rw [hx] at hy; cases hy; exact .refl
  | step _ hr ih =>
    obtain ⟨x', y', hx', hy', hl⟩ := W.edges _ _ hr
    rw [hy] at hy'; cases hy'
    exact .step (ih hx') hl

theorem Wf.reachKey (W : Wf key m L g) {u : Nat} {x : Vtx} {k : String} (hx : g.vs[u]? = some x)
    (h : Reach (LinkedKeys key L) (key x.base) k) : ∃ v y, Reach (E g) u v ∧ g.vs[v]? = some y ∧ key y.base = k := by
  induction h with
  | refl => exact ⟨u, x, .refl, hx, rfl⟩
  | step _ hr ih =>
    obtain ⟨v, y, h1, h2, h3⟩ := ih
    obtain ⟨a, b, hl, ha, hb⟩ := hr
    obtain ⟨u', v', x', y', hx', hy', h4, h5, h6⟩ := W.links a b hl
    have e := W.inj hx' h2 (by rw [h4, ha, h3])
    subst e
    exact ⟨v', y', .step h1 h6, hy', by rw [h5, hb]⟩

theorem getTypesC_ok (W : Wf keyC m L g) (F : Full g) (a t : SType) :
    t ∈ (getTypesC g a).2 ↔ ∃ k, Reach (LinkedKeys keyC L) (keyC a) k ∧ Owner keyC (m ++ [a]) k t := by
  obtain ⟨W1, ⟨x, hx, hk⟩, _⟩ := addVertex_ok W a [a]
  have F1 := addVertex_full W F a
  unfold getTypesC addTypeC
  simp only
  rw [F1]
  constructor
  · rintro ⟨u, y, hr, hy, rfl⟩
    exact ⟨keyC y.base, hk ▸ W1.keyReach hx hr hy, W1.owner u y hy⟩
  · rintro ⟨k, hr, ho⟩
    rw [← hk] at hr
    obtain ⟨v, y, h1, h2, h3⟩ := W1.reachKey hx hr
    refine ⟨v, y, h1, h2, ?_⟩
    have := W1.owner v y h2
    rw [h3] at this
    exact ho.uniq this

theorem getTypesL_ok (W : Wf keyL m L g) {as : Bool} {a : SType} (ha : as = true → a.lit = false) :
    ∃ g' r, getTypesL as g a = some (g', r) ∧ ∀ t, t ∈ r ↔ t = a ∨ ∃ k k', Reach (LinkedKeys keyL L) (keyL a) k ∧ LinkedKeys keyL L k k' ∧
      Owner keyL (m ++ [a]) k' t := by
  obtain ⟨W1, ⟨x, hx, hk⟩, _⟩ := addVertex_ok W a []
  unfold getTypesL
  simp only [addTypeL, getName_keyL ha]
  refine ⟨_, _, rfl, fun t => ?_⟩
  generalize hg1 : addVertex g (keyL a) a [] = r1 at *
  obtain ⟨g1, v0⟩ := r1
  simp only at *
  have R : Rules (σ := List SType) (succs g1) (fun _ _ r => r) (fun _ u r => finishL g1 u r) g1.vs.length
      (fun r => ∀ t ∈ r, t = a ∨ ∃ w u y, Reach (E g1) v0 w ∧ E g1 w u ∧ g1.vs[u]? = some y ∧ t = y.base)
      (fun w r => a ∈ r ∧ Reach (E g1) v0 w) (fun _ u r => ∀ y, g1.vs[u]? = some y → y.base ∈ r) := by
    have hmono : ∀ (u : Nat) (r : List SType) t, t ∈ r → t ∈ finishL g1 u r := by
      intro u r t h
      unfold finishL
      split
      · exact mem_ins.mpr (.inl h)
      · exact h
    refine ⟨fun v u h => (mem_succs.mp h).1, fun v u r h hI _ => hI, fun v u r h hI hP t ht => ?_, fun _ _ _ _ h => h,
      fun w v u r h => ⟨hmono _ _ _ h.1, h.2⟩, fun v u r h hI hP => ⟨hP.1, .step hP.2 (mem_succs.mp h).2⟩, fun _ _ _ _ _ h => h,
      fun w z v u r h y hy => hmono _ _ _ (h y hy), fun v u r h hI hP y hy => ?_⟩
    · unfold finishL at ht
      split at ht
      · rename_i y hy
        rcases mem_ins.mp ht with h' | rfl
        · exact hI t h'
        · exact .inr ⟨v, u, y, hP.2, (mem_succs.mp h).2, hy, rfl⟩
      · exact hI t ht
    · simp only [finishL, hy]
      exact mem_ins.mpr (.inr rfl)
  have hv0 := getElem?_lt hx
  obtain ⟨hI, hP, _, hQ⟩ := dfs_visits R (v := v0) (s := [a]) hv0 (fun t ht => .inl (by simpa using ht)) ⟨by simp, .refl⟩
  constructor
  · intro ht
    rcases hI t ht with h | ⟨w, u, y, h1, h2, h3, rfl⟩
    · exact .inl h
    · obtain ⟨x', y', hx', hy', hl⟩ := W1.edges w u h2
      rw [h3] at hy'; cases hy'
      exact .inr ⟨_, _, hk ▸ W1.keyReach hx h1 hx', hl, W1.owner u y h3⟩
  · rintro (rfl | ⟨k, k', hr, hl, ho⟩)
    · exact (hP v0 ⟨by simp, .refl⟩).1
    · rw [← hk] at hr
      obtain ⟨v, y, h1, h2, h3⟩ := W1.reachKey hx hr
      obtain ⟨p, q, hl, hp, hq⟩ := hl
      obtain ⟨u', v', x', y', hx', hy', h4, h5, h6⟩ := W1.links p q hl
      have e := W1.inj hx' h2 (by rw [h4, hp, h3])
      subst e
      have ho' := W1.owner v' y' hy'
      rw [h5, hq] at ho'
      rw [ho.uniq ho']
      have hr' : Reach (fun a b => b ∈ succs g1 a) v0 u' := h1.mono fun c d h => mem_succs.mpr ⟨(W1.range _ _ h).2, h⟩
      exact (hQ u' hr').2 v' (mem_succs.mpr ⟨getElem?_lt hy', h6⟩) y' hy'

/-! ## Different types have different names -/

theorem owner_of_distinct (hd : Distinct key m) {t : SType} (ht : t ∈ m) : Owner key m (key t) t := by
  have : ∀ l : List SType, t ∈ l → ∃ l1 r s, l = l1 ++ s :: r ∧ key s = key t ∧ ∀ x ∈ l1, key x ≠ key t := by
    intro l
    induction l with
    | nil => intro h; cases h
    | cons b l ih =>
      intro h
      by_cases hb : key b = key t
      · exact ⟨[], l, b, rfl, hb, (fun x hx => by cases hx)⟩
      · rcases List.mem_cons.mp h with rfl | h
        · exact absurd rfl hb
        · obtain ⟨l1, r, s, h1, h2, h3⟩ := ih h
          refine ⟨b :: l1, r, s, by simp [h1], h2, fun x hx => ?_⟩
          rcases List.mem_cons.mp hx with rfl | hx
          · exact hb
          · exact h3 x hx
  obtain ⟨l1, r, s, h1, h2, h3⟩ := this m ht
  have : s = t := hd s (by rw [h1]; simp) t ht h2
  subst this
  exact ⟨l1, r, h1, rfl, h3⟩

theorem reach_mem (hL : ∀ a b, (a, b) ∈ L → a ∈ m ∧ b ∈ m) {a t : SType} (ha : a ∈ m) (h : Reach (Linked L) a t) : t ∈ m := by
  cases h with
  | refl => exact ha
  | step _ hr => exact (hL _ _ hr).2

theorem reach_of_keys (hd : Distinct key m) (hL : ∀ a b, (a, b) ∈ L → a ∈ m ∧ b ∈ m) {a : SType} (ha : a ∈ m) {k : String}
    (h : Reach (LinkedKeys key L) (key a) k) : ∃ t, Reach (Linked L) a t ∧ key t = k := by
  induction h with
  | refl => exact ⟨a, .refl, rfl⟩
  | step _ hr ih =>
    obtain ⟨t, h1, h2⟩ := ih
    obtain ⟨p, q, hl, hp, hq⟩ := hr
    have e := hd p (hL _ _ hl).1 t (reach_mem hL ha h1) (by rw [hp, h2])
    subst e
    exact ⟨q, .step h1 hl, hq⟩

theorem mem_links {ops : List Op} {a b : SType} : (a, b) ∈ links ops ↔ Op.link a b ∈ ops := by
  induction ops with
  | nil => simp [links]
  | cons o ops ih => cases o <;> simp [links, ih]

theorem links_mentions {ops : List Op} {a b : SType} (h : (a, b) ∈ links ops) : a ∈ mentions ops ∧ b ∈ mentions ops := by
  induction ops with
  | nil => cases h
  | cons o ops ih =>
    cases o with
    | link c d =>
      simp only [links, List.mem_cons, Prod.mk.injEq] at h
      rcases h with ⟨rfl, rfl⟩ | h
      · simp [mentions]
      · exact ⟨by simp [mentions, (ih h).1], by simp [mentions, (ih h).2]⟩
    | get c => exact ⟨by simp [mentions, (ih h).1], by simp [mentions, (ih h).2]⟩

end Phasar.TypeGraph
