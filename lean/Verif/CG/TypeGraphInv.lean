import Verif.CG.TypeGraphLemmas

/-!
# Invariants of type graphs
-/

namespace Phasar.TypeGraph

variable {key : SType → String} {m : List SType} {L : List (SType × SType)} {g : Graph}

/-- The edges of a graph. -/
def E (g : Graph) (u v : Nat) : Prop := (u, v) ∈ g.es

/-- The vertices stand for the names of the types that have been mentioned, the edges for the links. -/
structure Wf (key : SType → String) (m : List SType) (L : List (SType × SType)) (g : Graph) : Prop where
  names : ∀ k v, find g.map k = some v ↔ ∃ x : Vtx, g.vs[v]? = some x ∧ key x.base = k
  edges : ∀ u v, (u, v) ∈ g.es → ∃ x y : Vtx, g.vs[u]? = some x ∧ g.vs[v]? = some y ∧ LinkedKeys key L (key x.base) (key y.base)
  links : ∀ a b, (a, b) ∈ L → ∃ (u v : Nat) (x y : Vtx), g.vs[u]? = some x ∧ g.vs[v]? = some y ∧ key x.base = key a ∧ key y.base = key b ∧ (u, v) ∈ g.es
  owner : ∀ (v : Nat) (x : Vtx), g.vs[v]? = some x → Owner key m (key x.base) x.base
  known : ∀ t ∈ m, ∃ (v : Nat) (x : Vtx), g.vs[v]? = some x ∧ key x.base = key t

/-- The types of each vertex are those of the vertices that can be reached from it. -/
def Full (g : Graph) : Prop :=
  ∀ v t, t ∈ types g.vs v ↔ ∃ u x, Reach (E g) v u ∧ g.vs[u]? = some x ∧ t = x.base

theorem getElem?_lt {α : Type} {l : List α} {i : Nat} {x : α} (h : l[i]? = some x) : i < l.length := by
  rcases Nat.lt_or_ge i l.length with h' | h'
  · exact h'
  · rw [List.getElem?_eq_none h'] at h; cases h

theorem Wf.inj (W : Wf key m L g) {u v : Nat} {x y : Vtx} (hx : g.vs[u]? = some x) (hy : g.vs[v]? = some y)
    (h : key x.base = key y.base) : u = v := by
  have h1 := (W.names (key y.base) u).mpr ⟨x, hx, h⟩
  have h2 := (W.names (key y.base) v).mpr ⟨y, hy, rfl⟩
  rw [h1] at h2
  exact Option.some.inj h2

theorem Owner.uniq {k : String} {t t' : SType} (h : Owner key m k t) (h' : Owner key m k t') : t = t' := by
  obtain ⟨l, r, hm, hk, hl⟩ := h
  obtain ⟨l', r', hm', hk', hl'⟩ := h'
  rw [hm] at hm'
  clear hm
  induction l generalizing l' with
  | nil =>
    cases l' with
    | nil => simp at hm'; exact hm'.1
    | cons a l' =>
      simp at hm'
      exact absurd (hm'.1 ▸ hk) (hl' a List.mem_cons_self)
  | cons b l ih =>
    cases l' with
    | nil =>
      simp at hm'
      exact absurd (hm'.1 ▸ hk') (hl b List.mem_cons_self)
    | cons a l' =>
      simp at hm'
      exact ih (fun x hx => hl x (List.mem_cons_of_mem _ hx)) l' (by simpa using hm'.2) (fun x hx => hl' x (List.mem_cons_of_mem _ hx))

theorem Owner.app {k : String} {t a : SType} (h : Owner key m k t) : Owner key (m ++ [a]) k t := by
  obtain ⟨l, r, hm, hk, hl⟩ := h
  exact ⟨l, r ++ [a], by simp [hm], hk, hl⟩

theorem Owner.mem {k : String} {t : SType} (h : Owner key m k t) : t ∈ m ∧ key t = k := by
  obtain ⟨l, r, hm, hk, hl⟩ := h
  exact ⟨by rw [hm]; simp, hk⟩

theorem LinkedKeys.app {k k' : String} {p : SType × SType} (h : LinkedKeys key L k k') : LinkedKeys key (L ++ [p]) k k' := by
  obtain ⟨a, b, h, h1, h2⟩ := h
  exact ⟨a, b, List.mem_append_left _ h, h1, h2⟩

theorem wf_empty : Wf key [] [] Graph.empty := by
  refine ⟨fun k v => ?_, (fun u v h => by cases h), (fun a b h => by cases h), (fun v x h => by simp [Graph.empty] at h),
    (fun t h => by cases h)⟩
  simp [Graph.empty, find]

theorem full_empty : Full Graph.empty := by
  intro v t
  simp [Graph.empty, types]

/-! ## Adding a type -/

/-- The vertex of the type, and what else changes. -/
theorem addVertex_ok (W : Wf key m L g) (t : SType) (ts : List SType) :
    let r := addVertex g (key t) t ts
    Wf key (m ++ [t]) L r.1 ∧ (∃ x, r.1.vs[r.2]? = some x ∧ key x.base = key t) ∧ r.1.es = g.es ∧ r.1.busy = g.busy ∧
    (r.1 = g ∨ (r.1.vs = g.vs ++ [{ name := key t, base := t, types := ts }])) := by
  unfold addVertex
  cases hf : find g.map (key t) with
  | some v =>
    have hv := (W.names (key t) v).mp hf
    refine ⟨⟨W.names, W.edges, W.links, fun u x hx => (W.owner u x hx).app, fun s hs => ?_⟩, hv, rfl, rfl, .inl rfl⟩
    rcases List.mem_append.mp hs with h | h
    · exact W.known s h
    · obtain rfl : s = t := by simpa using h
      obtain ⟨x, hx⟩ := hv
      exact ⟨v, x, hx⟩
  | none =>
    have hno : ∀ (v : Nat) (x : Vtx), g.vs[v]? = some x → key x.base ≠ key t := by
      intro v x hx h
      have := (W.names (key t) v).mpr ⟨x, hx, h⟩
      rw [hf] at this; cases this
    have hold : ∀ (v : Nat) (x : Vtx), g.vs[v]? = some x → (g.vs ++ [({ name := key t, base := t, types := ts } : Vtx)])[v]? = some x := by
      intro v x hx
      rw [List.getElem?_append_left (getElem?_lt hx)]; exact hx
    have hnew : (g.vs ++ [({ name := key t, base := t, types := ts } : Vtx)])[g.vs.length]?
        = some { name := key t, base := t, types := ts } := by simp
    have hcase : ∀ (v : Nat) (x : Vtx), (g.vs ++ [({ name := key t, base := t, types := ts } : Vtx)])[v]? = some x →
        g.vs[v]? = some x ∨ (v = g.vs.length ∧ x = { name := key t, base := t, types := ts }) := by
      intro v x hx
      rcases Nat.lt_trichotomy v g.vs.length with h | h | h
      · rw [List.getElem?_append_left h] at hx; exact .inl hx
      · subst h; rw [hnew] at hx; exact .inr ⟨rfl, (Option.some.inj hx).symm⟩
      · rw [List.getElem?_eq_none (by simp; omega)] at hx; cases hx
    refine ⟨⟨fun k v => ?_, fun u v h => ?_, fun a b h => ?_, fun v x hx => ?_, fun s hs => ?_⟩, ⟨_, hnew, rfl⟩, rfl, rfl, .inr rfl⟩
    · simp only [find]
      split
      · rename_i hk
        constructor
        · intro h
          have : g.vs.length = v := Option.some.inj h
          subst this
          exact ⟨_, hnew, hk⟩
        · rintro ⟨x, hx, hxk⟩
          rcases hcase v x hx with h | ⟨h, _⟩
          · exact absurd (hxk.trans hk.symm) (hno v x h)
          · rw [h]
      · rename_i hk
        rw [W.names]
        constructor
        · rintro ⟨x, hx, hxk⟩; exact ⟨x, hold v x hx, hxk⟩
        · rintro ⟨x, hx, hxk⟩
          rcases hcase v x hx with h | ⟨_, h⟩
          · exact ⟨x, h, hxk⟩
          · rw [h] at hxk; exact absurd hxk hk
    · obtain ⟨x, y, hx, hy, h⟩ := W.edges u v h
      exact ⟨x, y, hold u x hx, hold v y hy, h⟩
    · obtain ⟨u, v, x, y, hx, hy, h⟩ := W.links a b h
      exact ⟨u, v, x, y, hold u x hx, hold v y hy, h⟩
    · rcases hcase v x hx with h | ⟨_, h⟩
      · exact (W.owner v x h).app
      · subst h
        refine ⟨m, [], rfl, rfl, fun s hs => ?_⟩
        obtain ⟨v, x, hx, hk⟩ := W.known s hs
        rw [← hk]; exact hno v x hx
    · rcases List.mem_append.mp hs with h | h
      · obtain ⟨v, x, hx, hk⟩ := W.known s h
        exact ⟨v, x, hold v x hx, hk⟩
      · obtain rfl : s = t := by simpa using h
        exact ⟨_, _, hnew, rfl⟩

theorem reach_congr {g g' : Graph} (h : g'.es = g.es) {u v : Nat} : Reach (E g') u v ↔ Reach (E g) u v := by
  have : E g' = E g := by unfold E; rw [h]
  rw [this]

theorem reach_range {g : Graph} (hb : ∀ u v, (u, v) ∈ g.es → u < g.vs.length ∧ v < g.vs.length) {u v : Nat} (h : Reach (E g) u v) :
    u = v ∨ (u < g.vs.length ∧ v < g.vs.length) := by
  induction h with
  | refl => exact .inl rfl
  | step _ hr ih =>
    have := hb _ _ hr
    rcases ih with rfl | ih
    · exact .inr this
    · exact .inr ⟨ih.1, this.2⟩

theorem Wf.range (W : Wf key m L g) : ∀ u v, (u, v) ∈ g.es → u < g.vs.length ∧ v < g.vs.length := by
  intro u v h
  obtain ⟨x, y, hx, hy, _⟩ := W.edges u v h
  exact ⟨getElem?_lt hx, getElem?_lt hy⟩

theorem addVertex_full (W : Wf key m L g) (F : Full g) (t : SType) : Full (addVertex g (key t) t [t]).1 := by
  obtain ⟨_, _, hes, _, h | hvs⟩ := addVertex_ok W t [t]
  · rw [h]; exact F
  · intro v s
    rw [hvs]
    constructor
    · intro hs
      rcases Nat.lt_trichotomy v g.vs.length with h | h | h
      · have : types (g.vs ++ [({ name := key t, base := t, types := [t] } : Vtx)]) v = types g.vs v := by
          unfold types; rw [List.getElem?_append_left h]
        rw [this] at hs
        obtain ⟨u, x, hr, hx, hxs⟩ := (F v s).mp hs
        exact ⟨u, x, (reach_congr hes).mpr hr, by rw [List.getElem?_append_left (getElem?_lt hx)]; exact hx, hxs⟩
      · subst h
        have : types (g.vs ++ [({ name := key t, base := t, types := [t] } : Vtx)]) g.vs.length = [t] := by
          unfold types; simp
        rw [this] at hs
        exact ⟨_, _, .refl, by simp; rfl, by simpa using hs⟩
      · unfold types at hs
        rw [List.getElem?_eq_none (by simp; omega)] at hs
        cases hs
    · rintro ⟨u, x, hr, hx, hxs⟩
      rw [reach_congr hes] at hr
      rcases reach_range W.range hr with rfl | ⟨h1, h2⟩
      · rcases Nat.lt_trichotomy v g.vs.length with h | h | h
        · have : types (g.vs ++ [({ name := key t, base := t, types := [t] } : Vtx)]) v = types g.vs v := by
            unfold types; rw [List.getElem?_append_left h]
          rw [this]
          rw [List.getElem?_append_left h] at hx
          exact (F v s).mpr ⟨v, x, .refl, hx, hxs⟩
        · subst h
          unfold types
          simp at hx ⊢
          rw [hxs, ← hx]
        · rw [List.getElem?_eq_none (by simp; omega)] at hx; cases hx
      · have : types (g.vs ++ [({ name := key t, base := t, types := [t] } : Vtx)]) v = types g.vs v := by
          unfold types; rw [List.getElem?_append_left h1]
        rw [this]
        rw [List.getElem?_append_left h2] at hx
        exact (F v s).mpr ⟨u, x, hr, hx, hxs⟩

/-! ## Adding an edge -/

theorem addEdge_wf (W : Wf key m L g) {a b : SType} {u v : Nat} {x y : Vtx} (hx : g.vs[u]? = some x) (hy : g.vs[v]? = some y)
    (hxa : key x.base = key a) (hyb : key y.base = key b) :
    Wf key m (L ++ [(a, b)]) (addEdge g u v).1 ∧ (addEdge g u v).1.vs = g.vs ∧ (addEdge g u v).1.map = g.map ∧
    (addEdge g u v).1.busy = g.busy ∧ ((addEdge g u v).2 = true ↔ ¬ LinkedKeys key L (key a) (key b)) := by
  have hin : (u, v) ∈ g.es ↔ LinkedKeys key L (key a) (key b) := by
    constructor
    · intro h
      obtain ⟨x', y', hx', hy', h⟩ := W.edges u v h
      rw [hx] at hx'; rw [hy] at hy'
      cases hx'; cases hy'
      rw [hxa, hyb] at h; exact h
    · rintro ⟨a', b', h, ha', hb'⟩
      obtain ⟨u', v', x', y', hx', hy', h1, h2, h3⟩ := W.links a' b' h
      have e1 := W.inj hx' hx (by rw [h1, ha', hxa])
      have e2 := W.inj hy' hy (by rw [h2, hb', hyb])
      rw [e1, e2] at h3; exact h3
  have hlk : LinkedKeys key (L ++ [(a, b)]) (key a) (key b) := ⟨a, b, by simp, rfl, rfl⟩
  unfold addEdge
  split
  · rename_i h
    refine ⟨⟨W.names, fun u' v' h' => ?_, fun a' b' h' => ?_, W.owner, W.known⟩, rfl, rfl, rfl, by simpa using hin.mp h⟩
    · obtain ⟨x', y', hx', hy', hk⟩ := W.edges u' v' h'
      exact ⟨x', y', hx', hy', hk.app⟩
    · rcases List.mem_append.mp h' with h' | h'
      · exact W.links a' b' h'
      · obtain ⟨rfl, rfl⟩ : a' = a ∧ b' = b := by simpa using h'
        exact ⟨u, v, x, y, hx, hy, hxa, hyb, h⟩
  · rename_i h
    refine ⟨⟨W.names, fun u' v' h' => ?_, fun a' b' h' => ?_, W.owner, W.known⟩, rfl, rfl, rfl, by simpa using fun h' => h (hin.mpr h')⟩
    · rcases List.mem_append.mp h' with h' | h'
      · obtain ⟨x', y', hx', hy', hk⟩ := W.edges u' v' h'
        exact ⟨x', y', hx', hy', hk.app⟩
      · obtain ⟨rfl, rfl⟩ : u' = u ∧ v' = v := by simpa using h'
        exact ⟨x, y, hx, hy, by rw [hxa, hyb]; exact hlk⟩
    · rcases List.mem_append.mp h' with h' | h'
      · obtain ⟨u', v', x', y', h1, h2, h3, h4, h5⟩ := W.links a' b' h'
        exact ⟨u', v', x', y', h1, h2, h3, h4, List.mem_append_left _ h5⟩
      · obtain ⟨rfl, rfl⟩ : a' = a ∧ b' = b := by simpa using h'
        exact ⟨u, v, x, y, hx, hy, hxa, hyb, by simp⟩

/-- A walk that uses a new edge uses it for the last time. -/
theorem reach_last {R : Nat → Nat → Prop} {u v w x : Nat} (h : Reach (fun a b => R a b ∨ (a = u ∧ b = v)) w x) :
    Reach R w x ∨ (Reach (fun a b => R a b ∨ (a = u ∧ b = v)) w v ∧ Reach R v x) := by
  induction h with
  | refl => exact .inl .refl
  | step h hr ih =>
    rcases hr with hr | ⟨rfl, rfl⟩
    · rcases ih with ih | ⟨h1, h2⟩
      · exact .inl (.step ih hr)
      · exact .inr ⟨h1, .step h2 hr⟩
    · exact .inr ⟨.step h (.inr ⟨rfl, rfl⟩), .refl⟩

theorem mem_preds {g : Graph} {u v : Nat} : u ∈ preds g v ↔ u < g.vs.length ∧ E g u v := by
  unfold preds E
  simp

theorem mem_succs {g : Graph} {u v : Nat} : u ∈ succs g v ↔ u < g.vs.length ∧ E g v u := by
  unfold succs E
  simp

/-- What the propagation from the target of the new edge does. -/
theorem propagate {g g' : Graph} {u v : Nat} (hv : v < g.vs.length) (hvs : g'.vs = g.vs)
    (hE : ∀ a b, E g' a b ↔ E g a b ∨ (a = u ∧ b = v)) (hb : ∀ a b, (a, b) ∈ g'.es → a < g'.vs.length ∧ b < g'.vs.length) (F : Full g) :
    let r := (dfs (preds g') (fun s t vs => addTypes s t vs) (fun _ _ vs => vs) g'.vs.length v ([], g'.vs)).2
    r.length = g.vs.length ∧ (∀ w : Nat, (r[w]?).map Vtx.base = (g.vs[w]?).map Vtx.base) ∧
    ∀ w t, t ∈ types r w ↔ ∃ z x, Reach (E g') w z ∧ g.vs[z]? = some x ∧ t = x.base := by
  intro r
  have hEg : (fun a b => E g a b ∨ (a = u ∧ b = v)) = E g' := by
    funext a b; exact propext (hE a b).symm
  have R : Rules (σ := List Vtx) (preds g') (fun s t vs => addTypes s t vs) (fun _ _ vs => vs) g'.vs.length
      (fun vs => vs.length = g.vs.length ∧ (∀ w : Nat, (vs[w]?).map Vtx.base = (g.vs[w]?).map Vtx.base) ∧
        (∀ w t, t ∈ types g.vs w → t ∈ types vs w) ∧
        ∀ w t, t ∈ types vs w → ∃ z x, Reach (E g') w z ∧ g.vs[z]? = some x ∧ t = x.base)
      (fun w vs => ∀ t ∈ types g.vs v, vs.length = g.vs.length → t ∈ types vs w) (fun _ _ _ => True) := by
    have hmono : ∀ a b (vs : List Vtx) w t, t ∈ types vs w → t ∈ types (addTypes a b vs) w := by
      intro a b vs w t h
      by_cases hb : b < vs.length
      · exact (mem_addTypes hb).mpr (.inl h)
      · unfold addTypes
        rw [List.modify_eq_self (by omega)]
        exact h
    refine ⟨fun a b h => (mem_preds.mp h).1, fun a b vs h hI hP => ?_, fun a b vs h hI hP => hI, fun w a b vs h t ht hl => ?_,
      fun w a b vs h => h, fun a b vs h hI hP t ht hl => ?_, (fun _ _ _ _ _ _ => trivial), (fun _ _ _ _ _ _ => trivial),
      (fun _ _ _ _ _ _ => trivial)⟩
    · obtain ⟨h1, h2, h3, h4⟩ := hI
      obtain ⟨hbl, hba⟩ := mem_preds.mp h
      refine ⟨by simp only [length_addTypes]; exact h1, fun w => by simp only [base_addTypes]; exact h2 w,
        fun w t ht => hmono _ _ _ _ _ (h3 w t ht), fun w t ht => ?_⟩
      rcases (mem_addTypes (by rw [h1, ← hvs]; exact hbl)).mp ht with ht' | ⟨rfl, ht'⟩
      · exact h4 w t ht'
      · obtain ⟨z, x, hz, hx, hxt⟩ := h4 a t ht'
        exact ⟨z, x, Reach.head hba hz, hx, hxt⟩
    · exact hmono _ _ _ _ _ (h t ht (by simpa [length_addTypes] using hl))
    · have hl' : vs.length = g.vs.length := by simpa [length_addTypes] using hl
      exact (mem_addTypes (by rw [hl', ← hvs]; exact (mem_preds.mp h).1)).mpr (.inr ⟨rfl, hP t ht hl'⟩)
  have hv' : v < g'.vs.length := by rw [hvs]; exact hv
  have hD := dfs_visits R (v := v) (s := g'.vs) hv' (by
    rw [hvs]
    refine ⟨rfl, fun _ => rfl, fun _ _ h => h, fun w t h => ?_⟩
    obtain ⟨z, x, hz, hx⟩ := (F w t).mp h
    exact ⟨z, x, hz.mono (fun a b h => (hE a b).mpr (.inl h)), hx⟩) (by rw [hvs]; exact fun t h _ => h)
  obtain ⟨⟨h1, h2, h3, h4⟩, _, _, hP⟩ := hD
  refine ⟨h1, h2, fun w t => ⟨h4 w t, ?_⟩⟩
  rintro ⟨z, x, hz, hx, ht⟩
  rw [← hEg] at hz
  rcases reach_last hz with hz | ⟨h5, h6⟩
  · exact h3 w t ((F w t).mpr ⟨z, x, hz, hx, ht⟩)
  · rw [hEg] at h5
    have hr : Reach (fun a b => b ∈ preds g' a) v w := by
      refine (h5.flip).mono fun a b h => ?_
      exact mem_preds.mpr ⟨(hb _ _ h).1, h⟩
    exact (hP w hr).1 t ((F v t).mpr ⟨z, x, h6, hx, ht⟩) h1

theorem wf_congr {g g' : Graph} (W : Wf key m L g) (hm : g'.map = g.map) (he : g'.es = g.es)
    (hb : ∀ w : Nat, (g'.vs[w]?).map Vtx.base = (g.vs[w]?).map Vtx.base) : Wf key m L g' := by
  have to : ∀ (w : Nat) (x : Vtx), g.vs[w]? = some x → ∃ x' : Vtx, g'.vs[w]? = some x' ∧ x'.base = x.base := by
    intro w x h
    have := hb w
    rw [h] at this
    cases hx : g'.vs[w]? with
    | none => rw [hx] at this; cases this
    | some x' => rw [hx] at this; exact ⟨x', rfl, by simpa using this⟩
  have frm : ∀ (w : Nat) (x : Vtx), g'.vs[w]? = some x → ∃ x' : Vtx, g.vs[w]? = some x' ∧ x'.base = x.base := by
    intro w x h
    have := hb w
    rw [h] at this
    cases hx : g.vs[w]? with
    | none => rw [hx] at this; cases this
    | some x' => rw [hx] at this; exact ⟨x', rfl, by simpa using this.symm⟩
  refine ⟨fun k v => ?_, fun u v h => ?_, fun a b h => ?_, fun v x hx => ?_, fun t ht => ?_⟩
  · rw [hm, W.names]
    constructor
    · rintro ⟨x, hx, hk⟩
      obtain ⟨x', hx', h⟩ := to v x hx
      exact ⟨x', hx', by rw [h]; exact hk⟩
    · rintro ⟨x, hx, hk⟩
      obtain ⟨x', hx', h⟩ := frm v x hx
      exact ⟨x', hx', by rw [h]; exact hk⟩
  · rw [he] at h
    obtain ⟨x, y, hx, hy, hk⟩ := W.edges u v h
    obtain ⟨x', hx', h1⟩ := to u x hx
    obtain ⟨y', hy', h2⟩ := to v y hy
    exact ⟨x', y', hx', hy', by rw [h1, h2]; exact hk⟩
  · obtain ⟨u, v, x, y, hx, hy, h3, h4, h5⟩ := W.links a b h
    obtain ⟨x', hx', h1⟩ := to u x hx
    obtain ⟨y', hy', h2⟩ := to v y hy
    exact ⟨u, v, x', y', hx', hy', by rw [h1]; exact h3, by rw [h2]; exact h4, by rw [he]; exact h5⟩
  · obtain ⟨x', hx', h⟩ := frm v x hx
    have := W.owner v x' hx'
    rw [h] at this; exact this
  · obtain ⟨v, x, hx, hk⟩ := W.known t ht
    obtain ⟨x', hx', h⟩ := to v x hx
    exact ⟨v, x', hx', by rw [h]; exact hk⟩

end Phasar.TypeGraph
