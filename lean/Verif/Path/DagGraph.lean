import Verif.Path.Dag
/-!
# Lemmas about `reverseGraph` and `assertIsDAG`
-/
namespace Phasar.Dag
set_option linter.unusedSectionVars false

variable {T N : Type}

theorem Reach.trans {g : Adj.Graph T Nat} {a b c : Nat} (h : Reach g a b) (h' : Reach g b c) : Reach g a c := by
  induction h with
  | refl => exact h'
  | step hs _ ih => exact .step hs (ih h')

theorem Reach.snoc {g : Adj.Graph T Nat} {a b c : Nat} (h : Reach g a b) (hs : Succ g b c) : ReachP g a c := by
  cases h with
  | refl => exact ⟨c, hs, .refl _⟩
  | step h1 h2 => exact ⟨_, h1, h2.trans (.step hs (.refl _))⟩

theorem acc_no_cycle {g : Adj.Graph T Nat} {v : Nat} (h : Acc (fun t v => Succ g v t) v) : ¬ ReachP g v v := by
  induction h with
  | intro v _ ih =>
    rintro ⟨t, hs, hr⟩
    exact ih t hs (hr.snoc hs)

theorem Acc.reach {g : Adj.Graph T Nat} {v u : Nat} (h : Acc (fun t v => Succ g v t) v) (hr : Reach g v u) :
    Acc (fun t v => Succ g v t) u := by
  induction hr with
  | refl => exact h
  | step hs _ ih => exact ih (h.inv hs)

/-! ## `reverseGraph` -/

theorem addEdges_ok (i : Nat) : ∀ (es : List Nat) (r : Adj.Graph T Nat), (∀ c ∈ es, c < r.adj.length) →
    ∃ r', es.foldlM (fun r c => Adj.addEdge r c i) r = some r' ∧ r'.nodes = r.nodes ∧ r'.roots = r.roots ∧
      r'.adj.length = r.adj.length ∧ ∀ t xs, r.adj[t]? = some xs → r'.adj[t]? = some (xs ++ List.replicate (es.count t) i) := by
  intro es
  induction es with
  | nil => intro r _; exact ⟨r, rfl, rfl, rfl, rfl, fun t xs h => by simpa using h⟩
  | cons c es ih =>
    intro r h
    have hc := h c (.head _)
    have h1 : Adj.addEdge r c i = some { r with adj := r.adj.set c (r.adj[c] ++ [i]) } := by
      unfold Adj.addEdge; rw [List.getElem?_eq_getElem hc]
    obtain ⟨r', g1, g2, g3, g4, g5⟩ := ih { r with adj := r.adj.set c (r.adj[c] ++ [i]) }
      (fun c' hc' => by simpa using h c' (.tail _ hc'))
    refine ⟨r', by rw [List.foldlM_cons, h1]; exact g1, g2, g3, by rw [g4]; simp, fun t xs ht => ?_⟩
    by_cases htc : c = t
    · subst htc
      rw [List.getElem?_eq_getElem hc] at ht; cases ht
      rw [g5 c _ (List.getElem?_set_self hc), List.count_cons_self, List.replicate_succ]
      simp
    · rw [g5 t xs (by dsimp only; rw [List.getElem?_set_ne htc, ht]), List.count_cons_of_ne htc]

theorem reverseAll_ok (g : Adj.Graph T Nat) (hg : InRange g) : ∀ (is : List Nat) (r : Adj.Graph T Nat) (js : List Nat),
    (∀ i ∈ is, i < g.adj.length) → r.adj.length = g.adj.length →
    (∀ t, t < g.adj.length → r.adj[t]? = some (js.flatMap fun i => List.replicate (((g.adj[i]?).getD []).count t) i)) →
    r.roots = js.filter (fun i => decide (g.adj[i]? = some [])) →
    ∃ r', is.foldlM (reverseAt g) r = some r' ∧ r'.nodes = r.nodes ∧ r'.adj.length = g.adj.length ∧
      (∀ t, t < g.adj.length → r'.adj[t]? = some ((js ++ is).flatMap fun i => List.replicate (((g.adj[i]?).getD []).count t) i)) ∧
      r'.roots = (js ++ is).filter (fun i => decide (g.adj[i]? = some [])) := by
  intro is
  induction is with
  | nil => intro r js _ h1 h2 h3; exact ⟨r, rfl, rfl, h1, by simpa using h2, by simpa using h3⟩
  | cons i is ih =>
    intro r js his h1 h2 h3
    have hi := his i (.head _)
    have hes : Adj.outEdges g i = some g.adj[i] := List.getElem?_eq_getElem hi
    obtain ⟨r₁, g1, g2, g3, g4, g5⟩ := addEdges_ok i g.adj[i] r
      (fun c hc => by rw [h1]; exact hg.succ i c ⟨_, hes, hc⟩)
    have key : ∃ r₂, reverseAt g r i = some r₂ ∧ r₂.nodes = r.nodes ∧ r₂.adj = r₁.adj ∧
        r₂.roots = (js ++ [i]).filter (fun i => decide (g.adj[i]? = some [])) := by
      unfold reverseAt
      rw [hes]
      dsimp only [Option.bind_some]
      rw [g1]
      dsimp only [Option.bind_some]
      have hes' : g.adj[i]? = some g.adj[i] := hes
      split
      · rename_i hz
        have hz : g.adj[i] = [] := List.length_eq_zero_iff.1 hz
        unfold Adj.addRoot
        rw [if_pos (by omega)]
        refine ⟨_, rfl, g2, rfl, ?_⟩
        rw [List.filter_append, ← h3, ← g3]
        simp [hz, hi]
      · rename_i hz
        refine ⟨_, rfl, g2, rfl, ?_⟩
        rw [List.filter_append, ← h3, ← g3]
        have : g.adj[i] ≠ [] := fun h => hz (by rw [h]; rfl)
        simp [this, hi]
    obtain ⟨r₂, k1, k2, k3, k4⟩ := key
    obtain ⟨r', m1, m2, m3, m4, m5⟩ := ih r₂ (js ++ [i]) (fun j hj => his j (.tail _ hj)) (by rw [k3, g4, h1]) (fun t ht => by
      rw [k3, g5 t _ (h2 t ht), List.flatMap_append]
      simp [show g.adj[i]? = some g.adj[i] from hes]) k4
    refine ⟨r', by rw [List.foldlM_cons, k1]; exact m1, m2.trans k2, m3, fun t ht => ?_, ?_⟩
    · rw [m4 t ht]; simp
    · rw [m5]; simp

theorem addNodes_ok : ∀ (l : List T) (r : Adj.Graph T Nat),
    l.foldl (fun r t => (Adj.addNode r t).1) r = ⟨r.nodes ++ l, r.adj ++ List.replicate l.length [], r.roots⟩ := by
  intro l
  induction l with
  | nil => intro r; simp
  | cons a l ih =>
    intro r
    rw [List.foldl_cons, ih]
    simp [Adj.addNode, List.replicate_succ]

/-- The reversed graph. -/
theorem reverseGraph_ok (g : Adj.Graph T Nat) (hg : InRange g) :
    ∃ r, reverseGraph g = some r ∧ r.nodes = g.nodes ∧ r.adj.length = g.adj.length ∧
      (∀ t, t < g.adj.length → r.adj[t]? =
        some ((List.range g.adj.length).flatMap fun i => List.replicate (((g.adj[i]?).getD []).count t) i)) ∧
      r.roots = (List.range g.adj.length).filter (fun i => decide (g.adj[i]? = some [])) := by
  unfold reverseGraph
  rw [addNodes_ok]
  obtain ⟨r, h1, h2, h3, h4, h5⟩ := reverseAll_ok g hg (List.range g.adj.length) ⟨[] ++ g.nodes, [] ++ List.replicate g.nodes.length [], []⟩ []
    (fun i hi => List.mem_range.1 hi) (by simp [hg.wf]) (fun t ht => by
      have : t < g.nodes.length := by rw [← hg.wf]; exact ht
      simp [this]) rfl
  exact ⟨r, h1, by simpa using h2, h3, h4, h5⟩

theorem mem_reversed (g : Adj.Graph T Nat) (t i : Nat) :
    i ∈ ((List.range g.adj.length).flatMap fun i => List.replicate (((g.adj[i]?).getD []).count t) i) ↔ Succ g i t := by
  rw [List.mem_flatMap]
  constructor
  · rintro ⟨j, hj, hm⟩
    obtain ⟨h1, rfl⟩ := List.mem_replicate.1 hm
    have hj := List.mem_range.1 hj
    refine ⟨g.adj[i], List.getElem?_eq_getElem hj, ?_⟩
    rw [List.getElem?_eq_getElem hj] at h1
    exact List.count_pos_iff.1 (Nat.pos_of_ne_zero h1)
  · rintro ⟨es, hes, hm⟩
    have hi := (List.getElem?_eq_some_iff.1 hes).1
    refine ⟨i, List.mem_range.2 hi, List.mem_replicate.2 ⟨?_, rfl⟩⟩
    rw [hes]
    exact Nat.ne_of_gt (List.count_pos_iff.2 hm)

theorem succ_reversed {g r : Adj.Graph T Nat} (hg : InRange g) (hr : reverseGraph g = some r) (t i : Nat) : Succ r t i ↔ Succ g i t := by
  obtain ⟨r', h1, _, h3, h4, _⟩ := reverseGraph_ok g hg
  rw [hr] at h1; cases h1
  constructor
  · rintro ⟨es, hes, hm⟩
    have ht := (List.getElem?_eq_some_iff.1 hes).1
    rw [h4 t (h3 ▸ ht)] at hes
    cases hes
    exact (mem_reversed g t i).1 hm
  · intro h
    exact ⟨_, h4 t (hg.succ i t h), (mem_reversed g t i).2 h⟩

/-! ## Paths -/

theorem Walk.lt {g : Adj.Graph T Nat} {a b : Nat} {vs : List Nat} (h : Walk g a vs b) : b < g.adj.length := by
  induction h with
  | one h => exact h
  | cons _ _ ih => exact ih

theorem Walk.snoc {g : Adj.Graph T Nat} {a b c : Nat} {vs : List Nat} (h : Walk g a vs b) (hs : Succ g b c) (hc : c < g.adj.length) :
    Walk g a (vs ++ [c]) c := by
  induction h with
  | one h => exact .cons hs (.one hc)
  | cons h1 _ ih => exact .cons h1 (ih hs)

theorem Walk.reverse {g r : Adj.Graph T Nat} (hl : r.adj.length = g.adj.length) (hs : ∀ t i, Succ g i t → Succ r t i) {a b : Nat}
    {vs : List Nat} (h : Walk g a vs b) : Walk r b vs.reverse a := by
  induction h with
  | one h => exact .one (hl ▸ h)
  | cons h1 _ ih =>
    rw [List.reverse_cons]
    refine ih.snoc (hs _ _ h1) ?_
    obtain ⟨es, h, _⟩ := h1
    rw [hl]
    exact (List.getElem?_eq_some_iff.1 h).1

theorem labelsFwd_reverse (g : Adj.Graph (List N) Nat) (vs : List Nat) : labelsFwd g vs.reverse = (labels g vs).reverse := by
  unfold labelsFwd labels
  rw [List.reverse_flatMap]
  rfl

/-! ## `assertIsDAG` -/

theorem check_true (g : Adj.Graph T Nat) : ∀ (k : Nat) (path vis : List Nat) (v : Nat) (vis' : List Nat),
    (∀ u ∈ vis, u ∈ path ∨ Acc (fun t v => Succ g v t) u) → checkAt g k path vis v = some (vis', true) →
    Acc (fun t v => Succ g v t) v ∧ ∀ u ∈ vis', u ∈ path ∨ Acc (fun t v => Succ g v t) u := by
  intro k
  induction k with
  | zero => intro path vis v vis' _ h; cases h
  | succ k ih =>
    intro path vis v vis' hv h
    unfold checkAt at h
    split at h
    · cases h
    · rename_i hp
      split at h
      · rename_i hm
        cases h
        exact ⟨(hv v hm).resolve_left hp, hv⟩
      · obtain ⟨es, hes, h⟩ := Option.bind_eq_some_iff.1 h
        have key : ∀ (l : List Nat) (s s' : List Nat × Bool), (∀ u ∈ s.1, u ∈ v :: path ∨ Acc (fun t v => Succ g v t) u) →
            l.foldlM (fun s u => if s.2 then checkAt g k (v :: path) s.1 u else some s) s = some s' → s'.2 = true →
            s.2 = true ∧ (∀ u ∈ l, Acc (fun t v => Succ g v t) u) ∧ ∀ u ∈ s'.1, u ∈ v :: path ∨ Acc (fun t v => Succ g v t) u := by
          intro l
          induction l with
          | nil => intro s s' h1 h2 h3; cases h2; exact ⟨h3, by nofun, h1⟩
          | cons a l ihl =>
            intro s s' h1 h2 h3
            rw [List.foldlM_cons] at h2
            obtain ⟨⟨m, b⟩, h4, h5⟩ := Option.bind_eq_some_iff.1 h2
            split at h4
            · rename_i hs
              cases b with
              | true =>
                obtain ⟨g1, g2⟩ := ih _ _ _ _ h1 h4
                obtain ⟨_, g4, g5⟩ := ihl (m, true) s' g2 h5 h3
                refine ⟨hs, fun u hu => ?_, g5⟩
                rcases List.mem_cons.1 hu with rfl | hu
                · exact g1
                · exact g4 u hu
              | false =>
                exfalso
                have : ∀ (l : List Nat), l.foldlM (fun s u => if s.2 then checkAt g k (v :: path) s.1 u else some s) (m, false) =
                    some (m, false) := by
                  intro l
                  induction l with
                  | nil => rfl
                  | cons a l ih => rw [List.foldlM_cons]; exact ih
                rw [this] at h5; cases h5; cases h3
            · rename_i hs
              cases h4
              exact absurd (ihl _ s' h1 h5 h3).1 hs
        obtain ⟨_, h1, h2⟩ := key es _ _ (fun u hu => by
          rcases List.mem_cons.1 hu with rfl | hu
          · exact .inl (.head _)
          · rcases hv u hu with h | h
            · exact .inl (.tail _ h)
            · exact .inr h) h rfl
        have hacc : Acc (fun t v => Succ g v t) v := by
          refine ⟨_, fun t ht => ?_⟩
          obtain ⟨es', he, hm⟩ := ht
          rw [show g.adj[v]? = some es from hes] at he; cases he
          exact h1 t hm
        refine ⟨hacc, fun u hu => ?_⟩
        rcases h2 u hu with h | h
        · rcases List.mem_cons.1 h with rfl | h
          · exact .inr hacc
          · exact .inl h
        · exact .inr h

theorem check_false (g : Adj.Graph T Nat) : ∀ (k : Nat) (path vis : List Nat) (v : Nat) (vis' : List Nat),
    (∀ u ∈ path, ReachP g u v) → checkAt g k path vis v = some (vis', false) → ∃ c, Reach g v c ∧ ReachP g c c := by
  intro k
  induction k with
  | zero => intro path vis v vis' _ h; cases h
  | succ k ih =>
    intro path vis v vis' hv h
    unfold checkAt at h
    split at h
    · rename_i hp
      exact ⟨v, .refl _, hv v hp⟩
    · split at h
      · cases h
      · obtain ⟨es, hes, h⟩ := Option.bind_eq_some_iff.1 h
        have key : ∀ (l : List Nat) (s s' : List Nat × Bool), (∀ u ∈ l, Succ g v u) → s.2 = true →
            l.foldlM (fun s u => if s.2 then checkAt g k (v :: path) s.1 u else some s) s = some s' → s'.2 = false →
            ∃ c, Reach g v c ∧ ReachP g c c := by
          intro l
          induction l with
          | nil => intro s s' _ h1 h2 h3; cases h2; rw [h1] at h3; cases h3
          | cons a l ihl =>
            intro s s' hl h1 h2 h3
            rw [List.foldlM_cons] at h2
            obtain ⟨⟨m, b⟩, h4, h5⟩ := Option.bind_eq_some_iff.1 h2
            rw [if_pos h1] at h4
            cases b with
            | true => exact ihl (m, true) s' (fun u hu => hl u (.tail _ hu)) rfl h5 h3
            | false =>
              have hva := hl a (.head _)
              obtain ⟨c, hc, hcc⟩ := ih _ _ _ _ (fun u hu => by
                rcases List.mem_cons.1 hu with rfl | hu
                · exact ⟨a, hva, .refl _⟩
                · obtain ⟨t, ht, htv⟩ := hv u hu
                  exact ⟨t, ht, htv.trans (.step hva (.refl _))⟩) h4
              exact ⟨c, .step hva hc, hcc⟩
        exact key es _ _ (fun u hu => ⟨es, hes, hu⟩) rfl h rfl

theorem nodup_len {α : Type} [DecidableEq α] : ∀ {l L : List α}, l.Nodup → (∀ x ∈ l, x ∈ L) → l.length ≤ L.length := by
  intro l
  induction l with
  | nil => intro L _ _; simp
  | cons x l ih =>
    intro L hn hs
    have hx : x ∈ L := hs x (by simp)
    have h1 := ih (L := L.erase x) (List.nodup_cons.1 hn).2 (fun y hy => by
      have hne : y ≠ x := fun h => (List.nodup_cons.1 hn).1 (h ▸ hy)
      exact (List.mem_erase_of_ne hne).2 (hs y (by simp [hy])))
    rw [List.length_erase_of_mem hx] at h1
    have : 0 < L.length := List.length_pos_of_mem hx
    simp only [List.length_cons]; omega

/-- The check ends. -/
theorem check_total (g : Adj.Graph T Nat) (hg : InRange g) : ∀ (k : Nat) (path vis : List Nat) (v : Nat), path.Nodup →
    (∀ u ∈ path, u < g.adj.length) → v < g.adj.length → g.adj.length < k + path.length → ∃ s, checkAt g k path vis v = some s := by
  intro k
  induction k with
  | zero =>
    intro path vis v hn hp _ hk
    have := nodup_len hn (L := List.range g.adj.length) (fun u hu => List.mem_range.2 (hp u hu))
    rw [List.length_range] at this
    omega
  | succ k ih =>
    intro path vis v hn hp hv hk
    unfold checkAt
    split
    · exact ⟨_, rfl⟩
    · rename_i hm
      split
      · exact ⟨_, rfl⟩
      · rw [show Adj.outEdges g v = some g.adj[v] from List.getElem?_eq_getElem hv]
        dsimp only [Option.bind_some]
        have key : ∀ (l : List Nat) (s : List Nat × Bool), (∀ u ∈ l, u < g.adj.length) →
            ∃ s', l.foldlM (fun s u => if s.2 then checkAt g k (v :: path) s.1 u else some s) s = some s' := by
          intro l
          induction l with
          | nil => intro s _; exact ⟨s, rfl⟩
          | cons a l ihl =>
            intro s hl
            have h1 : ∃ m, (if s.2 then checkAt g k (v :: path) s.1 a else some s) = some m := by
              split
              · refine ih (v :: path) s.1 a (List.nodup_cons.2 ⟨hm, hn⟩) (fun u hu => ?_) (hl a (.head _)) (by simp; omega)
                rcases List.mem_cons.1 hu with rfl | hu
                · exact hv
                · exact hp u hu
              · exact ⟨_, rfl⟩
            obtain ⟨m, hm'⟩ := h1
            obtain ⟨s', hs'⟩ := ihl m fun u hu => hl u (.tail _ hu)
            exact ⟨s', by rw [List.foldlM_cons, hm']; exact hs'⟩
        exact key _ _ fun u hu => hg.succ v u ⟨_, List.getElem?_eq_getElem hv, hu⟩

theorem assertIsDAG_total (g : Adj.Graph T Nat) (hg : InRange g) {k : Nat} (hk : g.adj.length < k) : ∃ b, assertIsDAG g k = some b := by
  have key : ∀ (l : List Nat) (s : List Nat × Bool), (∀ u ∈ l, u < g.adj.length) →
      ∃ s', l.foldlM (fun s u => if s.2 then checkAt g k [] s.1 u else some s) s = some s' := by
    intro l
    induction l with
    | nil => intro s _; exact ⟨s, rfl⟩
    | cons a l ihl =>
      intro s hl
      have h1 : ∃ m, (if s.2 then checkAt g k [] s.1 a else some s) = some m := by
        split
        · exact check_total g hg k [] s.1 a List.nodup_nil (by nofun) (hl a (.head _)) (by simpa using hk)
        · exact ⟨_, rfl⟩
      obtain ⟨m, hm'⟩ := h1
      obtain ⟨s', hs'⟩ := ihl m fun u hu => hl u (.tail _ hu)
      exact ⟨s', by rw [List.foldlM_cons, hm']; exact hs'⟩
  obtain ⟨s', hs'⟩ := key g.roots ([], true) hg.roots
  exact ⟨s'.2, by unfold assertIsDAG; rw [hs']; rfl⟩

theorem assertIsDAG_ok (g : Adj.Graph T Nat) {k : Nat} {b : Bool} (h : assertIsDAG g k = some b) :
    if b = true then ∀ r ∈ g.roots, Acc (fun t v => Succ g v t) r else ∃ r ∈ g.roots, ∃ c, Reach g r c ∧ ReachP g c c := by
  obtain ⟨s', hfold, rfl⟩ := Option.map_eq_some_iff.1 h
  have stay : ∀ (l : List Nat) (m : List Nat), l.foldlM (fun s u => if s.2 then checkAt g k [] s.1 u else some s) (m, false) =
      some (m, false) := by
    intro l m
    induction l with
    | nil => rfl
    | cons a l ih => rw [List.foldlM_cons]; exact ih
  have key : ∀ (l : List Nat) (s : List Nat × Bool), (∀ u ∈ s.1, u ∈ ([] : List Nat) ∨ Acc (fun t v => Succ g v t) u) → s.2 = true →
      l.foldlM (fun s u => if s.2 then checkAt g k [] s.1 u else some s) s = some s' →
      if s'.2 = true then ∀ r ∈ l, Acc (fun t v => Succ g v t) r else ∃ r ∈ l, ∃ c, Reach g r c ∧ ReachP g c c := by
    intro l
    induction l with
    | nil => intro s _ h2 h; cases h; rw [if_pos h2]; nofun
    | cons a l ih =>
      intro s h1 h2 h
      rw [List.foldlM_cons] at h
      obtain ⟨⟨m, b⟩, h4, h5⟩ := Option.bind_eq_some_iff.1 h
      rw [if_pos h2] at h4
      cases b with
      | true =>
        obtain ⟨g1, g2⟩ := check_true g k [] s.1 a m h1 h4
        have := ih (m, true) g2 rfl h5
        split at this
        · rename_i hs
          rw [if_pos hs]
          intro r hr
          rcases List.mem_cons.1 hr with rfl | hr
          · exact g1
          · exact this r hr
        · rename_i hs
          rw [if_neg hs]
          obtain ⟨r, hr, hc⟩ := this
          exact ⟨r, .tail _ hr, hc⟩
      | false =>
        rw [stay] at h5
        cases h5
        rw [if_neg (by nofun)]
        exact ⟨a, .head _, check_false g k [] s.1 a m (by nofun) h4⟩
  exact key g.roots ([], true) (by nofun) rfl hfold

end Phasar.Dag
