import Verif.Alias.AliasGraph
/-!
# Lemmas about the alias graph: what the depth-first search finds
-/
namespace Phasar.AliasGraph

/-- Vertices that a path of edges leads to. -/
inductive Path (s : St) (u : Nat) : Nat → Prop
  | refl : Path s u u
  | step {x y : Nat} : Path s u x → y ∈ s.adj x → Path s u y

theorem Path.trans {s : St} {u v w : Nat} (h : Path s u v) (k : Path s v w) : Path s u w := by
  induction k with
  | refl => exact h
  | step _ e ih => exact ih.step e

/-- All edges are between vertices. -/
def St.Wf (s : St) : Prop := ∀ e ∈ s.edges, e.1 < s.verts.length ∧ e.2.1 < s.verts.length

/-- No edge has an instruction. -/
def St.Plain (s : St) : Prop := ∀ e ∈ s.edges, e.2.2 = none

theorem mem_adj {s : St} {u v : Nat} : v ∈ s.adj u ↔ ∃ e ∈ s.edges, (e.1 = u ∧ e.2.1 = v) ∨ (e.1 = v ∧ e.2.1 = u) := by
  simp only [St.adj, List.mem_filterMap]
  constructor
  · rintro ⟨e, he, h⟩
    refine ⟨e, he, ?_⟩
    by_cases h1 : e.1 = u
    · rw [if_pos h1] at h; exact .inl ⟨h1, Option.some.inj h⟩
    · rw [if_neg h1] at h
      by_cases h2 : e.2.1 = u
      · rw [if_pos h2] at h; exact .inr ⟨Option.some.inj h, h2⟩
      · rw [if_neg h2] at h; exact nomatch h
  · rintro ⟨e, he, h⟩
    refine ⟨e, he, ?_⟩
    rcases h with ⟨h1, h2⟩ | ⟨h1, h2⟩
    · rw [if_pos h1, h2]
    · by_cases h3 : e.1 = u
      · rw [if_pos h3, ← h1, h2, h3]
      · rw [if_neg h3, if_pos h2, h1]

theorem adj_symm {s : St} {u v : Nat} (h : v ∈ s.adj u) : u ∈ s.adj v := by
  obtain ⟨e, he, h⟩ := mem_adj.1 h
  exact mem_adj.2 ⟨e, he, h.symm.imp id id⟩

theorem Path.symm {s : St} {u v : Nat} (h : Path s u v) : Path s v u := by
  induction h with
  | refl => exact .refl
  | step _ e ih => exact (Path.refl.step (adj_symm e)).trans ih

theorem adj_lt {s : St} (w : s.Wf) {u v : Nat} (h : v ∈ s.adj u) : v < s.verts.length := by
  obtain ⟨e, he, h⟩ := mem_adj.1 h
  have := w e he
  rcases h with ⟨_, h⟩ | ⟨h, _⟩
  · exact h ▸ this.2
  · exact h ▸ this.1

theorem label_plain {s : St} (h : s.Plain) (u v : Nat) : s.label u v = none := by
  unfold St.label
  cases hf : s.edges.find? _ with
  | none => rfl
  | some e => exact h e (List.mem_of_find?_eq_some hf)

theorem matches_plain {s : St} (h : s.Plain) : ∀ l, s.matchesStack l = true
  | [] => rfl
  | [_] => rfl
  | u :: v :: l => by rw [St.matchesStack, label_plain h, matches_plain h (v :: l)]; rfl

/-- How many vertices are not yet discovered. -/
def St.todo (s : St) (seen : List Nat) : Nat := ((List.range s.verts.length).filter fun i => decide (i ∉ seen)).length

theorem filter_len_le {α} (p q : α → Bool) (h : ∀ x, q x = true → p x = true) : ∀ l : List α,
    (l.filter q).length ≤ (l.filter p).length
  | [] => Nat.le_refl _
  | a :: l => by
    have ih := filter_len_le p q h l
    rw [List.filter_cons, List.filter_cons]
    by_cases hq : q a = true
    · rw [if_pos hq, if_pos (h a hq)]; exact Nat.succ_le_succ ih
    · rw [if_neg hq]
      split
      · exact Nat.le_succ_of_le ih
      · exact ih

theorem filter_len_lt {α} (p q : α → Bool) (h : ∀ x, q x = true → p x = true) {a : α} (ha : p a = true) (hb : q a = false) :
    ∀ l : List α, a ∈ l → (l.filter q).length < (l.filter p).length
  | [], hm => nomatch hm
  | b :: l, hm => by
    rw [List.filter_cons, List.filter_cons]
    by_cases e : a = b
    · subst e
      rw [if_pos ha, if_neg (by rw [hb]; exact nofun)]
      exact Nat.lt_succ_of_le (filter_len_le p q h l)
    · have ih := filter_len_lt p q h ha hb l ((List.mem_cons.1 hm).resolve_left e)
      by_cases hq : q b = true
      · rw [if_pos hq, if_pos (h b hq)]; exact Nat.succ_lt_succ ih
      · rw [if_neg hq]
        split
        · exact Nat.lt_succ_of_lt ih
        · exact ih

theorem todo_mono (s : St) {a b : List Nat} (h : ∀ x ∈ a, x ∈ b) : s.todo b ≤ s.todo a :=
  filter_len_le _ _ (fun x hx => by
    rw [decide_eq_true_iff] at hx ⊢
    exact fun hm => hx (h x hm)) _

theorem todo_lt (s : St) {seen : List Nat} {u : Nat} (hu : u < s.verts.length) (hn : u ∉ seen) :
    s.todo (u :: seen) < s.todo seen :=
  filter_len_lt _ _ (fun x hx => by
      rw [decide_eq_true_iff] at hx ⊢
      exact fun hm => hx (List.mem_cons_of_mem _ hm))
    (a := u) (by rw [decide_eq_true_iff]; exact hn)
    (by rw [decide_eq_false_iff_not]; exact fun h => h List.mem_cons_self) _ (List.mem_range.2 hu)

/-- What one visit does: it discovers `u` and only vertices on paths from `u`, leaves no neighbour of a vertex discovered
out, and reports the allocation sites among the vertices discovered. -/
structure Visited (P : Prog) (s : St) (u : Nat) (t t' : List Nat × List Val) : Prop where
  mono : ∀ x ∈ t.1, x ∈ t'.1
  self : u ∈ t'.1
  path : ∀ x ∈ t'.1, x ∈ t.1 ∨ Path s u x
  closed : ∀ x ∈ t'.1, x ∉ t.1 → ∀ y ∈ s.adj x, y ∈ t'.1
  res : ∀ v, v ∈ t'.2 ↔ v ∈ t.2 ∨ ∃ x ∈ t'.1, x ∉ t.1 ∧ s.verts[x]? = some v ∧ P.site v = true

theorem dfs_ok {P : Prog} {s : St} (w : s.Wf) (hp : s.Plain) : ∀ (k : Nat) (path : List Nat) (u : Nat) (t : List Nat × List Val),
    u < s.verts.length → u ∉ t.1 → s.todo t.1 ≤ k → ∃ t', s.dfs P k path u t = some t' ∧ Visited P s u t t'
  | 0, path, u, t, hu, hn, hk => by have := todo_lt s hu hn; omega
  | k + 1, path, u, t, hu, hn, hk => by
    have hlt := todo_lt s hu hn
    -- the loop over the neighbours
    have loop : ∀ (l : List Nat) (t0 : List Nat × List Val), (∀ y ∈ l, y ∈ s.adj u) → (∀ x ∈ u :: t.1, x ∈ t0.1) →
        (∀ x ∈ t0.1, x ∈ t.1 ∨ Path s u x) →
        (∀ x ∈ t0.1, x ∉ u :: t.1 → ∀ y ∈ s.adj x, y ∈ t0.1) →
        (∀ v, v ∈ t0.2 ↔ v ∈ t.2 ∨ ∃ x ∈ t0.1, x ∉ u :: t.1 ∧ s.verts[x]? = some v ∧ P.site v = true) →
        ∃ t1, l.foldlM (fun t w => if w ∈ t.1 then some t else s.dfs P k (path ++ [u]) w t) t0 = some t1 ∧
          (∀ x ∈ t0.1, x ∈ t1.1) ∧ (∀ y ∈ l, y ∈ t1.1) ∧ (∀ x ∈ t1.1, x ∈ t.1 ∨ Path s u x) ∧
          (∀ x ∈ t1.1, x ∉ u :: t.1 → ∀ y ∈ s.adj x, y ∈ t1.1) ∧
          (∀ v, v ∈ t1.2 ↔ v ∈ t.2 ∨ ∃ x ∈ t1.1, x ∉ u :: t.1 ∧ s.verts[x]? = some v ∧ P.site v = true) := by
      intro l
      induction l with
      | nil => intro t0 _ h1 h2 h3 h4; exact ⟨t0, rfl, fun _ h => h, nofun, h2, h3, h4⟩
      | cons y l ih =>
        intro t0 hl h1 h2 h3 h4
        have hy := hl y List.mem_cons_self
        rw [List.foldlM_cons]
        by_cases hm : y ∈ t0.1
        · obtain ⟨t1, e, a1, a2, a3, a4, a5⟩ := ih t0 (fun z hz => hl z (List.mem_cons_of_mem _ hz)) h1 h2 h3 h4
          refine ⟨t1, by rw [if_pos hm]; exact e, a1, fun z hz => ?_, a3, a4, a5⟩
          rcases List.mem_cons.1 hz with rfl | hz
          · exact a1 _ hm
          · exact a2 z hz
        · obtain ⟨t2, e2, V⟩ := dfs_ok (P := P) w hp k (path ++ [u]) y t0 (adj_lt w hy) hm
            (by have := todo_mono s h1; omega)
          obtain ⟨t1, e, a1, a2, a3, a4, a5⟩ := ih t2 (fun z hz => hl z (List.mem_cons_of_mem _ hz))
            (fun x hx => V.mono x (h1 x hx))
            (fun x hx => (V.path x hx).elim (h2 x) fun p => .inr ((Path.refl.step hy).trans p))
            (fun x hx hn z hz => by
              by_cases hx0 : x ∈ t0.1
              · exact V.mono z (h3 x hx0 hn z hz)
              · exact V.closed x hx hx0 z hz)
            (fun v => by
              rw [V.res, h4]
              constructor
              · rintro ((h | ⟨x, hx, r⟩) | ⟨x, hx, hn, r⟩)
                · exact .inl h
                · exact .inr ⟨x, V.mono x hx, r⟩
                · exact .inr ⟨x, hx, fun hm => hn (h1 x hm), r⟩
              · rintro (h | ⟨x, hx, hn, r⟩)
                · exact .inl (.inl h)
                · by_cases hx0 : x ∈ t0.1
                  · exact .inl (.inr ⟨x, hx0, hn, r⟩)
                  · exact .inr ⟨x, hx, hx0, r⟩)
          refine ⟨t1, by rw [if_neg hm, e2]; exact e, fun x hx => a1 x (V.mono x hx), fun z hz => ?_, a3, a4, a5⟩
          rcases List.mem_cons.1 hz with rfl | hz
          · exact a1 _ V.self
          · exact a2 z hz
    obtain ⟨t1, e, a1, a2, a3, a4, a5⟩ := loop (s.adj u) (u :: t.1, t.2) (fun _ h => h) (fun _ h => h)
      (fun x hx => (List.mem_cons.1 hx).elim (fun e => .inr (e ▸ Path.refl)) .inl)
      (fun x hx hn => absurd hx hn)
      (fun v => ⟨.inl, fun h => h.elim id fun ⟨x, hx, hn, _⟩ => absurd hx hn⟩)
    have hself : u ∈ t1.1 := a1 u List.mem_cons_self
    have hclosed : ∀ x ∈ t1.1, x ∉ t.1 → ∀ y ∈ s.adj x, y ∈ t1.1 := fun x hx hxn y hy => by
      by_cases e : x = u
      · subst e; exact a2 y hy
      · exact a4 x hx (fun hm => (List.mem_cons.1 hm).elim e hxn) y hy
    have hv : s.verts[u]? = some s.verts[u] := List.getElem?_eq_getElem hu
    have hfin : s.finish P (path ++ [u]) u t1.2 = some (if P.site s.verts[u] then t1.2 ++ [s.verts[u]] else t1.2) := by
      unfold St.finish
      rw [hv, matches_plain hp]
      simp only [Option.bind_eq_bind, Option.bind_some, if_true]
      split <;> rfl
    refine ⟨(t1.1, if P.site s.verts[u] then t1.2 ++ [s.verts[u]] else t1.2), ?_, ?_⟩
    · rw [St.dfs]
      simp only [Option.bind_eq_bind]
      rw [e]
      simp only [Option.bind_some]
      rw [hfin]; rfl
    · refine ⟨fun x hx => a1 x (List.mem_cons_of_mem _ hx), hself, a3, hclosed, fun v => ?_⟩
      have key : v ∈ (if P.site s.verts[u] then t1.2 ++ [s.verts[u]] else t1.2) ↔
          v ∈ t1.2 ∨ (s.verts[u]? = some v ∧ P.site v = true) := by
        rw [hv]
        by_cases hs : P.site s.verts[u] = true
        · rw [if_pos hs, List.mem_append, List.mem_singleton]
          exact or_congr Iff.rfl ⟨fun h => ⟨h ▸ rfl, h ▸ hs⟩, fun h => (Option.some.inj h.1).symm⟩
        · rw [if_neg hs]
          exact ⟨.inl, fun h => h.elim id fun ⟨h1, h2⟩ => absurd (Option.some.inj h1 ▸ h2) hs⟩
      show v ∈ (if P.site s.verts[u] then t1.2 ++ [s.verts[u]] else t1.2) ↔ _
      rw [key, a5]
      constructor
      · rintro ((h | ⟨x, hx, hxn, r⟩) | r)
        · exact .inl h
        · exact .inr ⟨x, hx, fun hm => hxn (List.mem_cons_of_mem _ hm), r⟩
        · exact .inr ⟨u, hself, hn, r⟩
      · rintro (h | ⟨x, hx, hxn, r⟩)
        · exact .inl (.inl h)
        · by_cases e : x = u
          · subst e; exact .inr r
          · exact .inl (.inr ⟨x, hx, fun hm => (List.mem_cons.1 hm).elim e hxn, r⟩)

/-- The search from a vertex finds the allocation sites of all vertices on paths from it. -/
theorem search_ok {P : Prog} {s : St} (w : s.Wf) (hp : s.Plain) {u : Nat} (hu : u < s.verts.length) :
    ∃ t, s.dfs P (s.verts.length + 1) [] u ([], []) = some t ∧
      ∀ v, v ∈ t.2 ↔ ∃ x, Path s u x ∧ s.verts[x]? = some v ∧ P.site v = true := by
  have hk : s.todo [] ≤ s.verts.length + 1 := by
    have := List.length_filter_le (fun i => decide (i ∉ ([] : List Nat))) (List.range s.verts.length)
    rw [List.length_range] at this
    exact Nat.le_succ_of_le this
  obtain ⟨t, e, V⟩ := dfs_ok (P := P) w hp (s.verts.length + 1) [] u ([], []) hu nofun hk
  have hall : ∀ x, Path s u x → x ∈ t.1 := by
    intro x hx
    induction hx with
    | refl => exact V.self
    | step _ e ih => exact V.closed _ ih nofun _ e
  refine ⟨t, e, fun v => ?_⟩
  rw [V.res]
  constructor
  · rintro (h | ⟨x, hx, _, r⟩)
    · exact nomatch h
    · exact ⟨x, (V.path x hx).resolve_left nofun, r⟩
  · rintro ⟨x, hx, r⟩
    exact .inr ⟨x, hall x hx, nofun, r⟩

end Phasar.AliasGraph
