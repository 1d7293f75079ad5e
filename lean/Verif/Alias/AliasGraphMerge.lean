import Verif.Alias.AliasGraphInv
/-!
# Merging two alias graphs
-/
namespace Phasar.AliasGraph

theorem merge_adj_left {s o : St} {u v : Nat} (hu : u < s.verts.length) :
    v ∈ (mergeWith s o).adj u ↔ v ∈ s.adj u := by
  refine ⟨fun h => ?_, adj_mono fun e he => List.mem_append.2 (.inl he)⟩
  obtain ⟨e, he, r⟩ := mem_adj.1 h
  rcases List.mem_append.1 he with he | he
  · exact mem_adj.2 ⟨e, he, r⟩
  · obtain ⟨d, _, rfl⟩ := List.mem_map.1 he
    rcases r with ⟨r, _⟩ | ⟨_, r⟩
    · have r' : d.1 + s.verts.length = u := r
      omega
    · have r' : d.2.1 + s.verts.length = u := r
      omega

theorem merge_adj_right {s o : St} (ws : s.Wf) {u v : Nat} :
    v ∈ (mergeWith s o).adj (u + s.verts.length) ↔ ∃ w, v = w + s.verts.length ∧ w ∈ o.adj u := by
  constructor
  · intro h
    obtain ⟨e, he, r⟩ := mem_adj.1 h
    rcases List.mem_append.1 he with he | he
    · have := ws e he
      rcases r with ⟨r, _⟩ | ⟨_, r⟩ <;> omega
    · obtain ⟨d, hd, rfl⟩ := List.mem_map.1 he
      rcases r with ⟨r1, r2⟩ | ⟨r1, r2⟩
      · have r1' : d.1 + s.verts.length = u + s.verts.length := r1
        have r2' : d.2.1 + s.verts.length = v := r2
        exact ⟨d.2.1, r2'.symm, mem_adj.2 ⟨d, hd, .inl ⟨by omega, rfl⟩⟩⟩
      · have r1' : d.1 + s.verts.length = v := r1
        have r2' : d.2.1 + s.verts.length = u + s.verts.length := r2
        exact ⟨d.1, r1'.symm, mem_adj.2 ⟨d, hd, .inr ⟨rfl, by omega⟩⟩⟩
  · rintro ⟨w, rfl, h⟩
    obtain ⟨d, hd, r⟩ := mem_adj.1 h
    refine mem_adj.2 ⟨(d.1 + s.verts.length, d.2.1 + s.verts.length, d.2.2), List.mem_append.2 (.inr (List.mem_map.2 ⟨d, hd, rfl⟩)), ?_⟩
    rcases r with ⟨r1, r2⟩ | ⟨r1, r2⟩
    · exact .inl ⟨by rw [r1], by rw [r2]⟩
    · exact .inr ⟨by rw [r1], by rw [r2]⟩

theorem merge_path_left {s o : St} (ws : s.Wf) {u v : Nat} (hu : u < s.verts.length) :
    Path (mergeWith s o) u v ↔ Path s u v ∧ v < s.verts.length := by
  constructor
  · intro h
    induction h with
    | refl => exact ⟨.refl, hu⟩
    | step _ e ih =>
      have := (merge_adj_left ih.2).1 e
      exact ⟨ih.1.step this, adj_lt ws this⟩
  · intro h
    replace h := h.1
    induction h with
    | refl => exact .refl
    | step _ e ih => exact ih.step (adj_mono (fun e he => List.mem_append.2 (.inl he)) e)

theorem merge_path_right {s o : St} (ws : s.Wf) {u v : Nat} :
    Path (mergeWith s o) (u + s.verts.length) v ↔ ∃ w, v = w + s.verts.length ∧ Path o u w := by
  constructor
  · intro h
    induction h with
    | refl => exact ⟨u, rfl, .refl⟩
    | step _ e ih =>
      obtain ⟨w, rfl, hw⟩ := ih
      obtain ⟨z, rfl, hz⟩ := (merge_adj_right ws).1 e
      exact ⟨z, rfl, hw.step hz⟩
  · rintro ⟨w, rfl, h⟩
    induction h with
    | refl => exact .refl
    | step _ e ih => exact ih.step ((merge_adj_right ws).2 ⟨_, rfl, e⟩)

theorem merge_wf {s o : St} (ws : s.Wf) (wo : o.Wf) : (mergeWith s o).Wf := by
  intro e he
  have hl : (mergeWith s o).verts.length = s.verts.length + o.verts.length := List.length_append
  rw [hl]
  rcases List.mem_append.1 he with he | he
  · have := ws e he; omega
  · obtain ⟨d, hd, rfl⟩ := List.mem_map.1 he
    have := wo d hd
    show d.1 + s.verts.length < _ ∧ d.2.1 + s.verts.length < _
    omega

theorem merge_plain {s o : St} (ps : s.Plain) (po : o.Plain) : (mergeWith s o).Plain := by
  intro e he
  rcases List.mem_append.1 he with he | he
  · exact ps e he
  · obtain ⟨d, hd, rfl⟩ := List.mem_map.1 he
    exact po d hd

theorem find_append_left {m l : List (Val × Nat)} {v : Val} {i : Nat} (h : find m v = some i) : find (m ++ l) v = some i := by
  unfold find at *
  rw [List.find?_append]
  cases hf : m.find? fun e => e.1 = v with
  | none => rw [hf] at h; exact nomatch h
  | some e => rw [hf] at h; exact h

theorem find_append_right {m l : List (Val × Nat)} {v : Val} (h : find m v = none) : find (m ++ l) v = find l v := by
  unfold find at *
  rw [List.find?_append]
  cases hf : m.find? fun e => e.1 = v with
  | none => rfl
  | some e => rw [hf] at h; exact nomatch h

theorem merge_find_right {s o : St} {v : Val} {i : Nat} (hk : (o.vmap.map (·.1)).Nodup) (hn : find s.vmap v = none)
    (ho : find o.vmap v = some i) (hi : i < o.verts.length) : find (mergeWith s o).vmap v = some (i + s.verts.length) := by
  show find (s.vmap ++ _) v = _
  rw [find_append_right hn]
  -- the entries copied have different keys
  have key : ∀ m : List (Val × Nat), (∀ a j, (a, j) ∈ m → (a, j) ∈ o.vmap) → (v, i) ∈ m →
      find ((m.filter fun e => (find s.vmap e.1).isNone && decide (e.2 < o.verts.length)).map fun e => (e.1, e.2 + s.verts.length)) v
        = some (i + s.verts.length) := by
    intro m hm hmem
    have hsome : ∃ j, (v, j) ∈ ((m.filter fun e => (find s.vmap e.1).isNone && decide (e.2 < o.verts.length)).map
        fun e => (e.1, e.2 + s.verts.length)) :=
      ⟨_, List.mem_map.2 ⟨(v, i), List.mem_filter.2 ⟨hmem, by simp [hn, hi]⟩, rfl⟩⟩
    obtain ⟨j, hj⟩ := Option.isSome_iff_exists.1 (find_isSome.2 hsome)
    obtain ⟨⟨a, k⟩, hd, he⟩ := List.mem_map.1 (find_mem hj)
    have e1 : a = v := congrArg Prod.fst he
    have e2 : k + s.verts.length = j := congrArg Prod.snd he
    subst e1
    have := mem_unique hk (hm _ _ (List.mem_filter.1 hd).1) (find_mem ho)
    rw [hj, ← e2, this]
  exact key o.vmap (fun _ _ h => h) (find_mem ho)

end Phasar.AliasGraph
