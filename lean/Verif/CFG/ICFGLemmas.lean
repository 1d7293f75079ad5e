import Verif.CFG.ICFG
import Verif.CFG.Props
/-!
# Lemmas about the inter-procedural control-flow graph
-/
namespace Phasar.CFG

theorem mem_lift {A : Type} [DecidableEq A] {K l : List A} {x : {a : A // a ∈ K}} : x ∈ lift K l ↔ x.1 ∈ l := by
  unfold lift
  rw [List.mem_filterMap]
  constructor
  · rintro ⟨a, h1, h2⟩
    split at h2
    · cases h2; exact h1
    · cases h2
  · intro h
    exact ⟨x.1, h, by rw [dif_pos x.2]⟩

theorem lift_val {A : Type} [DecidableEq A] {K : List A} : ∀ {l : List A}, (∀ a ∈ l, a ∈ K) →
    (lift K l).map Subtype.val = l := by
  intro l
  induction l with
  | nil => intro _; rfl
  | cons a l ih =>
    intro h
    have h1 : a ∈ K := h a (by simp)
    show ((List.filterMap (fun a => if h : a ∈ K then some ⟨a, h⟩ else none) (a :: l)).map Subtype.val) = a :: l
    rw [List.filterMap_cons, dif_pos h1]
    simp only [List.map_cons]
    rw [show List.map Subtype.val (List.filterMap (fun a => if h : a ∈ K then some (⟨a, h⟩ : {a : A // a ∈ K}) else none) l) = l from
      ih (fun x hx => h x (by simp [hx]))]

theorem lift_filter {A : Type} [DecidableEq A] {K : List A} : ∀ {l : List A},
    (lift K l).map Subtype.val = l.filter (fun a => decide (a ∈ K)) := by
  intro l
  induction l with
  | nil => rfl
  | cons a l ih =>
    show ((List.filterMap (fun a => if h : a ∈ K then some ⟨a, h⟩ else none) (a :: l)).map Subtype.val) = _
    rw [List.filterMap_cons]
    by_cases h : a ∈ K
    · rw [dif_pos h, List.filter_cons_of_pos (by simpa using h), ← ih]
      rfl
    · rw [dif_neg h, List.filter_cons_of_neg (by simpa using h), ← ih]
      rfl

theorem mem_allInstr {m : Prog} {a : GNode} : a ∈ allInstr m ↔ a.1 ∈ m.funs ∧ Valid (m.fns a.1) a.2 := by
  unfold allInstr
  simp only [List.mem_flatMap, List.mem_map]
  constructor
  · rintro ⟨g, hg, n, hn, rfl⟩
    exact ⟨hg, mem_instructions.1 hn⟩
  · rintro ⟨h1, h2⟩
    exact ⟨a.1, h1, a.2, mem_instructions.2 h2, rfl⟩

theorem mem_visInstr {m : Prog} {a : GNode} : a ∈ visInstr m ↔ a.1 ∈ m.funs ∧ Visible true (m.fns a.1) a.2 := by
  unfold visInstr Visible
  rw [List.mem_filter, mem_allInstr]
  simp [and_assoc]

theorem isDbg_eq {f : Fn} {n : Node} {B : Blk} (hB : f[n.1]? = some B) : isDbg f n = dbgAt B n.2 := by
  unfold isDbg; rw [hB]

theorem enter_vis {f : Fn} {b : Nat} (h : b < f.length) : ∃ i, enter true f b = some (b, i) ∧ Visible true f (b, i) := by
  obtain ⟨i, C, h1, h2, h3⟩ := enter_ok (ign := true) h
  obtain ⟨h4, h5⟩ := front_iff.1 h3
  exact ⟨i, h2, ⟨C, h1, h4.1⟩, fun _ => by rw [isDbg_eq h1]; exact h5 rfl⟩

theorem mapM_vis {f : Fn} : ∀ (l : List Nat), (∀ b ∈ l, b < f.length) → ∃ L, l.mapM (enter true f) = some L ∧
    ∀ k ∈ L, k.1 ∈ l ∧ Visible true f k := by
  intro l
  induction l with
  | nil => intro _; exact ⟨[], rfl, by simp⟩
  | cons b l ih =>
    intro h
    obtain ⟨L, h1, h2⟩ := ih (fun x hx => h x (by simp [hx]))
    obtain ⟨i, h3, h4⟩ := enter_vis (h b (by simp))
    refine ⟨(b, i) :: L, by rw [List.mapM_cons, h3, h1]; rfl, ?_⟩
    intro k hk
    rcases List.mem_cons.1 hk with rfl | hk
    · exact ⟨by simp, h4⟩
    · exact ⟨List.mem_cons_of_mem _ (h2 k hk).1, (h2 k hk).2⟩

/-- Successors: the next visible instruction of the block, or the beginning of a successor block. -/
theorem succs_shape {f : Fn} (hw : WF f) {n : Node} (hn : Valid f n) : ∃ B L, f[n.1]? = some B ∧ succs true f n = some L ∧
    ∀ k ∈ L, Visible true f k ∧ ((k.1 = n.1 ∧ Adjacent true B n.2 k.2) ∨ k.1 ∈ B.succs) := by
  obtain ⟨B, hB, hle⟩ := hn
  have hmem := List.mem_of_getElem? hB
  rw [succs_eq, hB]
  simp only
  cases hx : nxt true B n.2 with
  | some i =>
    obtain ⟨h1, h2⟩ := nxt_iff.1 hx
    refine ⟨B, _, rfl, rfl, fun k hk => ?_⟩
    rw [List.mem_singleton.1 hk]
    exact ⟨⟨⟨B, hB, h1.2.1⟩, fun _ => by rw [isDbg_eq (n := (n.1, i)) hB]; exact h2 rfl⟩, Or.inl ⟨rfl, h1⟩⟩
  | none =>
    simp only
    split
    · rename_i ht
      cases hs : B.succs with
      | nil => exact absurd hs (hw.lazy B hmem ht)
      | cons b l =>
        obtain ⟨i, h3, h4⟩ := enter_vis (hw.succs B hmem b (by simp [hs]))
        refine ⟨B, [(b, i)], rfl, by simp [h3], fun k hk => ?_⟩
        rw [List.mem_singleton.1 hk]
        exact ⟨h4, Or.inr (by rw [hs]; simp)⟩
    · obtain ⟨L, h1, h2⟩ := mapM_vis B.succs (hw.succs B hmem)
      exact ⟨B, L, rfl, h1, fun k hk => ⟨(h2 k hk).2, Or.inr (h2 k hk).1⟩⟩

theorem gsuccs_vis {m : Prog} (hm : m.WF) {a k : GNode} (ha : a ∈ allInstr m) (hk : k ∈ gsuccs m a) : k ∈ visInstr m := by
  obtain ⟨h1, h2⟩ := mem_allInstr.1 ha
  obtain ⟨B, L, _, h3, h4⟩ := succs_shape (hm.fns a.1 h1) h2
  unfold gsuccs at hk
  rw [h3] at hk
  obtain ⟨n, hn, rfl⟩ := List.mem_map.1 hk
  exact mem_visInstr.2 ⟨h1, (h4 n hn).1⟩

theorem visInstr_sub {m : Prog} {a : GNode} (h : a ∈ visInstr m) : a ∈ allInstr m := (List.mem_filter.1 h).1

theorem gstarts_eq {m : Prog} {g : Nat} : (m.fns g = [] ∧ gstarts m g = []) ∨ ∃ B i, (m.fns g)[0]? = some B ∧
    gstarts m g = [(g, 0, i)] ∧ First true B i ∧ dbgAt B i = false := by
  cases hf : m.fns g with
  | nil => left; exact ⟨rfl, by unfold gstarts; rw [hf]; rfl⟩
  | cons B l =>
    right
    obtain ⟨i, h1, h2, h3⟩ := front_ok true B
    refine ⟨B, i, rfl, ?_, h2, h3 rfl⟩
    unfold gstarts
    rw [hf]
    simp only [startPoints, h1, Option.map_some, Option.getD_some, List.map_cons, List.map_nil]

theorem gstarts_vis {m : Prog} {g : Nat} (hg : g ∈ m.funs) {k : GNode} (hk : k ∈ gstarts m g) : k ∈ visInstr m := by
  rcases gstarts_eq (m := m) (g := g) with ⟨_, h⟩ | ⟨B, i, h1, h2, h3, h4⟩
  · rw [h] at hk; simp at hk
  · rw [h2] at hk
    rw [List.mem_singleton.1 hk]
    exact mem_visInstr.2 ⟨hg, ⟨B, h1, h3.1⟩, fun _ => by rw [isDbg_eq (n := (0, i)) h1]; exact h4⟩

/-- `isStartPoint` and `getStartPointsOf`. -/
theorem isStartPoint_iff {m : Prog} {a : GNode} : isStartPoint (m.fns a.1) a.2 = true ↔
    a ∈ gstarts m a.1 ∨ (a.2 = (0, 0) ∧ m.fns a.1 ≠ []) := by
  unfold gstarts
  cases hf : m.fns a.1 with
  | nil => simp [isStartPoint, startPoints]
  | cons B l =>
    simp only [isStartPoint, startPoints, Bool.or_eq_true_iff, decide_eq_true_eq, Bool.and_eq_true, front, Bool.true_and, ne_eq,
      reduceCtorEq, not_false_eq_true, and_true]
    cases hd : dbgAt B 0 with
    | false =>
      simp only [Bool.false_eq_true, false_and, or_false, if_false, Option.map_some, Option.getD_some, List.map_cons, List.map_nil,
        List.mem_singleton]
      constructor
      · exact Or.inr
      · rintro (h | h)
        · rw [h]
        · exact h
    | true =>
      simp only [true_and, if_true]
      cases hx : nextNonDbg B 0 with
      | none => simp
      | some i =>
        simp only [Option.map_some, Option.some.injEq, Option.getD_some, List.map_cons, List.map_nil, List.mem_singleton]
        constructor
        · rintro (h | h)
          · exact Or.inr h
          · exact Or.inl (by rw [h])
        · rintro (h | h)
          · exact Or.inr (by rw [h])
          · exact Or.inl h

theorem gstarts_nopred {m : Prog} (hm : m.WF) {a k : GNode} (ha : a ∈ allInstr m) (hk : k ∈ gsuccs m a) {g : Nat}
    (hs : k ∈ gstarts m g) : a.1 = g ∧ a.2.1 = 0 ∧ isDbg (m.fns g) a.2 = true ∧ StartsDbg (m.fns g) := by
  obtain ⟨h1, h2⟩ := mem_allInstr.1 ha
  obtain ⟨B, L, hB, h3, h4⟩ := succs_shape (hm.fns a.1 h1) h2
  unfold gsuccs at hk
  rw [h3] at hk
  obtain ⟨n, hn, rfl⟩ := List.mem_map.1 hk
  rcases gstarts_eq (m := m) (g := g) with ⟨_, h⟩ | ⟨C, i, e1, e2, e3, e4⟩
  · rw [h] at hs; simp at hs
  · rw [e2] at hs
    have hs := List.mem_singleton.1 hs
    simp only [Prod.mk.injEq] at hs
    obtain ⟨hg, hni⟩ := hs
    subst hg
    rcases (h4 n hn).2 with ⟨h5, h6⟩ | h5
    · rw [hni] at h5 h6
      simp only at h5 h6
      rw [← h5, e1] at hB
      cases hB
      have h7 := (e3.2 a.2.2 h6.1).2
      refine ⟨rfl, h5.symm, by rw [isDbg_eq (B := B) (by rw [← h5]; exact e1)]; exact h7, B, e1, (e3.2 0 ?_).2⟩
      have := h6.1; omega
    · rw [hni] at h5
      exact absurd h5 (hm.entry a.1 h1 B (List.mem_of_getElem? hB))

end Phasar.CFG
