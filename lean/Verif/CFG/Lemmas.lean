import Verif.CFG.Model
/-!
# Lemmas about the control-flow graph
-/
namespace Phasar.CFG

/-! ## Within a block -/

theorem skip_le (l : List Kind) : skip l ≤ l.length := by
  induction l with
  | nil => simp [skip]
  | cons k l ih =>
    simp only [skip]
    split
    · simp only [List.length_cons]; omega
    · simp

theorem skip_before (l : List Kind) : ∀ j, j < skip l → ∃ k, l[j]? = some k ∧ k.isDbg = true := by
  induction l with
  | nil => intro j h; simp [skip] at h
  | cons k l ih =>
    intro j h
    simp only [skip] at h
    split at h
    · rename_i hk
      cases j with
      | zero => exact ⟨k, by simp, hk⟩
      | succ j => simpa using ih j (by omega)
    · omega

theorem skip_at (l : List Kind) : ∀ k, l[skip l]? = some k → k.isDbg = false := by
  induction l with
  | nil => intro k h; simp [skip] at h
  | cons x l ih =>
    intro k h
    simp only [skip] at h
    split at h
    · simp only [List.getElem?_cons_succ] at h; exact ih k h
    · rename_i hx
      simp only [List.getElem?_cons_zero, Option.some.injEq] at h
      subst h; simpa using hx

theorem dbgAt_drop (B : Blk) (i j : Nat) : dbgAt B (i + j) = (match (B.ins.drop i)[j]? with | some k => k.isDbg | none => false) := by
  unfold dbgAt
  rw [List.getElem?_drop]; cases B.ins[i + j]? <;> rfl

theorem dbgAt_term (B : Blk) {i : Nat} (h : B.ins.length ≤ i) : dbgAt B i = false := by
  unfold dbgAt
  rw [List.getElem?_eq_none h]

theorem nextNonDbg_some {B : Blk} {i j : Nat} (h : nextNonDbg B i = some j) : Adjacent true B i j ∧ dbgAt B j = false := by
  unfold nextNonDbg at h
  split at h
  · rename_i hi
    cases h
    have hl := skip_le (B.ins.drop (i + 1))
    rw [List.length_drop] at hl
    refine ⟨⟨by omega, by omega, ?_⟩, ?_⟩
    · intro k h1 h2
      refine ⟨rfl, ?_⟩
      obtain ⟨x, h3, h4⟩ := skip_before (B.ins.drop (i + 1)) (k - (i + 1)) (by omega)
      have := dbgAt_drop B (i + 1) (k - (i + 1))
      rw [show i + 1 + (k - (i + 1)) = k by omega] at this
      rw [this, h3]; exact h4
    · rw [dbgAt_drop]
      cases hx : (B.ins.drop (i + 1))[skip (B.ins.drop (i + 1))]? with
      | none => rfl
      | some k => exact skip_at _ k hx
  · cases h

theorem Adjacent.unique_right {B : Blk} {i j j' : Nat} (h : Adjacent true B i j) (h' : Adjacent true B i j')
    (hj : dbgAt B j = false) (hj' : dbgAt B j' = false) : j = j' := by
  rcases Nat.lt_trichotomy j j' with hlt | heq | hgt
  · have := (h'.2.2 j h.1 hlt).2
    rw [hj] at this; cases this
  · exact heq
  · have := (h.2.2 j' h'.1 hgt).2
    rw [hj'] at this; cases this

theorem Adjacent.unique_left {B : Blk} {i i' j : Nat} (h : Adjacent true B i j) (h' : Adjacent true B i' j)
    (hi : dbgAt B i = false) (hi' : dbgAt B i' = false) : i = i' := by
  rcases Nat.lt_trichotomy i i' with hlt | heq | hgt
  · have := (h.2.2 i' hlt h'.1).2
    rw [hi'] at this; cases this
  · exact heq
  · have := (h'.2.2 i hgt h.1).2
    rw [hi] at this; cases this

/-- The next instruction looked at. -/
def nxt (ign : Bool) (B : Blk) (i : Nat) : Option Nat := if ign then nextNonDbg B i else nextNode B i

/-- The previous instruction looked at. -/
def prv (ign : Bool) (B : Blk) (i : Nat) : Option Nat := if ign then prevNonDbg B i else prevNode i

theorem adjacent_false {B : Blk} {i j : Nat} : Adjacent false B i j ↔ j = i + 1 ∧ j ≤ B.ins.length := by
  constructor
  · rintro ⟨h1, h2, h3⟩
    refine ⟨?_, h2⟩
    rcases Nat.lt_or_ge (i + 1) j with h | h
    · have := (h3 (i + 1) (by omega) h).1; cases this
    · omega
  · rintro ⟨h1, h2⟩
    exact ⟨by omega, h2, fun k a b => by omega⟩

theorem nxt_iff {ign : Bool} {B : Blk} {i j : Nat} :
    nxt ign B i = some j ↔ Adjacent ign B i j ∧ (ign = true → dbgAt B j = false) := by
  cases ign with
  | false =>
    simp only [nxt, Bool.false_eq_true, if_false, nextNode, adjacent_false, false_implies, and_true]
    constructor
    · intro h
      split at h
      · cases h; exact ⟨rfl, by omega⟩
      · cases h
    · rintro ⟨h1, h2⟩
      rw [if_pos (by omega), h1]
  | true =>
    simp only [nxt, if_true]
    constructor
    · intro h; exact ⟨(nextNonDbg_some h).1, fun _ => (nextNonDbg_some h).2⟩
    · rintro ⟨h1, h2⟩
      have hlt : i < B.ins.length := by have := h1.1; have := h1.2.1; omega
      have hs : nextNonDbg B i = some (i + 1 + skip (B.ins.drop (i + 1))) := if_pos hlt
      have h3 := nextNonDbg_some hs
      rw [hs, Adjacent.unique_right h3.1 h1 h3.2 (h2 (by trivial))]

theorem nxt_none {ign : Bool} {B : Blk} {i : Nat} : nxt ign B i = none ↔ B.ins.length ≤ i := by
  unfold nxt nextNonDbg nextNode
  cases ign <;> simp only [Bool.false_eq_true, if_false, if_true] <;> split <;> simp <;> omega

theorem prevNonDbg_some {B : Blk} : ∀ {j i : Nat}, j ≤ B.ins.length → prevNonDbg B j = some i →
    Adjacent true B i j ∧ dbgAt B i = false := by
  intro j
  induction j with
  | zero => intro i _ h; simp [prevNonDbg] at h
  | succ j ih =>
    intro i hj h
    simp only [prevNonDbg] at h
    split at h
    · rename_i hd
      obtain ⟨⟨h1, h2, h3⟩, h4⟩ := ih (by omega) h
      refine ⟨⟨by omega, hj, ?_⟩, h4⟩
      intro k a b
      by_cases hk : k = j
      · rw [hk]; exact ⟨rfl, hd⟩
      · exact h3 k a (by omega)
    · rename_i hd
      cases h
      exact ⟨⟨by omega, hj, fun k a b => by omega⟩, by simpa using hd⟩

theorem prevNonDbg_none {B : Blk} : ∀ {j : Nat}, prevNonDbg B j = none ↔ ∀ k, k < j → dbgAt B k = true := by
  intro j
  induction j with
  | zero => simp [prevNonDbg]
  | succ j ih =>
    simp only [prevNonDbg]
    split
    · rename_i hd
      rw [ih]
      constructor
      · intro h k hk
        by_cases he : k = j
        · rw [he]; exact hd
        · exact h k (by omega)
      · intro h k hk; exact h k (by omega)
    · rename_i hd
      simp only [reduceCtorEq, false_iff]
      intro h; exact hd (h j (by omega))

theorem prv_iff {ign : Bool} {B : Blk} {i j : Nat} (hj : j ≤ B.ins.length) :
    prv ign B j = some i ↔ Adjacent ign B i j ∧ (ign = true → dbgAt B i = false) := by
  cases ign with
  | false =>
    simp only [prv, Bool.false_eq_true, if_false, adjacent_false, false_implies, and_true]
    cases j with
    | zero => simp [prevNode]
    | succ j => simp only [prevNode, Option.some.injEq]; omega
  | true =>
    simp only [prv, if_true]
    constructor
    · intro h; exact ⟨(prevNonDbg_some hj h).1, fun _ => (prevNonDbg_some hj h).2⟩
    · rintro ⟨h1, h2⟩
      cases hp : prevNonDbg B j with
      | none =>
        have := prevNonDbg_none.1 hp i h1.1
        rw [h2 (by trivial)] at this; cases this
      | some i' =>
        have h3 := prevNonDbg_some hj hp
        rw [Adjacent.unique_left h3.1 h1 h3.2 (h2 (by trivial))]

theorem prv_none {ign : Bool} {B : Blk} {j : Nat} (hj : j ≤ B.ins.length) : prv ign B j = none ↔ First ign B j := by
  cases ign with
  | false =>
    simp only [prv, Bool.false_eq_true, if_false, First]
    cases j with
    | zero => simp [prevNode]
    | succ j =>
      simp only [prevNode, reduceCtorEq, false_iff]
      rintro ⟨_, h⟩
      have := (h 0 (by omega)).1; cases this
  | true =>
    simp only [prv, if_true, prevNonDbg_none, First]
    constructor
    · intro h; exact ⟨hj, fun k hk => ⟨trivial, h k hk⟩⟩
    · rintro ⟨_, h⟩ k hk; exact (h k hk).2

theorem First.unique {ign : Bool} {B : Blk} {i j : Nat} (hi : First ign B i) (hj : First ign B j)
    (di : ign = true → dbgAt B i = false) (dj : ign = true → dbgAt B j = false) : i = j := by
  rcases Nat.lt_trichotomy i j with h | h | h
  · have := hj.2 i h
    rw [di this.1] at this; cases this.2
  · exact h
  · have := hi.2 j h
    rw [dj this.1] at this; cases this.2

theorem front_ok (ign : Bool) (B : Blk) : ∃ i, front ign B = some i ∧ First ign B i ∧ (ign = true → dbgAt B i = false) := by
  unfold front
  by_cases h : (ign && dbgAt B 0) = true
  · rw [if_pos h]
    simp only [Bool.and_eq_true] at h
    have hlen : 0 < B.ins.length := by
      rcases Nat.eq_zero_or_pos B.ins.length with h0 | h0
      · rw [dbgAt_term B (Nat.le_of_eq h0)] at h; cases h.2
      · exact h0
    have hs : nextNonDbg B 0 = some (0 + 1 + skip (B.ins.drop (0 + 1))) := if_pos hlen
    obtain ⟨h1, h2⟩ := nextNonDbg_some hs
    refine ⟨_, hs, ⟨h1.2.1, ?_⟩, fun _ => h2⟩
    intro k hk
    refine ⟨h.1, ?_⟩
    by_cases h0 : k = 0
    · rw [h0]; exact h.2
    · exact (h1.2.2 k (by omega) hk).2
  · rw [if_neg h]
    refine ⟨0, rfl, ⟨Nat.zero_le _, fun k hk => by omega⟩, ?_⟩
    intro hi
    simpa [hi] using h

theorem front_iff {ign : Bool} {B : Blk} {i : Nat} :
    front ign B = some i ↔ First ign B i ∧ (ign = true → dbgAt B i = false) := by
  obtain ⟨j, h1, h2, h3⟩ := front_ok ign B
  constructor
  · intro h; rw [h1] at h; cases h; exact ⟨h2, h3⟩
  · rintro ⟨h4, h5⟩
    rw [h1, First.unique h2 h4 h3 h5]

/-! ## Between blocks -/

theorem preds_eq (ign : Bool) (f : Fn) (n : Node) : preds ign f n =
    match f[n.1]? with
    | none => []
    | some B => match prv ign B n.2 with
      | some i => [(n.1, i)]
      | none => (predBlocks f n.1).map (fun p => (p.1, termOf p.2)) := rfl

theorem succs_eq (ign : Bool) (f : Fn) (n : Node) : succs ign f n =
    match f[n.1]? with
    | none => none
    | some B => match nxt ign B n.2 with
      | some i => some [(n.1, i)]
      | none =>
        if B.term = .br true then (B.succs.head?).bind (fun b => (enter ign f b).map (fun m => [m]))
        else B.succs.mapM (enter ign f) := rfl

theorem enter_ok {ign : Bool} {f : Fn} {b : Nat} (h : b < f.length) : ∃ i C, f[b]? = some C ∧ enter ign f b = some (b, i) ∧
    front ign C = some i := by
  obtain ⟨C, hC⟩ : ∃ C, f[b]? = some C := ⟨f[b], List.getElem?_eq_getElem h⟩
  obtain ⟨i, h1, _, _⟩ := front_ok ign C
  exact ⟨i, C, hC, by simp [enter, hC, h1], h1⟩

theorem mapM_enter {ign : Bool} {f : Fn} : ∀ (l : List Nat), (∀ b ∈ l, b < f.length) → ∃ L, l.mapM (enter ign f) = some L ∧
    ∀ (m : Node) C, f[m.1]? = some C → L.count m = if front ign C = some m.2 then l.count m.1 else 0 := by
  intro l
  induction l with
  | nil => intro _; exact ⟨[], rfl, by simp⟩
  | cons b l ih =>
    intro h
    obtain ⟨L, h1, h2⟩ := ih (fun x hx => h x (by simp [hx]))
    obtain ⟨i, C, h3, h4, h5⟩ := enter_ok (ign := ign) (h b (by simp))
    refine ⟨(b, i) :: L, by rw [List.mapM_cons, h4, h1]; rfl, ?_⟩
    intro m D hD
    rw [List.count_cons, h2 m D hD]
    by_cases hb : b = m.1
    · subst hb
      rw [h3] at hD
      cases hD
      rw [h5]
      by_cases hi : i = m.2
      · simp [hi]
      · have : ((m.1, i) == m) = false := by
          simp only [beq_eq_false_iff_ne, ne_eq]
          intro he; exact hi (by rw [← he])
        simp [hi, this]
    · have : ((b, i) == m) = false := by
        simp only [beq_eq_false_iff_ne, ne_eq]
        intro he; exact hb (by rw [← he])
      rw [this, List.count_cons]
      have : (b == m.1) = false := by simp [hb]
      rw [this]; simp

theorem count_pred (b : Nat) (f : Fn) : ∀ (k : Nat) (n : Node), ((f.zipIdx k).flatMap (fun p => List.replicate (p.1.succs.count b)
    (p.2, p.1.ins.length))).count n = if k ≤ n.1 then match f[n.1 - k]? with
      | some B => if n.2 = B.ins.length then B.succs.count b else 0
      | none => 0 else 0 := by
  induction f with
  | nil => intro k n; simp
  | cons B f ih =>
    intro k n
    rw [List.zipIdx_cons, List.flatMap_cons, List.count_append, ih, List.count_replicate]
    by_cases h1 : k ≤ n.1
    · rw [if_pos h1]
      by_cases h2 : n.1 = k
      · have : ¬ (k + 1 ≤ n.1) := by omega
        rw [if_neg this, show n.1 - k = 0 by omega]
        simp only [List.getElem?_cons_zero, Nat.add_zero]
        by_cases h3 : n.2 = B.ins.length
        · rw [if_pos h3, if_pos]
          rw [beq_iff_eq]; exact Prod.ext h2.symm h3.symm
        · rw [if_neg h3, if_neg]
          rw [beq_iff_eq]; intro h; exact h3 (by rw [← h])
      · rw [if_pos (by omega : k + 1 ≤ n.1), show n.1 - k = (n.1 - (k + 1)) + 1 by omega]
        simp only [List.getElem?_cons_succ]
        rw [if_neg, Nat.zero_add]
        rw [beq_iff_eq]; intro h; exact h2 (by rw [← h])
    · rw [if_neg h1, if_neg (by omega : ¬ (k + 1 ≤ n.1)), if_neg]
      rw [beq_iff_eq]; intro h; exact h1 (by rw [← h]; exact Nat.le_refl _)

theorem count_predBlocks (f : Fn) (b : Nat) (n : Node) : ((predBlocks f b).map (fun p => (p.1, termOf p.2))).count n =
    match f[n.1]? with
    | some B => if n.2 = B.ins.length then B.succs.count b else 0
    | none => 0 := by
  have h : (predBlocks f b).map (fun p => (p.1, termOf p.2)) =
      (f.zipIdx 0).flatMap (fun p => List.replicate (p.1.succs.count b) (p.2, p.1.ins.length)) := by
    unfold predBlocks termOf
    rw [List.map_flatMap]
    simp only [List.map_replicate]
  rw [h, count_pred]
  simp

theorem Visible.dbg {ign : Bool} {f : Fn} {n : Node} {B : Blk} (h : Visible ign f n) (hB : f[n.1]? = some B) :
    n.2 ≤ B.ins.length ∧ (ign = true → dbgAt B n.2 = false) := by
  obtain ⟨⟨B', h1, h2⟩, h3⟩ := h
  rw [hB] at h1
  cases h1
  refine ⟨h2, fun hi => ?_⟩
  have := h3 hi
  simpa [isDbg, hB] using this

/-- The multiplicity of a predecessor. -/
theorem count_preds {ign : Bool} {f : Fn} {n m : Node} {B C : Blk} (hn : Visible ign f n) (hm : Visible ign f m)
    (hB : f[n.1]? = some B) (hC : f[m.1]? = some C) : (preds ign f m).count n =
    (if n.1 = m.1 ∧ nxt ign B n.2 = some m.2 then 1 else 0) +
      if n.2 = B.ins.length ∧ front ign C = some m.2 then B.succs.count m.1 else 0 := by
  obtain ⟨n1, n2⟩ := hn.dbg hB
  obtain ⟨m1, m2⟩ := hm.dbg hC
  rw [preds_eq, hC]
  simp only
  cases hp : prv ign C m.2 with
  | some i =>
    simp only
    obtain ⟨h1, h2⟩ := (prv_iff m1).1 hp
    have hnf : front ign C ≠ some m.2 := by
      intro h
      have := (prv_none m1).2 (front_iff.1 h).1
      rw [hp] at this; cases this
    rw [if_neg (c := n.2 = _ ∧ _) (fun h => hnf h.2), Nat.add_zero, List.count_singleton]
    by_cases he : n = (m.1, i)
    · have hBC : B = C := by
        rw [he] at hB; simp only at hB; rw [hC] at hB; exact (Option.some.inj hB).symm
      subst hBC
      rw [if_pos (by rw [beq_iff_eq]; exact he.symm), if_pos]
      rw [he]
      exact ⟨rfl, nxt_iff.2 ⟨h1, m2⟩⟩
    · rw [if_neg (by rw [beq_iff_eq]; exact fun h => he h.symm), if_neg]
      rintro ⟨h3, h4⟩
      have hBC : B = C := by rw [h3, hC] at hB; exact (Option.some.inj hB).symm
      subst hBC
      obtain ⟨h5, _⟩ := nxt_iff.1 h4
      have := (prv_iff m1).2 ⟨h5, n2⟩
      rw [hp] at this
      exact he (Prod.ext h3 (Option.some.inj this).symm)
  | none =>
    have hf : front ign C = some m.2 := front_iff.2 ⟨(prv_none m1).1 hp, m2⟩
    simp only
    rw [count_predBlocks, hB]
    simp only
    rw [if_neg (c := n.1 = m.1 ∧ _), Nat.zero_add]
    · simp [hf]
    · rintro ⟨h3, h4⟩
      have hBC : B = C := by rw [h3, hC] at hB; exact (Option.some.inj hB).symm
      subst hBC
      obtain ⟨h5, _⟩ := nxt_iff.1 h4
      have := (prv_iff m1).2 ⟨h5, n2⟩
      rw [hp] at this; cases this

/-- The multiplicity of a successor. -/
theorem count_succs {ign : Bool} {f : Fn} (hw : WF f) {n : Node} {B : Blk} (hn : Visible ign f n)
    (hB : f[n.1]? = some B) (hl : ¬ Lazy f n) : ∃ L, succs ign f n = some L ∧ ∀ m C, f[m.1]? = some C → L.count m =
    (if n.1 = m.1 ∧ nxt ign B n.2 = some m.2 then 1 else 0) +
      if n.2 = B.ins.length ∧ front ign C = some m.2 then B.succs.count m.1 else 0 := by
  obtain ⟨n1, n2⟩ := hn.dbg hB
  rw [succs_eq, hB]
  simp only
  cases hx : nxt ign B n.2 with
  | some i =>
    refine ⟨_, rfl, fun m C hC => ?_⟩
    have hne : n.2 ≠ B.ins.length := fun h => by
      have := (nxt_none (ign := ign)).2 (Nat.le_of_eq h.symm)
      rw [hx] at this; cases this
    rw [if_neg (c := n.2 = _ ∧ _) (fun h => hne h.1), Nat.add_zero, List.count_singleton]
    by_cases he : n.1 = m.1 ∧ some i = some m.2
    · rw [if_pos he, if_pos]
      rw [beq_iff_eq]; exact Prod.ext he.1 (Option.some.inj he.2)
    · rw [if_neg he, if_neg]
      rw [beq_iff_eq]; intro h; exact he ⟨by rw [← h], by rw [← h]⟩
  | none =>
    have hlen : n.2 = B.ins.length := Nat.le_antisymm n1 (nxt_none.1 hx)
    simp only
    rw [if_neg (fun h => hl ⟨B, hB, hlen, h⟩)]
    obtain ⟨L, h1, h2⟩ := mapM_enter (ign := ign) B.succs (hw.succs B (List.mem_of_getElem? hB))
    refine ⟨L, h1, fun m C hC => ?_⟩
    rw [h2 m C hC]
    simp [hlen]

/-- `succs` as a relation. -/
theorem step_iff {ign : Bool} {f : Fn} {n m : Node} {B C : Blk} (hm : Visible ign f m)
    (hB : f[n.1]? = some B) (hC : f[m.1]? = some C) : Step ign f n m ↔
    0 < (if n.1 = m.1 ∧ nxt ign B n.2 = some m.2 then 1 else 0) +
      if n.2 = B.ins.length ∧ front ign C = some m.2 then B.succs.count m.1 else 0 := by
  obtain ⟨m1, m2⟩ := hm.dbg hC
  constructor
  · rintro ⟨B', C', h1, h2, h3⟩
    rw [hB] at h1
    rw [hC] at h2
    cases h1; cases h2
    rcases h3 with ⟨h4, h5⟩ | ⟨h4, h5, h6⟩
    · have hBC : B = C := by rw [h4, hC] at hB; exact (Option.some.inj hB).symm
      subst hBC
      rw [if_pos ⟨h4, nxt_iff.2 ⟨h5, m2⟩⟩]; omega
    · rw [if_pos (c := n.2 = _ ∧ _) ⟨h4, front_iff.2 ⟨h6, m2⟩⟩]
      have := List.count_pos_iff.2 h5
      omega
  · intro h
    refine ⟨B, C, hB, hC, ?_⟩
    by_cases h1 : n.1 = m.1 ∧ nxt ign B n.2 = some m.2
    · left
      have hBC : B = C := by rw [h1.1, hC] at hB; exact (Option.some.inj hB).symm
      subst hBC
      exact ⟨h1.1, (nxt_iff.1 h1.2).1⟩
    · rw [if_neg h1, Nat.zero_add] at h
      by_cases h2 : n.2 = B.ins.length ∧ front ign C = some m.2
      · rw [if_pos h2] at h
        exact Or.inr ⟨h2.1, List.count_pos_iff.1 h, (front_iff.1 h2.2).1⟩
      · rw [if_neg h2] at h; omega

/-! ## All instructions -/

theorem count_instructions (f : Fn) : ∀ (k : Nat) (n : Node), ((f.zipIdx k).flatMap (fun p =>
    (List.range (p.1.ins.length + 1)).map (fun i => (p.2, i)))).count n = if k ≤ n.1 then match f[n.1 - k]? with
      | some B => if n.2 ≤ B.ins.length then 1 else 0
      | none => 0 else 0 := by
  induction f with
  | nil => intro k n; simp
  | cons B f ih =>
    intro k n
    have hr : ((List.range (B.ins.length + 1)).map (fun i => (k, i))).count n =
        if n.1 = k ∧ n.2 ≤ B.ins.length then 1 else 0 := by
      by_cases hk : n.1 = k ∧ n.2 ≤ B.ins.length
      · rw [if_pos hk]
        have hn : n = (k, n.2) := Prod.ext hk.1 rfl
        rw [hn]
        have hnd : ((List.range (B.ins.length + 1)).map (fun i => (k, i))).Nodup := by
          rw [List.Nodup, List.pairwise_map]
          exact List.Pairwise.imp (fun h he => h (Prod.mk.inj he).2) List.nodup_range
        rw [List.Nodup.count hnd]; exact if_pos (List.mem_map.2 ⟨n.2, List.mem_range.2 (by omega), rfl⟩)
      · rw [if_neg hk]
        apply List.count_eq_zero.2
        intro h
        obtain ⟨i, h1, h2⟩ := List.mem_map.1 h
        have := List.mem_range.1 h1
        exact hk ⟨by rw [← h2], by rw [← h2]; show i ≤ _; omega⟩
    rw [List.zipIdx_cons, List.flatMap_cons, List.count_append, ih, hr]
    by_cases h1 : k ≤ n.1
    · rw [if_pos h1]
      by_cases h2 : n.1 = k
      · rw [if_neg (by omega : ¬ (k + 1 ≤ n.1)), show n.1 - k = 0 by omega]
        simp [h2]
      · rw [if_pos (by omega : k + 1 ≤ n.1), show n.1 - k = (n.1 - (k + 1)) + 1 by omega, if_neg (fun h => h2 h.1)]
        simp
    · rw [if_neg h1, if_neg (by omega : ¬ (k + 1 ≤ n.1)), if_neg (fun h => h1 (by omega))]

theorem count_instructions' (f : Fn) (n : Node) : (instructions f).count n = match f[n.1]? with
    | some B => if n.2 ≤ B.ins.length then 1 else 0
    | none => 0 := by
  have := count_instructions f 0 n
  simpa [instructions] using this

theorem mem_instructions {f : Fn} {n : Node} : n ∈ instructions f ↔ Valid f n := by
  rw [← List.count_pos_iff, count_instructions']
  unfold Valid
  cases h : f[n.1]? with
  | none => simp
  | some B =>
    simp only [Option.some.injEq, exists_eq_left']
    split <;> simp <;> omega

end Phasar.CFG
