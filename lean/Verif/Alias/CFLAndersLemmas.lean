import Verif.Alias.CFLAnders
import Verif.CG.BuilderLemmas

/-! # The closure of the CFL-based alias analysis: invariants of the work list -/
namespace Phasar.CFLAnders

/-! ## `propagate` -/

theorem propagate_mem (s : St) (i : Item) : (propagate s i).mem = s.mem := by
  unfold propagate; split
  · rfl
  · split <;> rfl

theorem propagate_reach {s : St} {i j : Item} :
    j ∈ (propagate s i).reach ↔ j ∈ s.reach ∨ (j = i ∧ j.src ≠ j.dst) := by
  unfold propagate
  split
  · rename_i h
    constructor
    · exact .inl
    · rintro (h' | ⟨rfl, h'⟩)
      · exact h'
      · exact absurd h h'
  · rename_i h
    split
    · rename_i h'
      constructor
      · exact .inl
      · rintro (h'' | ⟨rfl, _⟩)
        · exact h''
        · exact h'
    · simp only [List.mem_append, List.mem_singleton]
      constructor
      · rintro (h' | rfl)
        · exact .inl h'
        · exact .inr ⟨rfl, h⟩
      · rintro (h' | ⟨h', _⟩)
        · exact .inl h'
        · exact .inr h'

/-- What every part of the work keeps: the sets grow, and what is new waits. -/
structure Grow (s s' : St) : Prop where
  reach : ∀ i ∈ s.reach, i ∈ s'.reach
  next : ∀ i ∈ s.next, i ∈ s'.next
  new : ∀ i ∈ s'.reach, i ∈ s.reach ∨ i ∈ s'.next

theorem Grow.refl (s : St) : Grow s s := ⟨fun _ h => h, fun _ h => h, fun _ h => .inl h⟩

theorem Grow.trans {a b c : St} (h : Grow a b) (h' : Grow b c) : Grow a c :=
  ⟨fun i hi => h'.reach i (h.reach i hi), fun i hi => h'.next i (h.next i hi), fun i hi => by
    rcases h'.new i hi with h1 | h1
    · rcases h.new i h1 with h2 | h2
      · exact .inl h2
      · exact .inr (h'.next i h2)
    · exact .inr h1⟩

theorem propagate_grow (s : St) (i : Item) : Grow s (propagate s i) := by
  unfold propagate
  split
  · exact .refl s
  · split
    · exact .refl s
    · exact ⟨fun j hj => by simp [hj], fun j hj => by simp [hj], fun j hj => by
        simp only [List.mem_append, List.mem_singleton] at hj ⊢
        rcases hj with h | h
        · exact .inl h
        · exact .inr (.inr h)⟩

theorem propagateAll_mem : ∀ (l : List Item) (s : St), (propagateAll s l).mem = s.mem
  | [], _ => rfl
  | i :: l, s => by
    rw [propagateAll, List.foldl_cons]
    exact (propagateAll_mem l _).trans (propagate_mem s i)

theorem propagateAll_reach {j : Item} : ∀ (l : List Item) (s : St),
    j ∈ (propagateAll s l).reach ↔ j ∈ s.reach ∨ (j ∈ l ∧ j.src ≠ j.dst)
  | [], s => by simp [propagateAll]
  | i :: l, s => by
    rw [propagateAll, List.foldl_cons]
    have := propagateAll_reach (j := j) l (propagate s i)
    rw [propagateAll] at this
    rw [this, propagate_reach]
    simp only [List.mem_cons]
    constructor
    · rintro ((h | ⟨h, h'⟩) | ⟨h, h'⟩)
      · exact .inl h
      · exact .inr ⟨.inl h, h'⟩
      · exact .inr ⟨.inr h, h'⟩
    · rintro (h | ⟨h | h, h'⟩)
      · exact .inl (.inl h)
      · exact .inl (.inr ⟨h, h'⟩)
      · exact .inr ⟨h, h'⟩

theorem propagateAll_grow : ∀ (l : List Item) (s : St), Grow s (propagateAll s l)
  | [], s => .refl s
  | i :: l, s => by
    rw [propagateAll, List.foldl_cons]
    exact (propagate_grow s i).trans (propagateAll_grow l _)

/-- A property of sets of items that `propagate` keeps for items of a list is kept by `propagateAll`. -/
theorem propagateAll_ind {P : St → Prop} (l : List Item) (hstep : ∀ s, ∀ i ∈ l, P s → P (propagate s i)) :
    ∀ s, P s → P (propagateAll s l) := by
  induction l with
  | nil => intro s h; exact h
  | cons i l ih =>
    intro s h
    rw [propagateAll, List.foldl_cons]
    exact ih (fun s j hj => hstep s j (List.mem_cons_of_mem _ hj)) _ (hstep s i (List.mem_cons_self ..) h)

/-! ## What the closure is closed under -/

/-- An item is recorded, or it is of the kind that is never recorded. -/
def In (s : St) (i : Item) : Prop := i ∈ s.reach ∨ i.src = i.dst

/-- All consequences of an item have been drawn. -/
structure Done (g : Graph) (s : St) (i : Item) : Prop where
  below : g.has i.src.below = true → g.has i.dst.below = true → (i.src.below, i.dst.below) ∈ s.mem
  rev : ∀ q, i.st.rev = some q → ∀ z, (z, i.dst) ∈ g.edges → In s ⟨i.src, z, q⟩
  fwd : ∀ z, (i.dst, z) ∈ g.edges → In s ⟨i.src, z, i.st.assign⟩
  mem : ∀ q, i.st.mem = some q → ∀ z, (i.dst, z) ∈ s.mem → In s ⟨i.src, z, q⟩

/-- The invariant of the work list, with the items still to be processed in this round. -/
structure Inv (g : Graph) (s : St) (todo : Item → Prop) : Prop where
  done : ∀ i ∈ s.reach, todo i ∨ i ∈ s.next ∨ Done g s i
  mem : ∀ a b, (a, b) ∈ s.mem → In s ⟨a, b, .fromMemNo⟩
  init : ∀ a b, (a, b) ∈ g.edges → In s ⟨b, a, .fromRO⟩ ∧ In s ⟨a, b, .toWO⟩

theorem In.mono {s s' : St} (h : Grow s s') {i : Item} (hi : In s i) : In s' i := hi.imp (h.reach i) id

theorem Done.mono {g : Graph} {s s' : St} (h : Grow s s') (hm : s'.mem = s.mem) {i : Item} (hd : Done g s i) :
    Done g s' i :=
  ⟨fun a b => hm ▸ hd.below a b, fun q hq z hz => (hd.rev q hq z hz).mono h, fun z hz => (hd.fwd z hz).mono h,
   fun q hq z hz => (hd.mem q hq z (hm ▸ hz)).mono h⟩

theorem Inv.mono {g : Graph} {s s' : St} {T : Item → Prop} (h : Grow s s') (hm : s'.mem = s.mem) (hi : Inv g s T) :
    Inv g s' T := by
  refine ⟨fun i hr => ?_, fun a b hab => (hi.mem a b (hm ▸ hab)).mono h,
    fun a b hab => ⟨(hi.init a b hab).1.mono h, (hi.init a b hab).2.mono h⟩⟩
  rcases h.new i hr with h1 | h1
  · rcases hi.done i h1 with h2 | h2 | h2
    · exact .inl h2
    · exact .inr (.inl (h.next i h2))
    · exact .inr (.inr (h2.mono h hm))
  · exact .inr (.inl h1)

theorem memStep_grow (g : Graph) (s : St) (i : Item) : Grow s (memStep g s i) := by
  unfold memStep
  split
  · dsimp only
    have h1 : Grow s { s with mem := s.mem ++ [(i.src.below, i.dst.below)] } :=
      ⟨fun _ h => h, fun _ h => h, fun _ h => .inl h⟩
    exact (h1.trans (propagate_grow _ _)).trans (propagateAll_grow _ _)
  · exact .refl s

theorem memStep_mem (g : Graph) (s : St) (i : Item) (e : Node × Node) :
    e ∈ (memStep g s i).mem ↔ e ∈ s.mem ∨
      (g.has i.src.below = true ∧ g.has i.dst.below = true ∧ e = (i.src.below, i.dst.below)) := by
  unfold memStep
  split
  · rename_i h
    simp only [Bool.and_eq_true, Bool.not_eq_true', decide_eq_false_iff_not] at h
    dsimp only
    rw [propagateAll_mem, propagate_mem]
    simp [h.1.1, h.1.2]
  · rename_i h
    simp only [Bool.and_eq_true, Bool.not_eq_true', decide_eq_false_iff_not] at h
    constructor
    · exact .inl
    · rintro (h' | ⟨h1, h2, rfl⟩)
      · exact h'
      · by_cases h3 : (i.src.below, i.dst.below) ∈ s.mem
        · exact h3
        · exact absurd ⟨⟨h1, h2⟩, h3⟩ h

theorem memStep_inv {g : Graph} {s : St} {T : Item → Prop} (hi : Inv g s T) (i : Item) : Inv g (memStep g s i) T := by
  have hg := memStep_grow g s i
  by_cases h : (g.has i.src.below && g.has i.dst.below && !decide ((i.src.below, i.dst.below) ∈ s.mem)) = true
  · have hw : ∀ w, w ∈ (memStep g s i).mem ↔ w ∈ s.mem ∨ w = (i.src.below, i.dst.below) := by
      intro w
      rw [memStep_mem]
      simp only [Bool.and_eq_true] at h
      simp [h.1.1, h.1.2]
    have hno : In (memStep g s i) ⟨i.src.below, i.dst.below, .fromMemNo⟩ := by
      unfold memStep; rw [if_pos h]; dsimp only
      refine In.mono (propagateAll_grow _ _) ?_
      by_cases he : i.src.below = i.dst.below
      · exact .inr he
      · exact .inl (propagate_reach.2 (.inr ⟨rfl, he⟩))
    have hj : ∀ j ∈ s.reach, j.dst = i.src.below → ∀ q, j.st.mem = some q → In (memStep g s i) ⟨j.src, i.dst.below, q⟩ := by
      intro j hj hd q hq
      unfold memStep; rw [if_pos h]; dsimp only
      by_cases he : j.src = i.dst.below
      · exact .inr he
      · refine .inl ((propagateAll_reach _ _).2 (.inr ⟨?_, he⟩))
        rw [List.mem_filterMap]
        exact ⟨j, List.mem_filter.2 ⟨propagate_reach.2 (.inl hj), by simp [hd]⟩, by rw [hq]; rfl⟩
    refine ⟨fun j hr => ?_, fun a b hab => ?_, fun a b hab => ⟨(hi.init a b hab).1.mono hg, (hi.init a b hab).2.mono hg⟩⟩
    · rcases hg.new j hr with h1 | h1
      · rcases hi.done j h1 with h2 | h2 | h2
        · exact .inl h2
        · exact .inr (.inl (hg.next j h2))
        · refine .inr (.inr ⟨fun a b => (hw _).2 (.inl (h2.below a b)), fun q hq z hz => (h2.rev q hq z hz).mono hg,
            fun z hz => (h2.fwd z hz).mono hg, fun q hq z hz => ?_⟩)
          rcases (hw _).1 hz with h3 | h3
          · exact (h2.mem q hq z h3).mono hg
          · simp only [Prod.mk.injEq] at h3
            obtain ⟨h4, rfl⟩ := h3
            exact hj j h1 h4 q hq
      · exact .inr (.inl h1)
    · rcases (hw _).1 hab with h1 | h1
      · exact (hi.mem a b h1).mono hg
      · cases h1; exact hno
  · unfold memStep; rw [if_neg h]; exact hi

theorem walkStep_grow (g : Graph) (s : St) (i : Item) : Grow s (walkStep g s i) := propagateAll_grow _ _

theorem walkStep_mem (g : Graph) (s : St) (i : Item) : (walkStep g s i).mem = s.mem := propagateAll_mem _ _

theorem mem_revItems {g : Graph} {i j : Item} : j ∈ revItems g i ↔
    ∃ q z, i.st.rev = some q ∧ (z, i.dst) ∈ g.edges ∧ j = ⟨i.src, z, q⟩ := by
  unfold revItems
  split
  · rename_i q hq
    simp only [List.mem_map, List.mem_filter, decide_eq_true_eq]
    constructor
    · rintro ⟨⟨a, b⟩, ⟨h, rfl⟩, rfl⟩; exact ⟨q, a, hq, h, rfl⟩
    · rintro ⟨q', z, h', h, rfl⟩
      rw [hq] at h'; cases h'
      exact ⟨(z, i.dst), ⟨h, rfl⟩, rfl⟩
  · rename_i hq
    constructor
    · intro h; cases h
    · rintro ⟨q', z, h', _⟩; rw [hq] at h'; cases h'

theorem mem_fwdItems {g : Graph} {i j : Item} : j ∈ fwdItems g i ↔
    ∃ z, (i.dst, z) ∈ g.edges ∧ j = ⟨i.src, z, i.st.assign⟩ := by
  unfold fwdItems
  simp only [List.mem_map, List.mem_filter, decide_eq_true_eq]
  constructor
  · rintro ⟨⟨a, b⟩, ⟨h, rfl⟩, rfl⟩; exact ⟨b, h, rfl⟩
  · rintro ⟨z, h, rfl⟩; exact ⟨(i.dst, z), ⟨h, rfl⟩, rfl⟩

theorem mem_memItems {m : List (Node × Node)} {i j : Item} : j ∈ memItems m i ↔
    ∃ q z, i.st.mem = some q ∧ (i.dst, z) ∈ m ∧ j = ⟨i.src, z, q⟩ := by
  unfold memItems
  split
  · rename_i q hq
    simp only [List.mem_map, List.mem_filter, decide_eq_true_eq]
    constructor
    · rintro ⟨⟨a, b⟩, ⟨h, rfl⟩, rfl⟩; exact ⟨q, b, hq, h, rfl⟩
    · rintro ⟨q', z, h', h, rfl⟩
      rw [hq] at h'; cases h'
      exact ⟨(i.dst, z), ⟨h, rfl⟩, rfl⟩
  · rename_i hq
    constructor
    · intro h; cases h
    · rintro ⟨q', z, h', _⟩; rw [hq] at h'; cases h'

theorem walkStep_reach (g : Graph) (s : St) (i j : Item) : j ∈ (walkStep g s i).reach ↔ j ∈ s.reach ∨
    (((∃ q z, i.st.rev = some q ∧ (z, i.dst) ∈ g.edges ∧ j = ⟨i.src, z, q⟩) ∨
     (∃ z, (i.dst, z) ∈ g.edges ∧ j = ⟨i.src, z, i.st.assign⟩) ∨
     (∃ q z, i.st.mem = some q ∧ (i.dst, z) ∈ s.mem ∧ j = ⟨i.src, z, q⟩)) ∧ j.src ≠ j.dst) := by
  unfold walkStep
  rw [propagateAll_reach, List.mem_append, List.mem_append, mem_revItems, mem_fwdItems, mem_memItems, or_assoc]

theorem walkStep_done {g : Graph} {s : St} {i : Item}
    (hb : g.has i.src.below = true → g.has i.dst.below = true → (i.src.below, i.dst.below) ∈ s.mem) :
    Done g (walkStep g s i) i := by
  have aux : ∀ j : Item, ((∃ q z, i.st.rev = some q ∧ (z, i.dst) ∈ g.edges ∧ j = ⟨i.src, z, q⟩) ∨
     (∃ z, (i.dst, z) ∈ g.edges ∧ j = ⟨i.src, z, i.st.assign⟩) ∨
     (∃ q z, i.st.mem = some q ∧ (i.dst, z) ∈ s.mem ∧ j = ⟨i.src, z, q⟩)) → In (walkStep g s i) j := by
    intro j hj
    by_cases he : j.src = j.dst
    · exact .inr he
    · exact .inl ((walkStep_reach ..).2 (.inr ⟨hj, he⟩))
  refine ⟨fun a b => ?_, fun q hq z hz => aux _ (.inl ⟨q, z, hq, hz, rfl⟩), fun z hz => aux _ (.inr (.inl ⟨z, hz, rfl⟩)),
    fun q hq z hz => aux _ (.inr (.inr ⟨q, z, hq, ?_, rfl⟩))⟩
  · rw [walkStep_mem]; exact hb a b
  · rw [walkStep_mem] at hz; exact hz

theorem processItem_inv {g : Graph} {s : St} {T T' : Item → Prop} {i : Item} (hi : Inv g s T)
    (hT : ∀ j, T j → j = i ∨ T' j) : Inv g (processItem g s i) T' := by
  unfold processItem
  have h1 := memStep_inv hi i
  have h2 := h1.mono (walkStep_grow g (memStep g s i) i) (walkStep_mem ..)
  refine ⟨fun j hj => ?_, h2.mem, h2.init⟩
  rcases h2.done j hj with h3 | h3 | h3
  · rcases hT j h3 with rfl | h4
    · exact .inr (.inr (walkStep_done fun a b => (memStep_mem ..).2 (.inr ⟨a, b, rfl⟩)))
    · exact .inl h4
  · exact .inr (.inl h3)
  · exact .inr (.inr h3)

theorem process_inv {g : Graph} : ∀ (l : List Item) (s : St), Inv g s (· ∈ l) →
    Inv g (l.foldl (processItem g) s) (fun _ => False)
  | [], s, h => ⟨fun i hi => (h.done i hi).imp (fun h => nomatch h) id, h.mem, h.init⟩
  | i :: l, s, h => by
    rw [List.foldl_cons]
    exact process_inv l _ (processItem_inv h fun j hj => List.mem_cons.1 hj)

theorem loop_inv {g : Graph} {ord : List Item → List Item} (ho : ∀ l i, i ∈ ord l ↔ i ∈ l) :
    ∀ (n : Nat) (s s' : St), Inv g s (fun _ => False) → loop g ord n s = some s' →
      Inv g s' (fun _ => False) ∧ s'.next = []
  | 0, s, s', h, hl => by
    simp only [loop] at hl
    split at hl
    · cases hl; exact ⟨h, by assumption⟩
    · cases hl
  | n + 1, s, s', h, hl => by
    simp only [loop] at hl
    split at hl
    · cases hl; exact ⟨h, by assumption⟩
    · refine loop_inv ho n _ s' (process_inv _ { s with next := [] } ⟨fun i hi => ?_, h.mem, h.init⟩) hl
      rcases h.done i hi with h1 | h1 | h1
      · exact h1.elim
      · exact .inl ((ho _ _).2 h1)
      · exact .inr (.inr ⟨h1.below, h1.rev, h1.fwd, h1.mem⟩)

theorem initWork_reach (g : Graph) (i : Item) : i ∈ (initWork g).reach ↔
    i.src ≠ i.dst ∧ ((i.dst, i.src) ∈ g.edges ∧ i.st = .fromRO ∨ (i.src, i.dst) ∈ g.edges ∧ i.st = .toWO) := by
  obtain ⟨a, b, q⟩ := i
  simp only [initWork, propagateAll_reach, List.mem_flatMap, List.mem_cons, List.not_mem_nil, or_false, Item.mk.injEq]
  constructor
  · rintro (h | ⟨⟨⟨c, d⟩, hm, ⟨rfl, rfl, rfl⟩ | ⟨rfl, rfl, rfl⟩⟩, hne⟩)
    · cases h
    · exact ⟨hne, .inl ⟨hm, rfl⟩⟩
    · exact ⟨hne, .inr ⟨hm, rfl⟩⟩
  · rintro ⟨hne, ⟨h, rfl⟩ | ⟨h, rfl⟩⟩
    · exact .inr ⟨⟨_, h, .inl ⟨rfl, rfl, rfl⟩⟩, hne⟩
    · exact .inr ⟨⟨_, h, .inr ⟨rfl, rfl, rfl⟩⟩, hne⟩

theorem initWork_inv (g : Graph) : Inv g (initWork g) (fun _ => False) := by
  refine ⟨fun i hi => ?_, fun a b hab => ?_, fun a b hab => ?_⟩
  · rcases (propagateAll_grow _ {}).new i hi with h | h
    · cases h
    · exact .inr (.inl h)
  · rw [initWork, propagateAll_mem] at hab; cases hab
  · by_cases h : a = b
    · exact ⟨.inr h.symm, .inr h⟩
    · exact ⟨.inl ((initWork_reach ..).2 ⟨fun e => h e.symm, .inl ⟨hab, rfl⟩⟩), .inl ((initWork_reach ..).2 ⟨h, .inr ⟨hab, rfl⟩⟩)⟩

/-! ## Everything recorded is derivable -/

/-- What the rules of the closure derive, with the states. -/
inductive Der (g : Graph) : Node → Node → MState → Prop
  | back0 {a b} : (a, b) ∈ g.edges → b ≠ a → Der g b a .fromRO
  | fwd0 {a b} : (a, b) ∈ g.edges → a ≠ b → Der g a b .toWO
  | fwd {x y z p} : Der g x y p → (y, z) ∈ g.edges → x ≠ z → Der g x z p.assign
  | rev {x y z p q} : Der g x y p → p.rev = some q → (z, y) ∈ g.edges → x ≠ z → Der g x z q
  | mem0 {u v p} : Der g u v p → g.has u.below = true → g.has v.below = true → u.below ≠ v.below →
      Der g u.below v.below .fromMemNo
  | mem {x u v p q r} : Der g x u.below p → p.mem = some q → Der g u v r → g.has u.below = true →
      g.has v.below = true → x ≠ v.below → Der g x v.below q

/-- Everything in the sets is derivable. -/
structure SInv (g : Graph) (s : St) : Prop where
  reach : ∀ i ∈ s.reach, Der g i.src i.dst i.st
  next : ∀ i ∈ s.next, i ∈ s.reach
  mem : ∀ a b, (a, b) ∈ s.mem → ∃ u v p, Der g u v p ∧ a = u.below ∧ b = v.below ∧ g.has a = true ∧ g.has b = true

theorem propagate_sinv {g : Graph} {s : St} {i : Item} (h : SInv g s) (hi : i.src ≠ i.dst → Der g i.src i.dst i.st) :
    SInv g (propagate s i) := by
  refine ⟨fun j hj => ?_, fun j hj => ?_, fun a b hab => h.mem a b (by rw [propagate_mem] at hab; exact hab)⟩
  · rcases propagate_reach.1 hj with h1 | ⟨rfl, h1⟩
    · exact h.reach j h1
    · exact hi h1
  · unfold propagate at hj ⊢
    split at hj
    · rename_i h1; rw [if_pos h1]; exact h.next j hj
    · rename_i h1; rw [if_neg h1]
      split at hj
      · rename_i h2; rw [if_pos h2]; exact h.next j hj
      · rename_i h2; rw [if_neg h2]
        simp only [List.mem_append] at hj ⊢
        exact hj.imp (h.next j) id

theorem propagateAll_sinv {g : Graph} {s : St} {l : List Item} (h : SInv g s)
    (hl : ∀ i ∈ l, i.src ≠ i.dst → Der g i.src i.dst i.st) : SInv g (propagateAll s l) :=
  propagateAll_ind (P := SInv g) l (fun _ i hi hs => propagate_sinv hs (hl i hi)) s h

theorem memStep_sinv {g : Graph} {s : St} {i : Item} (h : SInv g s) (hi : i ∈ s.reach) : SInv g (memStep g s i) := by
  unfold memStep
  split
  · rename_i hc
    simp only [Bool.and_eq_true] at hc
    dsimp only
    have h1 : SInv g { s with mem := s.mem ++ [(i.src.below, i.dst.below)] } := by
      refine ⟨h.reach, h.next, fun a b hab => ?_⟩
      rcases List.mem_append.1 hab with h1 | h1
      · exact h.mem a b h1
      · rw [List.mem_singleton] at h1
        simp only [Prod.mk.injEq] at h1
        obtain ⟨rfl, rfl⟩ := h1
        exact ⟨_, _, _, h.reach i hi, rfl, rfl, hc.1.1, hc.1.2⟩
    have h2 := propagate_sinv (i := ⟨i.src.below, i.dst.below, .fromMemNo⟩) h1
      (fun hne => .mem0 (h.reach i hi) hc.1.1 hc.1.2 hne)
    refine propagateAll_sinv h2 fun j hj hne => ?_
    rw [List.mem_filterMap] at hj
    obtain ⟨k, hk, hkj⟩ := hj
    rw [List.mem_filter] at hk
    obtain ⟨hk1, hk2⟩ := hk
    simp only [decide_eq_true_eq] at hk2
    cases hq : k.st.mem with
    | none => rw [hq] at hkj; cases hkj
    | some q =>
      rw [hq] at hkj
      cases hkj
      have := h2.reach k hk1
      rw [hk2] at this
      exact .mem this hq (h.reach i hi) hc.1.1 hc.1.2 hne
  · exact h

theorem walkStep_sinv {g : Graph} {s : St} {i : Item} (h : SInv g s) (hi : i ∈ s.reach) : SInv g (walkStep g s i) := by
  have hd := h.reach i hi
  refine propagateAll_sinv h fun j hj hne => ?_
  rw [List.mem_append, List.mem_append, mem_revItems, mem_fwdItems, mem_memItems] at hj
  rcases hj with (⟨q, z, hq, hz, rfl⟩ | ⟨z, hz, rfl⟩) | ⟨q, z, hq, hz, rfl⟩
  · exact .rev hd hq hz hne
  · exact .fwd hd hz hne
  · obtain ⟨u, v, r, hr, ha, rfl, hha, hhb⟩ := h.mem _ _ hz
    rw [ha] at hd hha
    exact .mem hd hq hr hha hhb hne

theorem memStep_reach_mono {g : Graph} {s : St} {i j : Item} (h : j ∈ s.reach) : j ∈ (memStep g s i).reach :=
  (memStep_grow g s i).reach j h

theorem processItem_sinv {g : Graph} {s : St} {i : Item} (h : SInv g s) (hi : i ∈ s.reach) : SInv g (processItem g s i) :=
  walkStep_sinv (memStep_sinv h hi) (memStep_reach_mono hi)

theorem processItem_grow (g : Graph) (s : St) (i : Item) : Grow s (processItem g s i) :=
  (memStep_grow g s i).trans (walkStep_grow g _ i)

theorem process_sinv {g : Graph} : ∀ (l : List Item) (s : St), SInv g s → (∀ i ∈ l, i ∈ s.reach) →
    SInv g (l.foldl (processItem g) s)
  | [], _, h, _ => h
  | i :: l, s, h, hl => by
    rw [List.foldl_cons]
    exact process_sinv l _ (processItem_sinv h (hl i (List.mem_cons_self ..)))
      (fun j hj => (processItem_grow g s i).reach j (hl j (List.mem_cons_of_mem _ hj)))

theorem loop_sinv {g : Graph} {ord : List Item → List Item} (ho : ∀ l i, i ∈ ord l ↔ i ∈ l) :
    ∀ (n : Nat) (s s' : St), SInv g s → loop g ord n s = some s' → SInv g s'
  | 0, s, s', h, hl => by
    simp only [loop] at hl
    split at hl
    · cases hl; exact h
    · cases hl
  | n + 1, s, s', h, hl => by
    simp only [loop] at hl
    split at hl
    · cases hl; exact h
    · refine loop_sinv ho n _ s' (process_sinv _ { s with next := [] } ⟨h.reach, fun _ h' => (List.not_mem_nil h').elim, h.mem⟩ ?_) hl
      intro i hi
      exact h.next i ((ho _ _).1 hi)

theorem initWork_sinv (g : Graph) : SInv g (initWork g) := by
  refine propagateAll_sinv ⟨fun _ h => (List.not_mem_nil h).elim, fun _ h => (List.not_mem_nil h).elim,
    fun _ _ h => (List.not_mem_nil h).elim⟩ fun i hi hne => ?_
  simp only [List.mem_flatMap, List.mem_cons, List.not_mem_nil, or_false] at hi
  obtain ⟨⟨a, b⟩, hm, rfl | rfl⟩ := hi
  · exact .back0 hm hne
  · exact .fwd0 hm hne

/-- What the analysis records, whatever the order of the work: exactly what the rules derive. -/
theorem loop_reach {g : Graph} {ord : List Item → List Item} (ho : ∀ l i, i ∈ ord l ↔ i ∈ l) {n : Nat} {s : St}
    (h : loop g ord n (initWork g) = some s) (x y : Node) (q : MState) : ⟨x, y, q⟩ ∈ s.reach ↔ Der g x y q := by
  have hs := loop_sinv ho n _ _ (initWork_sinv g) h
  obtain ⟨hi, hn⟩ := loop_inv ho n _ _ (initWork_inv g) h
  have hd : ∀ i ∈ s.reach, Done g s i := by
    intro i hr
    rcases hi.done i hr with h1 | h1 | h1
    · exact h1.elim
    · rw [hn] at h1; cases h1
    · exact h1
  constructor
  · exact fun h => hs.reach _ h
  · intro h
    induction h with
    | back0 he hne => exact (hi.init _ _ he).1.resolve_right hne
    | fwd0 he hne => exact (hi.init _ _ he).2.resolve_right hne
    | fwd _ he hne ih => exact ((hd _ ih).fwd _ he).resolve_right hne
    | rev _ hq he hne ih => exact ((hd _ ih).rev _ hq _ he).resolve_right hne
    | mem0 _ h1 h2 hne ih => exact (hi.mem _ _ ((hd _ ih).below h1 h2)).resolve_right hne
    | mem _ hq _ h1 h2 hne ih ih' => exact ((hd _ ih).mem _ hq _ ((hd _ ih').below h1 h2)).resolve_right hne

/-! ## The work ends -/

/-- The sets grow by the items that wait. -/
def App (s s' : St) : Prop := ∃ A, s'.reach = s.reach ++ A ∧ s'.next = s.next ++ A

theorem App.trans {a b c : St} : App a b → App b c → App a c
  | ⟨A, h1, h2⟩, ⟨B, h3, h4⟩ => ⟨A ++ B, by rw [h3, h1, List.append_assoc], by rw [h4, h2, List.append_assoc]⟩

theorem App.refl (s : St) : App s s := ⟨[], by simp, by simp⟩

theorem propagate_app (s : St) (i : Item) : App s (propagate s i) := by
  unfold propagate
  split
  · exact .refl s
  · split
    · exact .refl s
    · exact ⟨[i], rfl, rfl⟩

theorem propagateAll_app (l : List Item) (s : St) : App s (propagateAll s l) :=
  propagateAll_ind (P := fun s' => App s s') l (fun _ i _ h => h.trans (propagate_app _ i)) s (.refl s)

theorem processItem_app (g : Graph) (s : St) (i : Item) : App s (processItem g s i) := by
  refine App.trans ?_ (propagateAll_app _ _)
  unfold memStep
  split
  · dsimp only
    have h1 : App s { s with mem := s.mem ++ [(i.src.below, i.dst.below)] } := ⟨[], by simp, by simp⟩
    exact (h1.trans (propagate_app _ _)).trans (propagateAll_app _ _)
  · exact .refl s

theorem process_app (g : Graph) : ∀ (l : List Item) (s : St), App s (l.foldl (processItem g) s)
  | [], s => .refl s
  | i :: l, s => by rw [List.foldl_cons]; exact (processItem_app g s i).trans (process_app g l _)

theorem propagate_nodup {s : St} (i : Item) (h : s.reach.Nodup) : (propagate s i).reach.Nodup := by
  unfold propagate
  split
  · exact h
  · split
    · exact h
    · rename_i hi
      dsimp only
      rw [List.nodup_append]
      exact ⟨h, by simp, fun a ha b hb => by rw [List.mem_singleton] at hb; subst hb; rintro rfl; exact hi ha⟩

theorem propagateAll_nodup {s : St} (l : List Item) (h : s.reach.Nodup) : (propagateAll s l).reach.Nodup :=
  propagateAll_ind (P := fun s => s.reach.Nodup) l (fun _ i _ h => propagate_nodup i h) s h

theorem processItem_nodup (g : Graph) {s : St} (i : Item) (h : s.reach.Nodup) : (processItem g s i).reach.Nodup := by
  refine propagateAll_nodup _ ?_
  unfold memStep
  split
  · exact propagateAll_nodup _ (propagate_nodup _ h)
  · exact h

theorem process_nodup (g : Graph) : ∀ (l : List Item) (s : St), s.reach.Nodup → (l.foldl (processItem g) s).reach.Nodup
  | [], _, h => h
  | i :: l, s, h => by rw [List.foldl_cons]; exact process_nodup g l _ (processItem_nodup g i h)

theorem foldl_levels (v : Nat) : ∀ (l : List (Node × Attr)) (n : Nat),
    l.foldl (fun n e => if e.1.val = v then max n (e.1.lvl + 1) else n) n = n ∨ v ∈ l.map (·.1.val)
  | [], n => .inl rfl
  | e :: l, n => by
    rw [List.foldl_cons]
    by_cases h : e.1.val = v
    · right; simp [h]
    · rw [if_neg h]
      exact (foldl_levels v l n).imp id (fun h => by simp only [List.map_cons, List.mem_cons]; exact .inr h)

theorem mem_nodes {g : Graph} {n : Node} : n ∈ g.nodes ↔ g.has n = true := by
  simp only [Graph.nodes, List.mem_flatMap, List.mem_eraseDups, List.mem_map, List.mem_range, Graph.has, decide_eq_true_eq]
  constructor
  · rintro ⟨v, _, l, hl, rfl⟩; exact hl
  · intro h
    refine ⟨n.val, ?_, n.lvl, h, rfl⟩
    rcases foldl_levels n.val g.log 0 with h1 | h1
    · rw [Graph.levels, h1] at h; omega
    · rw [List.mem_map] at h1; exact h1

/-- The nodes the closure can speak about. -/
def Graph.univ (g : Graph) : List Node := g.nodes ++ g.edges.flatMap fun e => [e.1, e.2]

theorem edge_univ {g : Graph} {a b : Node} (h : (a, b) ∈ g.edges) : a ∈ g.univ ∧ b ∈ g.univ := by
  simp only [Graph.univ, List.mem_append, List.mem_flatMap]
  exact ⟨.inr ⟨_, h, by simp⟩, .inr ⟨_, h, by simp⟩⟩

theorem has_univ {g : Graph} {a : Node} (h : g.has a = true) : a ∈ g.univ := List.mem_append_left _ (mem_nodes.2 h)

theorem Der.univ {g : Graph} {x y : Node} {q : MState} (h : Der g x y q) : x ∈ g.univ ∧ y ∈ g.univ := by
  induction h with
  | back0 h _ => exact (edge_univ h).symm
  | fwd0 h _ => exact edge_univ h
  | fwd _ h _ ih => exact ⟨ih.1, (edge_univ h).2⟩
  | rev _ _ h _ ih => exact ⟨ih.1, (edge_univ h).1⟩
  | mem0 _ h1 h2 _ _ => exact ⟨has_univ h1, has_univ h2⟩
  | mem _ _ _ _ h2 _ ih _ => exact ⟨ih.1, has_univ h2⟩

/-- All items. -/
def Graph.items (g : Graph) : List Item :=
  g.univ.flatMap fun x => g.univ.flatMap fun y =>
    [.fromRO, .fromMemNo, .fromMemRO, .toWO, .toRW, .toMemWO, .toMemRW].map fun q => ⟨x, y, q⟩

theorem Der.items {g : Graph} {x y : Node} {q : MState} (h : Der g x y q) : (⟨x, y, q⟩ : Item) ∈ g.items := by
  simp only [Graph.items, List.mem_flatMap, List.mem_map]
  exact ⟨x, h.univ.1, y, h.univ.2, q, by cases q <;> simp, rfl⟩

theorem loop_total {g : Graph} {ord : List Item → List Item} (ho : ∀ l i, i ∈ ord l ↔ i ∈ l) :
    ∀ (n : Nat) (s : St), SInv g s → s.reach.Nodup → (s.next = [] ∨ g.items.length + 1 ≤ s.reach.length + n) →
      (loop g ord n s).isSome = true
  | 0, s, h, hd, hn => by
    have : s.reach.length ≤ g.items.length := CG.nodup_len hd fun i hi => (h.reach i hi).items
    simp only [loop]
    rw [if_pos (hn.resolve_right (by omega))]; rfl
  | n + 1, s, h, hd, hn => by
    simp only [loop]
    split
    · rfl
    · rename_i hne
      have hs : SInv g { s with next := [] } := ⟨h.reach, fun _ h' => (List.not_mem_nil h').elim, h.mem⟩
      refine loop_total ho n _ (process_sinv _ _ hs fun i hi => h.next i ((ho _ _).1 hi)) (process_nodup g _ _ hd) ?_
      obtain ⟨A, h1, h2⟩ := process_app g (ord s.next) { s with next := [] }
      rw [h1, h2]
      cases A with
      | nil => exact .inl rfl
      | cons a A =>
        right
        have := hn.resolve_left hne
        simp only [List.length_append, List.length_cons]; omega

end Phasar.CFLAnders
