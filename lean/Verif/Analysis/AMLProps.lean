import Verif.Analysis.AMLLemmas

/-
C65: the facts of the extended taint analysis
(lib/PhasarLLVM/DataFlow/IfdsIde/Problems/ExtendedTaintAnalysis/AbstractMemoryLocation.cpp,
 lib/PhasarLLVM/DataFlow/IfdsIde/Problems/ExtendedTaintAnalysis/AbstractMemoryLocationFactory.cpp,
 lib/PhasarLLVM/DataFlow/IfdsIde/Problems/IDEExtendedTaintAnalysis.cpp).
-/

namespace Phasar.AML

/-- Values of a small module: `s` (0), `&s.f` (1), `q` (2), `*q` (3), `**q`
    (4), a parameter (5), `&s[i]` (6), `s.f` (7), `**(q+8)` (8, with 9 to 11),
    `s[0]` (12), `&q->f` (13). -/
def exProg : Nat → IR
  | 1 => .gep 1 (.self 0) (some 4)
  | 3 => .load 3 (.self 2)
  | 4 => .load 4 (.load 3 (.self 2))
  | 6 => .gep 6 (.self 0) none
  | 7 => .load 7 (.gep 1 (.self 0) (some 4))
  | 8 => .load 8 (.cast 9 (.load 10 (.gep 11 (.self 2) (some 8))))
  | 9 => .cast 9 (.load 10 (.gep 11 (.self 2) (some 8)))
  | 10 => .load 10 (.gep 11 (.self 2) (some 8))
  | 11 => .gep 11 (.self 2) (some 8)
  | 12 => .load 12 (.self 0)
  | 13 => .gep 13 (.load 3 (.self 2)) (some 8)
  | i => .self i

theorem C65.exProg_id : ∀ i, (exProg i).id = i := by
  intro i; unfold exProg; split <;> rfl

/-- The factory after `s`, `&s.f`, `q` and `**(q+8)` were created. -/
def exFac : Fac :=
  ⟨[⟨0, [0], 2⟩, ⟨0, [4], 2⟩, ⟨2, [0], 2⟩, ⟨2, [8, 0, 0], 0⟩],
   [(8, ⟨2, [8, 0, 0], 0⟩), (2, ⟨2, [0], 2⟩), (1, ⟨0, [4], 2⟩), (0, ⟨0, [0], 2⟩)]⟩

theorem C65.exFac_reached : Reached exProg 3 exFac := by
  refine .step (op := .create 8) (l := ⟨2, [8, 0, 0], 0⟩) (.step (op := .create 2) (l := ⟨2, [0], 2⟩)
    (.step (op := .create 1) (l := ⟨0, [4], 2⟩) (.step (op := .create 0) (l := ⟨0, [0], 2⟩)
      .empty (fun _ h => (nomatch h)) rfl) (fun _ h => (nomatch h)) rfl)
      (fun _ h => (nomatch h)) rfl) (fun _ h => (nomatch h)) ?_
  decide +kernel

/-- Factories that calls lead to, from a given one. -/
inductive C65.Later (prog : Nat → IR) (bound : Nat) (F : Fac) : Fac → Prop where
  | refl : C65.Later prog bound F F
  | step {G H : Fac} {op : Op} {l : Loc} :
      C65.Later prog bound F G → (∀ a ∈ op.args, a ∈ G.pool) →
      exec prog bound G op = some (l, H) → C65.Later prog bound F H

theorem C65.Later.spec {prog B F G} (hid : ∀ i, (prog i).id = i) (hI : Inv prog B F)
    (h : C65.Later prog B F G) : Ext F G ∧ Inv prog B G := by
  induction h with
  | refl => exact ⟨.refl F, hI⟩
  | step _ ha he ih =>
    obtain ⟨l, F', h1, h2, _, h4⟩ := exec_ok hid ih.2 _ ha
    rw [he] at h1
    cases h1
    exact ⟨ih.1.trans h4, h2⟩

/-! ### The pool -/

/-- Every call of the factory with locations of its pool has an outcome: no
    assertion fails, no empty sequence has its last element changed, no
    unsigned difference is below zero.  The location returned is in the pool,
    and locations handed out before stay where they are. -/
theorem C65_defined (prog : Nat → IR) (B : Nat) (F : Fac) (op : Op)
    (hid : ∀ i, (prog i).id = i) (hF : Reached prog B F) (ha : ∀ a ∈ op.args, a ∈ F.pool) :
    ∃ l F', exec prog B F op = some (l, F') ∧ l ∈ F'.pool ∧ F.pool <+: F'.pool := by
  obtain ⟨l, F', h1, _, h3, h4⟩ := exec_ok hid (hF.inv hid) op ha
  exact ⟨l, F', h1, h3, h4.pool⟩

example : ∃ l F', exec exProg 3 exFac (.indirection ⟨2, [0], 2⟩ [4, 0, 8]) = some (l, F') ∧
    l = ⟨2, [0, 4, 0], 0⟩ ∧ F'.pool.length = 5 := by
  refine ⟨_, _, rfl, ?_, ?_⟩ <;> decide +kernel

/-- Locations are canonical: two nodes of the pool with the same base and the
    same offsets, both exact or both over-approximations, are one node.  So
    comparing pointers (AbstractMemoryLocation.h:177-179) is comparing these. -/
theorem C65_canonical (prog : Nat → IR) (B : Nat) (F : Fac)
    (hid : ∀ i, (prog i).id = i) (hF : Reached prog B F) (i j : Nat) (a b : Loc)
    (hi : F.pool[i]? = some a) (hj : F.pool[j]? = some b)
    (hbase : a.base = b.base) (hoffs : a.offs = b.offs) (hover : a.isOver = b.isOver) :
    i = j := by
  have hc := (hF.inv hid).canon
  have hs : Same a b := ⟨hbase, hoffs, by
    have h1 : (a.life == 0) = (b.life == 0) := hover
    have h2 := beq_iff_eq (a := a.life) (b := 0)
    have h3 := beq_iff_eq (a := b.life) (b := 0)
    rw [← h2, ← h3, h1]⟩
  have hs' : Same b a := ⟨hs.1.symm, hs.2.1.symm, hs.2.2.symm⟩
  rw [List.pairwise_iff_getElem] at hc
  obtain ⟨hi1, hi2⟩ := List.getElem?_eq_some_iff.1 hi
  obtain ⟨hj1, hj2⟩ := List.getElem?_eq_some_iff.1 hj
  rcases Nat.lt_trichotomy i j with h | h | h
  · exact (hc i j hi1 hj1 h (by rw [hi2, hj2]; exact hs)).elim
  · exact h
  · exact (hc j i hj1 hi1 h (by rw [hi2, hj2]; exact hs')).elim

example : exFac.pool[1]? = some ⟨0, [4], 2⟩ := rfl

/-- No location is longer than the bound, whatever is called in whatever
    order; offsets and remaining lifetime together stay within it. -/
theorem C65_bounded (prog : Nat → IR) (B : Nat) (F : Fac)
    (hid : ∀ i, (prog i).id = i) (hF : Reached prog B F) (l : Loc) (hl : l ∈ F.pool) :
    l.offs.length + l.life ≤ max B 1 ∧ (l.life ≠ 0 → l.offs ≠ []) :=
  (hF.inv hid).wf l hl

example : (⟨2, [8, 0, 0], 0⟩ : Loc) ∈ exFac.pool ∧ (⟨0, [4], 2⟩ : Loc) ∈ exFac.pool := by
  decide +kernel

/-- A call made again, after any other calls, returns the same location and
    changes nothing. -/
theorem C65_repeat (prog : Nat → IR) (B : Nat) (F F1 F2 : Fac) (op : Op) (l : Loc)
    (hid : ∀ i, (prog i).id = i) (hF : Reached prog B F) (ha : ∀ a ∈ op.args, a ∈ F.pool)
    (h : exec prog B F op = some (l, F1)) (hlater : C65.Later prog B F1 F2) :
    exec prog B F2 op = some (l, F2) := by
  have hI := hF.inv hid
  obtain ⟨l', F', h1, h2, _⟩ := exec_ok hid hI op ha
  have h' := h
  rw [h1] at h'
  cases h'
  exact exec_again hid hI ha h (hlater.spec hid h2).1

example : ∃ F1 F2, exec exProg 3 exFac (.create 4) = some (⟨2, [0, 0, 0], 0⟩, F1) ∧
    C65.Later exProg 3 F1 F2 ∧ F2.pool.length = 6 :=
  ⟨⟨exFac.pool ++ [⟨2, [0, 0, 0], 0⟩], (4, ⟨2, [0, 0, 0], 0⟩) :: exFac.cache⟩,
    ⟨exFac.pool ++ [⟨2, [0, 0, 0], 0⟩, ⟨0, [12], 2⟩], (4, ⟨2, [0, 0, 0], 0⟩) :: exFac.cache⟩,
    by decide +kernel, .step (op := .offset ⟨0, [4], 2⟩ (some 8)) (l := ⟨0, [12], 2⟩) .refl
    (by decide +kernel) (by decide +kernel), by decide +kernel⟩

/-! ### What a location stands for -/

/-- The path of an instruction leads to its value, in every run. -/
theorem C65_path (ρ : Nat → Int) (m : Int → Int) (dyn : Nat → Int) (v : IR) :
    den ρ m (v.path dyn) = v.val ρ m dyn :=
  den_path ρ m dyn v

example : (exProg 8).path (fun _ => 0) = ⟨2, [8, 0, 0]⟩ := by decide +kernel

/-- The location created for a value stands for the value in every run; if it
    says it is exact its offsets lead to the value.  If the offsets are known
    before the run the location has the first of them, as many as the bound
    allows, and is exact as long as there is room for one more. -/
theorem C65_create (prog : Nat → IR) (B : Nat) (F F' : Fac) (i : Nat) (l : Loc)
    (hid : ∀ i, (prog i).id = i) (hF : Reached prog B F)
    (h : create F B (prog i) = some (l, F')) :
    (∀ dyn, standsFor l ((prog i).path dyn)) ∧
    (l.isOver = false → ∀ ρ m dyn, den ρ m ⟨l.base, l.offs⟩ = (prog i).val ρ m dyn) ∧
    ((prog i).known = true → 0 < B → ∀ dyn,
      l.offs = ((prog i).path dyn).offs.take B ∧
      (l.isOver = true ↔ B ≤ ((prog i).path dyn).offs.length)) := by
  obtain ⟨l', F1, h1, h2, _, _, h5⟩ := create_ok hid (hF.inv hid) i
  rw [h] at h1
  cases h1
  obtain ⟨_, h6, h7⟩ := h2.cache i l h5
  refine ⟨fun dyn => (h6 dyn).1, ?_, ?_⟩
  · intro hov ρ m dyn
    have hne : l.life ≠ 0 := by
      intro c; simp [Loc.isOver, c] at hov
    rw [← den_path, (h6 dyn).2 hne, (h6 dyn).1.1]
  · intro hk hB dyn
    obtain ⟨h8, h9⟩ := h7 dyn hk hB
    refine ⟨h8, ?_⟩
    rw [← h9]
    simp [Loc.isOver]

example : ∃ F', create exFac 3 (exProg 7) = some (⟨0, [4, 0], 1⟩, F') ∧
    (exProg 7).known = true ∧ (exProg 6).known = false := ⟨_, rfl, rfl, rfl⟩

/-- Pointer arithmetic: a constant offset is added to the last one and nothing
    is lost; an offset that is not known makes an over-approximation that
    stands for all of them. -/
theorem C65_offset (F F' : Fac) (l l' : Loc) (p : Path)
    (hl : l.life ≠ 0 → l.offs ≠ []) (hc : covers l p) :
    (∀ k, withOffset F l (some k) = some (l', F') →
      covers l' ⟨p.base, addLast p.offs k⟩ ∧ l'.isOver = l.isOver ∧
      (l.isOver = false → l'.offs = addLast l.offs k)) ∧
    (withOffset F l none = some (l', F') →
      l'.isOver = true ∧ ∀ k, standsFor l' ⟨p.base, addLast p.offs k⟩) := by
  refine ⟨fun k h => ?_, fun h => ?_⟩
  · by_cases hz : l.life = 0
    · rw [withOffset, if_pos hz] at h
      cases h
      refine ⟨⟨⟨hc.1.1, ?_⟩, fun c => (c hz).elim⟩, rfl, fun c => ?_⟩
      · show l.offs.dropLast <+: (addLast p.offs k).dropLast
        rw [addLast_dropLast]
        exact hc.1.2
      · simp [Loc.isOver, hz] at c
    · simp only [withOffset, if_neg hz, addBack_eq (hl hz)] at h
      have hs := getOrCreate_some h
      have e := hc.2 hz
      have hlife : l'.life ≠ 0 := fun c => hz (hs.2.2.1 c)
      refine ⟨hs.covers ⟨⟨hc.1.1, ?_⟩, fun _ => by rw [e]⟩, by rw [Loc.isOver, Loc.isOver, beq_eq_false_iff_ne.2 hlife, beq_eq_false_iff_ne.2 hz],
        fun _ => hs.2.1⟩
      show (addLast l.offs k).dropLast <+: (addLast p.offs k).dropLast
      rw [e]
      exact List.prefix_refl _
  · by_cases hz : l.life = 0
    · rw [withOffset, if_pos hz] at h
      cases h
      refine ⟨by simp [Loc.isOver, hz], fun k => ⟨hc.1.1, ?_⟩⟩
      show l.offs.dropLast <+: (addLast p.offs k).dropLast
      rw [addLast_dropLast]
      exact hc.1.2
    · simp only [withOffset, if_neg hz, limit] at h
      have hs := getOrCreate_some h
      refine ⟨by simp [Loc.isOver, hs.2.2.2 rfl], fun k => hs.standsFor ⟨hc.1.1, ?_⟩⟩
      show l.offs.dropLast.dropLast <+: (addLast p.offs k).dropLast
      rw [addLast_dropLast]
      exact (List.dropLast_prefix _).trans hc.1.2

example : covers ⟨0, [4, 0], 1⟩ ⟨0, [4, 0]⟩ ∧
    withOffset exFac ⟨0, [4, 0], 1⟩ (some 8) =
      some (⟨0, [4, 8], 1⟩, { exFac with pool := exFac.pool ++ [⟨0, [4, 8], 1⟩] }) :=
  ⟨⟨⟨rfl, List.prefix_refl _⟩, fun _ => rfl⟩, by decide +kernel⟩

/-- An indirection: the offsets are appended, as many as the lifetime allows;
    the result stands for the whole path, and is exact if there is room for one
    more. -/
theorem C65_indirection (F F' : Fac) (l l' : Loc) (p : Path) (ind : List Int)
    (hl : l.life ≠ 0 → l.offs ≠ []) (hc : covers l p) (hind : ind ≠ [])
    (h : withIndirection F l ind = some (l', F')) :
    covers l' ⟨p.base, p.offs ++ ind⟩ ∧ (l'.isOver = true ↔ l.life ≤ ind.length) ∧
    (l.isOver = false → l'.offs = (p.offs ++ ind).take (p.offs.length + l.life)) := by
  by_cases hz : l.life = 0
  · rw [withIndirection, if_pos hz] at h
    cases h
    refine ⟨⟨⟨hc.1.1, ?_⟩, fun c => (c hz).elim⟩, by simp [Loc.isOver, hz], fun c => ?_⟩
    · exact hc.1.2.trans ((List.dropLast_prefix _).trans (prefix_dropLast_append _ hind))
    · simp [Loc.isOver, hz] at c
  · obtain ⟨o, life, h1, h2, h3, h4⟩ :=
      indirection_plan (ind := ind) (B := l.offs.length + l.life) ⟨by omega, hl⟩ hz
    rw [if_neg hind] at h3 h4
    rw [h1 F] at h
    have hs := getOrCreate_some h
    have e := hc.2 hz
    have hlife : l'.life = 0 ↔ l.life ≤ ind.length := by
      rw [hs.2.2]; show life = 0 ↔ _; omega
    refine ⟨hs.covers ⟨⟨hc.1.1, ?_⟩, ?_⟩, ?_, fun _ => ?_⟩
    · show o.dropLast <+: (p.offs ++ ind).dropLast
      rw [h3, e]
      exact dropLast_prefix (List.take_prefix _ _)
    · intro hne
      have hne' : life ≠ 0 := hne
      show o = p.offs ++ ind
      rw [h3, e, List.take_of_length_le]
      simp only [List.length_append]
      omega
    · rw [← hlife]; simp [Loc.isOver]
    · rw [hs.2.1]
      show o = _
      rw [h3, e]

/-- Without offsets an indirection appends a zero. -/
theorem C65_indirection_none (F F' : Fac) (l l' : Loc) (p : Path)
    (hl : l.life ≠ 0 → l.offs ≠ []) (hc : covers l p)
    (h : withIndirection F l [] = some (l', F')) :
    covers l' ⟨p.base, p.offs ++ [0]⟩ ∧ (l'.isOver = true ↔ l.life ≤ 1) := by
  have h' : withIndirection F l [0] = some (l', F') := by
    rw [← h]
    unfold withIndirection
    by_cases hz : l.life = 0
    · simp [hz]
    · have : ¬ l.life < 1 := by omega
      simp [hz]
  have := C65_indirection F F' l l' p [0] hl hc (by simp) h'
  exact ⟨this.1, this.2.1⟩

example : withIndirection exFac ⟨2, [0], 2⟩ [4] =
    some (⟨2, [0, 4], 1⟩, { exFac with pool := exFac.pool ++ [⟨2, [0, 4], 1⟩] }) ∧
    covers ⟨2, [0], 2⟩ ⟨2, [0]⟩ :=
  ⟨by decide +kernel, ⟨rfl, List.prefix_refl _⟩, fun _ => rfl⟩

/-- Offsets relative to a location: the first is added to its last offset, the
    others are appended as for an indirection. -/
theorem C65_offsets (F F' : Fac) (l l' : Loc) (p : Path) (k : Int) (r : List Int)
    (hl : l.life ≠ 0 → l.offs ≠ []) (hc : covers l p)
    (h : withOffsets F l (k :: r) = some (l', F')) :
    covers l' ⟨p.base, addLast p.offs k ++ r⟩ ∧ (l'.isOver = true ↔ l.life ≤ r.length) ∧
    (l.isOver = false → l'.offs = (addLast p.offs k ++ r).take (p.offs.length + l.life)) := by
  by_cases hz : l.life = 0
  · simp only [withOffsets, if_pos hz] at h
    cases h
    refine ⟨⟨⟨hc.1.1, ?_⟩, fun c => (c hz).elim⟩, by simp [Loc.isOver, hz], fun c => ?_⟩
    · show l.offs.dropLast <+: (addLast p.offs k ++ r).dropLast
      have h1 := dropLast_prefix (List.prefix_append (addLast p.offs k) r)
      rw [addLast_dropLast] at h1
      exact hc.1.2.trans h1
    · simp [Loc.isOver, hz] at c
  · obtain ⟨o, life, h1, h2, h3, h4⟩ :=
      offsets_plan (k := k) (r := r) (B := l.offs.length + l.life) ⟨by omega, hl⟩ hz
    rw [h1 F] at h
    have hs := getOrCreate_some h
    have e := hc.2 hz
    have hlife : l'.life = 0 ↔ l.life ≤ r.length := by
      rw [hs.2.2]; show life = 0 ↔ _; omega
    refine ⟨hs.covers ⟨⟨hc.1.1, ?_⟩, ?_⟩, ?_, fun _ => ?_⟩
    · show o.dropLast <+: (addLast p.offs k ++ r).dropLast
      rw [h3, e]
      exact dropLast_prefix (List.take_prefix _ _)
    · intro hne
      have hne' : life ≠ 0 := hne
      show o = addLast p.offs k ++ r
      rw [h3, e, List.take_of_length_le]
      simp only [List.length_append, addLast_length]
      omega
    · rw [← hlife]; simp [Loc.isOver]
    · rw [hs.2.1]
      show o = _
      rw [h3, e]

example : withOffsets exFac ⟨0, [4], 2⟩ [8, 0] =
    some (⟨0, [12, 0], 1⟩, { exFac with pool := exFac.pool ++ [⟨0, [12, 0], 1⟩] }) := by
  decide +kernel

/-! ### Comparing locations -/

/-- `equivalent`: the same base, and the offsets of one begin those of the
    other. -/
theorem C65_equivalent (a b : Loc) :
    equiv a b = true ↔ a.base = b.base ∧ (a.offs <+: b.offs ∨ b.offs <+: a.offs) := by
  unfold equiv equivOffs
  by_cases hb : a.base = b.base
  · rw [if_neg (by simpa using hb)]
    simp only [hb, true_and, beq_iff_eq]
    rcases Nat.le_total a.offs.length b.offs.length with h | h
    · rw [Nat.min_eq_left h, List.take_of_length_le (Nat.le_refl _)]
      constructor
      · intro e; left; rw [e]; exact List.take_prefix _ _
      · rintro (e | e)
        · exact List.prefix_iff_eq_take.1 e
        · have := e.eq_of_length (Nat.le_antisymm e.length_le h)
          rw [this, List.take_of_length_le (Nat.le_refl _)]
    · rw [Nat.min_eq_right h, List.take_of_length_le (l := b.offs) (Nat.le_refl _)]
      constructor
      · intro e; right; rw [← e]; exact List.take_prefix _ _
      · rintro (e | e)
        · have := e.eq_of_length (Nat.le_antisymm e.length_le h)
          rw [this, List.take_of_length_le (Nat.le_refl _)]
        · exact (List.prefix_iff_eq_take.1 e).symm
  · rw [if_pos hb]; simp [hb]

example : equiv ⟨0, [4, 0], 1⟩ ⟨0, [4], 2⟩ = true ∧ equiv ⟨0, [4, 0], 1⟩ ⟨0, [0], 2⟩ = false := by
  decide +kernel

/-- `isProperPrefixOf`: the same base, and the offsets begin those of the
    other, which has more. -/
theorem C65_proper_prefix (a b : Loc) :
    isProperPrefixOf a b = true ↔ a.base = b.base ∧ a.offs <+: b.offs ∧ a.offs ≠ b.offs := by
  unfold isProperPrefixOf
  by_cases hb : a.base = b.base
  · rw [if_neg (by simpa using hb)]
    by_cases hl : a.offs.length ≥ b.offs.length
    · rw [if_pos hl]
      constructor
      · intro h; cases h
      · rintro ⟨_, h1, h2⟩
        exact (h2 (h1.eq_of_length (Nat.le_antisymm h1.length_le hl))).elim
    · rw [if_neg hl]
      simp only [beq_iff_eq, hb, true_and]
      constructor
      · intro h
        refine ⟨by rw [h]; exact List.take_prefix _ _, fun e => hl ?_⟩
        rw [e]; exact Nat.le_refl _
      · rintro ⟨h, _⟩
        exact List.prefix_iff_eq_take.1 h
  · rw [if_pos hb]; simp [hb]

example : isProperPrefixOf ⟨0, [4], 2⟩ ⟨0, [4, 0], 1⟩ = true := by decide +kernel

/-- `equivalentExceptPointerArithmetics`: the same base, and the offsets agree
    up to the last `lvl` of the shorter one. -/
theorem C65_equivalent_pa (a b : Loc) (lvl : Nat) :
    equivPA a b lvl = true ↔ a.base = b.base ∧
      ∀ i, i + lvl < a.offs.length → i + lvl < b.offs.length → a.offs[i]? = b.offs[i]? := by
  unfold equivPA
  by_cases hb : a.base = b.base
  · rw [if_neg (by simpa using hb)]
    by_cases hm : min a.offs.length b.offs.length ≤ lvl
    · rw [if_pos hm]
      simp only [hb, true_and, true_iff]
      intro i h1 h2; omega
    · rw [if_neg hm]
      simp only [beq_iff_eq, hb, true_and]
      constructor
      · intro h i h1 h2
        have := congrArg (fun l => l[i]?) h
        simp only [List.getElem?_take] at this
        rwa [if_pos (by omega), if_pos (by omega)] at this
      · intro h
        apply List.ext_getElem?
        intro i
        simp only [List.getElem?_take]
        split
        · exact h i (by omega) (by omega)
        · rfl
  · rw [if_pos hb]; simp [hb]

example : equivPA ⟨0, [4, 0], 1⟩ ⟨0, [8], 2⟩ 1 = true ∧ equivPA ⟨0, [4, 0], 1⟩ ⟨0, [8, 0], 1⟩ 1 = false := by
  decide +kernel

/-- Two locations that stand for the same path agree except for pointer
    arithmetic; if both are exact they are equivalent. -/
theorem C65_overlap (a b : Loc) (p : Path) :
    (standsFor a p → standsFor b p → equivPA a b 1 = true) ∧
    (covers a p → covers b p → a.isOver = false → b.isOver = false → equiv a b = true) := by
  refine ⟨fun ha hb => ?_, fun ha hb hoa hob => ?_⟩
  · rw [C65_equivalent_pa]
    refine ⟨ha.1.trans hb.1.symm, fun i h1 h2 => ?_⟩
    have get : ∀ l : List Int, l.dropLast <+: p.offs.dropLast → i + 1 < l.length →
        l[i]? = p.offs.dropLast[i]? := by
      intro l hl hi
      obtain ⟨r, hr⟩ := hl
      have h3 : l[i]? = l.dropLast[i]? := by
        rw [List.getElem?_dropLast, if_pos (by omega)]
      rw [h3, ← hr, List.getElem?_append_left (by simp only [List.length_dropLast]; omega)]
    rw [get a.offs ha.2 h1, get b.offs hb.2 h2]
  · rw [C65_equivalent]
    refine ⟨ha.1.1.trans hb.1.1.symm, .inl ?_⟩
    have h1 : a.life ≠ 0 := fun c => by simp [Loc.isOver, c] at hoa
    have h2 : b.life ≠ 0 := fun c => by simp [Loc.isOver, c] at hob
    rw [ha.2 h1, hb.2 h2]
    exact List.prefix_refl _

example : standsFor ⟨0, [8], 0⟩ ⟨0, [4, 0]⟩ ∧ covers ⟨0, [4, 0], 1⟩ ⟨0, [4, 0]⟩ :=
  ⟨⟨rfl, by decide⟩, ⟨rfl, List.prefix_refl _⟩, fun _ => rfl⟩

/-! ### Stores, calls and returns -/

/-- If a cell holds the value of a path then what is reached through the cell
    is what is reached from the path. -/
theorem C65_cell (ρ : Nat → Int) (m : Int → Int) (μ v : Path) (d : Int) (r : List Int)
    (hμ : μ.offs ≠ []) (hv : v.offs ≠ []) (h : m (den ρ m μ) = den ρ m v) :
    den ρ m ⟨μ.base, μ.offs ++ d :: r⟩ = den ρ m ⟨v.base, addLast v.offs d ++ r⟩ := by
  rw [den_concat ρ m μ.base hμ, h]
  have h1 : den ρ m ⟨v.base, addLast v.offs d⟩ = den ρ m v + d := den_addLast ρ m v.base hv d
  cases r with
  | nil => rw [List.append_nil, h1]; rfl
  | cons o r =>
    rw [den_concat ρ m v.base (addLast_ne hv d), h1]
    rfl

/-- If a base holds the value of a path then what is reached from the base is
    what is reached from the path. -/
theorem C65_param (ρ : Nat → Int) (m : Int → Int) (q : Nat) (v : Path) (d : Int) (r : List Int)
    (hv : v.offs ≠ []) (h : ρ q = den ρ m v) :
    den ρ m ⟨q, d :: r⟩ = den ρ m ⟨v.base, addLast v.offs d ++ r⟩ := by
  have h1 : den ρ m ⟨v.base, addLast v.offs d⟩ = den ρ m v + d := den_addLast ρ m v.base hv d
  show walk m (ρ q + d) r = _
  cases r with
  | nil => rw [List.append_nil, h1, h]; rfl
  | cons o r =>
    rw [den_concat ρ m v.base (addLast_ne hv d), h1, h]
    rfl

example : (fun a : Int => if a = 8 then (24 : Int) else 7) (den (fun b => if b = 2 then 8 else 20)
      (fun a => if a = 8 then 24 else 7) ⟨2, [0]⟩) =
    den (fun b => if b = 2 then 8 else 20) (fun a => if a = 8 then 24 else 7) ⟨0, [4]⟩ := by
  decide +kernel

theorem C65.sub_prefix {src val : Loc} {s v : Path} {xs : List Int} {d : Int} {r : List Int}
    (hval : val.offs = v.offs) (hv : v.offs = xs ++ [0])
    (hsrc : standsFor src s) (hs : s.offs = addLast v.offs d ++ r)
    (hlen : val.offs.length < src.offs.length) :
    (sub src val).dropLast <+: (d :: r).dropLast ∧ sub src val ≠ [] ∧
      ∃ o, (sub src val).head? = some o ∧ (2 ≤ (sub src val).length → o = d) := by
  have hvl : val.offs.length = xs.length + 1 := by rw [hval, hv]; simp
  have e : sub src val = src.offs.drop xs.length := by
    unfold sub
    rw [if_pos hlen]
    congr 1
    omega
  have hs' : s.offs = xs ++ d :: r := by
    rw [hs, hv, addLast_concat]; simp
  have hpre := hsrc.2
  rw [hs', List.dropLast_append_of_ne_nil (by simp)] at hpre
  have hdl : (src.offs.drop xs.length).dropLast = src.offs.dropLast.drop xs.length := by
    rw [List.dropLast_eq_take, List.dropLast_eq_take, List.drop_take]
    congr 1
    simp only [List.length_drop]; omega
  have hp2 : src.offs.dropLast.drop xs.length <+: (d :: r).dropLast := by
    obtain ⟨t, ht⟩ := hpre
    have hd := congrArg (List.drop xs.length) ht
    rw [List.drop_append_of_le_length (by simp only [List.length_dropLast]; omega),
      List.drop_left] at hd
    exact ⟨t, hd⟩
  have hne : sub src val ≠ [] := by
    rw [e]
    intro h
    have := congrArg List.length h
    simp only [List.length_drop, List.length_nil] at this
    omega
  refine ⟨by rw [e, hdl]; exact hp2, hne, ?_⟩
  cases hsub : sub src val with
  | nil => exact (hne hsub).elim
  | cons o r' =>
    refine ⟨o, rfl, fun hl => ?_⟩
    have h3 : (sub src val).dropLast <+: (d :: r).dropLast := by rw [e, hdl]; exact hp2
    rw [hsub] at h3
    cases r' with
    | nil => simp at hl
    | cons o2 r2 =>
      cases r with
      | nil =>
        have := h3.length_le
        simp at this
      | cons d2 r3 =>
        simp only [List.dropLast_cons_cons] at h3
        exact (List.cons_prefix_cons.1 h3).1

theorem C65.sub_equal {src val : Loc} (hlen : val.offs.length = src.offs.length) :
    (sub src val).length ≤ 1 := by
  unfold sub
  rw [if_neg (by omega)]
  simp only [List.length_drop]
  omega

/-- A store of a tainted value: the location generated stands for what is now
    reached through the cell.  Missing: the source may have fewer offsets than
    the value stored, and if it has more the value must be exact and end with
    offset zero; see `C65_field_pointer_false` and `C65_buffer_false`. -/
theorem C65_store_partial (F F' : Fac) (mem src val l' : Loc) (μ s v : Path)
    (d : Int) (r : List Int)
    (hmem : mem.life ≠ 0 → mem.offs ≠ []) (hcm : covers mem μ) (hcv : covers val v)
    (hsrc : standsFor src s) (hs : s = ⟨v.base, addLast v.offs d ++ r⟩)
    (hcase : val.offs.length = src.offs.length ∨
      (val.offs.length < src.offs.length ∧ val.isOver = false ∧ ∃ xs, v.offs = xs ++ [0]))
    (h : storeFact F mem src val = some (l', F')) :
    standsFor l' ⟨μ.base, μ.offs ++ d :: r⟩ := by
  by_cases hz : mem.life = 0
  · rw [storeFact, withIndirection, if_pos hz] at h
    cases h
    exact ⟨hcm.1.1, hcm.1.2.trans
      ((List.dropLast_prefix _).trans (prefix_dropLast_append _ (by simp)))⟩
  · obtain ⟨o, life, h1, h2, h3, h4⟩ :=
      indirection_plan (ind := sub src val) (B := mem.offs.length + mem.life)
        ⟨by omega, hmem⟩ hz
    rw [storeFact, h1 F] at h
    have hsame := getOrCreate_some h
    have e := hcm.2 hz
    refine hsame.standsFor ⟨hcm.1.1, ?_⟩
    show o.dropLast <+: (μ.offs ++ d :: r).dropLast
    rw [h3, e]
    refine (dropLast_prefix (List.take_prefix _ _)).trans ?_
    rw [List.dropLast_append_of_ne_nil (by split <;> simp_all), List.dropLast_append_of_ne_nil (by simp)]
    refine (List.prefix_append_right_inj _).2 ?_
    rcases hcase with hc | ⟨hc, hov, xs, hx⟩
    · have hl := C65.sub_equal hc
      have : (if sub src val = [] then [0] else sub src val).dropLast = [] := by
        split
        · rfl
        · apply List.eq_nil_of_length_eq_zero
          simp only [List.length_dropLast]; omega
      rw [this]; exact List.nil_prefix
    · have hlife : val.life ≠ 0 := fun c => by simp [Loc.isOver, c] at hov
      obtain ⟨k1, k2, _⟩ := C65.sub_prefix (hcv.2 hlife) hx hsrc (by rw [hs]) hc
      rw [if_neg k2]
      exact k1

example : ∃ l' F', storeFact exFac ⟨2, [0], 2⟩ ⟨0, [4, 0], 1⟩ ⟨0, [0], 2⟩ = some (l', F') ∧
    l' = ⟨2, [0, 4, 0], 0⟩ ∧ covers ⟨0, [0], 2⟩ ⟨0, [0]⟩ ∧ standsFor ⟨0, [4, 0], 1⟩ ⟨0, [4, 0]⟩ ∧
    (⟨0, [4, 0]⟩ : Path) = ⟨0, addLast [0] 4 ++ [0]⟩ :=
  ⟨_, _, rfl, by decide +kernel, ⟨⟨rfl, List.prefix_refl _⟩, fun _ => rfl⟩,
    ⟨rfl, List.prefix_refl _⟩, rfl⟩

/-- A tainted value that is returned: the location generated stands for what
    is reached from the call.  Missing: as for stores. -/
theorem C65_ret_partial (F F' : Fac) (call src ret l' : Loc) (c s v : Path)
    (d : Int) (r : List Int)
    (hcall : call.life ≠ 0 → call.offs ≠ []) (hcc : covers call c) (hcv : covers ret v)
    (hsrc : standsFor src s) (hs : s = ⟨v.base, addLast v.offs d ++ r⟩)
    (hcase : ret.offs.length = src.offs.length ∨
      (ret.offs.length < src.offs.length ∧ ret.isOver = false ∧ ∃ xs, v.offs = xs ++ [0]))
    (h : retFact F call src ret = some (l', F')) :
    standsFor l' ⟨c.base, addLast c.offs d ++ r⟩ := by
  have hbase : c.offs.dropLast <+: (addLast c.offs d ++ r).dropLast := by
    have := dropLast_prefix (List.prefix_append (addLast c.offs d) r)
    rwa [addLast_dropLast] at this
  unfold retFact at h
  cases hsub : sub src ret with
  | nil =>
    rw [hsub] at h
    cases h
    exact ⟨hcc.1.1, hcc.1.2.trans hbase⟩
  | cons k t =>
    rw [hsub] at h
    by_cases hz : call.life = 0
    · simp only [withOffsets, if_pos hz] at h
      cases h
      exact ⟨hcc.1.1, hcc.1.2.trans hbase⟩
    · obtain ⟨o, life, h1, h2, h3, h4⟩ :=
        offsets_plan (k := k) (r := t) (B := call.offs.length + call.life) ⟨by omega, hcall⟩ hz
      rw [h1 F] at h
      have hsame := getOrCreate_some h
      have e := hcc.2 hz
      refine hsame.standsFor ⟨hcc.1.1, ?_⟩
      show o.dropLast <+: _
      rw [h3, e]
      refine (dropLast_prefix (List.take_prefix _ _)).trans ?_
      cases t with
      | nil => rw [List.append_nil, addLast_dropLast]; exact hbase
      | cons k2 t =>
        rcases hcase with hc | ⟨hc, hov, xs, hx⟩
        · have hl := C65.sub_equal hc
          rw [hsub] at hl
          simp at hl
        · have hlife : ret.life ≠ 0 := fun c => by simp [Loc.isOver, c] at hov
          obtain ⟨k1, k2', o', k3, k4⟩ := C65.sub_prefix (hcv.2 hlife) hx hsrc (by rw [hs]) hc
          rw [hsub] at k1 k3 k4
          cases k3
          have ekd : k = d := k4 (by simp)
          subst ekd
          cases r with
          | nil => have := k1.length_le; simp at this
          | cons d2 r =>
            simp only [List.dropLast_cons_cons] at k1
            rw [List.dropLast_append_of_ne_nil (by simp), List.dropLast_append_of_ne_nil (by simp)]
            exact (List.prefix_append_right_inj _).2 (List.cons_prefix_cons.1 k1).2

example : ∃ l' F', retFact exFac ⟨5, [0], 2⟩ ⟨0, [4, 0], 1⟩ ⟨0, [0], 2⟩ = some (l', F') ∧
    l' = ⟨5, [4, 0], 1⟩ := ⟨_, _, rfl, by decide +kernel⟩

/-- A tainted argument: the location generated for the parameter stands for
    what is reached from the parameter.  Missing: the tainted location may have
    fewer offsets than the argument, and if it has more the argument must be
    exact and end with offset zero; see `C65_field_argument_false`. -/
theorem C65_transfer_to_partial (F F' : Fac) (a frm l' : Loc) (t : Nat) (s f : Path)
    (d : Int) (r : List Int)
    (ha : a.life ≠ 0 → a.offs ≠ []) (hfr : frm.life ≠ 0 → frm.offs ≠ [])
    (hcf : covers frm f) (hsa : standsFor a s) (hs : s = ⟨f.base, addLast f.offs d ++ r⟩)
    (hcase : (a.isOver = true ∧ frm.isOver = true) ∨ frm.offs.length = a.offs.length ∨
      (frm.offs.length < a.offs.length ∧ frm.isOver = false ∧ ∃ xs, f.offs = xs ++ [0]))
    (h : withTransferTo F a frm t = some (l', F')) :
    standsFor l' ⟨t, d :: r⟩ := by
  obtain ⟨o, life, h1, h2, h3, h4⟩ := transferTo_plan (t := t)
    (B := a.offs.length + a.life + frm.offs.length + frm.life)
    (a := a) (f := frm) ⟨by omega, ha⟩ ⟨by omega, hfr⟩
  rw [h1 F] at h
  have hsame := getOrCreate_some h
  refine hsame.standsFor ⟨rfl, ?_⟩
  show o.dropLast <+: (d :: r).dropLast
  by_cases hz : a.life = 0 ∧ frm.life = 0
  · rw [(h3 hz).1]; exact List.nil_prefix
  · obtain ⟨_, h5, _⟩ := h4 hz
    rcases hcase with hc | hc | ⟨hc, hov, xs, hx⟩
    · exact (hz ⟨by simpa [Loc.isOver] using hc.1, by simpa [Loc.isOver] using hc.2⟩).elim
    · rw [h5 (by omega)]
      have : (zeroBack (a.offs.drop (frm.offs.length - 1))).dropLast = [] := by
        apply List.eq_nil_of_length_eq_zero
        simp only [List.length_dropLast, zeroBack_length, List.length_drop]
        omega
      rw [this]; exact List.nil_prefix
    · have hlife : frm.life ≠ 0 := fun c => by simp [Loc.isOver, c] at hov
      obtain ⟨k1, _, _⟩ := C65.sub_prefix (hcf.2 hlife) hx hsa (by rw [hs]) hc
      rw [h5 (by omega), zeroBack_dropLast]
      have e : sub a frm = a.offs.drop (frm.offs.length - 1) := by
        unfold sub
        rw [if_pos hc]
        have hl : frm.offs.length = xs.length + 1 := by rw [hcf.2 hlife, hx]; simp
        congr 1
        omega
      rw [← e]
      exact k1

example : ∃ l' F', withTransferTo exFac ⟨0, [4, 0], 1⟩ ⟨0, [0], 2⟩ 5 = some (l', F') ∧
    l' = ⟨5, [4, 0], 1⟩ := ⟨_, _, rfl, by decide +kernel⟩

/-- Back to the caller: the location generated stands for what is reached from
    the argument, and if the one in the callee is exact it is an
    over-approximation or exact.  (`C65_back_false` for one that is not.) -/
theorem C65_transfer_from (F F' : Fac) (a t l' : Loc) (q : Nat) (p : Path) (d : Int) (r : List Int)
    (ha : a.life ≠ 0 → a.offs ≠ []) (ht : t.life ≠ 0 → t.offs ≠ [])
    (hsa : standsFor a ⟨q, d :: r⟩) (hct : covers t p)
    (h : withTransferFrom F a t = some (l', F')) :
    standsFor l' ⟨p.base, addLast p.offs d ++ r⟩ ∧
    (a.isOver = false → covers a ⟨q, d :: r⟩ → covers l' ⟨p.base, addLast p.offs d ++ r⟩) := by
  have hbase : p.offs.dropLast <+: (addLast p.offs d ++ r).dropLast := by
    have := dropLast_prefix (List.prefix_append (addLast p.offs d) r)
    rwa [addLast_dropLast] at this
  by_cases hz : a.life = 0
  · rw [withTransferFrom, if_pos hz] at h
    cases h
    exact ⟨⟨hct.1.1, hct.1.2.trans hbase⟩, fun hov => by simp [Loc.isOver, hz] at hov⟩
  · obtain ⟨k, x, o, life, hao, h1, h2, h3, h4⟩ := transferFrom_plan
      (B := a.offs.length + a.life + t.offs.length + t.life) (a := a) (t := t)
      ⟨by omega, ha⟩ ⟨by omega, ht⟩ hz
    rw [h1 F] at h
    have hsame := getOrCreate_some h
    have hst : standsFor ⟨t.base, o, life⟩ ⟨p.base, addLast p.offs d ++ r⟩ := by
      refine ⟨hct.1.1, ?_⟩
      show o.dropLast <+: _
      rw [h3]
      by_cases htz : t.life = 0
      · have hl := addLast_length t.offs k
        have h5 : ((addLast t.offs k ++ x).take
            (min (a.offs.length + a.life) (t.offs.length + t.life))).dropLast <+: t.offs.dropLast := by
          rw [← addLast_dropLast t.offs k]
          apply dropLast_prefix
          rw [List.take_append_of_le_length (by omega)]
          exact List.take_prefix _ _
        exact (h5.trans hct.1.2).trans hbase
      · refine (dropLast_prefix (List.take_prefix _ _)).trans ?_
        rw [hct.2 htz]
        cases x with
        | nil => rw [List.append_nil, addLast_dropLast]; exact hbase
        | cons k2 x =>
          have hd := hsa.2
          rw [hao] at hd
          cases r with
          | nil => have := hd.length_le; simp at this
          | cons d2 r =>
            simp only [List.dropLast_cons_cons] at hd
            have hd1 := List.cons_prefix_cons.1 hd
            rw [hd1.1, List.dropLast_append_of_ne_nil (by simp),
              List.dropLast_append_of_ne_nil (by simp)]
            exact (List.prefix_append_right_inj _).2 hd1.2
    refine ⟨hsame.standsFor hst, fun _ hca => hsame.covers ⟨hst, ?_⟩⟩
    intro hne
    have hne' : life ≠ 0 := hne
    have e := hca.2 hz
    rw [hao] at e
    have e1 := List.cons.inj e
    show o = addLast p.offs d ++ r
    have hl := addLast_length t.offs k
    by_cases htz : t.life = 0
    · exfalso; omega
    · rw [h3, List.take_of_length_le (by simp only [List.length_append, hl]; omega), e1.1, e1.2,
        hct.2 htz]

example : ∃ l' F', withTransferFrom exFac ⟨5, [0, 0], 1⟩ ⟨0, [4], 2⟩ = some (l', F') ∧
    l' = ⟨0, [4, 0], 1⟩ := ⟨_, _, rfl, by decide +kernel⟩

/-- Must aliases: for two exact locations, what the fact stands for is reached
    through the cell that is written, if the fact has at least as many offsets
    as the pointer.  Missing: the fact may have fewer, and neither may be an
    over-approximation; see `C65_index_kill_false`. -/
theorem C65_must_alias_partial (fn : Nat → Option Nat) (must : Nat → Nat → Bool)
    (ρ : Nat → Int) (m : Int → Int) (a b : Loc) (pa pb : Path)
    (hmust : ∀ x y, must x y = true → ρ x = ρ y)
    (ha : covers a pa) (hb : covers b pb) (hao : a.isOver = false) (hbo : b.isOver = false)
    (hne : pb.offs ≠ []) (hlen : pb.offs.length ≤ pa.offs.length)
    (h : mustAlias fn must a b = true) :
    ∃ r, pa.offs = pb.offs ++ r ∧ den ρ m pa = walk m (den ρ m pb) r := by
  have h1 : a.life ≠ 0 := fun c => by simp [Loc.isOver, c] at hao
  have h2 : b.life ≠ 0 := fun c => by simp [Loc.isOver, c] at hbo
  have e1 := ha.2 h1
  have e2 := hb.2 h2
  have hρ : ρ pa.base = ρ pb.base := by
    rw [← ha.1.1, ← hb.1.1]
    by_cases hbase : a.base = b.base
    · rw [hbase]
    · apply hmust
      cases hm : must a.base b.base with
      | true => rfl
      | false =>
        unfold mustAlias at h
        rw [if_pos ⟨hbase, .inr hm⟩] at h
        cases h
  have ho : equivOffs a b = true := by
    unfold mustAlias at h
    split at h
    · cases h
    · exact h
  have hpre : pb.offs <+: pa.offs := by
    unfold equivOffs at ho
    rw [e1, e2, Nat.min_eq_right hlen] at ho
    have := eq_of_beq ho
    rw [List.take_of_length_le (l := pb.offs) (Nat.le_refl _)] at this
    rw [← this]
    exact List.take_prefix _ _
  obtain ⟨r, hr⟩ := hpre
  refine ⟨r, hr.symm, ?_⟩
  unfold den
  rw [← hr, hρ]
  cases hp : pb.offs with
  | nil => exact (hne hp).elim
  | cons x xs =>
    show walk m (ρ pb.base + x) (xs ++ r) = _
    rw [walk_append]

example : mustAlias (fun _ => some 0) (fun _ _ => false) ⟨0, [4, 0], 1⟩ ⟨0, [4], 2⟩ = true := by
  decide +kernel

/-- A return maps the facts of a pointer parameter back if their first offset
    is the one of the parameter.  Missing: other offsets, see
    `C65_field_return_false`; parameters that are no pointers. -/
theorem C65_map_back_partial (F F' : Fac) (a formal t : Loc) (q : Nat) (p : Path) (x : List Int)
    (r : List Int) (o : Option Loc)
    (ha : a.life ≠ 0 → a.offs ≠ []) (ht : t.life ≠ 0 → t.offs ≠ [])
    (haf : a.base = q ∧ a.offs = 0 :: x) (hf : formal.base = q ∧ formal.offs = [0])
    (hsa : standsFor a ⟨q, 0 :: r⟩) (hct : covers t p)
    (h : mapBack F true a formal t = some (o, F')) :
    ∃ l', o = some l' ∧ standsFor l' ⟨p.base, p.offs ++ r⟩ := by
  have he : equiv a formal = true := by
    rw [C65_equivalent]
    refine ⟨haf.1.trans hf.1.symm, .inr ?_⟩
    rw [hf.2, haf.2]
    exact ⟨x, rfl⟩
  unfold mapBack at h
  rw [if_neg (by simp [he])] at h
  cases hw : withTransferFrom F a t with
  | none => rw [hw] at h; cases h
  | some y =>
    rw [hw] at h
    cases h
    have := (C65_transfer_from F y.2 a t y.1 q p 0 r ha ht hsa hct (by rw [hw])).1
    rw [addLast_zero] at this
    exact ⟨y.1, rfl, this⟩

example : mapBack exFac true ⟨5, [0, 0], 1⟩ ⟨5, [0], 2⟩ ⟨0, [4], 2⟩ =
    some (some ⟨0, [4, 0], 1⟩, { exFac with pool := exFac.pool ++ [⟨0, [4, 0], 1⟩] }) := by
  decide +kernel

/-- A return maps nothing back for a parameter that is passed by value, and
    nothing if the fact is not equivalent to the parameter; otherwise it asks
    for the transfer to the argument. -/
theorem C65_map_back_only (F F' : Fac) (ptr : Bool) (a formal t : Loc) (o : Option Loc)
    (h : mapBack F ptr a formal t = some (o, F')) :
    (o = none ↔ ptr = false ∨ ¬ (a.base = formal.base ∧ (a.offs <+: formal.offs ∨ formal.offs <+: a.offs))) ∧
    (o = none → F' = F) ∧ (∀ l, o = some l → withTransferFrom F a t = some (l, F')) := by
  rw [← C65_equivalent, Bool.not_eq_true]
  unfold mapBack at h
  by_cases hc : ptr = false ∨ equiv a formal = false
  · rw [if_pos hc] at h
    cases h
    exact ⟨⟨fun _ => hc, fun _ => rfl⟩, fun _ => rfl, fun l hl => (nomatch hl)⟩
  · rw [if_neg hc] at h
    cases hw : withTransferFrom F a t with
    | none => rw [hw] at h; cases h
    | some y =>
      rw [hw] at h
      cases h
      exact ⟨⟨fun h => (nomatch h), fun h => absurd h hc⟩, fun h => (nomatch h), fun l hl => by cases hl; rfl⟩

example : mapBack exFac false ⟨5, [0, 0], 1⟩ ⟨5, [0], 2⟩ ⟨0, [4], 2⟩ = some (none, exFac) := by
  decide +kernel

/-! ### What does not hold -/

/-- The lifetime of a location depends on what was called before: the same
    parameter has lifetime 2 in one factory and 1 in another, and one store
    makes an exact location of the first and an over-approximation of the
    second. -/
theorem C65_lifetime_false : ¬ ∀ (F1 F2 G1 G2 : Fac) (l1 l2 k1 k2 : Loc) (H1 H2 : Fac),
    Reached exProg 3 F1 → Reached exProg 3 F2 →
    create F1 3 (exProg 5) = some (l1, G1) → create F2 3 (exProg 5) = some (l2, G2) →
    withIndirection G1 l1 [0] = some (k1, H1) → withIndirection G2 l2 [0] = some (k2, H2) →
    l1 = l2 ∧ k1.isOver = k2.isOver := by
  intro h
  have hR : Reached exProg 3
      ⟨[⟨2, [0, 0], 1⟩, ⟨5, [0], 1⟩], [(3, ⟨2, [0, 0], 1⟩)]⟩ :=
    .step (op := .transferTo ⟨2, [0, 0], 1⟩ ⟨2, [0, 0], 1⟩ 5) (l := ⟨5, [0], 1⟩)
      (.step (F' := ⟨[⟨2, [0, 0], 1⟩], [(3, ⟨2, [0, 0], 1⟩)]⟩) (op := .create 3)
        (l := ⟨2, [0, 0], 1⟩) .empty (fun _ h => (nomatch h)) (by decide +kernel))
      (by decide +kernel) (by decide +kernel)
  have := h _ _ _ _ ⟨5, [0], 2⟩ ⟨5, [0], 1⟩ ⟨5, [0, 0], 1⟩ ⟨5, [0, 0], 0⟩ _ _ .empty hR rfl rfl rfl rfl
  exact absurd this.1 (by decide)

/-- A tainted value is stored to an element whose index is not known, `s[i]`,
    and the element at offset 4 is read: in a run with that offset the value
    read is the one stored, but the location generated is not equivalent to the
    location of the value read, so no leak is seen at a sink. -/
theorem C65_index_false :
    ∃ (mem src val snk l : Loc) (F1 F2 F3 F4 F5 : Fac) (dyn : Nat → Int),
      create Fac.empty 3 (exProg 6) = some (mem, F1) ∧
      create F1 3 (exProg 5) = some (src, F2) ∧ create F2 3 (exProg 5) = some (val, F3) ∧
      create F3 3 (exProg 7) = some (snk, F4) ∧
      storeFact F4 mem src val = some (l, F5) ∧
      (∀ ρ m, m ((exProg 6).val ρ m dyn) = (exProg 5).val ρ m dyn →
        (exProg 7).val ρ m dyn = (exProg 5).val ρ m dyn) ∧
      l.isOver = true ∧ equiv l snk = false := by
  refine ⟨⟨0, [0], 0⟩, ⟨5, [0], 2⟩, ⟨5, [0], 2⟩, ⟨0, [4, 0], 1⟩, ⟨0, [0], 0⟩, _, _, _, _, _,
    fun _ => 4, rfl, rfl, rfl, rfl, rfl, ?_, rfl, by decide +kernel⟩
  intro ρ m h
  exact h

/-- A write to an element whose index is not known counts as a write to the
    first element: the fact for `s[0]` is a must alias of `&s[i]`, and so
    sanitized, although the write does not change `s[0]`.  The same for a fact
    with fewer offsets than the pointer: `q` and a write to `*q`. -/
theorem C65_index_kill_false :
    (∃ (fact ptr : Loc) (F1 F2 : Fac) (ρ : Nat → Int) (dyn : Nat → Int),
      create Fac.empty 3 (exProg 12) = some (fact, F1) ∧
      create F1 3 (exProg 6) = some (ptr, F2) ∧
      (∀ fn must, mustAlias fn must fact ptr = true) ∧
      ∀ (m : Int → Int) (x : Int),
        (exProg 12).val ρ (fun a => if a = (exProg 6).val ρ m dyn then x else m a) dyn =
          (exProg 12).val ρ m dyn) ∧
    (∃ (fact ptr : Loc) (F1 F2 : Fac),
      create Fac.empty 3 (exProg 2) = some (fact, F1) ∧
      create F1 3 (exProg 3) = some (ptr, F2) ∧
      (∀ fn must, mustAlias fn must fact ptr = true) ∧
      ∀ (ρ : Nat → Int) (m : Int → Int) (dyn : Nat → Int) (x : Int),
        (exProg 2).val ρ (fun a => if a = (exProg 3).val ρ m dyn then x else m a) dyn =
          (exProg 2).val ρ m dyn) := by
  refine ⟨⟨⟨0, [0, 0], 1⟩, ⟨0, [0], 0⟩, _, _, fun _ => 0, fun _ => 4, rfl, rfl, fun fn must => ?_, ?_⟩,
    ⟨⟨2, [0], 2⟩, ⟨2, [0, 0], 1⟩, _, _, rfl, rfl, fun fn must => ?_, fun _ _ _ _ => rfl⟩⟩
  · simp [mustAlias, equivOffs]
  · intro m x
    show (if (0 : Int) = 0 + 4 then x else m 0) = m 0
    rw [if_neg (by decide)]
  · simp [mustAlias, equivOffs]

/-- `q = &s.f`: with `s.f` tainted, `*q` is tainted after the store, but the
    offset of the field is counted once more: the location generated is
    neither equivalent to the location of `**q` nor equivalent to it except
    for pointer arithmetic. -/
theorem C65_field_pointer_false :
    ∃ (mem src val snk l : Loc) (F1 F2 F3 F4 F5 : Fac),
      create Fac.empty 3 (exProg 2) = some (mem, F1) ∧
      create F1 3 (exProg 7) = some (src, F2) ∧ create F2 3 (exProg 1) = some (val, F3) ∧
      create F3 3 (exProg 4) = some (snk, F4) ∧
      equivPA val src 1 = true ∧ storeFact F4 mem src val = some (l, F5) ∧
      (∀ ρ m dyn, m ((exProg 2).val ρ m dyn) = (exProg 1).val ρ m dyn →
        (exProg 4).val ρ m dyn = (exProg 7).val ρ m dyn) ∧
      equiv l snk = false ∧ equivPA l snk 1 = false := by
  refine ⟨⟨2, [0], 2⟩, ⟨0, [4, 0], 1⟩, ⟨0, [4], 2⟩, ⟨2, [0, 0, 0], 0⟩, ⟨2, [0, 4, 0], 0⟩, _, _, _, _, _,
    rfl, rfl, rfl, rfl, rfl, rfl, ?_, by decide +kernel, by decide +kernel⟩
  intro ρ m dyn h
  show m (m (ρ 2)) = m (ρ 0 + 4)
  have h' : m (ρ 2) = ρ 0 + 4 := h
  rw [h']

/-- A buffer `s` is tainted as a whole and `s.f` is copied to `q`: the
    location generated is not equivalent to the location of `*q`, the copy. -/
theorem C65_buffer_false :
    ∃ (mem src val snk l : Loc) (F1 F2 F3 F4 F5 : Fac),
      create Fac.empty 3 (exProg 2) = some (mem, F1) ∧
      create F1 3 (exProg 0) = some (src, F2) ∧ create F2 3 (exProg 7) = some (val, F3) ∧
      create F3 3 (exProg 3) = some (snk, F4) ∧
      equivPA val src 1 = true ∧ storeFact F4 mem src val = some (l, F5) ∧
      (∀ ρ m dyn, m ((exProg 2).val ρ m dyn) = (exProg 7).val ρ m dyn →
        (exProg 3).val ρ m dyn = (exProg 7).val ρ m dyn) ∧
      equiv l snk = false := by
  refine ⟨⟨2, [0], 2⟩, ⟨0, [0], 2⟩, ⟨0, [4, 0], 1⟩, ⟨2, [0, 0], 1⟩, ⟨2, [0, 4, 0], 0⟩, _, _, _, _, _,
    rfl, rfl, rfl, rfl, rfl, rfl, ?_, by decide +kernel⟩
  intro ρ m dyn h
  exact h

/-- `&s.f` is passed to a function, with `s.f` tainted: what the parameter
    points to is tainted, but the location generated stands for the content at
    offset 4 of the parameter. -/
theorem C65_field_argument_false :
    ∃ (src frm l : Loc) (F1 F2 F3 : Fac),
      create Fac.empty 3 (exProg 7) = some (src, F1) ∧ create F1 3 (exProg 1) = some (frm, F2) ∧
      equivPA frm src 1 = true ∧ withTransferTo F2 src frm 5 = some (l, F3) ∧
      (∀ ρ m dyn, ρ 5 = (exProg 1).val ρ m dyn →
        den ρ m ⟨5, [0, 0]⟩ = (exProg 7).val ρ m dyn) ∧
      ¬ standsFor l ⟨5, [0, 0]⟩ := by
  refine ⟨⟨0, [4, 0], 1⟩, ⟨0, [4], 2⟩, ⟨5, [4, 0], 1⟩, _, _, _, rfl, rfl, rfl, rfl, ?_, ?_⟩
  · intro ρ m dyn h
    have h' : ρ 5 = ρ 0 + 4 := h
    show m (ρ 5 + 0) + 0 = m (ρ 0 + 4)
    rw [h', Int.add_zero, Int.add_zero]
  · intro h
    have := h.2
    exact absurd this (by decide)

/-- The last offset of a tainted location is cleared on the way into a
    function, not the first: `&q->f` is tainted and `q` is passed by
    reference; the location generated says it is exact but leads to `q` and
    not to `&q->f`. -/
theorem C65_last_offset_false :
    ∃ (src frm l : Loc) (F1 F2 F3 : Fac) (ρ : Nat → Int) (m : Int → Int),
      create Fac.empty 3 (exProg 13) = some (src, F1) ∧ create F1 3 (exProg 2) = some (frm, F2) ∧
      equivPA frm src 1 = true ∧ withTransferTo F2 src frm 5 = some (l, F3) ∧
      ρ 5 = (exProg 2).val ρ m (fun _ => 0) ∧ l.isOver = false ∧
      den ρ m ⟨l.base, l.offs⟩ ≠ (exProg 13).val ρ m (fun _ => 0) := by
  refine ⟨⟨2, [0, 8], 1⟩, ⟨2, [0], 2⟩, ⟨5, [0, 0], 1⟩, _, _, _, fun _ => 0, fun _ => 0,
    rfl, rfl, rfl, rfl, rfl, rfl, by decide⟩

/-- A callee that taints a field of what its parameter points to: the fact is
    not mapped back to the caller, because its first offset is not the one of
    the parameter. -/
theorem C65_field_return_false :
    ∃ (src formal actual : Loc) (F : Fac),
      formal.base = src.base ∧ (create Fac.empty 3 (exProg 5)).map (·.1) = some formal ∧
      (create Fac.empty 3 (exProg 0)).map (·.1) = some actual ∧ src = ⟨5, [4, 0], 1⟩ ∧
      mapBack F true src formal actual = some (none, F) ∧
      ∀ ρ m dyn, ρ 5 = (exProg 0).val ρ m dyn →
        den ρ m ⟨src.base, src.offs⟩ = (exProg 7).val ρ m dyn := by
  refine ⟨⟨5, [4, 0], 1⟩, ⟨5, [0], 2⟩, ⟨0, [0], 2⟩, exFac, rfl, rfl, rfl, rfl, by decide +kernel, ?_⟩
  intro ρ m dyn h
  have h' : ρ 5 = ρ 0 := h
  show m (ρ 5 + 4) + 0 = m (ρ 0 + 4)
  rw [h', Int.add_zero]

/-- An over-approximation comes back from a callee as the argument itself,
    which says it is exact: what it stood for is deeper. -/
theorem C65_back_false :
    ∃ (src actual l : Loc) (F : Fac) (ρ : Nat → Int) (m : Int → Int),
      src = ⟨5, [0, 8, 0], 0⟩ ∧ (create Fac.empty 3 (exProg 0)).map (·.1) = some actual ∧
      withTransferFrom F src actual = some (l, F) ∧ ρ 5 = (exProg 0).val ρ m (fun _ => 0) ∧
      l.isOver = false ∧ den ρ m ⟨l.base, l.offs⟩ ≠ den ρ m ⟨src.base, src.offs⟩ := by
  refine ⟨⟨5, [0, 8, 0], 0⟩, ⟨0, [0], 2⟩, ⟨0, [0], 2⟩, exFac, fun _ => 0, fun _ => 1,
    rfl, rfl, rfl, rfl, rfl, by decide⟩

/-! ### The memory of the nodes -/

theorem C65.run_spec (ns : List Nat) (hn : ∀ n ∈ ns, minPtrs + n ≤ ptrsPerBlock) :
    ∀ A : Alloc,
      A.blocks.reverse <+: (A.run ns).2.blocks.reverse ∧
      (∀ p ∈ (A.run ns).1, (∃ sz, (A.run ns).2.blocks.reverse[p.block]? = some sz ∧
          p.start + p.size ≤ sz) ∧
        A.blocks.length ≤ p.block + 1 ∧ (p.block + 1 = A.blocks.length → A.pos ≤ p.start)) ∧
      (A.run ns).1.Pairwise (fun p q => p.block = q.block → p.start + p.size ≤ q.start) := by
  induction ns with
  | nil => intro A; exact ⟨List.prefix_refl _, (fun _ h => (nomatch h)), List.Pairwise.nil⟩
  | cons n r ih =>
    intro A
    have hn1 := hn n (by simp)
    have hmin : minPtrs = 3 := rfl
    obtain ⟨i1, i2, i3⟩ := ih (fun n h => hn n (by simp [h])) (A.create n).2
    have hrun : A.run (n :: r) =
        ((A.create n).1 :: ((A.create n).2.run r).1, ((A.create n).2.run r).2) := rfl
    rw [hrun]
    -- the place of the first object
    have key : A.blocks.reverse <+: (A.create n).2.blocks.reverse ∧
        (∃ sz, (A.create n).2.blocks.reverse[(A.create n).1.block]? = some sz ∧
          (A.create n).1.start + (A.create n).1.size ≤ sz) ∧
        A.blocks.length ≤ (A.create n).1.block + 1 ∧
        ((A.create n).1.block + 1 = A.blocks.length → A.pos ≤ (A.create n).1.start) ∧
        (A.create n).1.block + 1 = (A.create n).2.blocks.length ∧
        (A.create n).1.start + (A.create n).1.size = (A.create n).2.pos := by
      by_cases hc : A.blocks.headD 0 - A.pos < minPtrs + n
      · have e : A.create n = (⟨A.blocks.length, 0, minPtrs + n⟩,
            ⟨ptrsPerBlock :: A.blocks, 0 + (minPtrs + n)⟩) := by
          simp only [Alloc.create, if_pos hc]; rfl
        rw [e]
        refine ⟨by simp, ⟨ptrsPerBlock, by simp, by simpa using hn1⟩, by simp, ?_, by simp, by simp⟩
        intro h
        have h' : A.blocks.length + 1 = A.blocks.length := h
        omega
      · have e : A.create n = (⟨A.blocks.length - 1, A.pos, minPtrs + n⟩,
            ⟨A.blocks, A.pos + (minPtrs + n)⟩) := by
          simp only [Alloc.create, if_neg hc]
        rw [e]
        cases hb : A.blocks with
        | nil => rw [hb] at hc; simp at hc; omega
        | cons b bs =>
          rw [hb] at hc
          simp only [List.headD_cons] at hc
          refine ⟨List.prefix_refl _, ⟨b, by simp, ?_⟩, by simp, fun _ => Nat.le_refl _, by simp, rfl⟩
          show A.pos + (minPtrs + n) ≤ b
          omega
    obtain ⟨k1, ⟨sz, k2, k3⟩, k4, k5, k6, k7⟩ := key
    have klen : A.blocks.length ≤ (A.create n).2.blocks.length := by
      have := k1.length_le; simpa using this
    refine ⟨k1.trans i1, ?_, ?_⟩
    · intro p hp
      rcases List.mem_cons.1 hp with rfl | hp
      · refine ⟨⟨sz, ?_, k3⟩, k4, k5⟩
        obtain ⟨t, ht⟩ := i1
        have hlt := (List.getElem?_eq_some_iff.1 k2).1
        show ((A.create n).2.run r).2.blocks.reverse[(A.create n).1.block]? = some sz
        rw [← ht, List.getElem?_append_left hlt]
        exact k2
      · obtain ⟨j1, j2, j3⟩ := i2 p hp
        refine ⟨j1, Nat.le_trans klen j2, fun h => ?_⟩
        have h1 : p.block + 1 = (A.create n).2.blocks.length := by omega
        have h2 := j3 h1
        have h3 := k5 (by omega)
        omega
    · rw [List.pairwise_cons]
      refine ⟨fun q hq hbl => ?_, i3⟩
      obtain ⟨_, _, j3⟩ := i2 q hq
      have := j3 (by omega)
      omega

/-- The objects of the factory lie within their blocks and do not overlap, in
    every sequence of allocations of at most 6141 offsets each. -/
theorem C65_alloc_partial (cap : Nat) (ns : List Nat) (ps : List Place) (A : Alloc)
    (hn : ∀ n ∈ ns, n ≤ 6141) (h : (Alloc.new cap).run ns = (ps, A)) :
    (∀ p ∈ ps, ∃ sz, A.blocks.reverse[p.block]? = some sz ∧ p.start + p.size ≤ sz) ∧
    ps.Pairwise (fun p q => p.block = q.block → p.start + p.size ≤ q.start) ∧
    ps.map Place.size = ns.map (3 + ·) := by
  have hb : ∀ n ∈ ns, minPtrs + n ≤ ptrsPerBlock := by
    intro n hn'
    have := hn n hn'
    show 3 + n ≤ 6144
    omega
  obtain ⟨_, h2, h3⟩ := C65.run_spec ns hb (Alloc.new cap)
  rw [h] at h2 h3
  refine ⟨fun p hp => (h2 p hp).1, h3, ?_⟩
  have hsz : ∀ (ns : List Nat) (A : Alloc), (A.run ns).1.map Place.size = ns.map (3 + ·) := by
    intro ns
    induction ns with
    | nil => intro A; rfl
    | cons n r ih =>
      intro A
      show ((A.create n).1 :: ((A.create n).2.run r).1).map Place.size = _
      rw [List.map_cons, ih]
      simp [Alloc.create, minPtrs]
  have := hsz ns (Alloc.new cap)
  rw [h] at this
  exact this

example : ((Alloc.new 10).run [4000, 2000, 3000]).1 =
    [⟨0, 0, 4003⟩, ⟨0, 4003, 2003⟩, ⟨1, 0, 3003⟩] := by decide +kernel

theorem C65.run_first (ns : List Nat) (hn : ∀ n ∈ ns, n ≤ 3) : ∀ (pos sz : Nat), pos + 6 * ns.length ≤ sz →
    ((⟨[sz], pos⟩ : Alloc).run ns).2.blocks = [sz] := by
  induction ns with
  | nil => intro pos sz _; rfl
  | cons n r ih =>
    intro pos sz h
    have h1 := hn n (by simp)
    simp only [List.length_cons] at h
    have e : (⟨[sz], pos⟩ : Alloc).create n = (⟨0, pos, 3 + n⟩, ⟨[sz], pos + (3 + n)⟩) := by
      have : ¬ (sz - pos < 3 + n) := by omega
      simp [Alloc.create, this, minPtrs]
    show ((((⟨[sz], pos⟩ : Alloc).create n).2).run r).2.blocks = [sz]
    rw [e]
    exact ih (fun n h => hn n (by simp [h])) _ _ (by omega)

/-- A factory made for more than 1024 locations (the analysis asks for the
    number of instructions) has room for all of them in the first block if none
    has more than three offsets, and reserves nothing for fewer. -/
theorem C65_reserved (cap : Nat) (ns : List Nat) (hn : ∀ n ∈ ns, n ≤ 3) (hl : ns.length ≤ cap) :
    (1024 < cap → ((Alloc.new cap).run ns).2.blocks.length = 1) ∧
    (cap ≤ 1024 → Alloc.new cap = ⟨[], 0⟩) := by
  refine ⟨fun h => ?_, fun h => by simp [Alloc.new, h]⟩
  have e : Alloc.new cap = ⟨[6 * cap], 0⟩ := by
    simp only [Alloc.new, if_neg (show ¬ cap ≤ 1024 by omega)]
    rfl
  rw [e, C65.run_first ns hn _ _ (by omega)]
  rfl

example : ((Alloc.new 1025).run (List.replicate 1025 3)).2.blocks.length = 1 :=
  (C65_reserved 1025 _ (fun n h => by rw [List.eq_of_mem_replicate h]; exact Nat.le_refl 3)
    (by rw [List.length_replicate]; exact Nat.le_refl _)).1 (by omega)

/-- A location of more than 6141 offsets is written past the end of its
    block. -/
theorem C65_alloc_false : ∃ (p : Place) (A : Alloc), (Alloc.new 0).create 6142 = (p, A) ∧
    ∀ sz, A.blocks.reverse[p.block]? = some sz → sz < p.start + p.size := by
  refine ⟨_, _, rfl, ?_⟩
  decide +kernel

end Phasar.AML
