/-!
# Model of `BitVectorSet`

Models `include/phasar/Utils/BitVectorSet.h`: all sets over one element type share the static bimap `Position`;
a set is an `llvm::BitVector`.  A bit vector is modelled as the list of its bits (`size()` is its length), the
bimap as the list of its elements in the order of their indices.  Of `llvm::BitVector` the operations used are
modelled from their documentation; out-of-range accesses are `none`.
-/
set_option linter.unusedSectionVars false
namespace Phasar.BVS

/-- `llvm::BitVector`, `BitVectorSet.h:69`: `size()` bits. -/
abbrev Bits := List Bool

/-- Bit `i`; bits from `size()` on count as unset (used by the word operations below only). -/
def bit (b : Bits) (i : Nat) : Bool := b[i]? == some true

/-- `BitVector::resize(n)` as used at `BitVectorSet.h:211`, `219`, `253`: new bits are unset. -/
def resize (b : Bits) (n : Nat) : Bits := b.take n ++ List.replicate (n - b.length) false

/-- `BitVector::set(i)`, `BitVectorSet.h:213`, `221`: the index must be in range. -/
def setBit (b : Bits) (i : Nat) : Option Bits := if i < b.length then some (b.set i true) else none

/-- `BitVector::reset(i)`, `BitVectorSet.h:238`: the index must be in range. -/
def resetBit (b : Bits) (i : Nat) : Option Bits := if i < b.length then some (b.set i false) else none

/-- `operator|=`, `BitVectorSet.h:184`, `200`, `225`: grows to the size of the right-hand side. -/
def orBits (a b : Bits) : Bits := (List.range (max a.length b.length)).map (fun i => bit a i || bit b i)

/-- `operator&=`, `BitVectorSet.h:194`, `198`: keeps the size; bits beyond the right-hand side become unset. -/
def andBits (a b : Bits) : Bits := (List.range a.length).map (fun i => bit a i && bit b i)

/-- `BitVector::reset(RHS)`, `BitVectorSet.h:247`. -/
def subBits (a b : Bits) : Bits := (List.range a.length).map (fun i => bit a i && !bit b i)

/-- `BitVector::test(RHS)`, `BitVectorSet.h:203`: whether some bit of `a` is not in `b`. -/
def test (a b : Bits) : Bool := (List.range a.length).any (fun i => bit a i && !bit b i)

/-- `BitVector::count()`, `BitVectorSet.h:272`. -/
def popcount (b : Bits) : Nat := b.count true

/-- `BitVector::none()`, `BitVectorSet.h:256`. -/
def none' (b : Bits) : Bool := b.all (fun x => !x)

/-- `BitVector::find_first_in(lo, hi)`, as used at `BitVectorSet.h:32`, `36`; `none` is -1. Also `find_first()`
(`BitVectorSet.h:336`) with `lo = 0, hi = size()` and `find_next(p)` (`BitVectorSet.h:105`) with `lo = p + 1`. -/
def findFirstIn (b : Bits) (lo hi : Nat) : Option Nat :=
  (List.range hi).find? (fun i => decide (lo ≤ i) && bit b i)

/-- The 64-bit word `w` of `BitVector::getData()`, as the list of its bits; unused bits are unset. -/
def wordAt (b : Bits) (w : Nat) : List Bool := (List.range 64).map (fun j => bit b (64 * w + j))

/-- `BitVector::getData()`, `BitVectorSet.h:282-283`, `310`. -/
def words (b : Bits) : List (List Bool) := (List.range ((b.length + 63) / 64)).map (wordAt b)

/-- The word 0. -/
def zeroWord : List Bool := List.replicate 64 false

variable {T : Type} [DecidableEq T]

/-- `Position.left.find(Data)`, `BitVectorSet.h:207`, `235`, `263`. -/
def posOf (pos : List T) (t : T) : Option Nat :=
  match pos with
  | [] => none
  | x :: xs => if x = t then some 0 else (posOf xs t).map (· + 1)

/-- `insert(const T &)`, `BitVectorSet.h:206-223`: the new `Position` and the new bits. -/
def insert (pos : List T) (b : Bits) (t : T) : Option (List T × Bits) :=
  match posOf pos t with
  | some i =>
    (setBit (if b.length ≤ i then resize b (i + 1) else b) i).map (fun b' => (pos, b'))
  | none =>
    let idx := pos.length
    let pos' := pos ++ [t]
    (setBit (if b.length ≤ pos'.length then resize b pos'.length else b) idx).map (fun b' => (pos', b'))

/-- `erase(const T &)`, `BitVectorSet.h:234-241`. -/
def erase (pos : List T) (b : Bits) (t : T) : Option Bits :=
  match posOf pos t with
  | some i => if i < b.length then resetBit b i else some b
  | none => some b

/-- `count`, `BitVectorSet.h:262-270`. -/
def count (pos : List T) (b : Bits) (t : T) : Nat :=
  match posOf pos t with
  | some i => match b[i]? with
    | some true => 1
    | some false => 0
    | none => 0
  | none => 0

/-- `find`, `BitVectorSet.h:260`. -/
def find (pos : List T) (b : Bits) (t : T) : Bool := decide (count pos b t ≠ 0)

/-- `size`, `BitVectorSet.h:272`. -/
def size (b : Bits) : Nat := popcount b

/-- `empty`, `BitVectorSet.h:256`. -/
def isEmpty (b : Bits) : Bool := none' b

/-- `setUnion`, `BitVectorSet.h:179-186`. -/
def setUnion (a b : Bits) : Bits :=
  if a.length < b.length then orBits b a else orBits a b

/-- `setIntersect`, `BitVectorSet.h:188-196`. -/
def setIntersect (a b : Bits) : Bits :=
  if b.length < a.length then andBits b a else andBits a b

/-- `includes`, `BitVectorSet.h:202-204`. -/
def includes (a b : Bits) : Bool := !test b a

/-- `operator==`, `BitVectorSet.h:274-295`. -/
def eq (a b : Bits) : Bool :=
  if isEmpty a || isEmpty b then isEmpty a == isEmpty b else
  let wa := words a
  let wb := words b
  if wa.length = wb.length then decide (wa = wb) else
  let m := min wa.length wb.length
  if wa.take m ≠ wb.take m then false else
  ((if wa.length > wb.length then wa else wb).drop m).all (fun w => decide (w = zeroWord))

/-- `internal::isLess`, the loop at `BitVectorSet.h:43-47`, for the bits below `k`. -/
def isLessLoop (a b : Bits) : Nat → Bool
  | 0 => false
  | k + 1 => if bit a k ≠ bit b k then bit b k else isLessLoop a b k

/-- `internal::isLess`, `BitVectorSet.h:27-49`, the `operator<` at `BitVectorSet.h:301-303`. -/
def isLess (a b : Bits) : Bool :=
  if a.length > b.length ∧ (findFirstIn a b.length a.length).isSome then false
  else if a.length < b.length ∧ (findFirstIn b a.length b.length).isSome then true
  else isLessLoop a b (min a.length b.length)

/-- Dropping trailing zero words, `BitVectorSet.h:311-314`. -/
def trim (ws : List (List Bool)) : List (List Bool) := (ws.reverse.dropWhile (fun w => decide (w = zeroWord))).reverse

/-- `hash_value`, `BitVectorSet.h:306-317`; `hc` is `llvm::hash_combine_range`, and `hash_code{}` is 0. -/
def hash (hc : List (List Bool) → Nat) (b : Bits) : Nat :=
  if b.length = 0 then 0 else hc (trim (words b))

/-- `Position.right.find(i)`, `BitVectorSet.h:108`, `112`, `340`, `346`; `none` is `Position.right.end()`. -/
def rfind (pos : List T) (i : Nat) : Option Nat := if i < pos.length then some i else none

/-- `begin()`, `BitVectorSet.h:335-343`. -/
def begin' (pos : List T) (b : Bits) : Option Nat :=
  match findFirstIn b 0 b.length with
  | some i => rfind pos i
  | none => rfind pos b.length

/-- `end()`, `BitVectorSet.h:345-349`. -/
def end' (pos : List T) (b : Bits) : Option Nat := rfind pos b.length

/-- `operator++` of the iterator, `BitVectorSet.h:103-118`, at the element with index `p`. (The bit found by
`find_next` is set, so the `do … while` runs once.) -/
def next (pos : List T) (b : Bits) (p : Nat) : Option Nat :=
  match findFirstIn b (p + 1) b.length with
  | some i => rfind pos i
  | none => rfind pos b.length

/-- `for (E : Set)`: the visited elements, starting at `cur`. `pos` is `Position` during the iteration; `e` is
the end iterator. `none` if `end()` is dereferenced or the bound on the steps does not suffice. -/
def iterate (pos : List T) (b : Bits) (e : Option Nat) : Nat → Option Nat → Option (List T)
  | 0, cur => if cur = e then some [] else none
  | k + 1, cur =>
    if cur = e then some [] else
    match cur with
    | none => none
    | some p => match pos[p]? with
      | none => none
      | some t => (iterate pos b e k (next pos b p)).map (t :: ·)

/-- Iterating over a set while `Position` stays the same. -/
def elems (pos : List T) (b : Bits) : Option (List T) :=
  iterate pos b (end' pos b) b.length (begin' pos b)

/-! ## Histories of operations on many sets -/

/-- All sets of one element type: the shared static `Position` and, for each set, its bits,
`BitVectorSet.h:68-69`. -/
structure World (T : Type) where
  pos : List T
  sets : Nat → Bits

/-- An operation; the first index is the set modified. -/
inductive Op (T : Type) where
  | create (k n : Nat)
  | copy (k j : Nat)
  | insert (k : Nat) (t : T)
  | insertSet (k j : Nat)
  | erase (k : Nat) (t : T)
  | eraseSet (k j : Nat)
  | clear (k : Nat)
  | union (k i j : Nat)
  | inter (k i j : Nat)
  | unionWith (k j : Nat)
  | interWith (k j : Nat)
deriving DecidableEq

/-- Assigning to a set. -/
def put (w : World T) (k : Nat) (b : Bits) : World T := { w with sets := fun j => if j = k then b else w.sets j }

/-- One operation, `BitVectorSet.h:166-254`. -/
def step (w : World T) : Op T → Option (World T)
  | .create k n => some (put w k (List.replicate n false))
  | .copy k j => some (put w k (w.sets j))
  | .insert k t => (insert w.pos (w.sets k) t).map (fun r => put { w with pos := r.1 } k r.2)
  | .insertSet k j => some (put w k (orBits (w.sets k) (w.sets j)))
  | .erase k t => (erase w.pos (w.sets k) t).map (put w k)
  | .eraseSet k j => some (put w k (if k = j then [] else subBits (w.sets k) (w.sets j)))
  | .clear k => some (put w k [])
  | .union k i j => some (put w k (setUnion (w.sets i) (w.sets j)))
  | .inter k i j => some (put w k (setIntersect (w.sets i) (w.sets j)))
  | .unionWith k j => some (put w k (orBits (w.sets k) (w.sets j)))
  | .interWith k j => some (put w k (andBits (w.sets k) (w.sets j)))

/-- A history. -/
def run (w : World T) : List (Op T) → Option (World T)
  | [] => some w
  | o :: os => (step w o).bind (fun w' => run w' os)

/-- The start: `Position` is empty, every set is default-constructed. -/
def init : World T := ⟨[], fun _ => []⟩

/-! ## Specification: mathematical sets -/

/-- Specification: what an operation does to a family of sets of elements. -/
def spec (S : Nat → T → Prop) : Op T → Nat → T → Prop
  | .create k _ => fun j t => if j = k then False else S j t
  | .copy k i => fun j t => if j = k then S i t else S j t
  | .insert k x => fun j t => if j = k then S k t ∨ t = x else S j t
  | .insertSet k i => fun j t => if j = k then S k t ∨ S i t else S j t
  | .erase k x => fun j t => if j = k then S k t ∧ t ≠ x else S j t
  | .eraseSet k i => fun j t => if j = k then S k t ∧ ¬ S i t else S j t
  | .clear k => fun j t => if j = k then False else S j t
  | .union k a b => fun j t => if j = k then S a t ∨ S b t else S j t
  | .inter k a b => fun j t => if j = k then S a t ∧ S b t else S j t
  | .unionWith k i => fun j t => if j = k then S k t ∨ S i t else S j t
  | .interWith k i => fun j t => if j = k then S k t ∧ S i t else S j t

/-- Specification: a history on a family of sets. -/
def specRun (S : Nat → T → Prop) : List (Op T) → Nat → T → Prop
  | [] => S
  | o :: os => specRun (spec S o) os

/-- The elements a bit vector stands for: bit `i` is set where `i` is the element's index. -/
def Mem (pos : List T) (b : Bits) (t : T) : Prop := ∃ i, pos[i]? = some t ∧ bit b i = true

/-- The invariant of all histories: indices are unique, and bits are set at assigned indices only. -/
structure Inv (w : World T) : Prop where
  nodup : w.pos.Nodup
  bound : ∀ k i, bit (w.sets k) i = true → i < w.pos.length

/-! ## Lemmas -/

theorem posOf_spec (pos : List T) (t : T) :
    match posOf pos t with
    | some i => pos[i]? = some t
    | none => t ∉ pos := by
  induction pos with
  | nil => simp [posOf]
  | cons x xs ih =>
    simp only [posOf]
    split
    · rename_i i hi
      split at hi
      · rename_i hx; cases hi; simp [hx]
      · cases hp : posOf xs t with
        | none => rw [hp] at hi; cases hi
        | some j => rw [hp] at hi ih; cases hi; simpa using ih
    · rename_i hi
      split at hi
      · cases hi
      · rename_i hx
        cases hp : posOf xs t with
        | some j => rw [hp] at hi; cases hi
        | none => rw [hp] at ih; simp [ih, Ne.symm hx]

theorem posOf_some {pos : List T} {t : T} {i : Nat} (h : posOf pos t = some i) : pos[i]? = some t := by
  have := posOf_spec pos t; rw [h] at this; exact this

theorem posOf_none {pos : List T} {t : T} (h : posOf pos t = none) : t ∉ pos := by
  have := posOf_spec pos t; rw [h] at this; exact this

omit [DecidableEq T] in
theorem nodup_idx {pos : List T} (h : pos.Nodup) {i j : Nat} {t : T} (hi : pos[i]? = some t)
    (hj : pos[j]? = some t) : i = j := by
  obtain ⟨h1, h1'⟩ := List.getElem?_eq_some_iff.1 hi
  obtain ⟨h2, h2'⟩ := List.getElem?_eq_some_iff.1 hj
  exact (List.getElem_inj h).1 (h1'.trans h2'.symm)

theorem mem_iff_bit {pos : List T} (h : pos.Nodup) {b : Bits} {t : T} {i : Nat} (hi : pos[i]? = some t) :
    Mem pos b t ↔ bit b i = true := by
  constructor
  · rintro ⟨j, hj, hb⟩; rw [nodup_idx h hi hj]; exact hb
  · intro hb; exact ⟨i, hi, hb⟩

theorem bit_lt {b : Bits} {i : Nat} (h : bit b i = true) : i < b.length := by
  unfold bit at h
  have := eq_of_beq h
  exact (List.getElem?_eq_some_iff.1 this).1

theorem bit_map_range (n : Nat) (f : Nat → Bool) (i : Nat) :
    bit ((List.range n).map f) i = (decide (i < n) && f i) := by
  unfold bit
  by_cases h : i < n
  · rw [List.getElem?_map, List.getElem?_range h]
    cases hf : f i <;> simp [h, hf]
  · rw [List.getElem?_eq_none (by simpa using Nat.le_of_not_lt h)]
    simp [h]

theorem bit_or (a b : Bits) (i : Nat) : bit (orBits a b) i = (bit a i || bit b i) := by
  unfold orBits
  rw [bit_map_range]
  by_cases h : i < max a.length b.length
  · simp [h]
  · cases ha : bit a i with
    | true => have := bit_lt ha; omega
    | false => cases hb : bit b i with
      | true => have := bit_lt hb; omega
      | false => simp

theorem bit_and (a b : Bits) (i : Nat) : bit (andBits a b) i = (bit a i && bit b i) := by
  unfold andBits
  rw [bit_map_range]
  by_cases h : i < a.length
  · simp [h]
  · cases ha : bit a i with
    | true => have := bit_lt ha; omega
    | false => simp

theorem bit_sub (a b : Bits) (i : Nat) : bit (subBits a b) i = (bit a i && !bit b i) := by
  unfold subBits
  rw [bit_map_range]
  by_cases h : i < a.length
  · simp [h]
  · cases ha : bit a i with
    | true => have := bit_lt ha; omega
    | false => simp

theorem bit_replicate (n i : Nat) : bit (List.replicate n false) i = false := by
  unfold bit
  rw [List.getElem?_replicate]
  split <;> rfl

theorem bit_resize (b : Bits) {n : Nat} (h : b.length ≤ n) (i : Nat) : bit (resize b n) i = bit b i := by
  unfold resize
  rw [List.take_of_length_le h]
  unfold bit
  by_cases hi : i < b.length
  · rw [List.getElem?_append_left hi]
  · rw [List.getElem?_append_right (by omega), List.getElem?_replicate, List.getElem?_eq_none (by omega)]
    split <;> rfl

theorem length_resize (b : Bits) {n : Nat} (h : b.length ≤ n) : (resize b n).length = n := by
  unfold resize
  rw [List.take_of_length_le h]
  simp; omega

theorem bit_set (b : Bits) {k : Nat} (v : Bool) (hk : k < b.length) (i : Nat) :
    bit (b.set k v) i = if i = k then v else bit b i := by
  unfold bit
  rw [List.getElem?_set]
  by_cases h : k = i
  · subst h
    rw [if_pos rfl, if_pos hk, if_pos rfl]
    cases v <;> rfl
  · rw [if_neg h, if_neg (Ne.symm h)]

theorem insert_spec (pos : List T) (b : Bits) (t : T) (hb : ∀ i, bit b i = true → i < pos.length) :
    ∃ pos' b' i, insert pos b t = some (pos', b') ∧ pos'[i]? = some t ∧
      (∀ j, bit b' j = (decide (j = i) || bit b j)) ∧
      ((pos' = pos) ∨ (pos' = pos ++ [t] ∧ t ∉ pos)) := by
  unfold insert
  cases hp : posOf pos t with
  | some i =>
    simp only
    have hlt : i < (if b.length ≤ i then resize b (i + 1) else b).length := by
      split
      · rw [length_resize _ (by omega)]; omega
      · omega
    rw [setBit, if_pos hlt]
    refine ⟨pos, _, i, rfl, posOf_some hp, ?_, Or.inl rfl⟩
    intro j
    rw [bit_set _ _ hlt]
    have hr : bit (if b.length ≤ i then resize b (i + 1) else b) j = bit b j := by
      split
      · exact bit_resize _ (by omega) _
      · rfl
    rw [hr]
    by_cases h : j = i <;> simp [h]
  | none =>
    simp only [List.length_append, List.length_singleton]
    have hlt : pos.length < (if b.length ≤ pos.length + 1 then resize b (pos.length + 1) else b).length := by
      split
      · rw [length_resize _ (by omega)]; omega
      · omega
    rw [setBit, if_pos hlt]
    refine ⟨pos ++ [t], _, pos.length, rfl, by simp, ?_, Or.inr ⟨rfl, posOf_none hp⟩⟩
    intro j
    rw [bit_set _ _ hlt]
    have hr : bit (if b.length ≤ pos.length + 1 then resize b (pos.length + 1) else b) j = bit b j := by
      split
      · exact bit_resize _ (by omega) _
      · rfl
    rw [hr]
    by_cases h : j = pos.length <;> simp [h]

theorem erase_spec (pos : List T) (h : pos.Nodup) (b : Bits) (t : T) :
    ∃ b', erase pos b t = some b' ∧ ∀ j, bit b' j = (bit b j && decide (pos[j]? ≠ some t)) := by
  unfold erase
  cases hp : posOf pos t with
  | some i =>
    have hi := posOf_some hp
    have key : ∀ j, pos[j]? = some t → j = i := fun j hj => nodup_idx h hj hi
    simp only
    by_cases hl : i < b.length
    · rw [if_pos hl, resetBit, if_pos hl]
      refine ⟨_, rfl, ?_⟩
      intro j
      rw [bit_set _ _ hl]
      by_cases hj : j = i
      · subst hj; simp [hi]
      · have hne : pos[j]? ≠ some t := fun h => hj (key j h)
        rw [if_neg hj, decide_eq_true hne]; simp
    · rw [if_neg hl]
      refine ⟨b, rfl, ?_⟩
      intro j
      by_cases hj : pos[j]? = some t
      · have := key j hj
        subst this
        cases hb : bit b j with
        | true => exact absurd (bit_lt hb) hl
        | false => simp
      · rw [decide_eq_true hj]; simp
  | none =>
    refine ⟨b, rfl, ?_⟩
    intro j
    have : pos[j]? ≠ some t := fun h => posOf_none hp (List.mem_of_getElem? h)
    rw [decide_eq_true this]; simp

theorem bit_setUnion (a b : Bits) (i : Nat) : bit (setUnion a b) i = (bit a i || bit b i) := by
  unfold setUnion
  split
  · rw [bit_or, Bool.or_comm]
  · rw [bit_or]

theorem bit_setIntersect (a b : Bits) (i : Nat) : bit (setIntersect a b) i = (bit a i && bit b i) := by
  unfold setIntersect
  split
  · rw [bit_and, Bool.and_comm]
  · rw [bit_and]

omit [DecidableEq T] in
theorem mem_of_bits {pos : List T} {b : Bits} {P : T → Prop} (f : Nat → Bool)
    (hb : ∀ i, bit b i = f i) (hP : ∀ i t, pos[i]? = some t → (f i = true ↔ P t))
    (hin : ∀ t, P t → t ∈ pos) (t : T) : Mem pos b t ↔ P t := by
  constructor
  · rintro ⟨i, hi, hbi⟩
    rw [hb] at hbi
    exact (hP i t hi).1 hbi
  · intro h
    obtain ⟨i, hi, hit⟩ := List.getElem_of_mem (hin t h)
    have hi' : pos[i]? = some t := by rw [List.getElem?_eq_getElem hi, hit]
    exact ⟨i, hi', by rw [hb]; exact (hP i t hi').2 h⟩

omit [DecidableEq T] in
theorem mem_pos {pos : List T} {b : Bits} {t : T} (h : Mem pos b t) : t ∈ pos := by
  obtain ⟨i, hi, _⟩ := h
  exact List.mem_of_getElem? hi

omit [DecidableEq T] in
theorem mem_put (w : World T) (k : Nat) (b : Bits) (j : Nat) (t : T) :
    Mem (put w k b).pos ((put w k b).sets j) t ↔ if j = k then Mem w.pos b t else Mem w.pos (w.sets j) t := by
  by_cases h : j = k
  · subst h; simp [put]
  · simp [put, h]

omit [DecidableEq T] in
theorem inv_put {w : World T} (h : Inv w) {k : Nat} {b : Bits} (hb : ∀ i, bit b i = true → i < w.pos.length) :
    Inv (put w k b) := by
  refine ⟨h.nodup, ?_⟩
  intro j i
  by_cases hj : j = k
  · subst hj; simpa [put] using hb i
  · simpa [put, hj] using h.bound j i

theorem put_step {w : World T} (h : Inv w) (k : Nat) (b : Bits) (f : Nat → Bool) (hb : ∀ i, bit b i = f i)
    (hf : ∀ i, f i = true → i < w.pos.length) (P : T → Prop)
    (hP : ∀ i t, w.pos[i]? = some t → (f i = true ↔ P t)) (hin : ∀ t, P t → t ∈ w.pos) :
    Inv (put w k b) ∧ ∀ j t, (Mem (put w k b).pos ((put w k b).sets j) t ↔
      if j = k then P t else Mem w.pos (w.sets j) t) := by
  refine ⟨inv_put h (fun i hi => hf i (by rw [← hb]; exact hi)), ?_⟩
  intro j t
  rw [mem_put]
  by_cases hj : j = k
  · rw [if_pos hj, if_pos hj]; exact mem_of_bits f hb hP hin t
  · rw [if_neg hj, if_neg hj]

/-- One operation keeps the invariant and refines the specification. -/
theorem step_refines {w : World T} (h : Inv w) (o : Op T) :
    ∃ w', step w o = some w' ∧ Inv w' ∧
      ∀ j t, (Mem w'.pos (w'.sets j) t ↔ spec (fun j t => Mem w.pos (w.sets j) t) o j t) := by
  have hM : ∀ k i t, w.pos[i]? = some t → (bit (w.sets k) i = true ↔ Mem w.pos (w.sets k) t) :=
    fun k i t hi => (mem_iff_bit h.nodup hi).symm
  cases o with
  | create k n =>
    refine ⟨_, rfl, ?_⟩
    exact put_step h k _ (fun _ => false) (bit_replicate n) (fun _ h => by cases h) (fun _ => False)
      (fun _ _ _ => by simp) (fun _ h => h.elim)
  | copy k j =>
    refine ⟨_, rfl, ?_⟩
    exact put_step h k _ _ (fun _ => rfl) (h.bound j) _ (hM j) (fun t ht => mem_pos ht)
  | insert k x =>
    obtain ⟨pos', b', i, hins, hi, hb, hpos⟩ := insert_spec w.pos (w.sets k) x (h.bound k)
    refine ⟨put { w with pos := pos' } k b', by simp [step, hins], ?_⟩
    have hpre : ∀ (j : Nat) (t : T), w.pos[j]? = some t → pos'[j]? = some t := by
      intro j t hj
      rcases hpos with rfl | ⟨rfl, _⟩
      · exact hj
      · rw [List.getElem?_append_left (List.getElem?_eq_some_iff.1 hj).1]; exact hj
    have hlen : w.pos.length ≤ pos'.length := by
      rcases hpos with rfl | ⟨rfl, _⟩
      · exact Nat.le_refl _
      · simp
    have hnd : pos'.Nodup := by
      rcases hpos with rfl | ⟨rfl, hx⟩
      · exact h.nodup
      · rw [List.nodup_append]
        refine ⟨h.nodup, by simp, ?_⟩
        intro a ha c hc e
        simp at hc
        exact hx (by rw [← hc, ← e]; exact ha)
    have hi1 : Inv { w with pos := pos' } := ⟨hnd, fun j i hb => Nat.lt_of_lt_of_le (h.bound j i hb) hlen⟩
    have hmem : ∀ (b : Bits), (∀ i, bit b i = true → i < w.pos.length) → ∀ t, (Mem pos' b t ↔ Mem w.pos b t) := by
      intro b hbd t
      constructor
      · rintro ⟨j, hj, hbj⟩
        have hlt := hbd j hbj
        have h2 : w.pos[j]? = some w.pos[j] := List.getElem?_eq_getElem hlt
        have h3 := hpre j _ h2
        rw [hj] at h3
        exact ⟨j, by rw [h2]; exact h3.symm, hbj⟩
      · rintro ⟨j, hj, hbj⟩; exact ⟨j, hpre j t hj, hbj⟩
    have hmx : ∀ t, (Mem pos' b' t ↔ Mem w.pos (w.sets k) t ∨ t = x) := by
      intro t
      rw [← hmem _ (h.bound k)]
      constructor
      · rintro ⟨j, hj, hbj⟩
        rw [hb, Bool.or_eq_true, decide_eq_true_eq] at hbj
        rcases hbj with rfl | hbj
        · right; rw [hi] at hj; exact (Option.some.inj hj).symm
        · left; exact ⟨j, hj, hbj⟩
      · rintro (⟨j, hj, hbj⟩ | rfl)
        · exact ⟨j, hj, by rw [hb, hbj]; simp⟩
        · exact ⟨i, hi, by rw [hb]; simp⟩
    refine ⟨inv_put hi1 ?_, ?_⟩
    · intro j hj
      rw [hb, Bool.or_eq_true, decide_eq_true_eq] at hj
      rcases hj with rfl | hj
      · exact (List.getElem?_eq_some_iff.1 hi).1
      · exact Nat.lt_of_lt_of_le (h.bound k j hj) hlen
    · intro j t
      rw [mem_put]
      simp only [spec]
      by_cases hj : j = k
      · rw [if_pos hj, if_pos hj]; exact hmx t
      · rw [if_neg hj, if_neg hj]; exact hmem _ (h.bound j) t
  | insertSet k j =>
    refine ⟨_, rfl, ?_⟩
    refine put_step h k _ _ (bit_or _ _) ?_ (fun t => Mem w.pos (w.sets k) t ∨ Mem w.pos (w.sets j) t) ?_ ?_
    · intro i hi
      rw [Bool.or_eq_true] at hi
      exact hi.elim (h.bound k i) (h.bound j i)
    · intro i t hi; rw [Bool.or_eq_true, hM k i t hi, hM j i t hi]
    · intro t ht; exact ht.elim mem_pos mem_pos
  | erase k x =>
    obtain ⟨b', he, hb⟩ := erase_spec w.pos h.nodup (w.sets k) x
    refine ⟨put w k b', by simp [step, he], ?_⟩
    refine put_step h k _ _ hb ?_ (fun t => Mem w.pos (w.sets k) t ∧ t ≠ x) ?_ (fun t ht => mem_pos ht.1)
    · intro i hi
      rw [Bool.and_eq_true] at hi
      exact h.bound k i hi.1
    · intro i t hi
      rw [Bool.and_eq_true, hM k i t hi, decide_eq_true_eq, hi]
      simp
  | eraseSet k j =>
    refine ⟨_, rfl, ?_⟩
    by_cases hkj : k = j
    · subst hkj
      rw [if_pos rfl]
      refine put_step h k _ (fun _ => false) (fun _ => rfl) (fun _ h => by cases h)
        (fun t => Mem w.pos (w.sets k) t ∧ ¬ Mem w.pos (w.sets k) t) ?_ ?_
      · intro i t _; simp
      · intro t ht; exact (ht.2 ht.1).elim
    · rw [if_neg hkj]
      refine put_step h k _ _ (bit_sub _ _) ?_ (fun t => Mem w.pos (w.sets k) t ∧ ¬ Mem w.pos (w.sets j) t) ?_
        (fun t ht => mem_pos ht.1)
      · intro i hi
        rw [Bool.and_eq_true] at hi
        exact h.bound k i hi.1
      · intro i t hi
        rw [Bool.and_eq_true, hM k i t hi, ← hM j i t hi]
        simp
  | clear k =>
    refine ⟨_, rfl, ?_⟩
    exact put_step h k _ (fun _ => false) (fun _ => rfl) (fun _ h => by cases h) (fun _ => False)
      (fun _ _ _ => by simp) (fun _ h => h.elim)
  | union k i j =>
    refine ⟨_, rfl, ?_⟩
    refine put_step h k _ _ (bit_setUnion _ _) ?_ (fun t => Mem w.pos (w.sets i) t ∨ Mem w.pos (w.sets j) t) ?_ ?_
    · intro a ha
      rw [Bool.or_eq_true] at ha
      exact ha.elim (h.bound i a) (h.bound j a)
    · intro a t ha; rw [Bool.or_eq_true, hM i a t ha, hM j a t ha]
    · intro t ht; exact ht.elim mem_pos mem_pos
  | inter k i j =>
    refine ⟨_, rfl, ?_⟩
    refine put_step h k _ _ (bit_setIntersect _ _) ?_ (fun t => Mem w.pos (w.sets i) t ∧ Mem w.pos (w.sets j) t) ?_
      (fun t ht => mem_pos ht.1)
    · intro a ha
      rw [Bool.and_eq_true] at ha
      exact h.bound i a ha.1
    · intro a t ha; rw [Bool.and_eq_true, hM i a t ha, hM j a t ha]
  | unionWith k j =>
    refine ⟨_, rfl, ?_⟩
    refine put_step h k _ _ (bit_or _ _) ?_ (fun t => Mem w.pos (w.sets k) t ∨ Mem w.pos (w.sets j) t) ?_ ?_
    · intro i hi
      rw [Bool.or_eq_true] at hi
      exact hi.elim (h.bound k i) (h.bound j i)
    · intro i t hi; rw [Bool.or_eq_true, hM k i t hi, hM j i t hi]
    · intro t ht; exact ht.elim mem_pos mem_pos
  | interWith k j =>
    refine ⟨_, rfl, ?_⟩
    refine put_step h k _ _ (bit_and _ _) ?_ (fun t => Mem w.pos (w.sets k) t ∧ Mem w.pos (w.sets j) t) ?_
      (fun t ht => mem_pos ht.1)
    · intro i hi
      rw [Bool.and_eq_true] at hi
      exact h.bound k i hi.1
    · intro i t hi; rw [Bool.and_eq_true, hM k i t hi, hM j i t hi]

omit [DecidableEq T] in
theorem inv_init : Inv (init : World T) := ⟨by simp [init], fun k i h => by simp [init, bit] at h⟩

theorem spec_congr {S S' : Nat → T → Prop} (h : ∀ j t, S j t ↔ S' j t) (o : Op T) (j : Nat) (t : T) :
    spec S o j t ↔ spec S' o j t := by
  cases o <;> simp only [spec] <;> split <;> simp [h]

theorem specRun_congr {S S' : Nat → T → Prop} (h : ∀ j t, S j t ↔ S' j t) (os : List (Op T)) (j : Nat) (t : T) :
    specRun S os j t ↔ specRun S' os j t := by
  induction os generalizing S S' with
  | nil => exact h j t
  | cons o os ih => exact ih (spec_congr h o)

theorem run_refines {w : World T} (h : Inv w) (os : List (Op T)) :
    ∃ w', run w os = some w' ∧ Inv w' ∧
      ∀ j t, (Mem w'.pos (w'.sets j) t ↔ specRun (fun j t => Mem w.pos (w.sets j) t) os j t) := by
  induction os generalizing w with
  | nil => exact ⟨w, rfl, h, fun _ _ => Iff.rfl⟩
  | cons o os ih =>
    obtain ⟨w1, h1, hi1, hm1⟩ := step_refines h o
    obtain ⟨w2, h2, hi2, hm2⟩ := ih hi1
    refine ⟨w2, by simp [run, h1, h2], hi2, ?_⟩
    intro j t
    rw [hm2]
    exact specRun_congr hm1 os j t

/-! ### Queries -/

theorem count_spec {pos : List T} (h : pos.Nodup) (b : Bits) (t : T) :
    (Mem pos b t → count pos b t = 1) ∧ (¬ Mem pos b t → count pos b t = 0) := by
  unfold count
  cases hp : posOf pos t with
  | none =>
    simp only
    exact ⟨fun hm => (posOf_none hp (mem_pos hm)).elim, by simp⟩
  | some i =>
    simp only
    rw [mem_iff_bit h (posOf_some hp)]
    unfold bit
    cases hb : b[i]? with
    | none => simp
    | some v => cases v <;> simp

/-- The indices of the set bits. -/
def idxs (b : Bits) : List Nat := (List.range b.length).filter (bit b)

theorem mem_idxs (b : Bits) (i : Nat) : i ∈ idxs b ↔ bit b i = true := by
  unfold idxs
  rw [List.mem_filter, List.mem_range]
  exact ⟨fun h => h.2, fun h => ⟨bit_lt h, h⟩⟩

theorem nodup_idxs (b : Bits) : (idxs b).Nodup := List.nodup_range.filter _

theorem length_idxs (b : Bits) : (idxs b).length = popcount b := by
  unfold idxs popcount
  rw [← List.countP_eq_length_filter, List.count]
  have : b = (List.range b.length).map (fun i => bit b i) := by
    apply List.ext_getElem?
    intro i
    rw [List.getElem?_map]
    by_cases h : i < b.length
    · rw [List.getElem?_range h, List.getElem?_eq_getElem h]
      simp only [Option.map_some, bit]
      rw [List.getElem?_eq_getElem h]
      cases b[i] <;> rfl
    · rw [List.getElem?_eq_none (by omega), List.getElem?_eq_none (by simpa using Nat.le_of_not_lt h)]
      rfl
  conv => rhs; rw [this, List.countP_map]
  congr 1
  funext i
  simp [Function.comp]

theorem isEmpty_iff (b : Bits) : isEmpty b = true ↔ ∀ i, bit b i = false := by
  unfold isEmpty none'
  rw [List.all_eq_true]
  constructor
  · intro h i
    cases hb : bit b i with
    | false => rfl
    | true =>
      have h1 : b[i]? = some true := eq_of_beq hb
      have := h true (List.mem_of_getElem? h1)
      cases this
  · intro h x hx
    obtain ⟨i, hi, rfl⟩ := List.getElem_of_mem hx
    have := h i
    unfold bit at this
    rw [List.getElem?_eq_getElem hi] at this
    cases hb : b[i] with
    | false => rfl
    | true => rw [hb] at this; cases this

theorem includes_iff (a b : Bits) : includes a b = true ↔ ∀ i, bit b i = true → bit a i = true := by
  unfold includes test
  rw [Bool.not_eq_true', List.any_eq_false]
  constructor
  · intro h i hi
    have := h i (List.mem_range.2 (bit_lt hi))
    rw [hi] at this
    cases ha : bit a i with
    | true => rfl
    | false => rw [ha] at this; simp at this
  · intro h i _
    cases hb : bit b i with
    | false => simp
    | true => rw [h i hb]; simp

theorem wordAt_eq {a b : Bits} {w : Nat} : wordAt a w = wordAt b w ↔ ∀ j, j < 64 → bit a (64 * w + j) = bit b (64 * w + j) := by
  unfold wordAt
  rw [List.map_inj_left]
  exact ⟨fun h j hj => h j (List.mem_range.2 hj), fun h j hj => h j (List.mem_range.1 hj)⟩

theorem wordAt_zero {a : Bits} {w : Nat} : wordAt a w = zeroWord ↔ ∀ j, j < 64 → bit a (64 * w + j) = false := by
  have : zeroWord = wordAt [] w := by
    unfold zeroWord wordAt
    have : (fun j => bit [] (64 * w + j)) = fun _ => false := by funext j; simp [bit]
    rw [this]
    rfl
  rw [this, wordAt_eq]
  have : ∀ i, bit [] i = false := fun i => by simp [bit]
  simp [this]

theorem bits_eq_iff (a b : Bits) : (∀ i, bit a i = bit b i) ↔ ∀ w, wordAt a w = wordAt b w := by
  constructor
  · intro h w; exact wordAt_eq.2 (fun j _ => h _)
  · intro h i
    have := wordAt_eq.1 (h (i / 64)) (i % 64) (Nat.mod_lt _ (by decide))
    rwa [Nat.div_add_mod] at this

theorem wordAt_beyond {a : Bits} {w : Nat} (h : (a.length + 63) / 64 ≤ w) : wordAt a w = zeroWord := by
  rw [wordAt_zero]
  intro j _
  cases hb : bit a (64 * w + j) with
  | false => rfl
  | true => have := bit_lt hb; omega

theorem words_length (a : Bits) : (words a).length = (a.length + 63) / 64 := by simp [words]

theorem words_get (a : Bits) (w : Nat) : (words a)[w]? = if w < (words a).length then some (wordAt a w) else none := by
  rw [words_length]
  unfold words
  rw [List.getElem?_map]
  split
  · rename_i h; rw [List.getElem?_range h]; rfl
  · rename_i h; rw [List.getElem?_eq_none (by simpa using Nat.le_of_not_lt h)]; rfl

/-- Equality of the represented bits, decided on the words as `operator==` does for non-empty sets. -/
theorem words_eq_iff (a b : Bits) :
    (if (words a).length = (words b).length then decide (words a = words b) else
      let m := min (words a).length (words b).length
      if (words a).take m ≠ (words b).take m then false else
      ((if (words a).length > (words b).length then words a else words b).drop m).all (fun w => decide (w = zeroWord)))
      = true ↔ ∀ i, bit a i = bit b i := by
  rw [bits_eq_iff]
  have hbeyA : ∀ w, (words a).length ≤ w → wordAt a w = zeroWord := fun w h => wordAt_beyond (by rwa [← words_length])
  have hbeyB : ∀ w, (words b).length ≤ w → wordAt b w = zeroWord := fun w h => wordAt_beyond (by rwa [← words_length])
  by_cases hl : (words a).length = (words b).length
  · rw [if_pos hl, decide_eq_true_eq]
    constructor
    · intro h w
      by_cases hw : w < (words a).length
      · have h1 := words_get a w
        have h2 := words_get b w
        rw [h] at h1
        rw [if_pos (by rwa [h] at hw)] at h1
        rw [if_pos (by rwa [hl] at hw), h1] at h2
        exact Option.some.inj h2
      · rw [hbeyA w (by omega), hbeyB w (by omega)]
    · intro h
      apply List.ext_getElem?
      intro w
      rw [words_get, words_get, hl, h w]
  · rw [if_neg hl]
    simp only
    have htake : (words a).take (min (words a).length (words b).length) = (words b).take (min (words a).length (words b).length) ↔
        ∀ w, w < (words a).length → w < (words b).length → wordAt a w = wordAt b w := by
      constructor
      · intro h w h1 h2
        have h3 : ((words a).take (min (words a).length (words b).length))[w]? =
          ((words b).take (min (words a).length (words b).length))[w]? := by rw [h]
        rw [List.getElem?_take_of_lt (by omega), List.getElem?_take_of_lt (by omega), words_get, words_get,
          if_pos h1, if_pos h2] at h3
        exact Option.some.inj h3
      · intro h
        apply List.ext_getElem?
        intro w
        by_cases hw : w < min (words a).length (words b).length
        · rw [List.getElem?_take_of_lt hw, List.getElem?_take_of_lt hw, words_get, words_get,
            if_pos (by omega), if_pos (by omega), h w (by omega) (by omega)]
        · rw [List.getElem?_eq_none (by simp; omega), List.getElem?_eq_none (by simp; omega)]
    have hdrop : ∀ c : Bits, ∀ m, ((words c).drop m).all (fun w => decide (w = zeroWord)) = true ↔
        ∀ w, m ≤ w → w < (words c).length → wordAt c w = zeroWord := by
      intro c m
      rw [List.all_eq_true]
      constructor
      · intro h w h1 h2
        have : wordAt c w ∈ (words c).drop m := by
          apply List.mem_of_getElem? (i := w - m)
          rw [List.getElem?_drop, words_get, if_pos (by omega)]
          congr 2
          omega
        exact of_decide_eq_true (h _ this)
      · intro h x hx
        obtain ⟨i, hi, hix⟩ := List.getElem_of_mem hx
        have hi2 : ((words c).drop m)[i]? = some x := by rw [List.getElem?_eq_getElem hi, hix]
        rw [List.getElem?_drop, words_get] at hi2
        split at hi2
        · rename_i hlt
          cases hi2
          exact decide_eq_true (h _ (by omega) hlt)
        · cases hi2
    by_cases ht : (words a).take (min (words a).length (words b).length) = (words b).take (min (words a).length (words b).length)
    · rw [if_neg (fun h => h ht)]
      have ht' := htake.1 ht
      by_cases hgt : (words a).length > (words b).length
      · rw [if_pos hgt, hdrop]
        constructor
        · intro h w
          by_cases h1 : w < (words b).length
          · exact ht' w (by omega) h1
          · rw [hbeyB w (by omega)]
            by_cases h2 : w < (words a).length
            · exact h w (by omega) h2
            · exact hbeyA w (by omega)
        · intro h w h1 h2
          rw [h w, hbeyB w (by omega)]
      · rw [if_neg hgt, hdrop]
        constructor
        · intro h w
          by_cases h1 : w < (words a).length
          · exact ht' w h1 (by omega)
          · rw [hbeyA w (by omega)]
            by_cases h2 : w < (words b).length
            · exact (h w (by omega) h2).symm
            · exact (hbeyB w (by omega)).symm
        · intro h w h1 h2
          rw [← h w, hbeyA w (by omega)]
    · rw [if_pos ht]
      constructor
      · intro h; cases h
      · intro h; exact (ht (htake.2 (fun w _ _ => h w))).elim

theorem eq_iff (a b : Bits) : eq a b = true ↔ ∀ i, bit a i = bit b i := by
  unfold eq
  by_cases ha : isEmpty a = true
  · rw [ha]
    simp only [Bool.true_or, if_true]
    rw [show ((true == isEmpty b) = true ↔ isEmpty b = true) by cases isEmpty b <;> decide, isEmpty_iff]
    rw [isEmpty_iff] at ha
    constructor
    · intro h i; rw [ha, h]
    · intro h i; rw [← h, ha]
  · by_cases hb : isEmpty b = true
    · rw [hb]
      simp only [Bool.or_true, if_true]
      have ha' : isEmpty a = false := by simpa using ha
      rw [ha']
      constructor
      · intro h; cases h
      · intro h
        exfalso
        apply ha
        rw [isEmpty_iff] at hb ⊢
        intro i; rw [h, hb]
    · rw [if_neg (by simp [ha, hb])]
      exact words_eq_iff a b

theorem dropWhile_replicate_append {A : Type} (p : A → Bool) (n : Nat) (z : A) (hz : p z = true) (l : List A) :
    (List.replicate n z ++ l).dropWhile p = l.dropWhile p := by
  induction n with
  | zero => rfl
  | succ n ih => rw [List.replicate_succ, List.cons_append, List.dropWhile_cons, if_pos hz, ih]

theorem words_pad (a : Bits) {n : Nat} (h : (words a).length ≤ n) :
    (List.range n).map (wordAt a) = words a ++ List.replicate (n - (words a).length) zeroWord := by
  apply List.ext_getElem?
  intro w
  rw [List.getElem?_map]
  by_cases h1 : w < (words a).length
  · rw [List.getElem?_append_left h1, words_get, if_pos h1, List.getElem?_range (by omega)]
    rfl
  · rw [List.getElem?_append_right (by omega), List.getElem?_replicate]
    by_cases h2 : w < n
    · rw [List.getElem?_range h2, if_pos (by omega)]
      simp only [Option.map_some]
      rw [wordAt_beyond (by rw [← words_length]; omega)]
    · rw [List.getElem?_eq_none (by simpa using Nat.le_of_not_lt h2), if_neg (by omega)]
      rfl

theorem trim_pad (ws : List (List Bool)) (n : Nat) : trim (ws ++ List.replicate n zeroWord) = trim ws := by
  unfold trim
  rw [List.reverse_append, List.reverse_replicate, dropWhile_replicate_append _ _ _ (by simp)]

/-- Equal bits have the same words up to trailing zero words. -/
theorem trim_words_eq {a b : Bits} (h : ∀ i, bit a i = bit b i) : trim (words a) = trim (words b) := by
  have hw := (bits_eq_iff a b).1 h
  have hA := words_pad a (n := max (words a).length (words b).length) (by omega)
  have hB := words_pad b (n := max (words a).length (words b).length) (by omega)
  have : (List.range (max (words a).length (words b).length)).map (wordAt a) =
      (List.range (max (words a).length (words b).length)).map (wordAt b) := by
    congr 1; funext w; exact hw w
  rw [hA, hB] at this
  rw [← trim_pad (words a), this, trim_pad]

/-! ### The order -/

/-- Specification: the number a bit vector stands for. -/
def val : Bits → Nat
  | [] => 0
  | b :: bs => b.toNat + 2 * val bs

theorem val_append (a b : Bits) : val (a ++ b) = val a + 2 ^ a.length * val b := by
  induction a with
  | nil => simp [val]
  | cons x xs ih =>
    simp only [List.cons_append, val, ih, List.length_cons, Nat.pow_succ]
    rw [Nat.mul_add, Nat.mul_assoc, Nat.mul_left_comm, Nat.add_assoc]

theorem val_lt (a : Bits) : val a < 2 ^ a.length := by
  induction a with
  | nil => simp [val]
  | cons x xs ih =>
    simp only [val, List.length_cons, Nat.pow_succ]
    cases x <;> simp <;> omega

theorem val_zero {a : Bits} (h : ∀ i, bit a i = false) : val a = 0 := by
  induction a with
  | nil => rfl
  | cons x xs ih =>
    have h0 := h 0
    have hx : x = false := by cases x <;> simp [bit] at h0 ⊢
    have := ih (fun i => by have := h (i + 1); simpa [bit] using this)
    simp [val, hx, this]

theorem val_pos {a : Bits} {i : Nat} (h : bit a i = true) : 0 < val a := by
  induction a generalizing i with
  | nil => simp [bit] at h
  | cons x xs ih =>
    cases i with
    | zero =>
      have hx : x = true := by cases x <;> simp [bit] at h ⊢
      simp [val, hx]; omega
    | succ i =>
      have := ih (i := i) (by simpa [bit] using h)
      simp only [val]; omega

theorem val_take_succ (a : Bits) {k : Nat} (h : k < a.length) :
    val (a.take (k + 1)) = val (a.take k) + 2 ^ k * (bit a k).toNat := by
  rw [List.take_add_one, List.getElem?_eq_getElem h, val_append, List.length_take, Nat.min_eq_left (by omega)]
  unfold bit
  rw [List.getElem?_eq_getElem h]
  cases hb : a[k] <;> simp [val]

theorem isLessLoop_spec (a b : Bits) (k : Nat) (ha : k ≤ a.length) (hb : k ≤ b.length) :
    isLessLoop a b k = decide (val (a.take k) < val (b.take k)) := by
  induction k with
  | zero => simp [isLessLoop, val]
  | succ k ih =>
    simp only [isLessLoop]
    rw [val_take_succ a (by omega), val_take_succ b (by omega)]
    have h1 := val_lt (a.take k)
    have h2 := val_lt (b.take k)
    rw [List.length_take, Nat.min_eq_left (by omega)] at h1 h2
    rw [ih (by omega) (by omega)]
    cases hba : bit a k <;> cases hbb : bit b k <;> simp <;> omega

theorem findFirstIn_isSome (b : Bits) (lo hi : Nat) :
    (findFirstIn b lo hi).isSome = true ↔ ∃ i, lo ≤ i ∧ i < hi ∧ bit b i = true := by
  unfold findFirstIn
  rw [List.find?_isSome]
  constructor
  · rintro ⟨i, hi, h⟩
    rw [Bool.and_eq_true, decide_eq_true_eq] at h
    exact ⟨i, h.1, List.mem_range.1 hi, h.2⟩
  · rintro ⟨i, h1, h2, h3⟩
    exact ⟨i, List.mem_range.2 h2, by simp [h1, h3]⟩

theorem bit_drop (a : Bits) (n i : Nat) : bit (a.drop n) i = bit a (n + i) := by
  unfold bit; rw [List.getElem?_drop]

theorem val_split (a : Bits) {k : Nat} (h : k ≤ a.length) : val a = val (a.take k) + 2 ^ k * val (a.drop k) := by
  conv => lhs; rw [← List.take_append_drop k a]
  rw [val_append, List.length_take, Nat.min_eq_left h]

/-- `isLess` compares the numbers. -/
theorem isLess_spec (a b : Bits) : isLess a b = decide (val a < val b) := by
  unfold isLess
  have hhigh : ∀ (c : Bits) (n : Nat), (findFirstIn c n c.length).isSome = true → n ≤ c.length → 2 ^ n ≤ val c := by
    intro c n h hn
    obtain ⟨i, h1, h2, h3⟩ := (findFirstIn_isSome _ _ _).1 h
    have h4 : bit (c.drop n) (i - n) = true := by rw [bit_drop]; rwa [Nat.add_sub_cancel' h1]
    have h5 := val_pos h4
    rw [val_split c hn]
    have : 2 ^ n * 1 ≤ 2 ^ n * val (c.drop n) := Nat.mul_le_mul_left _ h5
    omega
  have hlow : ∀ (c : Bits) (n : Nat), ¬ (findFirstIn c n c.length).isSome = true → n ≤ c.length → val (c.take n) = val c := by
    intro c n h hn
    have h5 : val (c.drop n) = 0 := by
      apply val_zero
      intro i
      rw [bit_drop]
      cases hb : bit c (n + i) with
      | false => rfl
      | true => exact (h ((findFirstIn_isSome _ _ _).2 ⟨n + i, by omega, bit_lt hb, hb⟩)).elim
    rw [val_split c hn, h5]; simp
  have hva := val_lt a
  have hvb := val_lt b
  rcases Nat.lt_trichotomy a.length b.length with hl | hl | hl
  · rw [if_neg (by omega)]
    by_cases hs : (findFirstIn b a.length b.length).isSome = true
    · rw [if_pos ⟨hl, hs⟩]
      have := hhigh b a.length hs (by omega)
      exact (decide_eq_true (by omega)).symm
    · rw [if_neg (fun h => hs h.2), isLessLoop_spec _ _ _ (Nat.min_le_left _ _) (Nat.min_le_right _ _),
        Nat.min_eq_left (by omega), hlow b a.length hs (by omega), List.take_length]
  · rw [if_neg (by omega), if_neg (by omega),
      isLessLoop_spec _ _ _ (Nat.min_le_left _ _) (Nat.min_le_right _ _), hl, Nat.min_self, List.take_length, ← hl,
      List.take_length]
  · by_cases hs : (findFirstIn a b.length a.length).isSome = true
    · rw [if_pos ⟨hl, hs⟩]
      have := hhigh a b.length hs (by omega)
      exact (decide_eq_false (by omega)).symm
    · rw [if_neg (fun h => hs h.2), if_neg (by omega),
        isLessLoop_spec _ _ _ (Nat.min_le_left _ _) (Nat.min_le_right _ _),
        Nat.min_eq_right (by omega), hlow a b.length hs (by omega), List.take_length]

theorem val_inj {a b : Bits} : val a = val b ↔ ∀ i, bit a i = bit b i := by
  constructor
  · intro h
    induction a generalizing b with
    | nil =>
      intro i
      cases hb : bit b i with
      | false => rfl
      | true => have := val_pos hb; simp [val] at h; omega
    | cons x xs ih =>
      cases b with
      | nil =>
        intro i
        cases hb : bit (x :: xs) i with
        | false => rfl
        | true => have := val_pos hb; simp only [val] at h this; omega
      | cons y ys =>
        simp only [val] at h
        have hxy : x = y := by cases x <;> cases y <;> simp at h ⊢ <;> omega
        subst hxy
        have := ih (b := ys) (by omega)
        intro i
        cases i with
        | zero => rfl
        | succ i => simpa [bit] using this i
  · intro h
    induction a generalizing b with
    | nil =>
      rw [val_zero (a := b)]
      · rfl
      · intro i; rw [← h]; rfl
    | cons x xs ih =>
      cases b with
      | nil =>
        rw [val_zero (a := x :: xs)]
        · rfl
        · intro i; rw [h]; rfl
      | cons y ys =>
        have h0 := h 0
        have hxy : x = y := by cases x <;> cases y <;> simp [bit] at h0 ⊢
        have := ih (b := ys) (fun i => by have := h (i + 1); simpa [bit] using this)
        simp only [val, hxy, this]

/-! ### Iteration -/

theorem findFirstIn_some {b : Bits} {lo hi i : Nat} (h : findFirstIn b lo hi = some i) :
    lo ≤ i ∧ i < hi ∧ bit b i = true ∧ ∀ j, lo ≤ j → j < i → bit b j = false := by
  unfold findFirstIn at h
  rw [List.find?_range_eq_some] at h
  obtain ⟨h1, h2, h3⟩ := h
  rw [Bool.and_eq_true, decide_eq_true_eq] at h1
  rw [List.mem_range] at h2
  refine ⟨h1.1, h2, h1.2, ?_⟩
  intro j hj hji
  have := h3 j hji
  cases hb : bit b j with
  | false => rfl
  | true => rw [hb, decide_eq_true hj] at this; simp at this

theorem findFirstIn_none {b : Bits} {lo hi : Nat} (h : findFirstIn b lo hi = none) :
    ∀ j, lo ≤ j → j < hi → bit b j = false := by
  intro j h1 h2
  cases hb : bit b j with
  | false => rfl
  | true =>
    have := (findFirstIn_isSome b lo hi).2 ⟨j, h1, h2, hb⟩
    rw [h] at this; cases this

/-- The set bits from `lo` on. -/
def idxsFrom (b : Bits) (lo : Nat) : List Nat := (List.range b.length).filter (fun i => decide (lo ≤ i) && bit b i)

theorem range_split (n i : Nat) (h : i < n) :
    List.range n = List.range i ++ i :: (List.range (n - i - 1)).map (fun j => i + 1 + j) := by
  have h1 : n = i + (1 + (n - i - 1)) := by omega
  conv => lhs; rw [h1, List.range_add, List.range_add]
  simp [List.map_map, Function.comp_def, Nat.add_assoc]

theorem idxsFrom_some {b : Bits} {lo i : Nat} (h : findFirstIn b lo b.length = some i) :
    idxsFrom b lo = i :: idxsFrom b (i + 1) := by
  obtain ⟨h1, h2, h3, h4⟩ := findFirstIn_some h
  unfold idxsFrom
  rw [range_split _ _ h2, List.filter_append, List.filter_append, List.filter_cons, List.filter_cons]
  have e1 : (List.range i).filter (fun j => decide (lo ≤ j) && bit b j) = [] := by
    rw [List.filter_eq_nil_iff]
    intro j hj
    rw [List.mem_range] at hj
    by_cases hl : lo ≤ j
    · rw [h4 j hl hj]; simp
    · simp [hl]
  have e2 : (List.range i).filter (fun j => decide (i + 1 ≤ j) && bit b j) = [] := by
    rw [List.filter_eq_nil_iff]
    intro j hj
    rw [List.mem_range] at hj
    have : ¬ i + 1 ≤ j := by omega
    simp [this]
  rw [e1, e2, if_pos (by simp [h1, h3]), if_neg (by simp; omega)]
  simp only [List.nil_append, List.cons.injEq, true_and]
  rw [List.filter_map, List.filter_map]
  congr 1
  apply List.filter_congr
  intro j _
  have a1 : lo ≤ i + 1 + j := by omega
  have a2 : i + 1 ≤ i + 1 + j := by omega
  simp [Function.comp, a1, a2]

theorem idxsFrom_none {b : Bits} {lo : Nat} (h : findFirstIn b lo b.length = none) : idxsFrom b lo = [] := by
  unfold idxsFrom
  rw [List.filter_eq_nil_iff]
  intro j hj
  rw [List.mem_range] at hj
  by_cases hl : lo ≤ j
  · rw [findFirstIn_none h j hl hj]; simp
  · simp [hl]

theorem rfind_lt {pos : List T} {i : Nat} (h : i < pos.length) : rfind pos i = some i := if_pos h

theorem iterate_spec {pos : List T} {b : Bits} (hb : ∀ i, bit b i = true → i < pos.length) (k lo : Nat)
    (hk : b.length ≤ k + lo) :
    ∃ l, iterate pos b (end' pos b) k (match findFirstIn b lo b.length with
        | some i => rfind pos i
        | none => rfind pos b.length) = some l ∧
      l.map some = (idxsFrom b lo).map (fun i => pos[i]?) := by
  induction k generalizing lo with
  | zero =>
    cases hf : findFirstIn b lo b.length with
    | some i => obtain ⟨h1, h2, _⟩ := findFirstIn_some hf; omega
    | none => exact ⟨[], by simp [iterate, end'], by rw [idxsFrom_none hf]; rfl⟩
  | succ k ih =>
    cases hf : findFirstIn b lo b.length with
    | none => exact ⟨[], by simp [iterate, end'], by rw [idxsFrom_none hf]; rfl⟩
    | some i =>
      obtain ⟨h1, h2, h3, h4⟩ := findFirstIn_some hf
      have hi := hb i h3
      simp only
      rw [rfind_lt hi]
      have hne : some i ≠ end' pos b := by
        unfold end' rfind
        split
        · intro h; cases h; omega
        · intro h; cases h
      obtain ⟨l, hl, hl2⟩ := ih (i + 1) (by omega)
      refine ⟨pos[i] :: l, ?_, ?_⟩
      · simp only [iterate]
        rw [if_neg hne, List.getElem?_eq_getElem hi]
        simp only [next]
        rw [hl]
        rfl
      · rw [idxsFrom_some hf, List.map_cons, List.map_cons, hl2, List.getElem?_eq_getElem hi]

theorem elems_spec {pos : List T} {b : Bits} (hb : ∀ i, bit b i = true → i < pos.length) :
    ∃ l, elems pos b = some l ∧ l.map some = (idxs b).map (fun i => pos[i]?) := by
  have := iterate_spec hb b.length 0 (by omega)
  have e : idxsFrom b 0 = idxs b := by
    unfold idxsFrom idxs
    apply List.filter_congr
    intro i _; simp
  rw [e] at this
  exact this

end Phasar.BVS
