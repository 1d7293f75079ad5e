import Verif.Util.StableVec
/-!
# Lemmas on the `StableVector` model

Block `i` holds the elements `base i … base i + cap i - 1`.
-/
set_option linter.unusedSectionVars false
namespace Phasar.SVec
variable {T : Type}

/-- Capacity of block `i`. -/
def cap : Nat → Nat
  | 0 => 32
  | i + 1 => 32 * 2 ^ i

/-- Index of the first element in block `i`. -/
def base : Nat → Nat
  | 0 => 0
  | i + 1 => 32 * 2 ^ i

theorem base_zero : base 0 = 0 := rfl
theorem cap_zero : cap 0 = 32 := rfl
theorem cap_succ (i : Nat) : cap (i + 1) = base (i + 1) := rfl

theorem base_succ (i : Nat) : base (i + 1) = base i + cap i := by
  cases i with
  | zero => rfl
  | succ i => simp only [base, cap, Nat.pow_succ]; omega

theorem cap_two (i : Nat) : cap (i + 2) = 2 * cap (i + 1) := by
  rw [cap_succ, base_succ, cap_succ]; omega

theorem cap_pos (i : Nat) : 0 < cap i := by
  cases i with
  | zero => decide
  | succ i => exact Nat.mul_pos (by decide) (Nat.pow_pos (by decide))

theorem base_mono {i j : Nat} (h : i < j) : base (i + 1) ≤ base j := by
  induction j with
  | zero => omega
  | succ j ih =>
    by_cases hj : i = j
    · subst hj; exact Nat.le_refl _
    · have := ih (by omega)
      rw [base_succ j]; omega

theorem block_unique {i j n : Nat} (h1 : base i ≤ n) (h2 : n < base i + cap i) (h3 : base j ≤ n)
    (h4 : n < base j + cap j) : i = j := by
  rcases Nat.lt_trichotomy i j with h | h | h
  · have := base_mono h; rw [base_succ] at this; omega
  · exact h
  · have := base_mono h; rw [base_succ] at this; omega

/-- The cells of block `i` if the elements are given by `f`. -/
def seg (f : Nat → Option T) (i : Nat) : List (Option T) := (List.range (cap i)).map (fun o => f (base i + o))

theorem seg_length (f : Nat → Option T) (i : Nat) : (seg f i).length = cap i := by simp [seg]

theorem seg_get (f : Nat → Option T) (i o : Nat) : (seg f i)[o]? = if o < cap i then some (f (base i + o)) else none := by
  unfold seg
  rw [List.getElem?_map]
  split
  · rename_i h; rw [List.getElem?_range h]; rfl
  · rename_i h; rw [List.getElem?_eq_none (by simpa using Nat.le_of_not_lt h)]; rfl

theorem seg_congr {f g : Nat → Option T} {i : Nat} (h : ∀ o, o < cap i → f (base i + o) = g (base i + o)) :
    seg f i = seg g i := by
  unfold seg
  rw [List.map_inj_left]
  intro o ho
  exact h o (List.mem_range.1 ho)

/-- Block `i` of `blocks` holds the elements given by `f`. -/
def Content (h : Heap T) (bs : List Nat) (f : Nat → Option T) : Prop :=
  ∀ (i : Nat) b, bs[i]? = some b → h.mem b = some (seg f i)

theorem nodup_idx {bs : List Nat} (h : bs.Nodup) {i j b : Nat} (hi : bs[i]? = some b) (hj : bs[j]? = some b) :
    i = j := by
  obtain ⟨h1, h1'⟩ := List.getElem?_eq_some_iff.1 hi
  obtain ⟨h2, h2'⟩ := List.getElem?_eq_some_iff.1 hj
  exact (List.getElem_inj h).1 (h1'.trans h2'.symm)

/-- Nothing outside `bs` changed. -/
def Frame (h h' : Heap T) (bs : List Nat) : Prop := h'.next = h.next ∧ ∀ a, a ∉ bs → h'.mem a = h.mem a

theorem Frame.refl (h : Heap T) (bs : List Nat) : Frame h h bs := ⟨rfl, fun _ _ => rfl⟩

theorem Frame.trans {h h' h'' : Heap T} {bs : List Nat} (h1 : Frame h h' bs) (h2 : Frame h' h'' bs) :
    Frame h h'' bs := ⟨h2.1.trans h1.1, fun a ha => (h2.2 a ha).trans (h1.2 a ha)⟩

theorem frame_put {h : Heap T} {bs : List Nat} {j b : Nat} (hb : bs[j]? = some b) (c : Option (List (Option T))) :
    Frame h (h.put b c) bs := by
  refine ⟨rfl, ?_⟩
  intro a ha
  have : a ≠ b := fun e => ha (by rw [e]; exact List.mem_of_getElem? hb)
  simp [Heap.put, this]

theorem content_put {h : Heap T} {bs : List Nat} {f f' : Nat → Option T} (hc : Content h bs f) (hn : bs.Nodup)
    {j b : Nat} (hb : bs[j]? = some b) (hf : ∀ m, ¬ (base j ≤ m ∧ m < base j + cap j) → f' m = f m)
    {c : List (Option T)} (hcs : c = seg f' j) : Content (h.put b (some c)) bs f' := by
  intro i b' hb'
  by_cases e : b' = b
  · subst e
    have := nodup_idx hn hb hb'
    subst this
    simp [Heap.put, hcs]
  · simp only [Heap.put, if_neg e]
    rw [hc i b' hb']
    have hij : i ≠ j := fun h => e (by rw [h, hb] at hb'; exact (Option.some.inj hb').symm)
    rw [seg_congr]
    intro o ho
    symm
    apply hf
    rintro ⟨h1, h2⟩
    exact hij (block_unique (n := base i + o) (by omega) (by omega) h1 h2)

/-- One element added. -/
def upd (f : Nat → Option T) (m : Nat) (x : T) : Nat → Option T := fun n => if n = m then some x else f n

/-- `n` elements from `s` on removed. -/
def kill (f : Nat → Option T) (s n : Nat) : Nat → Option T := fun m => if s ≤ m ∧ m < s + n then none else f m

theorem construct_spec {h : Heap T} {bs : List Nat} {f : Nat → Option T} (hc : Content h bs f) (hn : bs.Nodup)
    {j b o : Nat} (hb : bs[j]? = some b) (ho : o < cap j) (hf : f (base j + o) = none) (x : T) :
    ∃ h', construct h b o x = some h' ∧ Content h' bs (upd f (base j + o) x) ∧ Frame h h' bs := by
  unfold construct
  rw [hc j b hb]
  simp only [seg_get, if_pos ho, hf]
  refine ⟨_, rfl, ?_, frame_put hb _⟩
  refine content_put hc hn hb ?_ ?_
  · intro m hm
    unfold upd
    rw [if_neg]
    intro e; omega
  · apply List.ext_getElem?
    intro i
    rw [List.getElem?_set, seg_length, seg_get, seg_get, if_pos ho]
    unfold upd
    by_cases hi : o = i
    · subst hi; simp [ho]
    · rw [if_neg hi]
      split
      · rw [if_neg (by omega)]
      · rfl

theorem destroyCells_spec (c : List (Option T)) (o n : Nat)
    (hs : ∀ i, o ≤ i → i < o + n → ∃ x, c[i]? = some (some x)) :
    ∃ c', destroyCells c o n = some c' ∧
      ∀ i : Nat, c'[i]? = if o ≤ i ∧ i < o + n then some none else c[i]? := by
  induction n generalizing c o with
  | zero => exact ⟨c, rfl, fun i => by rw [if_neg (by omega)]⟩
  | succ n ih =>
    obtain ⟨x, hx⟩ := hs o (by omega) (by omega)
    have hlen := (List.getElem?_eq_some_iff.1 hx).1
    obtain ⟨c', h1, h2⟩ := ih (c.set o none) (o + 1) (by
      intro i hi1 hi2
      obtain ⟨y, hy⟩ := hs i (by omega) (by omega)
      exact ⟨y, by rw [List.getElem?_set_ne (by omega)]; exact hy⟩)
    refine ⟨c', by simp [destroyCells, hx, h1], ?_⟩
    intro i
    rw [h2, List.getElem?_set]
    by_cases hi : o = i
    · subst hi
      rw [if_neg (by omega), if_pos rfl, if_pos hlen, if_pos (by omega)]
    · rw [if_neg hi]
      by_cases h3 : o + 1 ≤ i ∧ i < o + 1 + n
      · rw [if_pos h3, if_pos (by omega)]
      · rw [if_neg h3, if_neg (by omega)]

theorem destroyN_spec {h : Heap T} {bs : List Nat} {f : Nat → Option T} (hc : Content h bs f) (hn : bs.Nodup)
    {j b o n : Nat} (hb : bs[j]? = some b) (ho : o + n ≤ cap j)
    (hf : ∀ m, base j + o ≤ m → m < base j + o + n → ∃ x, f m = some x) :
    ∃ h', destroyN h b o n = some h' ∧ Content h' bs (kill f (base j + o) n) ∧ Frame h h' bs := by
  unfold destroyN
  by_cases hz : n = 0
  · subst hz
    refine ⟨h, if_pos rfl, ?_, Frame.refl _ _⟩
    have : kill f (base j + o) 0 = f := by
      funext m; unfold kill; rw [if_neg (by omega)]
    rw [this]; exact hc
  · rw [if_neg hz, hc j b hb]
    obtain ⟨c', h1, h2⟩ := destroyCells_spec (seg f j) o n (by
      intro i hi1 hi2
      obtain ⟨x, hx⟩ := hf (base j + i) (by omega) (by omega)
      exact ⟨x, by rw [seg_get, if_pos (by omega), hx]⟩)
    simp only [h1, Option.map_some]
    refine ⟨_, rfl, ?_, frame_put hb _⟩
    refine content_put hc hn hb ?_ ?_
    · intro m hm
      unfold kill
      rw [if_neg (by omega)]
    · apply List.ext_getElem?
      intro i
      rw [h2, seg_get, seg_get]
      unfold kill
      by_cases hi : o ≤ i ∧ i < o + n
      · rw [if_pos hi, if_pos (by omega), if_pos (by omega)]
      · rw [if_neg hi]
        split
        · rw [if_neg (by omega)]
        · rfl

/-- The invariant: the vector stands for the list `l`. -/
structure Inv (v : SV) (h : Heap T) (l : List T) : Prop where
  nodup : v.blocks.Nodup
  bound : ∀ a, a ∈ v.blocks → a < h.next
  content : Content h v.blocks (fun n => l[n]?)
  size : v.size = l.length
  null : v.blocks = [] → v.start = none ∧ v.pos = 0 ∧ v.fin = 0 ∧ v.idx = 0 ∧ l = []
  nonnull : v.blocks ≠ [] → v.start = v.blocks[v.idx]? ∧ v.idx < v.blocks.length ∧ v.fin = cap v.idx ∧
    l.length = base v.idx + v.pos ∧ v.pos ≤ cap v.idx ∧ (v.idx ≠ 0 → 0 < v.pos)

/-- What an operation on one vector guarantees: the new vector stands for the new list; memory of others is
untouched; blocks are kept, new or freed; elements in both lists keep their address. -/
structure Res (v : SV) (h : Heap T) (l : List T) (v' : SV) (h' : Heap T) (l' : List T) : Prop where
  inv : Inv v' h' l'
  next : h.next ≤ h'.next
  frame : ∀ a, a ∉ v.blocks → a < h.next → h'.mem a = h.mem a
  own : ∀ a, a ∈ v'.blocks → a ∈ v.blocks ∨ h.next ≤ a
  freed : ∀ a, a ∈ v.blocks → a ∉ v'.blocks → h'.mem a = none
  fresh : ∀ a, h.next ≤ a → a ∉ v'.blocks → h'.mem a = h.mem a
  stable : ∀ i, i < l.length → i < l'.length → addr v' i = addr v i

/-! ### Addresses -/

theorem addr_eq (v : SV) {i b : Nat} (h1 : base b ≤ i) (h2 : i < base b + cap b) :
    addr v i = (v.blocks[b]?).map (fun a => (a, i - base b)) := by
  unfold addr initialCapacity
  by_cases hi : i < 32
  · rw [if_pos hi]
    have : b = 0 := block_unique h1 h2 (j := 0) (n := i) (by simp [base_zero]) (by simp [base_zero, cap_zero, hi])
    subst this
    simp [base_zero]
  · rw [if_neg hi]
    cases b with
    | zero => simp [base_zero, cap_zero] at h2; omega
    | succ b =>
      have e : base (b + 1) = 2 ^ (b + 5) := by
        simp only [base]
        rw [Nat.pow_add]; omega
      have e2 : base (b + 1) + cap (b + 1) = 2 ^ (b + 6) := by
        rw [cap_succ, e, Nat.pow_succ 2 (b + 5)]; omega
      have hl : Nat.log2 i = b + 5 := by
        rw [Nat.log2_eq_iff (by omega)]
        constructor
        · omega
        · have : b + 5 + 1 = b + 6 := by omega
          rw [this]; omega
      rw [hl]
      have : b + 5 - 4 = b + 1 := by omega
      rw [this, e]

/-- The block an index is in. -/
theorem exists_block (i : Nat) : ∃ b, base b ≤ i ∧ i < base b + cap b := by
  have h1 : ∀ n, i < base (n + 1) → ∃ b, base b ≤ i ∧ i < base b + cap b := by
    intro n
    induction n with
    | zero => intro h; exact ⟨0, by simp [base_zero], by rw [base_succ] at h; exact h⟩
    | succ n ih =>
      intro h
      by_cases h' : i < base (n + 1)
      · exact ih h'
      · exact ⟨n + 1, by omega, by rw [base_succ] at h; exact h⟩
  apply h1 i
  have : ∀ n, n < base (n + 1) := by
    intro n
    induction n with
    | zero => decide
    | succ n ih => rw [base_succ]; have := cap_pos (n + 1); omega
  exact this i

theorem block_le {i b n : Nat} (h1 : base b ≤ i) (h2 : i < base n + cap n) : b ≤ n := by
  refine Nat.le_of_not_lt ?_
  intro h
  have := base_mono h
  rw [base_succ] at this
  omega

/-- Elements keep their addresses if the blocks up to the one in use are kept. -/
theorem stable_of {v v' : SV} {n m : Nat} (hm : m ≤ base n + cap n)
    (hb : ∀ b, b ≤ n → v'.blocks[b]? = v.blocks[b]?) : ∀ i, i < m → addr v' i = addr v i := by
  intro i hi
  obtain ⟨b, h1, h2⟩ := exists_block i
  rw [addr_eq v h1 h2, addr_eq v' h1 h2, hb b (block_le h1 (by omega))]

theorem Inv.len_le {v : SV} {h : Heap T} {l : List T} (hi : Inv v h l) : l.length ≤ base v.idx + cap v.idx := by
  by_cases hb : v.blocks = []
  · rw [(hi.null hb).2.2.2.2]; simp
  · obtain ⟨_, _, _, h4, h5, _⟩ := hi.nonnull hb
    omega

theorem inv_null (h : Heap T) : Inv null h ([] : List T) :=
  ⟨by simp [null], by simp [null], by intro i b hb; simp [null] at hb, rfl,
   fun _ => ⟨rfl, rfl, rfl, rfl, rfl⟩, fun hb => (hb rfl).elim⟩

theorem read_spec {h : Heap T} {bs : List Nat} {f : Nat → Option T} (hc : Content h bs f) {j b o : Nat}
    (hb : bs[j]? = some b) (ho : o < cap j) : read h b o = f (base j + o) := by
  unfold read
  rw [hc j b hb]
  simp only [seg_get, if_pos ho]
  cases f (base j + o) <;> rfl

/-! ### `emplace_back` -/

theorem upd_list (l : List T) (x : T) : upd (fun n => l[n]?) l.length x = fun n => (l ++ [x])[n]? := by
  funext n
  unfold upd
  by_cases hn : n = l.length
  · subst hn; simp
  · rw [if_neg hn]
    by_cases h : n < l.length
    · rw [List.getElem?_append_left h]
    · show l[n]? = _
      rw [List.getElem?_eq_none (by omega), List.getElem?_eq_none (by simp; omega)]

theorem alloc_content {h : Heap T} {bs : List Nat} {f : Nat → Option T} (hc : Content h bs f)
    (hb : ∀ a, a ∈ bs → a < h.next) (hf : ∀ o, o < cap bs.length → f (base bs.length + o) = none) :
    Content (alloc h (cap bs.length)).1 (bs ++ [h.next]) f := by
  intro i b hi
  by_cases hl : i < bs.length
  · rw [List.getElem?_append_left hl] at hi
    have : b ≠ h.next := fun e => Nat.lt_irrefl _ (e ▸ hb b (List.mem_of_getElem? hi))
    simp only [alloc, Heap.put, if_neg this]
    exact hc i b hi
  · rw [List.getElem?_append_right (by omega)] at hi
    have hil : i = bs.length := by
      have := (List.getElem?_eq_some_iff.1 hi).1
      simp at this; omega
    subst hil
    simp at hi
    subst hi
    simp only [alloc, Heap.put, if_pos]
    congr 1
    apply List.ext_getElem?
    intro o
    rw [List.getElem?_replicate, seg_get]
    split
    · rename_i ho; rw [hf o ho]
    · rfl

theorem nodup_snoc {bs : List Nat} {n : Nat} (h : bs.Nodup) (hb : ∀ a, a ∈ bs → a < n) : (bs ++ [n]).Nodup := by
  rw [List.nodup_append]
  refine ⟨h, by simp, ?_⟩
  intro a ha b hb' e
  simp at hb'
  have := hb a ha
  omega

theorem emplace_spec {v : SV} {h : Heap T} {l : List T} (hi : Inv v h l) (x : T) :
    ∃ v' h', emplaceBack v h x = some (v', h') ∧ Res v h l v' h' (l ++ [x]) := by
  unfold emplaceBack
  by_cases hb : v.blocks = []
  · -- first block
    obtain ⟨n1, n2, n3, n4, n5⟩ := hi.null hb
    rw [if_pos (by rw [n2, n3])]
    unfold grow
    subst n5
    have hc0 : Content (alloc h (cap ([] : List Nat).length)).1 ([] ++ [h.next]) (fun n => ([] : List T)[n]?) :=
      alloc_content (by intro i b hb; simp at hb) (by simp) (by simp)
    simp only [List.length_nil, List.nil_append] at hc0
    obtain ⟨h', h1, h2, h3⟩ := construct_spec (j := 0) (o := 0) hc0 (by simp) rfl (by decide) (by simp) x
    simp only [hb, if_pos, initialCapacity, n4]
    simp only [alloc, cap_zero] at h1 ⊢
    simp only [List.getElem?_cons_zero, h1, Option.map_some]
    refine ⟨_, _, rfl, ?_⟩
    have hu := upd_list ([] : List T) x
    simp only [List.length_nil, List.nil_append] at hu
    refine ⟨⟨by simp, ?_, ?_, ?_, by simp, ?_⟩, ?_, ?_, ?_, ?_, ?_, ?_⟩
    · intro a ha
      simp at ha
      subst ha
      rw [h3.1]; simp [alloc]
    · simp only [base_zero, Nat.add_zero] at h2
      rw [hu] at h2
      exact h2
    · simp [hi.size]
    · intro _
      simp [base_zero, cap_zero]
    · rw [h3.1]; simp [alloc]
    · intro a _ ha
      rw [h3.2 a (by simp; omega)]
      have : a ≠ h.next := by omega
      simp [alloc, Heap.put, this]
    · intro a ha
      simp at ha
      right; omega
    · intro a ha
      rw [hb] at ha; simp at ha
    · intro a ha1 ha2
      rw [h3.2 a ha2]
      simp at ha2
      simp [alloc, Heap.put, ha2]
    · intro i h1; simp at h1
  · obtain ⟨n1, n2, n3, n4, n5, n6⟩ := hi.nonnull hb
    by_cases hpf : v.pos = v.fin
    · rw [if_pos hpf]
      unfold grow
      have hlen : l.length = base (v.idx + 1) := by rw [base_succ]; omega
      by_cases hr : v.idx < v.blocks.length - 1
      · -- reuse the next block
        simp only [hb, if_false, if_pos hr]
        have hlt : v.idx + 1 < v.blocks.length := by omega
        have hbk : v.blocks[v.idx + 1]? = some v.blocks[v.idx + 1] := List.getElem?_eq_getElem hlt
        obtain ⟨h', h1, h2, h3⟩ := construct_spec (j := v.idx + 1) (o := 0) hi.content hi.nodup hbk (cap_pos _)
          (by simp only [Nat.add_zero, ← hlen]; simp) x
        simp only [hbk, h1, Option.map_some]
        refine ⟨_, _, rfl, ?_⟩
        refine ⟨⟨hi.nodup, ?_, ?_, ?_, ?_, ?_⟩, ?_, ?_, ?_, ?_, ?_, ?_⟩
        · intro a ha; rw [h3.1]; exact hi.bound a ha
        · simp only [Nat.add_zero] at h2
          rw [← hlen, upd_list] at h2
          exact h2
        · simp [hi.size]
        · intro h0; exact (hb h0).elim
        · intro _
          refine ⟨hbk.symm, hlt, ?_, ?_, cap_pos _, fun _ => Nat.one_pos⟩
          · show v.size = cap (v.idx + 1)
            rw [hi.size, hlen, cap_succ]
          · show (l ++ [x]).length = base (v.idx + 1) + 1
            simp [hlen]
        · rw [h3.1]; exact Nat.le_refl _
        · intro a ha _; exact h3.2 a ha
        · intro a ha; exact Or.inl ha
        · intro a h4 h5; exact (h5 h4).elim
        · intro a _ ha; exact h3.2 a ha
        · intro i _ _; rfl
      · -- a new block
        simp only [hb, if_false, if_neg hr]
        have hlb : v.blocks.length = v.idx + 1 := by omega
        have hsz : v.size = cap v.blocks.length := by rw [hi.size, hlen, hlb, cap_succ]
        have hc0 := alloc_content hi.content hi.bound (by
          intro o _
          rw [List.getElem?_eq_none (by rw [hlb]; omega)])
        have hbk : (v.blocks ++ [h.next])[v.idx + 1]? = some h.next := by
          rw [← hlb]; simp
        obtain ⟨h', h1, h2, h3⟩ := construct_spec (j := v.idx + 1) (o := 0) hc0 (nodup_snoc hi.nodup hi.bound) hbk
          (cap_pos _) (by simp only [Nat.add_zero, ← hlen]; simp) x
        rw [← hsz] at h1
        have hal : (alloc h v.size).2 = h.next := rfl
        have hga : ∀ {α : Type} (F : Heap T → Nat → α), (match alloc h v.size with | (h1, b) => F h1 b) =
          F (alloc h v.size).1 h.next := fun F => rfl
        simp only [hbk, alloc] at h1 ⊢
        simp only [h1, Option.map_some]
        refine ⟨_, _, rfl, ?_⟩
        refine ⟨⟨nodup_snoc hi.nodup hi.bound, ?_, ?_, ?_, ?_, ?_⟩, ?_, ?_, ?_, ?_, ?_, ?_⟩
        · intro a ha
          rw [h3.1]
          simp only [alloc]
          simp at ha
          rcases ha with ha | ha
          · have := hi.bound a ha; omega
          · omega
        · simp only [Nat.add_zero] at h2
          rw [← hlen, upd_list] at h2
          exact h2
        · simp [hi.size]
        · intro h0; simp at h0
        · intro _
          refine ⟨?_, ?_, ?_, ?_, cap_pos _, fun _ => Nat.one_pos⟩
          · exact hbk.symm
          · simp; omega
          · show v.size = cap (v.idx + 1)
            rw [hi.size, hlen, cap_succ]
          · show (l ++ [x]).length = base (v.idx + 1) + 1
            simp [hlen]
        · rw [h3.1]; simp [alloc]
        · intro a ha1 ha2
          rw [h3.2 a (by simp [ha1]; omega)]
          have : a ≠ h.next := by omega
          simp [alloc, Heap.put, this]
        · intro a ha
          simp at ha
          rcases ha with ha | ha
          · exact Or.inl ha
          · right; omega
        · intro a h4 h5
          simp [h4] at h5
        · intro a _ ha
          rw [h3.2 a ha]
          simp at ha
          simp [alloc, Heap.put, ha.2]
        · intro i hi1 _
          refine stable_of (n := v.idx) hi.len_le ?_ i hi1
          intro b hbl
          show (v.blocks ++ [h.next])[b]? = _
          rw [List.getElem?_append_left (by omega)]
    · rw [if_neg hpf]
      have hbk : v.blocks[v.idx]? = some v.blocks[v.idx] := List.getElem?_eq_getElem n2
      rw [n1, hbk]
      obtain ⟨h', h1, h2, h3⟩ := construct_spec (j := v.idx) (o := v.pos) hi.content hi.nodup hbk (by omega)
        (by simp only [← n4]; simp) x
      simp only [h1, Option.map_some]
      refine ⟨_, _, rfl, ?_⟩
      refine ⟨⟨hi.nodup, ?_, ?_, ?_, ?_, ?_⟩, ?_, ?_, ?_, ?_, ?_, ?_⟩
      · intro a ha; rw [h3.1]; exact hi.bound a ha
      · rw [← n4, upd_list] at h2; exact h2
      · simp [hi.size]
      · intro h0; exact (hb h0).elim
      · intro _
        refine ⟨hbk.symm, n2, n3, ?_, ?_, fun _ => Nat.succ_pos _⟩
        · show (l ++ [x]).length = base v.idx + (v.pos + 1)
          simp [n4]; omega
        · show v.pos + 1 ≤ cap v.idx
          omega
      · rw [h3.1]; exact Nat.le_refl _
      · intro a ha _; exact h3.2 a ha
      · intro a ha; exact Or.inl ha
      · intro a h4 h5; exact (h5 h4).elim
      · intro a _ ha; exact h3.2 a ha
      · intro i _ _; rfl

/-! ### Removing elements -/

theorem kill_list (l : List T) {m n : Nat} (h : m + n = l.length) :
    kill (fun i => l[i]?) m n = fun i => (l.take m)[i]? := by
  funext i
  unfold kill
  by_cases h1 : i < m
  · rw [if_neg (by omega), List.getElem?_take_of_lt h1]
  · rw [List.getElem?_eq_none (l := l.take m) (by simp; omega)]
    split
    · rfl
    · show l[i]? = none
      rw [List.getElem?_eq_none (by omega)]

theorem res_same {v v' : SV} {h h' : Heap T} {l l' : List T} (hb : v'.blocks = v.blocks) (hf : Frame h h' v.blocks)
    (hi : Inv v' h' l') : Res v h l v' h' l' := by
  refine ⟨hi, ?_, ?_, ?_, ?_, ?_, ?_⟩
  · rw [hf.1]; exact Nat.le_refl _
  · intro a ha _; exact hf.2 a ha
  · intro a ha; rw [hb] at ha; exact Or.inl ha
  · intro a h1 h2; rw [hb] at h2; exact (h2 h1).elim
  · intro a _ ha; rw [hb] at ha; exact hf.2 a ha
  · intro i _ _; unfold addr; rw [hb]

/-- The list cut down to the elements in front of block `idx`: the state `prevBlock` goes to. -/
theorem prev_inv {v : SV} {h h' : Heap T} {l l' : List T} (hi : Inv v h l) (hne : v.blocks ≠ [])
    (hx : v.idx ≠ 0) (hc : Content h' v.blocks (fun n => l'[n]?)) (hf : Frame h h' v.blocks)
    (hl : l'.length = base v.idx) {s p : Nat} (hs : s = l'.length) :
    ∃ v', prevBlock { v with pos := p, size := s } = some v' ∧ v'.blocks = v.blocks ∧ v'.pos = cap (v.idx - 1) ∧
      v'.idx = v.idx - 1 ∧ Inv v' h' l' := by
  obtain ⟨n1, n2, n3, n4, n5, n6⟩ := hi.nonnull hne
  unfold prevBlock
  simp only [hx, ne_eq, not_false_eq_true, if_true]
  have hb' : ∀ a, a ∈ v.blocks → a < h'.next := by intro a ha; rw [hf.1]; exact hi.bound a ha
  by_cases h0 : v.idx - 1 = 0
  · simp only [h0, not_true_eq_false, if_false]
    have hbk : v.blocks[0]? = some v.blocks[0] := List.getElem?_eq_getElem (by omega)
    rw [hbk]
    refine ⟨_, rfl, rfl, rfl, rfl, ⟨hi.nodup, hb', hc, hs, fun h => (hne h).elim, ?_⟩⟩
    intro _
    have : v.idx = 1 := by omega
    rw [this] at hl
    exact ⟨hbk.symm, by show 0 < v.blocks.length; omega, rfl, hl, Nat.le_refl _, fun h => (h rfl).elim⟩
  · simp only [h0, not_false_eq_true, if_true]
    have hlt : v.idx - 1 < v.blocks.length := by omega
    have hbk : v.blocks[v.idx - 1]? = some v.blocks[v.idx - 1] := List.getElem?_eq_getElem hlt
    have hcap : v.fin / 2 = cap (v.idx - 1) := by
      obtain ⟨j, hj⟩ : ∃ j, v.idx = j + 2 := ⟨v.idx - 2, by omega⟩
      rw [n3, hj, cap_two]
      have : j + 2 - 1 = j + 1 := by omega
      rw [this]; omega
    rw [hbk]
    refine ⟨_, rfl, rfl, hcap, rfl, ⟨hi.nodup, hb', hc, hs, fun h => (hne h).elim, ?_⟩⟩
    intro _
    refine ⟨hbk.symm, hlt, hcap, ?_, ?_, ?_⟩
    · show l'.length = base (v.idx - 1) + v.fin / 2
      rw [hcap, ← base_succ, hl]
      congr 1; omega
    · show v.fin / 2 ≤ cap (v.idx - 1)
      omega
    · intro _
      show 0 < v.fin / 2
      rw [hcap]; exact cap_pos _

theorem pop_spec {v : SV} {h : Heap T} {l : List T} (hi : Inv v h l) (hl : l ≠ []) :
    ∃ v' h', popBack v h = some (v', h') ∧ Res v h l v' h' l.dropLast := by
  have hlen : 0 < l.length := List.length_pos_iff.2 hl
  have hne : v.blocks ≠ [] := fun h => hl (hi.null h).2.2.2.2
  obtain ⟨n1, n2, n3, n4, n5, n6⟩ := hi.nonnull hne
  have hpos : v.pos ≠ 0 := by
    by_cases hx : v.idx = 0
    · rw [hx, base_zero] at n4; omega
    · have := n6 hx; omega
  have hbk : v.blocks[v.idx]? = some v.blocks[v.idx] := List.getElem?_eq_getElem n2
  unfold popBack
  rw [if_neg (by rw [hi.size]; omega), n1, hbk]
  obtain ⟨h', h1, h2, h3⟩ := destroyN_spec (j := v.idx) (o := v.pos - 1) (n := 1) hi.content hi.nodup hbk (by omega)
    (by intro m hm1 hm2; exact ⟨l[m], List.getElem?_eq_getElem (by omega)⟩)
  have hk : base v.idx + (v.pos - 1) = l.length - 1 := by omega
  rw [hk, kill_list l (by omega), ← List.dropLast_eq_take] at h2
  simp only [h1, Option.bind_some]
  by_cases hp : v.pos - 1 = 0
  · simp only [hp, ne_eq, not_true_eq_false, if_false]
    by_cases hx : v.idx = 0
    · have hp1 : v.pos = 1 := by omega
      refine ⟨{ v with pos := 0, size := v.size - 1, start := some v.blocks[v.idx] }, h', by simp [prevBlock, hx], ?_⟩
      refine res_same (by rfl) h3 ?_
      refine ⟨hi.nodup, ?_, h2, ?_, fun h => (hne h).elim, ?_⟩
      · intro a ha; rw [h3.1]; exact hi.bound a ha
      · simp [hi.size]
      · intro _
        refine ⟨by simp only [hx] at hbk ⊢; exact hbk.symm, n2, n3, ?_, ?_, ?_⟩
        · simp [n4]; omega
        · simp
        · intro h; exact (h hx).elim
    · obtain ⟨v', hv1, hv2, _, _, hv3⟩ := prev_inv (l' := l.dropLast) hi hne hx h2 h3 (by simp [n4]; omega)
        (s := v.size - 1) (p := 0) (by simp [hi.size])
      have hst : v.start = some v.blocks[v.idx] := by rw [n1, hbk]
      refine ⟨v', h', ?_, res_same hv2 h3 hv3⟩
      rw [show ({ blocks := v.blocks, start := some v.blocks[v.idx], pos := 0, fin := v.fin, size := v.size - 1,
                  idx := v.idx } : SV) = { v with pos := 0, size := v.size - 1 } from by rw [← hst], hv1]
      rfl
  · simp only [hp, ne_eq, not_false_eq_true, if_true]
    refine ⟨_, h', rfl, ?_⟩
    refine res_same (by rfl) h3 ?_
    refine ⟨hi.nodup, ?_, h2, ?_, fun h => (hne h).elim, ?_⟩
    · intro a ha; rw [h3.1]; exact hi.bound a ha
    · simp [hi.size]
    · intro _
      refine ⟨hbk.symm, n2, n3, ?_, ?_, ?_⟩
      · show l.dropLast.length = base v.idx + (v.pos - 1)
        simp [n4]; omega
      · show v.pos - 1 ≤ cap v.idx
        omega
      · intro _
        show 0 < v.pos - 1
        omega

theorem Frame.of_blocks {h h' : Heap T} {a b : List Nat} (hf : Frame h h' a) (e : a = b) : Frame h h' b := e ▸ hf

theorem popLoop_spec (f : Nat) {v : SV} {h : Heap T} {l : List T} (hi : Inv v h l) {n : Nat} (hn : n ≤ l.length)
    (hf : n ≤ f) :
    ∃ v' h', popLoop f v h n = some (v', h') ∧ v'.blocks = v.blocks ∧ Frame h h' v.blocks ∧
      Inv v' h' (l.take (l.length - n)) := by
  induction f generalizing v h l n with
  | zero =>
    have : n = 0 := by omega
    subst this
    exact ⟨v, h, rfl, rfl, Frame.refl _ _, by simpa using hi⟩
  | succ f ih =>
    cases n with
    | zero => exact ⟨v, h, rfl, rfl, Frame.refl _ _, by simpa using hi⟩
    | succ n =>
      have hl : l ≠ [] := by intro h; subst h; simp at hn
      have hne : v.blocks ≠ [] := fun h => hl (hi.null h).2.2.2.2
      obtain ⟨n1, n2, n3, n4, n5, n6⟩ := hi.nonnull hne
      have hpos : v.pos ≠ 0 := by
        by_cases hx : v.idx = 0
        · rw [hx, base_zero] at n4; omega
        · have := n6 hx; omega
      have hbk : v.blocks[v.idx]? = some v.blocks[v.idx] := List.getElem?_eq_getElem n2
      simp only [popLoop]
      have hst : v.start = some v.blocks[v.idx] := by rw [n1, hbk]
      rw [hst]
      simp only
      by_cases hgt : v.pos > n + 1
      · rw [if_pos hgt]
        obtain ⟨h', h1, h2, h3⟩ := destroyN_spec (j := v.idx) (o := v.pos - (n + 1)) (n := n + 1) hi.content hi.nodup
          hbk (by omega) (by intro m hm1 hm2; exact ⟨l[m], List.getElem?_eq_getElem (by omega)⟩)
        have hk : base v.idx + (v.pos - (n + 1)) = l.length - (n + 1) := by omega
        rw [hk, kill_list l (by omega)] at h2
        rw [h1]
        refine ⟨_, h', rfl, rfl, h3, ⟨hi.nodup, ?_, h2, ?_, fun h => (hne h).elim, ?_⟩⟩
        · intro a ha; rw [h3.1]; exact hi.bound a ha
        · simp [hi.size]
        · intro _
          refine ⟨by rw [hst] at n1; exact n1, n2, n3, ?_, ?_, ?_⟩
          · show (l.take (l.length - (n + 1))).length = base v.idx + (v.pos - (n + 1))
            simp; omega
          · show v.pos - (n + 1) ≤ cap v.idx
            omega
          · intro _
            show 0 < v.pos - (n + 1)
            omega
      · rw [if_neg hgt]
        obtain ⟨h', h1, h2, h3⟩ := destroyN_spec (j := v.idx) (o := 0) (n := v.pos) hi.content hi.nodup
          hbk (by omega) (by intro m hm1 hm2; exact ⟨l[m], List.getElem?_eq_getElem (by omega)⟩)
        have hk : base v.idx + 0 = base v.idx := by omega
        rw [hk, kill_list l (by omega)] at h2
        rw [h1]
        simp only [Option.bind_some]
        have hlen' : (l.take (base v.idx)).length = base v.idx := by simp; omega
        have htake : (l.take (base v.idx)).take (base v.idx - (n + 1 - v.pos)) = l.take (l.length - (n + 1)) := by
          rw [List.take_take]; congr 1; omega
        by_cases hx : v.idx = 0
        · -- everything is gone
          have hb0 : v.blocks[0]? = some v.blocks[0] := List.getElem?_eq_getElem (by omega)
          simp only [hx, ne_eq, not_true_eq_false, if_false, hb0, Option.map_some, Option.bind_some]
          have hz : n + 1 - v.pos = 0 := by rw [hx, base_zero] at n4; omega
          rw [hz]
          rw [hx, base_zero] at h2
          have hfin : l.take (l.length - (n + 1)) = l.take 0 := by
            rw [hx, base_zero] at n4; congr 1; omega
          rw [hfin]
          refine ⟨⟨v.blocks, some v.blocks[0], 0, initialCapacity, v.size - v.pos, 0⟩, h', by cases f <;> rfl, rfl, h3, ⟨hi.nodup, ?_, h2, ?_, fun h => (hne h).elim, ?_⟩⟩
          · intro a ha; rw [h3.1]; exact hi.bound a ha
          · rw [hx, base_zero] at n4
            show v.size - v.pos = _
            simp [hi.size]; omega
          · intro _
            refine ⟨?_, ?_, ?_, ?_, ?_, ?_⟩
            · exact hb0.symm
            · show 0 < v.blocks.length
              omega
            · rfl
            · simp [base_zero]
            · simp
            · intro h; exact (h rfl).elim
        · obtain ⟨v', hv1, hv2, hv4, hv5, hv3⟩ := prev_inv (l' := l.take (base v.idx)) hi hne hx h2 h3 hlen'
            (s := v.size - v.pos) (p := v.pos) (by rw [hi.size, hlen']; omega)
          have e : ({ v with size := v.size - v.pos } : SV) = { v with pos := v.pos, size := v.size - v.pos } := rfl
          simp only [hx, ne_eq, not_false_eq_true, if_true]
          rw [show ({ blocks := v.blocks, start := some v.blocks[v.idx], pos := v.pos, fin := v.fin, size := v.size - v.pos,
                      idx := v.idx } : SV) = { v with pos := v.pos, size := v.size - v.pos } from by rw [← hst]]
          rw [hv1]
          simp only [Option.bind_some]
          obtain ⟨v2, h'', g1, g2, g3, g4⟩ := ih hv3 (n := n + 1 - v.pos) (by rw [hlen']; omega) (by omega)
          refine ⟨v2, h'', g1, g2.trans hv2, h3.trans (g3.of_blocks hv2), ?_⟩
          rw [hlen', htake] at g4
          exact g4

theorem popN_spec {v : SV} {h : Heap T} {l : List T} (hi : Inv v h l) {n : Nat} (hn : n ≤ l.length) :
    ∃ v' h', popBackN v h n = some (v', h') ∧ Res v h l v' h' (l.take (l.length - n)) := by
  unfold popBackN
  rw [if_neg (by rw [hi.size]; omega)]
  obtain ⟨v', h', h1, h2, h3, h4⟩ := popLoop_spec n hi hn (Nat.le_refl _)
  exact ⟨v', h', h1, res_same h2 h3 h4⟩

/-! ### `clear` -/

theorem destroyFull_spec (bs : List Nat) (hn : bs.Nodup) (k : Nat) : ∀ (i c t : Nat) (h : Heap T) (f : Nat → Option T),
    Content h bs f → i + k ≤ bs.length → c = cap i → t = cap (i + 1) →
    (∀ m, base i ≤ m → m < base (i + k) → ∃ x, f m = some x) →
    ∃ h', destroyFull bs k i c t h = some h' ∧ Content h' bs (kill f (base i) (base (i + k) - base i)) ∧
      Frame h h' bs := by
  induction k with
  | zero =>
    intro i c t h f hc _ _ _ _
    refine ⟨h, rfl, ?_, Frame.refl _ _⟩
    have : kill f (base i) (base (i + 0) - base i) = f := by
      funext m; unfold kill; rw [if_neg (by simp)]
    rw [this]; exact hc
  | succ k ih =>
    intro i c t h f hc hlen hcap ht hf
    have hbk : bs[i]? = some bs[i] := List.getElem?_eq_getElem (by omega)
    have hm1 : base (i + 1) ≤ base (i + (k + 1)) := base_mono (by omega)
    have hb1 := base_succ i
    obtain ⟨h1, e1, c1, f1⟩ := destroyN_spec (j := i) (o := 0) (n := c) hc hn hbk (by omega)
      (by intro m h1 h2; exact hf m (by omega) (by omega))
    obtain ⟨h2, e2, c2, f2⟩ := ih (i + 1) t (t + t) h1 _ c1 (by omega) ht (by rw [ht, cap_two]; omega) (by
      intro m h1 h2
      have h3 : i + 1 + k = i + (k + 1) := by omega
      rw [h3] at h2
      obtain ⟨x, hx⟩ := hf m (by omega) h2
      exact ⟨x, by unfold kill; rw [if_neg (by omega)]; exact hx⟩)
    refine ⟨h2, by simp [destroyFull, hbk, e1, e2], ?_, f1.trans f2⟩
    have h3 : i + 1 + k = i + (k + 1) := by omega
    rw [h3] at c2
    have : kill (kill f (base i + 0) c) (base (i + 1)) (base (i + (k + 1)) - base (i + 1)) =
        kill f (base i) (base (i + (k + 1)) - base i) := by
      funext m
      unfold kill
      by_cases q1 : base i ≤ m ∧ m < base i + (base (i + (k + 1)) - base i)
      · rw [if_pos q1]
        split
        · rfl
        · rw [if_pos (by omega)]
      · rw [if_neg q1, if_neg (by omega), if_neg (by omega)]
    rw [this] at c2
    exact c2

theorem clear_spec {v : SV} {h : Heap T} {l : List T} (hi : Inv v h l) :
    ∃ v' h', clear v h = some (v', h') ∧ Res v h l v' h' [] := by
  unfold clear
  by_cases hb : v.blocks = []
  · obtain ⟨n1, n2, n3, n4, n5⟩ := hi.null hb
    rw [n4]
    simp only [destroyFull, Option.bind_some, destroyTail, n1, n2, if_pos, Option.map_some]
    rw [hb]
    refine ⟨_, h, rfl, ?_⟩
    refine res_same (by simp [hb]) (Frame.refl _ _) ?_
    refine ⟨by simp, by simp, by intro i b hb; simp at hb, rfl, fun _ => ⟨rfl, rfl, n3, rfl, rfl⟩, fun h => (h rfl).elim⟩
  · obtain ⟨n1, n2, n3, n4, n5, n6⟩ := hi.nonnull hb
    have hbk : v.blocks[v.idx]? = some v.blocks[v.idx] := List.getElem?_eq_getElem n2
    obtain ⟨h1, e1, c1, f1⟩ := destroyFull_spec v.blocks hi.nodup v.idx 0 32 32 h _ hi.content (by omega) rfl rfl
      (by intro m _ hm; rw [Nat.zero_add] at hm; exact ⟨l[m], List.getElem?_eq_getElem (by omega)⟩)
    rw [Nat.zero_add, base_zero, Nat.sub_zero] at c1
    obtain ⟨h2, e2, c2, f2⟩ := destroyN_spec (j := v.idx) (o := 0) (n := v.pos) c1 hi.nodup hbk (by omega)
      (by
        intro m hm1 hm2
        refine ⟨l[m], ?_⟩
        unfold kill
        rw [if_neg (by omega)]
        exact List.getElem?_eq_getElem (by omega))
    have hk : kill (kill (fun n => l[n]?) 0 (base v.idx)) (base v.idx + 0) v.pos = fun n => ([] : List T)[n]? := by
      funext m
      unfold kill
      by_cases q : m < l.length
      · split
        · simp
        · rw [if_pos (by omega)]; simp
      · rw [if_neg (by omega), if_neg (by omega)]
        show l[m]? = _
        rw [List.getElem?_eq_none (by omega)]
        simp
    rw [hk] at c2
    have e1' : destroyFull v.blocks v.idx 0 initialCapacity initialCapacity h = some h1 := e1
    rw [e1']
    simp only [Option.bind_some, destroyTail]
    rw [n1, hbk]
    simp only [e2, Option.map_some]
    generalize some v.blocks[v.idx] = st
    cases hbs : v.blocks with
    | nil => exact (hb hbs).elim
    | cons b bs =>
      refine ⟨_, h2, rfl, ?_⟩
      refine res_same (by simp [hbs]) (f1.trans f2) ?_
      have hnd := hi.nodup
      have hbd := hi.bound
      rw [hbs] at hnd hbd c2
      refine ⟨hnd, ?_, c2, rfl, (fun h => nomatch h), fun _ => ⟨by simp, by simp, rfl, rfl, by simp, fun h => (h rfl).elim⟩⟩
      intro a ha
      rw [(f1.trans f2).1]; exact hbd a ha

/-! ### Freeing blocks -/

theorem dealloc_spec {h : Heap T} {b i : Nat} {f : Nat → Option T} (hc : h.mem b = some (seg f i))
    (hf : ∀ o, o < cap i → f (base i + o) = none) : dealloc h b (cap i) = some (h.put b none) := by
  unfold dealloc
  rw [hc]
  simp only
  rw [if_pos]
  refine ⟨seg_length f i, ?_⟩
  rw [List.all_eq_true]
  intro x hx
  obtain ⟨o, ho, rfl⟩ := List.getElem_of_mem hx
  have : (seg f i)[o]? = some (seg f i)[o] := List.getElem?_eq_getElem ho
  rw [seg_length] at ho
  rw [seg_get, if_pos ho, hf o ho] at this
  rw [← Option.some.inj this]; rfl

/-- Blocks `i … i+k-1` of `bs` are gone, everything else is as before. -/
def Freed (h h' : Heap T) (bs : List Nat) (i k : Nat) : Prop :=
  h'.next = h.next ∧ (∀ a, (∀ t, i ≤ t → t < i + k → bs[t]? ≠ some a) → h'.mem a = h.mem a) ∧
  (∀ a t, i ≤ t → t < i + k → bs[t]? = some a → h'.mem a = none)

theorem freeFrom_spec (bs : List Nat) (hn : bs.Nodup) (f : Nat → Option T) (k : Nat) : ∀ (i c : Nat) (h : Heap T),
    (∀ (t : Nat) b, i ≤ t → t < i + k → bs[t]? = some b → h.mem b = some (seg f t)) → i + k ≤ bs.length →
    0 < i → c = cap i → (∀ m, base i ≤ m → f m = none) →
    ∃ h', freeFrom bs k i c h = some h' ∧ Freed h h' bs i k := by
  induction k with
  | zero => 
    intro i c h _ _ _ _ _
    exact ⟨h, rfl, rfl, fun _ _ => rfl, fun a t h1 h2 => by omega⟩
  | succ k ih =>
    intro i c h hc hlen hi hcap hf
    have hbk : bs[i]? = some bs[i] := List.getElem?_eq_getElem (by omega)
    have hd : dealloc h bs[i] c = some (h.put bs[i] none) := by
      rw [hcap]; exact dealloc_spec (hc i _ (Nat.le_refl _) (by omega) hbk) (fun o _ => hf _ (by omega))
    have hput : ∀ a, a ≠ bs[i] → (h.put bs[i] none).mem a = h.mem a := by
      intro a ha; simp [Heap.put, ha]
    obtain ⟨h', e, hn', hu, hg⟩ := ih (i + 1) (2 * c) (h.put bs[i] none) (by
      intro t b h1 h2 hb
      rw [hput b]
      · exact hc t b (by omega) (by omega) hb
      · intro e
        rw [e] at hb
        have := nodup_idx hn hbk hb
        omega) (by omega) (by omega) (by
          obtain ⟨j, hj⟩ : ∃ j, i = j + 1 := ⟨i - 1, by omega⟩
          rw [hcap, hj, cap_two]) (by
          intro m hm
          rw [base_succ] at hm
          exact hf m (by omega))
    refine ⟨h', by simp [freeFrom, hbk, hd, e], hn', ?_, ?_⟩
    · intro a ha
      rw [hu a (fun t h1 h2 => ha t (by omega) (by omega))]
      apply hput
      intro e
      exact ha i (Nat.le_refl _) (by omega) (by rw [e]; exact hbk)
    · intro a t h1 h2 ht
      by_cases hti : t = i
      · subst hti
        rw [hbk] at ht
        have hab := Option.some.inj ht
        rw [← hab]
        rw [hu]
        · simp [Heap.put]
        · intro t' h3 h4 h5
          have := nodup_idx hn hbk h5
          omega
      · exact hg a t (by omega) (by omega) ht

/-- `shrink_to_fit` on a vector that is not empty. -/
theorem shrink_spec {v : SV} {h : Heap T} {l : List T} (hi : Inv v h l) (hl : l ≠ []) :
    ∃ v' h', shrink v h = some (v', h') ∧ Res v h l v' h' l := by
  have hlen : 0 < l.length := List.length_pos_iff.2 hl
  have hne : v.blocks ≠ [] := fun h => hl (hi.null h).2.2.2.2
  obtain ⟨n1, n2, n3, n4, n5, n6⟩ := hi.nonnull hne
  unfold shrink
  by_cases hx : v.idx = v.blocks.length - 1
  · rw [if_pos (Or.inr hx)]
    exact ⟨v, h, rfl, res_same rfl (Frame.refl _ _) hi⟩
  · rw [if_neg (by simp [hne, hx])]
    have hsz : v.size ≠ 0 := by rw [hi.size]; omega
    rw [if_neg hsz]
    simp only [Option.bind_some, hsz, ne_eq, not_false_eq_true, if_true]
    have hcap : 2 ^ (v.idx + 5) = cap (v.idx + 1) := by
      simp only [cap]; rw [Nat.pow_add]; omega
    obtain ⟨h', e, hn', hu, hg⟩ := freeFrom_spec v.blocks hi.nodup (fun n => l[n]?) (v.blocks.length - (v.idx + 1)) (v.idx + 1) (2 ^ (v.idx + 5)) h
      (fun t b _ _ hb => hi.content t b hb) (by omega) (by omega) hcap (by
        intro m hm
        rw [base_succ] at hm
        exact List.getElem?_eq_none (by omega))
    rw [e]
    have hmem : ∀ a, a ∈ v.blocks.take (v.idx + 1) ↔ ∃ t, t < v.idx + 1 ∧ v.blocks[t]? = some a := by
      intro a
      constructor
      · intro ha
        obtain ⟨t, ht, hta⟩ := List.getElem_of_mem ha
        have h1 : (v.blocks.take (v.idx + 1))[t]? = some a := by rw [List.getElem?_eq_getElem ht, hta]
        rw [List.length_take] at ht
        rw [List.getElem?_take_of_lt (by omega)] at h1
        exact ⟨t, by omega, h1⟩
      · rintro ⟨t, ht, hta⟩
        apply List.mem_of_getElem? (i := t)
        rw [List.getElem?_take_of_lt ht]; exact hta
    have hkeep : ∀ a, a ∈ v.blocks.take (v.idx + 1) → h'.mem a = h.mem a := by
      intro a ha
      obtain ⟨t, ht, hta⟩ := (hmem a).1 ha
      apply hu
      intro t' h1 _ h3
      have := nodup_idx hi.nodup hta h3
      omega
    refine ⟨_, h', rfl, ⟨⟨hi.nodup.sublist (List.take_sublist _ _), ?_, ?_, hi.size, ?_, ?_⟩, ?_, ?_, ?_, ?_, ?_, ?_⟩⟩
    · intro a ha
      rw [hn']
      exact hi.bound a (List.mem_of_mem_take ha)
    · intro i b hb
      have hmem' : b ∈ v.blocks.take (v.idx + 1) := List.mem_of_getElem? hb
      rw [hkeep b hmem']
      have hlt := (List.getElem?_eq_some_iff.1 hb).1
      rw [List.length_take] at hlt
      have hb2 : (v.blocks.take (v.idx + 1))[i]? = some b := hb
      rw [List.getElem?_take_of_lt (by omega)] at hb2
      exact hi.content i b hb2
    · intro h0
      have := congrArg List.length h0
      simp at this
      exact (hne this).elim
    · intro _
      refine ⟨?_, ?_, n3, n4, n5, n6⟩
      · show v.start = (v.blocks.take (v.idx + 1))[v.idx]?
        rw [List.getElem?_take_of_lt (by omega)]; exact n1
      · show v.idx < (v.blocks.take (v.idx + 1)).length
        simp; omega
    · rw [hn']; exact Nat.le_refl _
    · intro a ha _
      apply hu
      intro t _ _ ht
      exact ha (List.mem_of_getElem? ht)
    · intro a ha; exact Or.inl (List.mem_of_mem_take ha)
    · intro a h1 h2
      obtain ⟨t, ht, hta⟩ := List.getElem_of_mem h1
      have hta' : v.blocks[t]? = some a := by rw [List.getElem?_eq_getElem ht, hta]
      refine hg a t ?_ (by omega) hta'
      refine Nat.le_of_not_lt ?_
      intro hlt
      exact h2 ((hmem a).2 ⟨t, hlt, hta'⟩)
    · intro a ha _
      apply hu
      intro t _ _ ht
      have := hi.bound a (List.mem_of_getElem? ht)
      omega
    · intro i hi1 _
      refine stable_of (n := v.idx) hi.len_le ?_ i hi1
      intro b hbl
      show (v.blocks.take (v.idx + 1))[b]? = _
      rw [List.getElem?_take_of_lt (by omega)]

/-! ### The copy constructor -/

theorem source_spec {h : Heap T} {b i n : Nat} {f : Nat → Option T} (hc : h.mem b = some (seg f i))
    (hn : n ≤ cap i) (hf : ∀ o, o < n → ∃ x, f (base i + o) = some x) :
    source h b n = some ((seg f i).take n) := by
  unfold source
  rw [hc]
  simp only
  rw [if_pos]
  refine ⟨by rw [seg_length]; exact hn, ?_⟩
  rw [List.all_eq_true]
  intro x hx
  obtain ⟨o, ho, rfl⟩ := List.getElem_of_mem hx
  have h1 : ((seg f i).take n)[o]? = some ((seg f i).take n)[o] := List.getElem?_eq_getElem ho
  rw [List.length_take, seg_length] at ho
  rw [List.getElem?_take_of_lt (by omega), seg_get, if_pos (by omega)] at h1
  obtain ⟨y, hy⟩ := hf o (by omega)
  rw [hy] at h1
  rw [← Option.some.inj h1]; rfl

theorem copyBlock_spec {h : Heap T} {b i n : Nat} {f : Nat → Option T} (hc : h.mem b = some (seg f i))
    (hn : n ≤ cap i) (hf : ∀ o, o < n → ∃ x, f (base i + o) = some x)
    (hz : ∀ o, n ≤ o → o < cap i → f (base i + o) = none) :
    ∃ h', copyBlock h b n (cap i) = some (h', h.next) ∧ h'.next = h.next + 1 ∧
      h'.mem h.next = some (seg f i) ∧ ∀ a, a ≠ h.next → h'.mem a = h.mem a := by
  unfold copyBlock
  rw [source_spec hc hn hf]
  simp only [if_pos hn, alloc]
  refine ⟨_, rfl, rfl, ?_, ?_⟩
  · simp only [Heap.put, if_pos]
    congr 1
    apply List.ext_getElem?
    intro o
    rw [seg_get]
    by_cases h1 : o < n
    · rw [List.getElem?_append_left (by rw [List.length_take, seg_length]; omega), List.getElem?_take_of_lt h1, seg_get]
    · rw [List.getElem?_append_right (by rw [List.length_take, seg_length]; omega), List.length_take, seg_length,
        List.getElem?_replicate]
      by_cases h2 : o < cap i
      · rw [if_pos (by omega), if_pos h2, hz o (by omega) h2]
      · rw [if_neg (by omega), if_neg h2]
  · intro a ha
    simp [Heap.put, ha]

theorem copyFull_spec (bs : List Nat) (f : Nat → Option T) (k : Nat) : ∀ (i c t : Nat) (h : Heap T),
    Content h bs f → (∀ a, a ∈ bs → a < h.next) → i + k ≤ bs.length → c = cap i → t = cap (i + 1) →
    (∀ m, base i ≤ m → m < base (i + k) → ∃ x, f m = some x) →
    ∃ h', copyFull bs k i c t h = some (List.range' h.next k, cap (i + k), h') ∧ h'.next = h.next + k ∧
      (∀ a, a < h.next ∨ h.next + k ≤ a → h'.mem a = h.mem a) ∧
      (∀ q, q < k → h'.mem (h.next + q) = some (seg f (i + q))) := by
  induction k with
  | zero =>
    intro i c t h _ _ _ hc _ _
    exact ⟨h, by simp [copyFull, hc], rfl, fun _ _ => rfl, fun q hq => by omega⟩
  | succ k ih =>
    intro i c t h hc hb hlen hcap ht hf
    have hbk : bs[i]? = some bs[i] := List.getElem?_eq_getElem (by omega)
    have hm1 : base (i + 1) ≤ base (i + (k + 1)) := base_mono (by omega)
    have hb1 := base_succ i
    obtain ⟨h1, e1, n1, m1, g1⟩ := copyBlock_spec (n := cap i) (hc i _ hbk) (Nat.le_refl _)
      (fun o ho => hf _ (by omega) (by omega)) (fun o h1 h2 => by omega)
    have hc1 : Content h1 bs f := by
      intro j b hj
      rw [g1 b (by have := hb b (List.mem_of_getElem? hj); omega)]
      exact hc j b hj
    obtain ⟨h2, e2, n2, g2, m2⟩ := ih (i + 1) t (2 * t) h1 hc1 (fun a ha => by have := hb a ha; omega) (by omega) ht
      (by rw [ht, cap_two]) (by
        intro m h1 h2
        have h3 : i + 1 + k = i + (k + 1) := by omega
        rw [h3] at h2
        exact hf m (by omega) h2)
    have h3 : i + 1 + k = i + (k + 1) := by omega
    rw [h3] at e2
    refine ⟨h2, ?_, by omega, ?_, ?_⟩
    · simp only [copyFull, hbk, hcap, e1, Option.bind_some, e2, Option.map_some, n1]
      rfl
    · intro a ha
      rw [g2 a (by omega), g1 a (by omega)]
    · intro q hq
      cases q with
      | zero => rw [Nat.add_zero, g2 _ (by omega), m1]; rfl
      | succ q =>
        have := m2 q (by omega)
        rw [n1] at this
        have e3 : h.next + (q + 1) = h.next + 1 + q := by omega
        have e4 : i + (q + 1) = i + 1 + q := by omega
        rw [e3, e4]; exact this

theorem copy_spec {v : SV} {h : Heap T} {l : List T} (hi : Inv v h l) :
    ∃ v' h', copy v h = some (v', h') ∧ Res null h [] v' h' l := by
  unfold copy
  by_cases hl : l = []
  · have hsz : v.size = 0 := by rw [hi.size, hl]; rfl
    rw [if_pos hsz]
    have hidx : v.idx = 0 := by
      by_cases hb : v.blocks = []
      · exact (hi.null hb).2.2.2.1
      · obtain ⟨_, _, _, n4, _, n6⟩ := hi.nonnull hb
        by_cases hx : v.idx = 0
        · exact hx
        · have := n6 hx; rw [hl] at n4; simp at n4; omega
    rw [hsz, hidx, hl]
    exact ⟨_, h, rfl, res_same rfl (Frame.refl _ _) (inv_null h)⟩
  · have hlen : 0 < l.length := List.length_pos_iff.2 hl
    have hne : v.blocks ≠ [] := fun h => hl (hi.null h).2.2.2.2
    obtain ⟨n1, n2, n3, n4, n5, n6⟩ := hi.nonnull hne
    have hbk : v.blocks[v.idx]? = some v.blocks[v.idx] := List.getElem?_eq_getElem n2
    rw [if_neg (by rw [hi.size]; omega)]
    obtain ⟨h1, e1, x1, g1, m1⟩ := copyFull_spec v.blocks _ v.idx 0 32 32 h hi.content hi.bound (by omega) rfl rfl
      (by intro m _ hm; rw [Nat.zero_add] at hm; exact ⟨l[m], List.getElem?_eq_getElem (by omega)⟩)
    rw [Nat.zero_add] at e1
    have e1' : copyFull v.blocks v.idx 0 initialCapacity initialCapacity h = _ := e1
    have hs1 : h1.mem v.blocks[v.idx] = some (seg (fun n => l[n]?) v.idx) := by
      rw [g1 _ (Or.inl (hi.bound _ (List.mem_of_getElem? hbk)))]
      exact hi.content _ _ hbk
    obtain ⟨h2, e2, x2, m2, g2⟩ := copyBlock_spec (n := v.pos) hs1 n5
      (fun o ho => ⟨l[base v.idx + o], List.getElem?_eq_getElem (by omega)⟩)
      (fun o ho _ => List.getElem?_eq_none (by omega))
    rw [e1']
    simp only [Option.bind_some]
    rw [n1, hbk]
    simp only [Option.bind_some, e2, Option.map_some]
    have hblk : ∀ i : Nat, (List.range' h.next v.idx ++ [h1.next])[i]? = if i ≤ v.idx then some (h.next + i) else none := by
      intro i
      by_cases h3 : i < v.idx
      · rw [List.getElem?_append_left (by simp; exact h3), if_pos (by omega), List.getElem?_range' h3]
        simp
      · rw [List.getElem?_append_right (by simp; omega)]
        by_cases h4 : i = v.idx
        · subst h4
          simp [x1]
        · rw [if_neg (by omega), List.getElem?_eq_none (by simp; omega)]
    have hmem : ∀ a, a ∈ List.range' h.next v.idx ++ [h1.next] ↔ h.next ≤ a ∧ a ≤ h.next + v.idx := by
      intro a
      rw [List.mem_append, List.mem_range'_1, List.mem_singleton]
      omega
    refine ⟨_, h2, rfl, ⟨⟨?_, ?_, ?_, hi.size, ?_, ?_⟩, ?_, ?_, ?_, ?_, ?_, ?_⟩⟩
    · refine List.nodup_append.2 ⟨List.nodup_range', by simp, ?_⟩
      intro a ha b hb
      rw [List.mem_range'_1] at ha
      simp at hb
      omega
    · intro a ha
      have := (hmem a).1 ha
      omega
    · intro i b hb
      have hb' := hblk i
      have hb2 : (List.range' h.next v.idx ++ [h1.next])[i]? = some b := hb
      rw [hb2] at hb'
      split at hb'
      · rename_i hile
        cases hb'
        by_cases hix : i = v.idx
        · subst hix
          rw [x1] at m2
          exact m2
        · rw [g2 _ (by omega)]
          have := m1 i (by omega)
          rw [Nat.zero_add] at this
          exact this
      · cases hb'
    · intro h0
      simp at h0
    · intro _
      refine ⟨?_, ?_, rfl, n4, n5, n6⟩
      · show some h1.next = (List.range' h.next v.idx ++ [h1.next])[v.idx]?
        rw [hblk, if_pos (Nat.le_refl _), x1]
      · show v.idx < (List.range' h.next v.idx ++ [h1.next]).length
        simp
    · omega
    · intro a _ ha
      rw [g2 a (by omega), g1 a (Or.inl ha)]
    · intro a ha
      exact Or.inr ((hmem a).1 ha).1
    · intro a ha; simp [null] at ha
    · intro a ha1 ha2
      have := mt (hmem a).2 ha2
      rw [g2 a (by omega), g1 a (by omega)]
    · intro i h0; simp at h0

/-! ### The destructor -/

theorem destroyN_one {h : Heap T} {f : Nat → Option T} {j b o n : Nat} (hc : h.mem b = some (seg f j))
    (ho : o + n ≤ cap j) (hf : ∀ m, base j + o ≤ m → m < base j + o + n → ∃ x, f m = some x) :
    ∃ h', destroyN h b o n = some h' ∧ h'.mem b = some (seg (kill f (base j + o) n) j) ∧ h'.next = h.next ∧
      ∀ a, a ≠ b → h'.mem a = h.mem a := by
  unfold destroyN
  by_cases hz : n = 0
  · subst hz
    refine ⟨h, if_pos rfl, ?_, rfl, fun _ _ => rfl⟩
    have : kill f (base j + o) 0 = f := by
      funext m; unfold kill; rw [if_neg (by omega)]
    rw [this]; exact hc
  · rw [if_neg hz, hc]
    obtain ⟨c', h1, h2⟩ := destroyCells_spec (seg f j) o n (by
      intro i hi1 hi2
      obtain ⟨x, hx⟩ := hf (base j + i) (by omega) (by omega)
      exact ⟨x, by rw [seg_get, if_pos (by omega), hx]⟩)
    simp only [h1, Option.map_some]
    refine ⟨_, rfl, ?_, rfl, ?_⟩
    · simp only [Heap.put, if_pos]
      congr 1
      apply List.ext_getElem?
      intro i
      rw [h2, seg_get, seg_get]
      unfold kill
      by_cases hi : o ≤ i ∧ i < o + n
      · rw [if_pos hi, if_pos (by omega), if_pos (by omega)]
      · rw [if_neg hi]
        split
        · rw [if_neg (by omega)]
        · rfl
    · intro a ha; simp [Heap.put, ha]

theorem Freed.step {h h1 h2 : Heap T} {bs : List Nat} (hn : bs.Nodup) {i k b : Nat} (hb : bs[i]? = some b)
    (hx : h1.next = h.next) (hm : h1.mem b = none) (hu : ∀ a, a ≠ b → h1.mem a = h.mem a)
    (hf : Freed h1 h2 bs (i + 1) k) : Freed h h2 bs i (k + 1) := by
  obtain ⟨f1, f2, f3⟩ := hf
  refine ⟨f1.trans hx, ?_, ?_⟩
  · intro a ha
    rw [f2 a (fun t h1 h2 => ha t (by omega) (by omega))]
    apply hu
    intro e
    exact ha i (Nat.le_refl _) (by omega) (by rw [e]; exact hb)
  · intro a t h3 h4 ht
    by_cases hti : t = i
    · subst hti
      rw [hb] at ht
      cases ht
      rw [f2, hm]
      intro t' h5 h6 h7
      have := nodup_idx hn hb h7
      omega
    · exact f3 a t (by omega) (by omega) ht

theorem dtorFull_spec (bs : List Nat) (hn : bs.Nodup) (f : Nat → Option T) (k : Nat) : ∀ (i c t : Nat) (h : Heap T),
    (∀ (t : Nat) b, i ≤ t → bs[t]? = some b → h.mem b = some (seg f t)) → i + k ≤ bs.length →
    c = cap i → t = cap (i + 1) → (∀ m, base i ≤ m → m < base (i + k) → ∃ x, f m = some x) →
    ∃ h', dtorFull bs k i c t h = some (h', cap (i + k), cap (i + k + 1)) ∧ Freed h h' bs i k := by
  induction k with
  | zero =>
    intro i c t h _ _ hc ht _
    exact ⟨h, by simp [dtorFull, hc, ht], rfl, fun _ _ => rfl, fun a t h1 h2 => by omega⟩
  | succ k ih =>
    intro i c t h hc hlen hcap ht hf
    have hbk : bs[i]? = some bs[i] := List.getElem?_eq_getElem (by omega)
    have hm1 : base (i + 1) ≤ base (i + (k + 1)) := base_mono (by omega)
    have hb1 := base_succ i
    obtain ⟨h1, e1, m1, x1, g1⟩ := destroyN_one (o := 0) (n := cap i) (hc i _ (Nat.le_refl _) hbk) (by omega)
      (fun m h1 h2 => hf m (by omega) (by omega))
    have hd : dealloc h1 bs[i] (cap i) = some (h1.put bs[i] none) := by
      refine dealloc_spec m1 ?_
      intro o ho
      unfold kill
      rw [if_pos (by omega)]
    have hoth : ∀ a, a ≠ bs[i] → (h1.put bs[i] none).mem a = h.mem a := by
      intro a ha
      rw [← g1 a ha]; simp [Heap.put, ha]
    obtain ⟨h2, e2, f2⟩ := ih (i + 1) t (2 * t) (h1.put bs[i] none) (by
      intro t b h3 hb
      rw [hoth]
      · exact hc t b (by omega) hb
      · intro e
        rw [e] at hb
        have := nodup_idx hn hbk hb
        omega) (by omega) ht (by rw [ht, cap_two]) (by
          intro m h1 h2
          have h3 : i + 1 + k = i + (k + 1) := by omega
          rw [h3] at h2
          exact hf m (by omega) h2)
    have h3 : i + 1 + k = i + (k + 1) := by omega
    rw [h3] at e2
    refine ⟨h2, ?_, Freed.step hn hbk (h1 := h1.put bs[i] none) ?_ ?_ hoth f2⟩
    · simp only [dtorFull, hbk, hcap, e1, Option.bind_some, hd, e2]
    · exact x1
    · simp [Heap.put]

theorem dtorRest_spec (bs : List Nat) (hn : bs.Nodup) (f : Nat → Option T) (k : Nat) : ∀ (i c t : Nat) (h : Heap T),
    (∀ (t : Nat) b, i ≤ t → bs[t]? = some b → h.mem b = some (seg f t)) → i + k ≤ bs.length →
    c = cap i → t = cap (i + 1) → (∀ m, base i ≤ m → f m = none) →
    ∃ h', dtorRest bs k i c t h = some h' ∧ Freed h h' bs i k := by
  induction k with
  | zero =>
    intro i c t h _ _ _ _ _
    exact ⟨h, rfl, rfl, fun _ _ => rfl, fun a t h1 h2 => by omega⟩
  | succ k ih =>
    intro i c t h hc hlen hcap ht hf
    have hbk : bs[i]? = some bs[i] := List.getElem?_eq_getElem (by omega)
    have hb1 := base_succ i
    have hd : dealloc h bs[i] c = some (h.put bs[i] none) := by
      rw [hcap]; exact dealloc_spec (hc i _ (Nat.le_refl _) hbk) (fun o _ => hf _ (by omega))
    have hput : ∀ a, a ≠ bs[i] → (h.put bs[i] none).mem a = h.mem a := by
      intro a ha; simp [Heap.put, ha]
    obtain ⟨h2, e2, f2⟩ := ih (i + 1) t (2 * t) (h.put bs[i] none) (by
      intro t b h3 hb
      rw [hput]
      · exact hc t b (by omega) hb
      · intro e
        rw [e] at hb
        have := nodup_idx hn hbk hb
        omega) (by omega) ht (by rw [ht, cap_two]) (fun m hm => hf m (by omega))
    exact ⟨h2, by simp [dtorRest, hbk, hd, e2], Freed.step hn hbk (h1 := h.put bs[i] none) rfl (by simp [Heap.put]) hput f2⟩

theorem dtor_spec {v : SV} {h : Heap T} {l : List T} (hi : Inv v h l) :
    ∃ h', dtor v h = some h' ∧ Res v h l null h' [] := by
  unfold dtor
  by_cases hb : v.blocks = []
  · obtain ⟨n1, n2, n3, n4, n5⟩ := hi.null hb
    refine ⟨h, ?_, ?_⟩
    · simp [n4, hb, dtorFull, destroyTail, n1, n2, dtorRest]
    · exact res_same (by rw [hb]; rfl) (Frame.refl _ _) (inv_null h)
  · obtain ⟨n1, n2, n3, n4, n5, n6⟩ := hi.nonnull hb
    have hbk : v.blocks[v.idx]? = some v.blocks[v.idx] := List.getElem?_eq_getElem n2
    obtain ⟨h1, e1, x1, g1, m1⟩ := dtorFull_spec v.blocks hi.nodup (fun n => l[n]?) v.idx 0 32 32 h
      (fun t b _ hb => hi.content t b hb) (by omega) rfl rfl
      (by intro m _ hm; rw [Nat.zero_add] at hm; exact ⟨l[m], List.getElem?_eq_getElem (by omega)⟩)
    rw [Nat.zero_add] at e1
    have e1' : dtorFull v.blocks v.idx 0 initialCapacity initialCapacity h = _ := e1
    have hkeep : ∀ (t : Nat) b, v.idx ≤ t → v.blocks[t]? = some b → h1.mem b = some (seg (fun n => l[n]?) t) := by
      intro t b ht hbt
      rw [g1]
      · exact hi.content t b hbt
      · intro t' _ h3 h4
        have := nodup_idx hi.nodup hbt h4
        omega
    obtain ⟨h2, e2, m2, x2, g2⟩ := destroyN_one (o := 0) (n := v.pos) (hkeep v.idx _ (Nat.le_refl _) hbk) (by omega)
      (by intro m hm1 hm2; exact ⟨l[m], List.getElem?_eq_getElem (by omega)⟩)
    obtain ⟨h3, e3, x3, g3, m3⟩ := dtorRest_spec v.blocks hi.nodup (kill (fun n => l[n]?) (base v.idx + 0) v.pos)
      (v.blocks.length - v.idx) v.idx _ _ h2 (by
        intro t b ht hbt
        by_cases htx : t = v.idx
        · subst htx
          rw [hbk] at hbt
          cases hbt
          exact m2
        · rw [g2 b]
          · rw [hkeep t b ht hbt]
            congr 1
            apply seg_congr
            intro o _
            have := base_mono (i := v.idx) (j := t) (by omega)
            rw [base_succ] at this
            unfold kill
            rw [if_neg (by omega)]
          · intro e
            rw [e] at hbt
            exact htx (nodup_idx hi.nodup hbt hbk)) (by omega) rfl rfl (by
        intro m hm
        unfold kill
        by_cases q : m < l.length
        · rw [if_pos (by omega)]
        · rw [if_neg (by omega)]
          exact List.getElem?_eq_none (by omega))
    refine ⟨h3, ?_, ?_⟩
    · rw [e1']
      simp only [Option.bind_some, destroyTail]
      rw [n1, hbk]
      simp only [e2, Option.bind_some]
      exact e3
    · have hall : ∀ a, a ∉ v.blocks → h3.mem a = h.mem a := by
        intro a ha
        rw [g3 a (fun t _ _ h => ha (List.mem_of_getElem? h)), g2 a (fun e => ha (by rw [e]; exact List.mem_of_getElem? hbk)),
          g1 a (fun t _ _ h => ha (List.mem_of_getElem? h))]
      refine ⟨inv_null h3, by omega, fun a ha _ => hall a ha, fun a ha => by simp [null] at ha, ?_, ?_, fun i _ h0 => by simp at h0⟩
      · intro a ha _
        obtain ⟨t, ht, hta⟩ := List.getElem_of_mem ha
        have hta' : v.blocks[t]? = some a := by rw [List.getElem?_eq_getElem ht, hta]
        by_cases htx : t < v.idx
        · rw [g3 a]
          · rw [g2 a]
            · exact m1 a t (by omega) (by omega) hta'
            · intro e
              rw [e] at hta'
              have := nodup_idx hi.nodup hta' hbk
              omega
          · intro t' h4 h5 h6
            have := nodup_idx hi.nodup hta' h6
            omega
        · exact m3 a t (by omega) (by omega) hta'
      · intro a ha _
        apply hall
        intro hm
        have := hi.bound a hm
        omega

/-! ### Reading -/

theorem get_spec {v : SV} {h : Heap T} {l : List T} (hi : Inv v h l) {i : Nat} (hl : i < l.length) :
    get v h i = some l[i] := by
  obtain ⟨b, h1, h2⟩ := exists_block i
  have hne : v.blocks ≠ [] := by
    intro h
    rw [(hi.null h).2.2.2.2] at hl
    simp at hl
  obtain ⟨n1, n2, n3, n4, n5, n6⟩ := hi.nonnull hne
  have hb : b ≤ v.idx := block_le h1 (by omega)
  have hbk : v.blocks[b]? = some v.blocks[b] := List.getElem?_eq_getElem (by omega)
  unfold get
  rw [addr_eq v h1 h2, hbk]
  simp only [Option.map_some, Option.bind_some]
  rw [read_spec hi.content hbk (by omega)]
  have : base b + (i - base b) = i := by omega
  simp only [this]
  exact List.getElem?_eq_getElem hl

theorem front_spec {v : SV} {h : Heap T} {l : List T} (hi : Inv v h l) (hl : l ≠ []) :
    front v h = l.head? := by
  have hne : v.blocks ≠ [] := fun h => hl (hi.null h).2.2.2.2
  obtain ⟨n1, n2, n3, n4, n5, n6⟩ := hi.nonnull hne
  have hbk : v.blocks[0]? = some v.blocks[0] := List.getElem?_eq_getElem (by omega)
  unfold front
  rw [hbk]
  simp only [Option.bind_some]
  rw [read_spec hi.content hbk (cap_pos _)]
  simp [base_zero, List.head?_eq_getElem?]

theorem back_spec {v : SV} {h : Heap T} {l : List T} (hi : Inv v h l) (hl : l ≠ []) :
    back v h = l.getLast? := by
  have hlen : 0 < l.length := List.length_pos_iff.2 hl
  have hne : v.blocks ≠ [] := fun h => hl (hi.null h).2.2.2.2
  obtain ⟨n1, n2, n3, n4, n5, n6⟩ := hi.nonnull hne
  have hpos : v.pos ≠ 0 := by
    by_cases hx : v.idx = 0
    · rw [hx, base_zero] at n4; omega
    · have := n6 hx; omega
  have hbk : v.blocks[v.idx]? = some v.blocks[v.idx] := List.getElem?_eq_getElem n2
  unfold back
  rw [if_neg hpos, n1, hbk]
  simp only [Option.bind_some]
  rw [read_spec hi.content hbk (by omega)]
  have : base v.idx + (v.pos - 1) = l.length - 1 := by omega
  simp only [this]
  rw [List.getLast?_eq_getElem?]

theorem iterate_spec {v : SV} {h : Heap T} {l : List T} (hi : Inv v h l) (hne : v.blocks ≠ []) (k : Nat) :
    ∀ (b o tot e : Nat), b ≤ v.idx → base b + o < l.length → e = (if b = v.idx then v.pos else cap b) → o < e →
      (b < v.idx → tot = cap (b + 1)) → l.length ≤ base b + o + k →
      iterate v h k ⟨v.blocks[b]?, o, e, b, v.idx + 1, tot, v.pos⟩ = some (l.drop (base b + o)) := by
  obtain ⟨n1, n2, n3, n4, n5, n6⟩ := hi.nonnull hne
  induction k with
  | zero => intro b o tot e _ h1 _ _ _ h2; omega
  | succ k ih =>
    intro b o tot e hb hlt he hoe htot hk
    have hbk : v.blocks[b]? = some v.blocks[b] := List.getElem?_eq_getElem (by omega)
    have hecap : e ≤ cap b := by
      rw [he]; split
      · rename_i h; rw [h]; exact n5
      · exact Nat.le_refl _
    simp only [iterate]
    rw [hbk]
    simp only
    rw [read_spec hi.content hbk (by omega)]
    have hget : l[base b + o]? = some l[base b + o] := List.getElem?_eq_getElem hlt
    simp only [hget, Option.bind_some]
    have hdrop : l.drop (base b + o) = l[base b + o] :: l.drop (base b + o + 1) := List.drop_eq_getElem_cons hlt
    rw [hdrop]
    unfold next
    simp only
    by_cases h1 : o + 1 = e
    · rw [if_neg (by simp [h1])]
      by_cases h2 : b = v.idx
      · rw [if_pos (by omega)]
        have : l.length = base b + o + 1 := by rw [if_pos h2] at he; rw [h2]; omega
        simp only [Option.bind_some]
        have hz : l.drop (base b + o + 1) = [] := List.drop_eq_nil_of_le (by omega)
        rw [hz]
        cases k <;> rfl
      · rw [if_neg (by omega)]
        have hbk1 : v.blocks[b + 1]? = some v.blocks[b + 1] := List.getElem?_eq_getElem (by omega)
        have hbs := base_succ b
        rw [if_neg h2] at he
        rw [hbk1]
        simp only [Option.map_some, Option.bind_some]
        have hmono : base (b + 1) ≤ base v.idx := base_mono (by omega)
        have hpos : 0 < v.pos := n6 (by omega)
        by_cases h3 : b + 1 = v.idx
        · rw [if_pos (by omega)]
          have := ih (b + 1) 0 tot v.pos (by omega) (by omega) (by rw [if_pos h3]) hpos (by omega) (by omega)
          rw [hbk1] at this
          rw [this]
          simp only [Option.map_some, Option.some.injEq, List.cons.injEq, true_and]
          congr 1; omega
        · rw [if_neg (by omega)]
          have hm2 : base (b + 1 + 1) ≤ base v.idx := base_mono (by omega)
          rw [base_succ] at hm2
          have hcp := cap_pos (b + 1)
          have := ih (b + 1) 0 (2 * tot) tot (by omega) (by omega)
            (by rw [if_neg h3]; exact htot (by omega)) (by rw [htot (by omega)]; exact hcp)
            (fun _ => by rw [htot (by omega), cap_two]) (by omega)
          rw [hbk1] at this
          rw [this]
          simp only [Option.map_some, Option.some.injEq, List.cons.injEq, true_and]
          congr 1; omega
    · rw [if_pos (by simpa using h1)]
      simp only [Option.bind_some]
      have hlt2 : base b + (o + 1) < l.length := by
        by_cases h2 : b = v.idx
        · rw [if_pos h2] at he; rw [h2]; omega
        · rw [if_neg h2] at he
          have := base_mono (i := b) (j := v.idx) (by omega)
          rw [base_succ] at this
          omega
      have := ih b (o + 1) tot e hb hlt2 he (by omega) htot (by omega)
      rw [hbk] at this
      rw [this]
      rfl

theorem toList_spec {v : SV} {h : Heap T} {l : List T} (hi : Inv v h l) : toList v h = some l := by
  unfold toList begin'
  by_cases hl : l = []
  · have hsz : v.size = 0 := by rw [hi.size, hl]; rfl
    rw [if_pos hsz, hsz, hl]
    rfl
  · have hlen : 0 < l.length := List.length_pos_iff.2 hl
    have hne : v.blocks ≠ [] := fun h => hl (hi.null h).2.2.2.2
    obtain ⟨n1, n2, n3, n4, n5, n6⟩ := hi.nonnull hne
    rw [if_neg (by rw [hi.size]; omega)]
    have hbk : v.blocks[0]? = some v.blocks[0] := List.getElem?_eq_getElem (by omega)
    rw [hbk]
    simp only [Option.map_some, Option.bind_some]
    have := iterate_spec hi hne v.size 0 0 initialCapacity (if v.idx + 1 - 1 = 0 then v.pos else initialCapacity)
      (by omega) (by simp [base_zero]; exact hlen) (by
        by_cases hx : v.idx = 0
        · simp [hx]
        · rw [if_neg (by omega), if_neg (by omega)]; rfl) (by
        by_cases hx : v.idx = 0
        · rw [if_pos (by omega)]; rw [hx, base_zero] at n4; omega
        · rw [if_neg (by omega)]; decide) (fun _ => rfl) (by rw [hi.size]; omega)
    rw [hbk] at this
    rw [this]
    simp [base_zero]

end Phasar.SVec
