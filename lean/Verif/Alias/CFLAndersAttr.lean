import Verif.Alias.CFLAndersLemmas

/-! # The attributes of the CFL-based alias analysis -/
namespace Phasar.CFLAnders

/-- Inclusion of attributes. -/
def Attr.le (a b : Attr) : Prop :=
  (a.esc = true → b.esc = true) ∧ (a.unk = true → b.unk = true) ∧ (a.glob = true → b.glob = true) ∧
  (a.caller = true → b.caller = true) ∧ (a.arg = true → b.arg = true)

theorem Attr.or_eq {a b : Attr} : b.or a = b ↔ a.le b := by
  cases a; cases b
  simp [Attr.or, Attr.le]

theorem Attr.le_refl (a : Attr) : a.le a := ⟨id, id, id, id, id⟩

theorem Attr.le_trans {a b c : Attr} (h : a.le b) (h' : b.le c) : a.le c :=
  ⟨h'.1 ∘ h.1, h'.2.1 ∘ h.2.1, h'.2.2.1 ∘ h.2.2.1, h'.2.2.2.1 ∘ h.2.2.2.1, h'.2.2.2.2 ∘ h.2.2.2.2⟩

theorem Attr.le.le_trans {a b c : Attr} (h : a.le b) (h' : b.le c) : a.le c := Attr.le_trans h h'

theorem Attr.le_antisymm {a b : Attr} (h : a.le b) (h' : b.le a) : a = b := by
  have h1 := Attr.or_eq.2 h
  have h2 := Attr.or_eq.2 h'
  cases a; cases b
  simp only [Attr.or, Attr.mk.injEq, Attr.le] at *
  refine ⟨?_, ?_, ?_, ?_, ?_⟩ <;> grind

theorem Attr.le_or_left (a b : Attr) : a.le (a.or b) := by
  cases a; cases b; simp [Attr.le, Attr.or]; grind

theorem Attr.le_or_right (a b : Attr) : b.le (a.or b) := by
  cases a; cases b; simp [Attr.le, Attr.or]; grind

theorem Attr.or_le {a b c : Attr} (h : a.le c) (h' : b.le c) : (a.or b).le c := by
  cases a; cases b; cases c; simp [Attr.le, Attr.or] at *; grind

theorem Attr.none_le {a b : Attr} (h : a.any = false) : a.le b := by
  cases a; simp [Attr.any] at h; simp [Attr.le, h]

theorem Attr.empty_le (b : Attr) : Attr.le {} b := Attr.none_le rfl

/-! ## The attributes of the graph -/

theorem attr_foldl (n : Node) : ∀ (l : List (Node × Attr)) (a : Attr),
    a.le (l.foldl (fun a e => if e.1 = n then a.or e.2 else a) a) ∧
    (∀ e ∈ l, e.1 = n → e.2.le (l.foldl (fun a e => if e.1 = n then a.or e.2 else a) a)) ∧
    (∀ b, a.le b → (∀ e ∈ l, e.1 = n → e.2.le b) → (l.foldl (fun a e => if e.1 = n then a.or e.2 else a) a).le b)
  | [], a => ⟨a.le_refl, fun _ h => (List.not_mem_nil h).elim, fun _ h _ => h⟩
  | e :: l, a => by
    rw [List.foldl_cons]
    obtain ⟨h1, h2, h3⟩ := attr_foldl n l (if e.1 = n then a.or e.2 else a)
    refine ⟨Attr.le_trans ?_ h1, fun e' he' hn => ?_, fun b hb hl => h3 b ?_ fun e' he' => hl e' (List.mem_cons_of_mem _ he')⟩
    · split
      · exact Attr.le_or_left ..
      · exact Attr.le_refl _
    · rcases List.mem_cons.1 he' with rfl | h
      · rw [if_pos hn] at h1 ⊢
        exact Attr.le_trans (Attr.le_or_right ..) h1
      · exact h2 e' h hn
    · split
      · exact Attr.or_le hb (hl e (List.mem_cons_self ..) (by assumption))
      · exact hb

theorem attrFor_of_mem {g : Graph} {n : Node} {a : Attr} (h : (n, a) ∈ g.log) : a.le (g.attrFor n) :=
  (attr_foldl n g.log {}).2.1 _ h rfl

theorem levels_foldl (v : Nat) : ∀ (l : List (Node × Attr)) (n : Nat),
    n ≤ l.foldl (fun n e => if e.1.val = v then max n (e.1.lvl + 1) else n) n ∧
    ∀ e ∈ l, e.1.val = v → e.1.lvl < l.foldl (fun n e => if e.1.val = v then max n (e.1.lvl + 1) else n) n
  | [], n => ⟨Nat.le_refl _, fun _ h => (List.not_mem_nil h).elim⟩
  | e :: l, n => by
    rw [List.foldl_cons]
    obtain ⟨h1, h2⟩ := levels_foldl v l (if e.1.val = v then max n (e.1.lvl + 1) else n)
    refine ⟨Nat.le_trans ?_ h1, fun e' he' hv => ?_⟩
    · split
      · exact Nat.le_max_left ..
      · exact Nat.le_refl _
    · rcases List.mem_cons.1 he' with rfl | h
      · rw [if_pos hv] at h1 ⊢
        exact Nat.lt_of_lt_of_le (Nat.lt_of_lt_of_le (Nat.lt_succ_self _) (Nat.le_max_right ..)) h1
      · exact h2 e' h hv

theorem has_of_mem {g : Graph} {n : Node} {a : Attr} (h : (n, a) ∈ g.log) : g.has n = true := by
  simp only [Graph.has, decide_eq_true_eq]
  exact (levels_foldl n.val g.log 0).2 _ h rfl

theorem has_above {g : Graph} {n : Node} (h : g.has n.below = true) : g.has n = true := by
  have h' : n.lvl + 1 < g.levels n.val := of_decide_eq_true h
  exact decide_eq_true (by omega)

theorem mem_nodes_or_empty (g : Graph) (n : Node) : n ∈ g.nodes ∨ g.attrFor n = {} := by
  by_cases h : ∃ a, (n, a) ∈ g.log
  · obtain ⟨a, h⟩ := h; exact .inl (mem_nodes.2 (has_of_mem h))
  · right
    refine Attr.le_antisymm ((attr_foldl n g.log {}).2.2 {} (Attr.le_refl _) fun e he hn => ?_) (Attr.empty_le _)
    exact absurd ⟨e.2, by rw [← hn]; exact he⟩ h

/-! ## The work list -/

/-- The attributes grow; where they change, the node waits. -/
structure AGrow (s s' : ASt) : Prop where
  le : ∀ n, (s.at_ n).le (s'.at_ n)
  next : ∀ n ∈ s.next, n ∈ s'.next
  new : ∀ n, s'.at_ n = s.at_ n ∨ n ∈ s'.next

theorem AGrow.refl (s : ASt) : AGrow s s := ⟨fun _ => Attr.le_refl _, fun _ h => h, fun _ => .inl rfl⟩

theorem AGrow.trans {a b c : ASt} (h : AGrow a b) (h' : AGrow b c) : AGrow a c :=
  ⟨fun n => (h.le n).le_trans (h'.le n), fun n hn => h'.next n (h.next n hn), fun n => by
    rcases h'.new n with h1 | h1
    · rcases h.new n with h2 | h2
      · exact .inl (h1.trans h2)
      · exact .inr (h'.next n h2)
    · exact .inr h1⟩

theorem addAttr_grow (s : ASt) (n : Node) (a : Attr) : AGrow s (addAttr s n a) := by
  unfold addAttr
  split
  · exact .refl s
  · refine ⟨fun m => ?_, fun m hm => List.mem_append_left _ hm, fun m => ?_⟩ <;> dsimp only
    · split
      · rename_i h; rw [h]; exact Attr.le_or_left ..
      · exact Attr.le_refl _
    · split
      · rename_i h; subst h; right; simp
      · exact .inl rfl

theorem addAttr_at (s : ASt) (n : Node) (a : Attr) : a.le ((addAttr s n a).at_ n) := by
  unfold addAttr
  split
  · rename_i h; exact Attr.or_eq.1 h
  · dsimp only; rw [if_pos rfl]; exact Attr.le_or_right ..

theorem addAll_grow (a : Attr) : ∀ (l : List Node) (s : ASt), AGrow s (l.foldl (fun s n => addAttr s n a) s)
  | [], s => .refl s
  | n :: l, s => by rw [List.foldl_cons]; exact (addAttr_grow s n a).trans (addAll_grow a l _)

theorem addAll_at (a : Attr) : ∀ (l : List Node) (s : ASt), ∀ n ∈ l, a.le ((l.foldl (fun s n => addAttr s n a) s).at_ n)
  | [], _, _, h => (List.not_mem_nil h).elim
  | m :: l, s, n, h => by
    rw [List.foldl_cons]
    rcases List.mem_cons.1 h with rfl | h
    · exact (addAttr_at s n a).le_trans ((addAll_grow a l _).le n)
    · exact addAll_at a l _ n h

theorem belowLoop_grow (g : Graph) (a : Attr) : ∀ (n : Nat) (s : ASt) (x : Node), AGrow s (belowLoop g a n s x)
  | 0, s, _ => .refl s
  | n + 1, s, x => by
    simp only [belowLoop]
    split
    · split
      · exact belowLoop_grow g a n s x.below
      · exact addAttr_grow ..
    · exact .refl s

theorem belowLoop_at (g : Graph) (a : Attr) (n : Nat) (s : ASt) (x : Node) (hb : g.has x.below = true) :
    a.le ((belowLoop g a (n + 1) s x).at_ x.below) := by
  simp only [belowLoop]
  rw [if_pos hb]
  split
  · rename_i h; exact (Attr.or_eq.1 h).le_trans ((belowLoop_grow g a n s x.below).le _)
  · exact addAttr_at ..

theorem attrItem_grow (g : Graph) (R : List Item) (s : ASt) (d : Node) : AGrow s (attrItem g R s d) := by
  unfold attrItem
  dsimp only
  split
  · exact (addAll_grow _ _ _).trans (belowLoop_grow ..)
  · exact .refl s

/-- The attributes of a node have been handed on. -/
structure ADone (g : Graph) (R : List Item) (A : Node → Attr) (d : Node) : Prop where
  reach : ∀ j ∈ R, j.dst = d → (A d).le (A j.src)
  below : g.has d.below = true → (A d).le (A d.below)

/-- The invariant of the work list. -/
structure AInv (g : Graph) (R : List Item) (s : ASt) (todo : Node → Prop) : Prop where
  done : ∀ d, todo d ∨ d ∈ s.next ∨ ADone g R s.at_ d
  init : ∀ n, (g.attrFor n).le (s.at_ n)

theorem attrItem_done (g : Graph) (R : List Item) (s : ASt) (d : Node) :
    d ∈ (attrItem g R s d).next ∨ ADone g R (attrItem g R s d).at_ d := by
  rcases (attrItem_grow g R s d).new d with h | h
  · right
    refine ⟨fun j hj hd => ?_, fun hb => ?_⟩ <;> rw [h]
    · unfold attrItem
      dsimp only
      split
      · refine Attr.le_trans (addAll_at (s.at_ d) _ s j.src ?_) ((belowLoop_grow ..).le _)
        exact List.mem_map.2 ⟨j, List.mem_filter.2 ⟨hj, by simp [hd]⟩, rfl⟩
      · rename_i hn; exact Attr.none_le (by simpa using hn)
    · unfold attrItem
      dsimp only
      split
      · have : g.levels d.val = (g.levels d.val - 1) + 1 := by
          have h' : d.lvl + 1 < g.levels d.val := of_decide_eq_true hb
          omega
        rw [this]
        exact belowLoop_at g _ _ _ d hb
      · rename_i hn; exact Attr.none_le (by simpa using hn)
  · exact .inl h

theorem attrItem_inv {g : Graph} {R : List Item} {s : ASt} {T T' : Node → Prop} {d : Node} (h : AInv g R s T)
    (hT : ∀ n, T n → n = d ∨ T' n) : AInv g R (attrItem g R s d) T' := by
  have hg := attrItem_grow g R s d
  refine ⟨fun n => ?_, fun n => (h.init n).le_trans (hg.le n)⟩
  by_cases hn : n = d
  · subst hn; exact .inr (attrItem_done g R s n)
  · rcases h.done n with h1 | h1 | h1
    · exact .inl ((hT n h1).resolve_left hn)
    · exact .inr (.inl (hg.next n h1))
    · rcases hg.new n with h2 | h2
      · refine .inr (.inr ⟨fun j hj hd => ?_, fun hb => ?_⟩) <;> rw [h2]
        · exact (h1.reach j hj hd).le_trans (hg.le _)
        · exact (h1.below hb).le_trans (hg.le _)
      · exact .inr (.inl h2)

theorem attrItems_inv {g : Graph} {R : List Item} : ∀ (l : List Node) (s : ASt), AInv g R s (· ∈ l) →
    AInv g R (l.foldl (attrItem g R) s) (fun _ => False)
  | [], _, h => ⟨fun d => (h.done d).imp (fun h => nomatch h) id, h.init⟩
  | i :: l, s, h => by
    rw [List.foldl_cons]
    exact attrItems_inv l _ (attrItem_inv h fun n hn => List.mem_cons.1 hn)

theorem attrLoop_inv {g : Graph} {R : List Item} {ord : List Node → List Node} (ho : ∀ l i, i ∈ ord l ↔ i ∈ l) :
    ∀ (n : Nat) (s s' : ASt), AInv g R s (fun _ => False) → attrLoop g R ord n s = some s' →
      AInv g R s' (fun _ => False) ∧ s'.next = []
  | 0, s, s', h, hl => by
    simp only [attrLoop] at hl
    split at hl
    · cases hl; exact ⟨h, by assumption⟩
    · cases hl
  | n + 1, s, s', h, hl => by
    simp only [attrLoop] at hl
    split at hl
    · cases hl; exact ⟨h, by assumption⟩
    · refine attrLoop_inv ho n _ s' (attrItems_inv _ { s with next := [] } ⟨fun d => ?_, h.init⟩) hl
      rcases h.done d with h1 | h1 | h1
      · exact h1.elim
      · exact .inl ((ho _ _).2 h1)
      · exact .inr (.inr ⟨h1.reach, h1.below⟩)

theorem attrInit_inv (g : Graph) (R : List Item) : AInv g R (attrInit g) (fun _ => False) := by
  refine ⟨fun d => ?_, fun n => Attr.le_refl _⟩
  rcases mem_nodes_or_empty g d with h | h
  · exact .inr (.inl h)
  · refine .inr (.inr ⟨fun j _ _ => ?_, fun _ => ?_⟩) <;> (simp only [attrInit]; rw [h]; exact Attr.empty_le _)

/-! ## The least solution -/

/-- A map closed under the rules for attributes. -/
structure AClosed (g : Graph) (R : List Item) (B : Node → Attr) : Prop where
  init : ∀ n, (g.attrFor n).le (B n)
  reach : ∀ j ∈ R, (B j.dst).le (B j.src)
  below : ∀ n, g.has n.below = true → (B n).le (B n.below)

theorem addAttr_le {B : Node → Attr} {s : ASt} {n : Node} {a : Attr} (h : ∀ m, (s.at_ m).le (B m)) (ha : a.le (B n)) :
    ∀ m, ((addAttr s n a).at_ m).le (B m) := by
  intro m
  unfold addAttr
  split
  · exact h m
  · dsimp only
    split
    · rename_i hm; subst hm; exact Attr.or_le (h _) ha
    · exact h m

theorem addAll_le {B : Node → Attr} {a : Attr} : ∀ (l : List Node) (s : ASt), (∀ m, (s.at_ m).le (B m)) →
    (∀ n ∈ l, a.le (B n)) → ∀ m, ((l.foldl (fun s n => addAttr s n a) s).at_ m).le (B m)
  | [], _, h, _ => h
  | n :: l, s, h, ha => by
    rw [List.foldl_cons]
    exact addAll_le l _ (addAttr_le h (ha n (List.mem_cons_self ..))) fun m hm => ha m (List.mem_cons_of_mem _ hm)

theorem belowLoop_le {g : Graph} {R : List Item} {B : Node → Attr} (hB : AClosed g R B) {a : Attr} :
    ∀ (n : Nat) (s : ASt) (x : Node), (∀ m, (s.at_ m).le (B m)) → a.le (B x) →
      ∀ m, ((belowLoop g a n s x).at_ m).le (B m)
  | 0, _, _, h, _ => h
  | n + 1, s, x, h, ha => by
    simp only [belowLoop]
    split
    · rename_i hb
      have := ha.le_trans (hB.below x hb)
      split
      · exact belowLoop_le hB n s x.below h this
      · exact addAttr_le h this
    · exact h

theorem attrItem_le {g : Graph} {R : List Item} {B : Node → Attr} (hB : AClosed g R B) (s : ASt) (d : Node)
    (h : ∀ m, (s.at_ m).le (B m)) : ∀ m, ((attrItem g R s d).at_ m).le (B m) := by
  unfold attrItem
  dsimp only
  split
  · refine belowLoop_le hB _ _ _ (addAll_le _ _ h fun n hn => ?_) (h d)
    obtain ⟨j, hj, rfl⟩ := List.mem_map.1 hn
    rw [List.mem_filter] at hj
    have : j.dst = d := by simpa using hj.2
    exact (h d).le_trans (this ▸ hB.reach j hj.1)
  · exact h

theorem attrItems_le {g : Graph} {R : List Item} {B : Node → Attr} (hB : AClosed g R B) : ∀ (l : List Node) (s : ASt),
    (∀ m, (s.at_ m).le (B m)) → ∀ m, ((l.foldl (attrItem g R) s).at_ m).le (B m)
  | [], _, h => h
  | d :: l, s, h => by rw [List.foldl_cons]; exact attrItems_le hB l _ (attrItem_le hB s d h)

theorem attrLoop_le {g : Graph} {R : List Item} {B : Node → Attr} {ord : List Node → List Node} (hB : AClosed g R B) :
    ∀ (n : Nat) (s s' : ASt), (∀ m, (s.at_ m).le (B m)) → attrLoop g R ord n s = some s' → ∀ m, (s'.at_ m).le (B m)
  | 0, s, s', h, hl => by
    simp only [attrLoop] at hl
    split at hl
    · cases hl; exact h
    · cases hl
  | n + 1, s, s', h, hl => by
    simp only [attrLoop] at hl
    split at hl
    · cases hl; exact h
    · exact attrLoop_le hB n _ s' (attrItems_le hB _ { s with next := [] } h) hl

theorem attrLoop_closed {g : Graph} {R : List Item} {ord : List Node → List Node} (ho : ∀ l i, i ∈ ord l ↔ i ∈ l)
    {n : Nat} {s : ASt} (h : attrLoop g R ord n (attrInit g) = some s) : AClosed g R s.at_ := by
  obtain ⟨h1, h2⟩ := attrLoop_inv ho n _ _ (attrInit_inv g R) h
  have hd : ∀ d, ADone g R s.at_ d := by
    intro d
    rcases h1.done d with h3 | h3 | h3
    · exact h3.elim
    · rw [h2] at h3; cases h3
    · exact h3
  exact ⟨h1.init, fun j hj => (hd j.dst).reach j hj rfl, fun n => (hd n).below⟩

/-! ## The work ends -/

/-- The bits of an attribute. -/
def Attr.bit (a : Attr) : Fin 5 → Bool
  | 0 => a.esc
  | 1 => a.unk
  | 2 => a.glob
  | 3 => a.caller
  | 4 => a.arg

/-- The bits set at some nodes. -/
def bits (U : List Node) (A : Node → Attr) : Nat :=
  ((U.flatMap fun n => [0, 1, 2, 3, 4].map fun i => ((n, i) : Node × Fin 5)).filter fun e => (A e.1).bit e.2).length

theorem filter_len_lt {α : Type} {p q : α → Bool} : ∀ (l : List α), (∀ a ∈ l, p a = true → q a = true) →
    (l.filter p).length ≤ (l.filter q).length ∧
    ((∃ a ∈ l, p a = false ∧ q a = true) → (l.filter p).length < (l.filter q).length)
  | [], _ => ⟨Nat.le_refl _, fun ⟨_, h, _⟩ => (List.not_mem_nil h).elim⟩
  | a :: l, h => by
    obtain ⟨h1, h2⟩ := filter_len_lt l fun b hb => h b (List.mem_cons_of_mem _ hb)
    have h3 := h a (List.mem_cons_self ..)
    simp only [List.filter_cons]
    refine ⟨?_, ?_⟩
    · cases hp : p a <;> cases hq : q a <;> simp_all <;> omega
    · rintro ⟨b, hb, hb1, hb2⟩
      rcases List.mem_cons.1 hb with rfl | hb
      · rw [hb1, hb2]; simp; omega
      · have := h2 ⟨b, hb, hb1, hb2⟩
        cases hp : p a <;> cases hq : q a <;> simp_all <;> omega

theorem Attr.bit_le {a b : Attr} (h : a.le b) (i : Fin 5) : a.bit i = true → b.bit i = true := by
  obtain ⟨h1, h2, h3, h4, h5⟩ := h
  match i with
  | 0 => exact h1
  | 1 => exact h2
  | 2 => exact h3
  | 3 => exact h4
  | 4 => exact h5

theorem Attr.bit_lt {a b : Attr} (h : a.le b) (hne : a ≠ b) : ∃ i, a.bit i = false ∧ b.bit i = true := by
  apply Classical.byContradiction
  intro hc
  have hc' : ∀ i, b.bit i = true → a.bit i = true := fun i hb => by
    cases ha : a.bit i
    · exact absurd ⟨i, ha, hb⟩ hc
    · rfl
  exact hne (Attr.le_antisymm h ⟨hc' 0, hc' 1, hc' 2, hc' 3, hc' 4⟩)

theorem bits_mono {U : List Node} {A B : Node → Attr} (h : ∀ n, (A n).le (B n)) :
    bits U A ≤ bits U B ∧ ((∃ n ∈ U, A n ≠ B n) → bits U A < bits U B) := by
  have := filter_len_lt (p := fun e : Node × Fin 5 => (A e.1).bit e.2) (q := fun e => (B e.1).bit e.2)
    (U.flatMap fun n => [0, 1, 2, 3, 4].map fun i => ((n, i) : Node × Fin 5)) fun e _ => Attr.bit_le (h e.1) e.2
  refine ⟨this.1, fun ⟨n, hn, hne⟩ => this.2 ?_⟩
  obtain ⟨i, hi⟩ := Attr.bit_lt (h n) hne
  refine ⟨(n, i), ?_, hi⟩
  rw [List.mem_flatMap]
  refine ⟨n, hn, List.mem_map.2 ⟨i, ?_, rfl⟩⟩
  match i with
  | 0 | 1 | 2 | 3 | 4 => simp

theorem bits_le (U : List Node) (A : Node → Attr) : bits U A ≤ 5 * U.length := by
  refine Nat.le_trans (List.length_filter_le ..) ?_
  induction U with
  | nil => simp
  | cons n U ih => simp only [List.flatMap_cons, List.length_append, List.length_map, List.length_cons, List.length_nil] at *; omega

/-- If something waits that did not before, a bit has been set at one of the given nodes. -/
def ANew (U : List Node) (s s' : ASt) : Prop := s'.next = s.next ∨ ∃ n ∈ U, s.at_ n ≠ s'.at_ n

theorem ANew.trans {U : List Node} {a b c : ASt} (h : ANew U a b) (h' : ANew U b c) (hg : AGrow a b) (hg' : AGrow b c) :
    ANew U a c := by
  rcases h with h | ⟨n, hn, hne⟩
  · rcases h' with h' | ⟨n, hn, hne⟩
    · exact .inl (h'.trans h)
    · refine .inr ⟨n, hn, fun e => hne ?_⟩
      exact Attr.le_antisymm (hg'.le n) (e ▸ hg.le n)
  · refine .inr ⟨n, hn, fun e => hne ?_⟩
    exact Attr.le_antisymm (hg.le n) (e ▸ hg'.le n)

theorem addAttr_new {U : List Node} (s : ASt) (n : Node) (a : Attr) (hn : n ∈ U) : ANew U s (addAttr s n a) := by
  unfold addAttr
  split
  · exact .inl rfl
  · rename_i h
    refine .inr ⟨n, hn, ?_⟩
    dsimp only; rw [if_pos rfl]; exact fun e => h e.symm

theorem addAll_new {U : List Node} (a : Attr) : ∀ (l : List Node) (s : ASt), (∀ n ∈ l, n ∈ U) →
    ANew U s (l.foldl (fun s n => addAttr s n a) s)
  | [], _, _ => .inl rfl
  | n :: l, s, h => by
    rw [List.foldl_cons]
    exact (addAttr_new s n a (h n (List.mem_cons_self ..))).trans (addAll_new a l _ fun m hm => h m (List.mem_cons_of_mem _ hm))
      (addAttr_grow ..) (addAll_grow ..)

theorem belowLoop_new {g : Graph} {U : List Node} (hU : ∀ n, g.has n = true → n ∈ U) (a : Attr) : ∀ (n : Nat) (s : ASt) (x : Node),
    ANew U s (belowLoop g a n s x)
  | 0, _, _ => .inl rfl
  | n + 1, s, x => by
    simp only [belowLoop]
    split
    · split
      · exact belowLoop_new hU a n s x.below
      · exact addAttr_new _ _ _ (hU _ (by assumption))
    · exact .inl rfl

theorem attrItem_new {g : Graph} {R : List Item} {U : List Node} (hU : ∀ n, g.has n = true → n ∈ U)
    (hR : ∀ j ∈ R, j.src ∈ U) (s : ASt) (d : Node) : ANew U s (attrItem g R s d) := by
  unfold attrItem
  dsimp only
  split
  · refine (addAll_new _ _ _ fun n hn => ?_).trans (belowLoop_new hU _ _ _ _) (addAll_grow ..) (belowLoop_grow ..)
    obtain ⟨j, hj, rfl⟩ := List.mem_map.1 hn
    exact hR j (List.mem_filter.1 hj).1
  · exact .inl rfl

theorem attrItems_grow (g : Graph) (R : List Item) : ∀ (l : List Node) (s : ASt), AGrow s (l.foldl (attrItem g R) s)
  | [], s => .refl s
  | d :: l, s => by rw [List.foldl_cons]; exact (attrItem_grow g R s d).trans (attrItems_grow g R l _)

theorem attrItems_new {g : Graph} {R : List Item} {U : List Node} (hU : ∀ n, g.has n = true → n ∈ U)
    (hR : ∀ j ∈ R, j.src ∈ U) : ∀ (l : List Node) (s : ASt), ANew U s (l.foldl (attrItem g R) s)
  | [], _ => .inl rfl
  | d :: l, s => by
    rw [List.foldl_cons]
    exact (attrItem_new hU hR s d).trans (attrItems_new hU hR l _) (attrItem_grow ..) (attrItems_grow ..)

theorem attrLoop_total {g : Graph} {R : List Item} {U : List Node} {ord : List Node → List Node}
    (hU : ∀ n, g.has n = true → n ∈ U) (hR : ∀ j ∈ R, j.src ∈ U) :
    ∀ (n : Nat) (s : ASt), (s.next = [] ∨ 5 * U.length + 1 ≤ bits U s.at_ + n) → (attrLoop g R ord n s).isSome = true
  | 0, s, hn => by
    have := bits_le U s.at_
    simp only [attrLoop]
    rw [if_pos (hn.resolve_right (by omega))]; rfl
  | n + 1, s, hn => by
    simp only [attrLoop]
    split
    · rfl
    · rename_i hne
      have h1 := hn.resolve_left hne
      have hg := attrItems_grow g R (ord s.next) { s with next := [] }
      have hm := bits_mono (U := U) hg.le
      refine attrLoop_total hU hR n _ ?_
      rcases attrItems_new hU hR (ord s.next) { s with next := [] } with h | h
      · exact .inl h
      · right
        have := hm.2 h
        dsimp only at this
        omega

end Phasar.CFLAnders
