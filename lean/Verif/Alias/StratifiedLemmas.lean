import Verif.Alias.Stratified
import Verif.CG.BuilderLemmas

/-! # Lemmas about the builder of stratified sets: finding sets, chains of sets -/
namespace Phasar.Stratified
open CFLAnders (Attr Node)

variable {b b' : Builder}

/-- A set that is not remapped. -/
def Root (b : Builder) (i : Nat) : Prop := i < b.n ∧ (b.links i).remap = none

/-- Following the remaps from `i` ends at `r`. -/
def Find (b : Builder) (i r : Nat) : Prop := ∃ k, b.findN k i = some r

theorem link_root {i : Nat} (h : Root b i) : b.link i = some (b.links i) := by
  simp [Builder.link, h.1, h.2]

theorem findN_root {k i r : Nat} (h : b.findN k i = some r) : Root b r := by
  induction k generalizing i with
  | zero =>
    unfold Builder.findN at h
    split at h
    · rename_i hi
      cases hr : (b.links i).remap with
      | none => simp only [hr, Option.some.injEq] at h; subst h; exact ⟨hi, hr⟩
      | some j => simp [hr] at h
    · cases h
  | succ k ih =>
    unfold Builder.findN at h
    split at h
    · rename_i hi
      cases hr : (b.links i).remap with
      | none => simp only [hr, Option.some.injEq] at h; subst h; exact ⟨hi, hr⟩
      | some j => simp only [hr] at h; exact ih h
    · cases h

theorem findN_self {i : Nat} (h : Root b i) (k : Nat) : b.findN k i = some i := by
  cases k <;> simp [Builder.findN, h.1, h.2]

theorem findN_succ {k i r : Nat} (h : b.findN k i = some r) : b.findN (k + 1) i = some r := by
  induction k generalizing i with
  | zero =>
    have h0 := h
    unfold Builder.findN at h
    split at h
    · rename_i hi
      cases hr : (b.links i).remap with
      | none => simp only [hr, Option.some.injEq] at h; subst h; exact findN_self ⟨hi, hr⟩ _
      | some j => simp [hr] at h
    · cases h
  | succ k ih =>
    have h0 := h
    unfold Builder.findN at h
    split at h
    · rename_i hi
      cases hr : (b.links i).remap with
      | none => simp only [hr, Option.some.injEq] at h; subst h; exact findN_self ⟨hi, hr⟩ _
      | some j =>
        simp only [hr] at h
        unfold Builder.findN
        simp only [hi, if_true, hr]
        exact ih h
    · cases h

theorem findN_mono {k k' i r : Nat} (hk : k ≤ k') (h : b.findN k i = some r) : b.findN k' i = some r := by
  induction hk with
  | refl => exact h
  | step _ ih => exact findN_succ ih

theorem Find.root {i r : Nat} (h : Find b i r) : Root b r := h.elim fun _ h => findN_root h

theorem Find.self {i : Nat} (h : Root b i) : Find b i i := ⟨0, findN_self h 0⟩

theorem Find.det {i r s : Nat} (h : Find b i r) (h' : Find b i s) : r = s := by
  obtain ⟨k, h⟩ := h
  obtain ⟨k', h'⟩ := h'
  have h1 := findN_mono (Nat.le_max_left k k') h
  rw [findN_mono (Nat.le_max_right k k') h'] at h1
  exact (Option.some.inj h1).symm

theorem Find.lt {i r : Nat} (h : Find b i r) : i < b.n := by
  obtain ⟨k, h⟩ := h
  unfold Builder.findN at h
  split at h
  · assumption
  · cases h

/-- The sets are the members of `L`, and every index leads to one of them soon enough. -/
structure Base (b : Builder) (L : List Nat) : Prop where
  nodup : L.Nodup
  roots : ∀ i, i ∈ L ↔ Root b i
  find : ∀ i, i < b.n → ∃ r, b.findN (b.n - L.length) i = some r
  values : ∀ v i, b.values v = some i → i < b.n

variable {L L' : List Nat}

theorem Base.perm (h : Base b L) (hp : L.Perm L') : Base b L' where
  nodup := hp.nodup_iff.1 h.nodup
  roots i := by rw [← hp.mem_iff]; exact h.roots i
  find := by rw [← hp.length_eq]; exact h.find
  values := h.values

theorem len_le {n : Nat} (h : L.Nodup) (hl : ∀ i ∈ L, i < n) : L.length ≤ n := by
  have := CG.nodup_len (L := List.range n) h fun i hi => List.mem_range.2 (hl i hi)
  rwa [List.length_range] at this

theorem Base.len (h : Base b L) : L.length ≤ b.n :=
  len_le h.nodup fun i hi => ((h.roots i).1 hi).1

theorem Base.linksAt (h : Base b L) {i r : Nat} (hf : Find b i r) : b.linksAt i = some r := by
  obtain ⟨s, hs⟩ := h.find i hf.lt
  cases hf.det ⟨_, hs⟩
  exact findN_mono (Nat.sub_le ..) hs

theorem Base.linksAt_root (h : Base b L) {i : Nat} (hi : Root b i) : b.linksAt i = some i := h.linksAt (.self hi)

theorem Base.exists (h : Base b L) {i : Nat} (hi : i < b.n) : ∃ r, Find b i r :=
  (h.find i hi).elim fun r hr => ⟨r, _, hr⟩

/-! ## Assignments to links -/

theorem set_links (i : Nat) (l : Link) (j : Nat) : (b.set i l).links j = if j = i then l else b.links j := rfl

theorem findN_congr (hn : b'.n = b.n) (hr : ∀ j, (b'.links j).remap = (b.links j).remap) (k i : Nat) : b'.findN k i = b.findN k i := by
  induction k generalizing i with
  | zero =>
    unfold Builder.findN
    rw [hn, hr]
    cases (b.links i).remap <;> rfl
  | succ k ih =>
    unfold Builder.findN
    rw [hn, hr]
    split
    · cases (b.links i).remap with
      | none => rfl
      | some j => exact ih j
    · rfl

/-- What does not touch remaps does not change where indexes lead. -/
structure SameMap (b b' : Builder) : Prop where
  n : b'.n = b.n
  values : b'.values = b.values
  remap : ∀ j, (b'.links j).remap = (b.links j).remap

theorem SameMap.root (h : SameMap b b') {i : Nat} : Root b' i ↔ Root b i := by simp only [Root, h.n, h.remap]

theorem SameMap.find (h : SameMap b b') {i r : Nat} : Find b' i r ↔ Find b i r := by
  simp only [Find, findN_congr h.n h.remap]

theorem SameMap.base (h : SameMap b b') (hb : Base b L) : Base b' L where
  nodup := hb.nodup
  roots i := by rw [h.root]; exact hb.roots i
  find i hi := by rw [h.n] at hi ⊢; simp only [findN_congr h.n h.remap]; exact hb.find i hi
  values v i hv := by rw [h.n]; exact hb.values v i (h.values ▸ hv)

theorem SameMap.refl (b : Builder) : SameMap b b := ⟨rfl, rfl, fun _ => rfl⟩

theorem SameMap.trans {b'' : Builder} (h : SameMap b b') (h' : SameMap b' b'') : SameMap b b'' :=
  ⟨h'.n.trans h.n, h'.values.trans h.values, fun j => (h'.remap j).trans (h.remap j)⟩

theorem set_sameMap {i : Nat} {l : Link} (h : l.remap = (b.links i).remap) : SameMap b (b.set i l) :=
  ⟨rfl, rfl, fun j => by rw [set_links]; split <;> simp_all⟩

/-- A link remapped to `x`. -/
def Link.to (l : Link) (x : Nat) : Link := { l with remap := some x }

/-- One set is remapped to another one. -/
theorem remap_find {x y : Nat} (hx : Root b x) (hy : Root b y) (hxy : y ≠ x) (k i r : Nat) (h : b.findN k i = some r) :
    (b.set y ((b.links y).to x)).findN (k + 1) i = some (if r = y then x else r) := by
  have hx' : Root (b.set y ((b.links y).to x)) x :=
    ⟨hx.1, by rw [set_links, if_neg (fun e => hxy e.symm)]; exact hx.2⟩
  have base : ∀ k i, Root b i → (b.set y ((b.links y).to x)).findN (k + 1) i = some (if i = y then x else i) := by
    intro k i hi
    by_cases he : i = y
    · subst he
      rw [if_pos rfl]
      unfold Builder.findN
      have : i < (b.set i ((b.links i).to x)).n := hi.1
      rw [if_pos this]
      simp only [set_links, if_true, Link.to]
      exact findN_self hx' k
    · rw [if_neg he]
      have hi' : Root (b.set y ((b.links y).to x)) i := ⟨hi.1, by rw [set_links, if_neg he]; exact hi.2⟩
      exact findN_self hi' _
  induction k generalizing i with
  | zero =>
    unfold Builder.findN at h
    split at h
    · rename_i hi
      cases hr : (b.links i).remap with
      | none => simp only [hr, Option.some.injEq] at h; subst h; exact base 0 i ⟨hi, hr⟩
      | some j => simp [hr] at h
    · cases h
  | succ k ih =>
    unfold Builder.findN at h
    split at h
    · rename_i hi
      cases hr : (b.links i).remap with
      | none => simp only [hr, Option.some.injEq] at h; subst h; exact base (k + 1) i ⟨hi, hr⟩
      | some j =>
        simp only [hr] at h
        have he : i ≠ y := fun e => by rw [e, hy.2] at hr; cases hr
        unfold Builder.findN
        have hi' : i < (b.set y ((b.links y).to x)).n := hi
        rw [if_pos hi']
        simp only [set_links, if_neg he, hr]
        exact ih j h
    · cases h

theorem remap_base {x y : Nat} (hb : Base b L) (hp : L.Perm (y :: L')) (hx : Root b x) (hxy : y ≠ x) :
    Base (b.set y ((b.links y).to x)) L' := by
  have hb' := hb.perm hp
  have hy : Root b y := (hb'.roots y).1 (.head _)
  have hl := hb'.len
  refine ⟨(List.nodup_cons.1 hb'.nodup).2, fun i => ?_, fun i hi => ?_, hb.values⟩
  · have h1 := hb'.roots i
    have h2 := (List.nodup_cons.1 hb'.nodup).1
    constructor
    · intro hi
      have he : i ≠ y := fun e => h2 (e ▸ hi)
      have := h1.1 (.tail _ hi)
      exact ⟨this.1, by rw [set_links, if_neg he]; exact this.2⟩
    · rintro ⟨h3, h4⟩
      have he : i ≠ y := by
        rintro rfl
        simp [set_links, Link.to] at h4
      rw [set_links, if_neg he] at h4
      cases h1.2 ⟨h3, h4⟩ with
      | head => exact absurd rfl he
      | tail _ h => exact h
  · obtain ⟨r, hr⟩ := hb'.find i hi
    have := remap_find hx hy hxy _ _ _ hr
    refine ⟨_, findN_mono ?_ this⟩
    simp only [List.length_cons] at hl ⊢
    show _ ≤ b.n - L'.length
    omega

/-! ## Chains -/

variable {lk lk' : Nat → Link}

/-- The sets of `c` are linked one below the other, the first one to `p` above, the last one to `q` below. -/
def Seg (lk : Nat → Link) : Option Nat → List Nat → Option Nat → Prop
  | _, [], _ => True
  | p, a :: r, q => (lk a).above = p ∧ (lk a).below = r.head?.or q ∧ Seg lk (some a) r q

theorem seg_append {p q : Option Nat} {u v : List Nat} :
    Seg lk p (u ++ v) q ↔ Seg lk p u (v.head?.or q) ∧ Seg lk (u.getLast?.or p) v q := by
  induction u generalizing p with
  | nil => simp [Seg]
  | cons a u ih =>
    simp only [List.cons_append, Seg, ih, and_assoc]
    have h1 : (u ++ v).head?.or q = u.head?.or (v.head?.or q) := by cases u <;> simp
    have h2 : (a :: u).getLast?.or p = u.getLast?.or (some a) := by
      cases hu : u.getLast? with
      | none => rw [List.getLast?_eq_none_iff] at hu; subst hu; rfl
      | some z => rw [List.getLast?_cons, hu]; rfl
    rw [h1, h2]

theorem Seg.congr {p q : Option Nat} {c : List Nat} (h : Seg lk p c q)
    (hc : ∀ a ∈ c, (lk' a).above = (lk a).above ∧ (lk' a).below = (lk a).below) : Seg lk' p c q := by
  induction c generalizing p with
  | nil => trivial
  | cons a c ih =>
    obtain ⟨h1, h2, h3⟩ := h
    exact ⟨(hc a (.head _)).1.trans h1, (hc a (.head _)).2.trans h2, ih h3 fun a ha => hc a (.tail _ ha)⟩

/-- `s` follows `r` in the chain. -/
def Adj (c : List Nat) (r s : Nat) : Prop := ∃ u v, c = u ++ r :: s :: v

theorem Adj.mem {c : List Nat} {r s : Nat} (h : Adj c r s) : r ∈ c ∧ s ∈ c := by
  obtain ⟨u, v, rfl⟩ := h; simp

theorem Seg.below {p q : Option Nat} {u d : List Nat} {x : Nat} (h : Seg lk p (u ++ x :: d) q) : (lk x).below = d.head?.or q :=
  (seg_append.1 h).2.2.1

theorem Seg.above {p q : Option Nat} {u d : List Nat} {x : Nat} (h : Seg lk p (u ++ x :: d) q) : (lk x).above = u.getLast?.or p :=
  (seg_append.1 h).2.1

theorem Seg.adj {c : List Nat} (h : Seg lk none c none) {r s : Nat} (ha : Adj c r s) :
    (lk r).below = some s ∧ (lk s).above = some r := by
  obtain ⟨u, v, rfl⟩ := ha
  refine ⟨by rw [h.below]; simp, ?_⟩
  rw [show u ++ r :: s :: v = (u ++ [r]) ++ s :: v by simp] at h
  rw [h.above]
  simp

theorem Seg.of_below {c : List Nat} (h : Seg lk none c none) {r s : Nat} (hr : r ∈ c) (hs : (lk r).below = some s) : Adj c r s := by
  obtain ⟨u, d, rfl⟩ := List.append_of_mem hr
  rw [h.below, Option.or_none] at hs
  cases d with
  | nil => cases hs
  | cons z d => cases hs; exact ⟨u, d, rfl⟩

theorem Seg.of_above {c : List Nat} (h : Seg lk none c none) {r s : Nat} (hs : s ∈ c) (hr : (lk s).above = some r) : Adj c r s := by
  obtain ⟨u, d, rfl⟩ := List.append_of_mem hs
  rw [h.above, Option.or_none, List.getLast?_eq_some_iff] at hr
  obtain ⟨w, rfl⟩ := hr
  exact ⟨w, d, by simp⟩

/-- The state between two requests: the sets form the chains `cs`. -/
structure Rep (b : Builder) (cs : List (List Nat)) : Prop where
  base : Base b cs.flatten
  seg : ∀ c ∈ cs, Seg b.links none c none

theorem Rep.chain {cs : List (List Nat)} (h : Rep b cs) {r : Nat} (hr : Root b r) : ∃ c ∈ cs, r ∈ c := by
  have := (h.base.roots r).2 hr
  exact List.mem_flatten.1 this

end Phasar.Stratified
