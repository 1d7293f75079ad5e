import Verif.Util.RemoveByIndex
/-!
# Property C46: `remove_by_index` removes exactly the listed elements
-/
namespace Phasar.Util

variable {α : Type}

theorem C46.moveN_ok (k : Nat) : ∀ (a : List (Option α)) (i o : Nat) (x : List α), o ≤ i → i + k ≤ a.length → x.length = k →
    (∀ j, j < k → a[i + j]? = (x[j]?).map some) → o < i → ∃ b, moveN k a i o = some (b, o + k) ∧ b.length = a.length ∧
      b.take (o + k) = a.take o ++ x.map some ∧ ∀ j, i + k ≤ j → b[j]? = a[j]? := by
  induction k with
  | zero =>
    intro a i o x _ _ hx _ _
    have : x = [] := List.length_eq_zero_iff.1 hx
    subst this
    exact ⟨a, rfl, rfl, by simp, fun _ _ => rfl⟩
  | succ k ih =>
    intro a i o x ho hi hx ha hlt
    cases x with
    | nil => simp at hx
    | cons y x =>
      have h0 := ha 0 (by omega)
      simp only [Nat.add_zero, List.getElem?_cons_zero, Option.map_some] at h0
      have ho' : o < a.length := by omega
      simp only [moveN, h0, if_pos ho']
      obtain ⟨b, h1, h2, h3, h4⟩ := ih ((a.set i none).set o (some y)) (i + 1) (o + 1) x (by omega) (by simp; omega)
        (by simpa using hx) (fun j hj => by
          have := ha (j + 1) (by omega)
          simp only [List.getElem?_cons_succ] at this
          rw [List.getElem?_set_ne (by omega), List.getElem?_set_ne (by omega), show i + 1 + j = i + (j + 1) by omega]
          exact this) (by omega)
      refine ⟨b, by rw [h1]; simp only [Option.some.injEq, Prod.mk.injEq, true_and]; omega, by simp [h2], ?_, ?_⟩
      · rw [show o + (k + 1) = o + 1 + k by omega, h3]
        have : (((a.set i none).set o (some y)).take (o + 1)) = a.take o ++ [some y] := by
          rw [List.take_succ_eq_append_getElem (by simp; omega)]
          congr 1
          · rw [List.take_set_of_le (by omega), List.take_set_of_le (by omega)]
          · simp
        rw [this]; simp
      · intro j hj
        rw [h4 j (by omega), List.getElem?_set_ne (by omega), List.getElem?_set_ne (by omega)]

theorem C46.kept_none {cs : List Nat} : ∀ (l : List α) (k : Nat), (∀ j, k ≤ j → j < k + l.length → j ∉ cs) → kept cs k l = l := by
  intro l
  induction l with
  | nil => intro k _; rfl
  | cons x l ih =>
    intro k h
    simp only [kept]
    rw [if_neg (h k (Nat.le_refl _) (by simp)), ih (k + 1) (fun j h1 h2 => h j (by omega) (by simp only [List.length_cons]; omega))]

theorem C46.kept_append {cs : List Nat} : ∀ (l l' : List α) (k : Nat), kept cs k (l ++ l') = kept cs k l ++ kept cs (k + l.length) l' := by
  intro l
  induction l with
  | nil => intro l' k; simp [kept]
  | cons x l ih =>
    intro l' k
    simp only [List.cons_append, kept, List.length_cons]
    rw [ih l' (k + 1), show k + 1 + l.length = k + (l.length + 1) by omega]
    split <;> simp

theorem C46.moveRange_ok {a : List (Option α)} {l : List α} {cs : List Nat} {o i t : Nat} (hlen : a.length = l.length)
    (ho : o < i) (hit : i ≤ t) (ht : t ≤ l.length) (h1 : a.take o = (kept cs 0 (l.take i)).map some)
    (h2 : ∀ j, i ≤ j → a[j]? = (l[j]?).map some) (hno : ∀ j, i ≤ j → j < t → j ∉ cs) :
    ∃ b, moveRange a i t o = some (b, o + (t - i)) ∧ b.length = l.length ∧
      b.take (o + (t - i)) = (kept cs 0 (l.take t)).map some ∧ ∀ j, t ≤ j → b[j]? = (l[j]?).map some := by
  obtain ⟨b, e1, e2, e3, e4⟩ := C46.moveN_ok (t - i) a i o ((l.drop i).take (t - i)) (by omega) (by omega)
    (by simp; omega) (fun j hj => by
      rw [h2 (i + j) (by omega), List.getElem?_take_of_lt hj, List.getElem?_drop]) ho
  refine ⟨b, by rw [moveRange, if_pos hit, e1], by rw [e2, hlen], ?_, ?_⟩
  · rw [e3, h1]
    have hs : l.take t = l.take i ++ (l.drop i).take (t - i) := by
      rw [← List.take_add, show i + (t - i) = t by omega]
    rw [hs, C46.kept_append, List.map_append]
    congr 2
    rw [C46.kept_none]
    intro j hj1 hj2
    simp only [List.length_take, List.length_drop, Nat.zero_add] at hj1 hj2
    exact hno j (by omega) (by omega)
  · intro j hj
    rw [e4 j (by omega), h2 j (by omega)]

theorem C46.loop_ok (l : List α) (all : List Nat) (hend : ¬ (l.length - 1 ∈ all ∧ l.length ∈ all)) : ∀ (cs : List Nat)
    (a : List (Option α)) (prev o : Nat), a.length = l.length → prev < l.length → o ≤ prev →
    a.take o = (kept all 0 (l.take (prev + 1))).map some → (∀ j, prev + 1 ≤ j → a[j]? = (l[j]?).map some) →
    (∀ j, prev < j → (j ∈ all ↔ j ∈ cs)) → (prev :: cs).Pairwise (· < ·) → prev ∈ all →
    ∃ b r, removeLoop a prev o (prev + 1) cs = some (b, r) ∧ b.length = l.length ∧ b.take r = (kept all 0 l).map some := by
  intro cs
  induction cs with
  | nil =>
    intro a prev o hlen hp ho h1 h2 hmem _ _
    obtain ⟨b, e1, e2, e3, _⟩ := C46.moveRange_ok (t := l.length) hlen (by omega) (by omega) (Nat.le_refl _) h1 h2
      (fun j hj _ => by rw [hmem j (by omega)]; simp)
    refine ⟨b, _, by rw [removeLoop, hlen]; exact e1, e2, ?_⟩
    rw [e3, List.take_length]
  | cons c cs ih =>
    intro a prev o hlen hp ho h1 h2 hmem hsort hpm
    have hpc : prev < c := (List.pairwise_cons.1 hsort).1 c (by simp)
    have hcs := (List.pairwise_cons.1 hsort).2
    have hcm : c ∈ all := (hmem c hpc).2 (by simp)
    have hmem' : ∀ j, c < j → (j ∈ all ↔ j ∈ cs) := by
      intro j hj
      rw [hmem j (by omega)]
      simp only [List.mem_cons]
      constructor
      · rintro (h | h)
        · omega
        · exact h
      · exact Or.inr
    rw [removeLoop]
    by_cases hcon : prev + 1 = c
    · rw [if_pos hcon]
      have hcl : c < l.length := by
        rcases Nat.lt_or_ge c l.length with h | h
        · exact h
        · have hce : c = l.length := by omega
          exact absurd ⟨by rw [show l.length - 1 = prev by omega]; exact hpm, hce ▸ hcm⟩ hend
      rw [if_pos (by omega)]
      rw [hcon]
      refine ih a c o hlen hcl (by omega) ?_ (fun j hj => h2 j (by omega)) hmem' hcs hcm
      rw [h1, hcon]
      have hs : l.take (c + 1) = l.take c ++ [l[c]] := List.take_succ_eq_append_getElem hcl
      rw [hs, C46.kept_append]
      simp only [List.length_take, Nat.zero_add, Nat.min_eq_left (Nat.le_of_lt hcl), kept, if_pos hcm, List.append_nil]
    · rw [if_neg hcon]
      have hno : ∀ j, prev + 1 ≤ j → j < c → j ∉ all := by
        intro j hj1 hj2 hj3
        rcases List.mem_cons.1 ((hmem j (by omega)).1 hj3) with h | h
        · omega
        · have := (List.pairwise_cons.1 hcs).1 j h; omega
      by_cases hbd : a.length ≤ c
      · rw [if_pos hbd, hlen]
        obtain ⟨b, e1, e2, e3, _⟩ := C46.moveRange_ok (t := l.length) hlen (by omega) (by omega) (Nat.le_refl _) h1 h2
          (fun j hj hj2 => hno j hj (by omega))
        exact ⟨b, _, e1, e2, by rw [e3, List.take_length]⟩
      · rw [if_neg hbd]
        have hcl : c < l.length := by omega
        obtain ⟨b, e1, e2, e3, e4⟩ := C46.moveRange_ok (t := c) hlen (by omega) (by omega) (by omega) h1 h2 hno
        rw [e1]
        simp only [Option.bind_some]
        refine ih b c _ e2 hcl (by omega) ?_ (fun j hj => e4 j (by omega)) hmem' hcs hcm
        rw [e3]
        have hs : l.take (c + 1) = l.take c ++ [l[c]] := List.take_succ_eq_append_getElem hcl
        rw [hs, C46.kept_append]
        simp only [List.length_take, Nat.zero_add, Nat.min_eq_left (Nat.le_of_lt hcl), kept, if_pos hcm, List.append_nil]

/-- C46: with strictly ascending indices whose first is within the range (and not both the last index of the range and
the index behind it), the random-access version moves the elements whose index is not listed to the front, in order, and
returns the end of these.  It never reads an element it has moved away. -/
theorem C46_removes (l : List α) (cs : List Nat) (hs : cs.Pairwise (· < ·)) (hfirst : ∀ c, cs.head? = some c → c < l.length)
    (hend : ¬ (l.length - 1 ∈ cs ∧ l.length ∈ cs)) :
    ∃ b r, removeRA (l.map some) cs = some (b, r) ∧ b.length = l.length ∧ b.take r = (kept cs 0 l).map some := by
  cases cs with
  | nil =>
    refine ⟨l.map some, l.length, by simp [removeRA], by simp, ?_⟩
    rw [C46.kept_none l 0 (by simp), List.take_of_length_le (by simp)]
  | cons c cs =>
    have hc := hfirst c rfl
    have hsort := List.pairwise_cons.1 hs
    simp only [removeRA, List.length_map]
    rw [if_neg (by omega), if_pos (by omega)]
    refine C46.loop_ok l (c :: cs) hend cs (l.map some) c c (by simp) hc (Nat.le_refl _) ?_ (fun j _ => by simp) ?_ hs (by simp)
    · have hs : l.take (c + 1) = l.take c ++ [l[c]] := List.take_succ_eq_append_getElem hc
      rw [hs, C46.kept_append]
      simp only [List.length_take, Nat.zero_add, Nat.min_eq_left (Nat.le_of_lt hc), kept, List.mem_cons, true_or, if_true,
        List.append_nil]
      rw [C46.kept_none, List.map_take]
      intro j _ hj
      simp only [List.length_take] at hj
      intro hj2
      rcases List.mem_cons.1 hj2 with h | h
      · omega
      · have := hsort.1 j h; omega
    · intro j hj
      simp only [List.mem_cons]
      constructor
      · rintro (h | h)
        · omega
        · exact h
      · exact Or.inr

/-- The specification, stated with indices: the element at position `j` survives exactly if `j` is not listed. -/
theorem C46_kept (l : List α) (cs : List Nat) : kept cs 0 l = ((l.zipIdx.filter (fun p => decide (p.2 ∉ cs))).map (·.1)) := by
  have : ∀ (l : List α) (k : Nat), kept cs k l = (((l.zipIdx k).filter (fun p => decide (p.2 ∉ cs))).map (·.1)) := by
    intro l
    induction l with
    | nil => intro k; rfl
    | cons x l ih =>
      intro k
      rw [List.zipIdx_cons]
      simp only [kept, ih (k + 1)]
      by_cases h : k ∈ cs
      · rw [if_pos h, List.filter_cons_of_neg (by simpa using h)]
      · rw [if_neg h, List.filter_cons_of_pos (by simpa using h)]; rfl
  exact this l 0

example : removeRA ([10, 11, 12, 13, 14, 15].map some) [1, 2, 4] =
    some ([some 10, some 13, some 15, none, some 14, none], 3) := by decide

example : ∃ b r, removeRA ([10, 11, 12, 13, 14, 15].map some) [1, 2, 4] = some (b, r) ∧ b.length = 6 ∧
    b.take r = (kept [1, 2, 4] 0 [10, 11, 12, 13, 14, 15]).map some :=
  C46_removes _ _ (by decide) (by simp) (by decide)

/-- An index behind the range is ignored after a gap, but not directly behind the last one: iterators are moved behind
the end. -/
theorem C46_end : removeRA ([10, 11, 12].map some) [2, 3] = none ∧
    (removeRA ([10, 11, 12].map some) [1, 5]).map (fun p => p.1.take p.2) = some [some 10, some 12] := by decide

/-- The version for other iterators is wrong as soon as there are two indices: it compares the position with the index that
was used last, and passes on to the next index when it keeps an element. -/
theorem C46_forward_false : (removeFwd ([10, 11, 12, 13].map some) [1, 2]).map (fun p => p.1.take p.2) =
      some [some 10, some 12, some 13] ∧ kept [1, 2] 0 [10, 11, 12, 13] = [10, 13] ∧
    (removeFwd ([10, 11, 12, 13, 14, 15].map some) [1, 4]).map (fun p => p.1.take p.2) =
      some [some 10, some 12, some 13, some 14, some 15] ∧ kept [1, 4] 0 [10, 11, 12, 13, 14, 15] = [10, 12, 13, 15] := by decide

end Phasar.Util
