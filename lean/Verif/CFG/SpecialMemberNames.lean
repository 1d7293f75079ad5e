import Verif.CFG.SpecialMemberProps
/-!
# Property C41: which names are special members
-/
namespace Phasar.SpecialMember

/-! ## Specification -/

/-- Specification: where the scan for length prefixes goes on after position `c`.  It leaves a digit by as many characters
as the *character code* of the digit (`LLVMBasedCFG.cpp:279`), at least 48. -/
def nxt (name : Name) (c : Nat) : Nat :=
  match name[c]? with
  | some d => if isDigit d then c + d + 1 else c + 1
  | none => c + 1

/-- Specification: the `k`-th position looked at. -/
def pos (name : Name) : Nat → Nat
  | 0 => 0
  | k + 1 => nxt name (pos name k)

/-- Specification: position `i` is taken to be inside of an identifier: a number `v` at a position looked at before `i` is at most
`v` characters before it. -/
def Blocked (name : Name) (i : Nat) : Prop :=
  ∃ k d v, pos name k < i ∧ name[pos name k]? = some d ∧ isDigit d = true ∧ stoul (digitsOf (name.drop (pos name k))) = some v ∧
    i ≤ pos name k + v

/-! ## The scan -/

theorem C41.nxt_gt (name : Name) (c : Nat) : c < nxt name c := by
  unfold nxt
  split
  · split <;> omega
  · omega

theorem C41.pos_mono (name : Name) : ∀ {j k : Nat}, j ≤ k → pos name j ≤ pos name k := by
  intro j k h
  induction k with
  | zero => rw [Nat.le_zero.1 h]; exact Nat.le_refl _
  | succ k ih =>
    by_cases e : j = k + 1
    · rw [e]; exact Nat.le_refl _
    · have h1 := ih (by omega)
      have h2 := C41.nxt_gt name (pos name k)
      show _ ≤ nxt name (pos name k)
      omega

theorem C41.noName_pos {name : Name} (idx : Nat) : ∀ (fuel k : Nat) (b : Bool), idx - pos name k ≤ fuel →
    (∀ j < k, ∀ d v, pos name j < idx → name[pos name j]? = some d → isDigit d = true →
      stoul (digitsOf (name.drop (pos name j))) = some v → ¬ idx ≤ pos name j + v) →
    noName name idx fuel (pos name k) = some b → (b = false ↔ Blocked name idx) := by
  intro fuel
  induction fuel with
  | zero =>
    intro k b hf hno h
    simp only [noName, Option.some.injEq] at h
    subst h
    simp only [Bool.true_eq_false, false_iff]
    rintro ⟨j, d, v, h1, h2, h3, h4, h5⟩
    by_cases hj : j < k
    · exact hno j hj d v h1 h2 h3 h4 h5
    · have := C41.pos_mono name (Nat.le_of_not_lt hj)
      omega
  | succ fuel ih =>
    intro k b hf hno h
    unfold noName at h
    by_cases hc : pos name k < idx
    · rw [if_pos hc] at h
      cases hd : name[pos name k]? with
      | none =>
        rw [hd] at h
        simp only [Option.some.injEq] at h
        subst h
        simp only [Bool.true_eq_false, false_iff]
        rintro ⟨j, d, v, h1, h2, h3, h4, h5⟩
        by_cases hj : j < k
        · exact hno j hj d v h1 h2 h3 h4 h5
        · have := C41.pos_mono name (Nat.le_of_not_lt hj)
          have e1 := List.getElem?_eq_none_iff.1 hd
          have e2 := (List.getElem?_eq_some_iff.1 h2).1
          omega
      | some d =>
        rw [hd] at h
        simp only at h
        by_cases hdig : isDigit d = true
        · rw [if_pos hdig] at h
          cases hs : stoul (digitsOf (name.drop (pos name k))) with
          | none => rw [hs] at h; cases h
          | some v =>
            rw [hs] at h
            simp only at h
            by_cases hi : idx ≤ pos name k + v
            · rw [if_pos hi] at h
              cases h
              simp only [true_iff]
              exact ⟨k, d, v, hc, hd, hdig, hs, hi⟩
            · rw [if_neg hi] at h
              have hp : pos name (k + 1) = pos name k + d + 1 := by
                show nxt name (pos name k) = _
                simp only [nxt, hd, if_pos hdig]
              refine ih (k + 1) b (by omega) ?_ (by rw [hp]; exact h)
              intro j hj d' v' h1 h2 h3 h4 h5
              by_cases e : j = k
              · subst e
                rw [hs] at h4
                cases h4
                exact hi h5
              · exact hno j (by omega) d' v' h1 h2 h3 h4 h5
        · rw [if_neg hdig] at h
          have hp : pos name (k + 1) = pos name k + 1 := by
            show nxt name (pos name k) = _
            simp only [nxt, hd, if_neg hdig]
          refine ih (k + 1) b (by omega) ?_ (by rw [hp]; exact h)
          intro j hj d' v' h1 h2 h3 h4 h5
          by_cases e : j = k
          · subst e
            rw [hd] at h2
            cases h2
            exact hdig h3
          · exact hno j (by omega) d' v' h1 h2 h3 h4 h5
    · rw [if_neg hc] at h
      cases h
      simp only [Bool.true_eq_false, false_iff]
      rintro ⟨j, d, v, h1, h2, h3, h4, h5⟩
      by_cases hj : j < k
      · exact hno j hj d v h1 h2 h3 h4 h5
      · have := C41.pos_mono name (Nat.le_of_not_lt hj)
        omega

/-- C41: the inner loop finds out whether a position is inside of an identifier. -/
theorem C41_blocked (name : Name) (idx : Nat) (b : Bool) (h : noName name idx idx 0 = some b) : b = false ↔ Blocked name idx :=
  C41.noName_pos idx idx 0 b (by simp) (fun j hj => absurd hj (by omega)) h

/-- What `digitsOf` is: the longest prefix of digits. -/
theorem C41_digits (s : Name) : ∃ rest, s = digitsOf s ++ rest ∧ (∀ c ∈ digitsOf s, isDigit c = true) ∧
    ∀ c ∈ rest.head?, isDigit c = false := by
  induction s with
  | nil => exact ⟨[], by simp [digitsOf]⟩
  | cons c s ih =>
    unfold digitsOf
    by_cases h : isDigit c = true
    · rw [if_pos h]
      obtain ⟨rest, h1, h2, h3⟩ := ih
      refine ⟨rest, by rw [List.cons_append, ← h1], ?_, h3⟩
      intro x hx
      rcases List.mem_cons.1 hx with e | e
      · rw [e]; exact h
      · exact h2 x e
    · rw [if_neg h]
      exact ⟨c :: s, rfl, by simp, by simpa using h⟩

/-! ## The order of the occurrences -/

/-- The occurrences of the codes, code by code and in ascending order. -/
def C41.Ordered (name : Name) (cs : List (Name × Kind)) (l : List (Nat × Kind)) : Prop :=
  ∀ a i k b, l = a ++ (i, k) :: b → ∃ pre c post, cs = pre ++ c :: post ∧ k = c.2 ∧ OccursAt name c.1 i ∧
    (∀ c' ∈ pre, ∀ j, OccursAt name c'.1 j → (j, c'.2) ∈ a) ∧ ∀ j < i, OccursAt name c.1 j → (j, c.2) ∈ a

theorem C41.ordered_done (name : Name) : ∀ (cs : List (Name × Kind)) (found : List (Nat × Kind)), (∀ c ∈ cs, ¬ OccursAt name c.1 0) →
    ∃ n l, C41.iter name n ⟨cs, 0, found⟩ = ⟨[], 0, found ++ l⟩ ∧ C41.Ordered name cs l ∧
      ∀ p, p ∈ l ↔ ∃ c ∈ cs, p.2 = c.2 ∧ OccursAt name c.1 p.1 := by
  intro cs
  induction cs with
  | nil => intro found _; exact ⟨0, [], by simp [C41.iter], by intro a i k b h; simp at h, by simp⟩
  | cons c cs ih =>
    intro found h
    obtain ⟨code, k⟩ := c
    obtain ⟨n, l, h1, h2, h3⟩ := C41.one_code name code k cs (h (code, k) (by simp)) _ 0 found (Nat.le_refl _)
    obtain ⟨n', l', h1', h2', h3'⟩ := ih (found ++ l) fun c hc => h c (by simp [hc])
    refine ⟨n + n', l ++ l', by rw [C41.iter_add, h1, h1', List.append_assoc], ?_, fun p => ?_⟩
    · intro a i k0 b he
      rcases List.append_eq_append_iff.1 he with ⟨a', e1, e2⟩ | ⟨c', e1, e2⟩
      · obtain ⟨pre, c, post, g1, g2, g3, g4, g5⟩ := h2' a' i k0 b e2
        refine ⟨(code, k) :: pre, c, post, by rw [g1]; rfl, g2, g3, ?_, ?_⟩
        · intro c' hc' j hj
          rw [e1, List.mem_append]
          rcases List.mem_cons.1 hc' with e | e
          · subst e; exact Or.inl ((h2 (j, k)).2 ⟨rfl, Nat.zero_le _, hj⟩)
          · exact Or.inr (g4 c' e j hj)
        · intro j hj ho
          rw [e1, List.mem_append]
          exact Or.inr (g5 j hj ho)
      · cases c' with
        | nil =>
          rw [List.nil_append] at e2
          rw [List.append_nil] at e1
          obtain ⟨pre, c, post, g1, g2, g3, g4, g5⟩ := h2' [] i k0 b e2.symm
          refine ⟨(code, k) :: pre, c, post, by rw [g1]; rfl, g2, g3, ?_, fun j hj ho => absurd (g5 j hj ho) (by simp)⟩
          intro c' hc' j hj
          rcases List.mem_cons.1 hc' with e | e
          · subst e; rw [← e1]; exact (h2 (j, k)).2 ⟨rfl, Nat.zero_le _, hj⟩
          · exact absurd (g4 c' e j hj) (by simp)
        | cons q c' =>
          simp only [List.cons_append, List.cons.injEq] at e2
          obtain ⟨e2, _⟩ := e2
          subst e2
          have hm := (h2 (i, k0)).1 (by rw [e1]; simp)
          refine ⟨[], (code, k), cs, rfl, hm.1, hm.2.2, by simp, ?_⟩
          intro j hj ho
          have hjl := (h2 (j, k)).2 ⟨rfl, Nat.zero_le _, ho⟩
          rw [e1, List.mem_append, List.mem_cons] at hjl
          rcases hjl with hjl | hjl | hjl
          · exact hjl
          · exact absurd (congrArg Prod.fst hjl) (by simp only; omega)
          · rw [e1, List.pairwise_append] at h3
            have := (List.pairwise_cons.1 h3.2.1).1 _ hjl
            simp only at this; omega
    · rw [List.mem_append, h2, h3']
      simp only [Nat.zero_le, true_and, List.mem_cons, exists_eq_or_imp]

theorem C41.found_ordered (name : Name) (n : Nat) (hn : (loop name n).it = []) : C41.Ordered name codes (loop name n).found := by
  obtain ⟨m, l, h1, h2, _⟩ := C41.ordered_done name codes [] ((C41_loop_ends name).1 ⟨n, hn⟩)
  rw [C41.loop_iter] at hn ⊢
  have e1 : C41.iter name (n + m) ⟨codes, 0, []⟩ = C41.iter name n ⟨codes, 0, []⟩ := by
    rw [C41.iter_add]; exact C41.iter_fix (C41.iter_nil hn) m
  have e2 : C41.iter name (m + n) ⟨codes, 0, []⟩ = C41.iter name m ⟨codes, 0, []⟩ := by
    rw [C41.iter_add]; exact C41.iter_fix (C41.iter_nil (by rw [h1])) n
  rw [Nat.add_comm, e1] at e2
  rw [e2, h1]
  exact h2

theorem C41.classify_split (name : Name) : ∀ (l : List (Nat × Kind)) (r : Option Kind), classify name l = some r →
    (r = none ∧ ∀ p ∈ l, noName name p.1 p.1 0 = some false) ∨
    ∃ a i k b, l = a ++ (i, k) :: b ∧ r = some k ∧ noName name i i 0 = some true ∧ ∀ p ∈ a, noName name p.1 p.1 0 = some false := by
  intro l
  induction l with
  | nil => intro r h; simp only [classify, Option.some.injEq] at h; exact Or.inl ⟨h.symm, by simp⟩
  | cons p l ih =>
    intro r h
    obtain ⟨i, k⟩ := p
    unfold classify at h
    cases hb : noName name i i 0 with
    | none => rw [hb] at h; cases h
    | some b =>
      rw [hb] at h
      cases b with
      | true =>
        simp only [Option.some.injEq] at h
        exact Or.inr ⟨[], i, k, l, rfl, h.symm, hb, by simp⟩
      | false =>
        simp only at h
        rcases ih r h with ⟨e1, e2⟩ | ⟨a, i', k', b, e1, e2, e3, e4⟩
        · refine Or.inl ⟨e1, fun p hp => ?_⟩
          rcases List.mem_cons.1 hp with e | e
          · rw [e]; exact hb
          · exact e2 p e
        · refine Or.inr ⟨(i, k) :: a, i', k', b, by rw [e1]; rfl, e2, e3, fun p hp => ?_⟩
          rcases List.mem_cons.1 hp with e | e
          · rw [e]; exact hb
          · exact e4 p e

/-- C41: the result.  If the function returns `None`, every occurrence of a code is taken to be inside of an identifier.  If it
returns a kind, it is the kind of the first code in the table with an occurrence that is not. -/
theorem C41_result (name : Name) (n : Nat) (r : Option Kind) (h : run name n = some r) :
    match r with
    | none => ∀ c ∈ codes, ∀ i, OccursAt name c.1 i → Blocked name i
    | some k => ∃ pre c post i, codes = pre ++ c :: post ∧ k = c.2 ∧ OccursAt name c.1 i ∧ ¬ Blocked name i ∧
        ∀ c' ∈ pre, ∀ j, OccursAt name c'.1 j → Blocked name j := by
  unfold run at h
  by_cases hn : (loop name n).it = []
  case neg => rw [if_neg hn] at h; cases h
  rw [if_pos hn] at h
  rcases C41.classify_split name _ r h with ⟨e1, e2⟩ | ⟨a, i, k, b, e1, e2, e3, e4⟩
  · subst e1
    intro c hc i ho
    exact (C41_blocked name i false (e2 (i, c.2) ((C41_found name n hn i c.2).2 ⟨c, hc, rfl, ho⟩))).1 rfl
  · subst e2
    obtain ⟨pre, c, post, g1, g2, g3, g4, _⟩ := C41.found_ordered name n hn a i k b e1
    refine ⟨pre, c, post, i, g1, g2, g3, fun hb => ?_, fun c' hc' j ho => ?_⟩
    · exact absurd ((C41_blocked name i true e3).2 hb) (by simp)
    · exact (C41_blocked name j false (e4 (j, c'.2) (g4 c' hc' j ho))).1 rfl

/-! ## Mangled names of members of one class -/

/-- `_ZN`, the length of the class name (one or two digits), the class name and what follows. -/
def C41.nested (ds id w : Name) : Name := 95 :: 90 :: 78 :: (ds ++ (id ++ w))

/-- Specification: an identifier with its length in front of it, as in the Itanium mangling.  Identifiers are shorter than 48
characters here. -/
structure Ident (ds id : Name) : Prop where
  digits : ∀ d ∈ ds, isDigit d = true
  one : 1 ≤ ds.length
  two : ds.length ≤ 2
  value : ds.foldl (fun a c => a * 10 + (c - 48)) 0 = id.length
  short : id.length < 48
  start : ∀ c ∈ id.head?, isDigit c = false
  nonempty : id ≠ []

theorem C41.digitsOf_append : ∀ (ds s : Name), (∀ d ∈ ds, isDigit d = true) → (∀ c ∈ s.head?, isDigit c = false) →
    digitsOf (ds ++ s) = ds := by
  intro ds
  induction ds with
  | nil =>
    intro s _ h
    cases s with
    | nil => rfl
    | cons c s =>
      have := h c (by simp)
      simp [digitsOf, this]
  | cons d ds ih =>
    intro s h1 h2
    rw [List.cons_append, digitsOf, if_pos (h1 d (by simp)), ih s (fun x hx => h1 x (by simp [hx])) h2]

section
variable {ds id w : Name}

theorem C41.first_digit (h : Ident ds id) (w : Name) : ∃ d, isDigit d = true ∧ (C41.nested ds id w)[3]? = some d := by
  cases hd : ds with
  | nil => exact absurd h.one (by rw [hd]; simp)
  | cons d ds' => exact ⟨d, h.digits d (by rw [hd]; simp), rfl⟩

theorem C41.pos3 (ds id w : Name) : pos (C41.nested ds id w) 1 = 1 ∧ pos (C41.nested ds id w) 2 = 2 ∧ pos (C41.nested ds id w) 3 = 3 := by
  refine ⟨rfl, rfl, rfl⟩

theorem C41.pos4 (h : Ident ds id) (w : Name) {k : Nat} (hk : 4 ≤ k) : 52 ≤ pos (C41.nested ds id w) k := by
  have h1 := C41.pos_mono (C41.nested ds id w) hk
  obtain ⟨d, hd, hn⟩ := C41.first_digit h w
  have h2 : pos (C41.nested ds id w) 4 = 3 + d + 1 := by
    show nxt _ (pos (C41.nested ds id w) 3) = _
    rw [(C41.pos3 ds id w).2.2]
    simp only [nxt, hn, if_pos hd]
  simp only [isDigit, Bool.and_eq_true, decide_eq_true_eq] at hd
  omega

theorem C41.length3 (h : Ident ds id) (w : Name) : stoul (digitsOf ((C41.nested ds id w).drop 3)) = some id.length := by
  show stoul (digitsOf (ds ++ (id ++ w))) = _
  rw [C41.digitsOf_append ds (id ++ w) h.digits ?_]
  · simp only [stoul, h.value]
    rw [if_pos (by have := h.short; omega)]
  · cases hi : id with
    | nil => exact absurd hi h.nonempty
    | cons c id' =>
      intro x hx
      exact h.start x (by rw [hi]; simpa using hx)

theorem C41.in_ident (h : Ident ds id) (w : Name) {i : Nat} (h1 : 3 < i) (h2 : i ≤ 3 + id.length) : Blocked (C41.nested ds id w) i := by
  obtain ⟨d, hd, hn⟩ := C41.first_digit h w
  exact ⟨3, d, id.length, h1, hn, hd, C41.length3 h w, h2⟩

theorem C41.behind (h : Ident ds id) (w : Name) : ¬ Blocked (C41.nested ds id w) (3 + ds.length + id.length) := by
  rintro ⟨k, d, v, h1, h2, h3, h4, h5⟩
  have hs := h.short
  have ht := h.two
  have ho := h.one
  match k, h1, h2, h4, h5 with
  | 0, _, h2, _, _ => have e : some 95 = some d := h2; cases e; exact absurd h3 (by decide)
  | 1, _, h2, _, _ => have e : some 90 = some d := h2; cases e; exact absurd h3 (by decide)
  | 2, _, h2, _, _ => have e : some 78 = some d := h2; cases e; exact absurd h3 (by decide)
  | 3, _, _, h4, h5 =>
    rw [(C41.pos3 ds id w).2.2] at h4 h5
    rw [C41.length3 h w] at h4
    cases h4
    omega
  | k + 4, h1, _, _, _ =>
    have := C41.pos4 h w (k := k + 4) (by omega)
    omega

/-- How the codes begin. -/
theorem C41.code_chars {name : Name} {c : Name × Kind} (hc : c ∈ codes) {i : Nat} (ho : OccursAt name c.1 i) :
    ∃ x y, name[i]? = some x ∧ name[i + 1]? = some y ∧ (x = 67 ∨ x = 68 ∨ x = 97) ∧ (isDigit y = true ∨ y = 83) := by
  obtain ⟨p, q, h1, h2⟩ := ho
  have hcc : ∃ x y t, c.1 = x :: y :: t ∧ (x = 67 ∨ x = 68 ∨ x = 97) ∧ (isDigit y = true ∨ y = 83) := by
    simp only [codes, List.mem_cons, List.not_mem_nil, or_false] at hc
    rcases hc with e | e | e | e | e | e | e | e <;> subst e <;> exact ⟨_, _, _, rfl, by decide, by decide⟩
  obtain ⟨x, y, t, e1, e2, e3⟩ := hcc
  refine ⟨x, y, ?_, ?_, e2, e3⟩
  · rw [h1, e1, ← h2, List.append_assoc, List.getElem?_append_right (Nat.le_refl _)]; simp
  · rw [h1, e1, ← h2, List.append_assoc, List.getElem?_append_right (by omega)]; simp

/-- No code begins before what follows the class name, except inside of it. -/
theorem C41.before (h : Ident ds id) (x : Nat) (hx : x = 67 ∨ x = 68 ∨ x = 97) (w : Name) {c : Name × Kind} (hc : c ∈ codes) {i : Nat}
    (ho : OccursAt (C41.nested ds id (x :: w)) c.1 i) (hi : i < 3 + ds.length + id.length) : Blocked (C41.nested ds id (x :: w)) i := by
  obtain ⟨a, b, h1, h2, h3, h4⟩ := C41.code_chars hc ho
  have hx' : ¬ (isDigit x = true ∨ x = 83) := by rcases hx with e | e | e <;> subst e <;> decide
  have ha : isDigit a = false := by rcases h3 with e | e | e <;> subst e <;> decide
  refine C41.in_ident h _ ?_ ?_
  · match i, h1 with
    | 0, h1 => have e : some 95 = some a := h1; cases e; simp at h3
    | 1, h1 => have e : some 90 = some a := h1; cases e; simp at h3
    | 2, h1 => have e : some 78 = some a := h1; cases e; simp at h3
    | 3, h1 =>
      obtain ⟨d, hd, hn⟩ := C41.first_digit h (x :: w)
      rw [hn] at h1
      cases h1
      rw [ha] at hd; cases hd
    | i + 4, _ => omega
  · have hlast : i + 1 ≠ 3 + ds.length + id.length := by
      intro he
      rw [he] at h2
      have : (C41.nested ds id (x :: w))[3 + ds.length + id.length]? = some x := by
        have e : C41.nested ds id (x :: w) = ([95, 90, 78] ++ ds ++ id) ++ x :: w := by simp [C41.nested]
        rw [e, List.getElem?_append_right (by simp; omega)]
        have e' : 3 + ds.length + id.length - ([95, 90, 78] ++ ds ++ id).length = 0 := by simp; omega
        rw [e']; rfl
      rw [this] at h2
      cases h2
      exact hx' h4
    have := h.two
    omega

theorem C41.occurs_end (ds id code tail : Name) : OccursAt (C41.nested ds id (code ++ tail)) code (3 + ds.length + id.length) :=
  ⟨[95, 90, 78] ++ ds ++ id, tail, by simp [C41.nested], by simp; omega⟩

theorem C41.nested_start (ds id w : Name) : ∀ c ∈ codes, ¬ OccursAt (C41.nested ds id w) c.1 0 := by
  intro c hc ho
  obtain ⟨a, _, h1, _, h3, _⟩ := C41.code_chars hc ho
  have e : some 95 = some a := h1
  cases e
  simp at h3

/-- C41: constructors.  The name `_ZN<length><class>C1…` of a constructor (also `C2` and `C3`) of a class with a name of less than 48
characters is classified as a constructor, whatever the name of the class and the parameters are. -/
theorem C41_constructor_partial (ds id code tail : Name) (h : Ident ds id) (hc : code ∈ [[67, 49], [67, 50], [67, 51]])
    (hs : C41.Small (C41.nested ds id (code ++ tail))) : ∃ n, run (C41.nested ds id (code ++ tail)) n = some (some .Constructor) := by
  obtain ⟨n, r, hr⟩ := C41_returns_partial _ (C41.nested_start ds id (code ++ tail)) hs
  refine ⟨n, ?_⟩
  have hmem : (code, Kind.Constructor) ∈ codes := by
    simp only [List.mem_cons, List.not_mem_nil, or_false] at hc
    rcases hc with e | e | e <;> subst e <;> simp [codes]
  have hres := C41_result _ n r hr
  cases r with
  | none => exact absurd (hres _ hmem _ (C41.occurs_end ds id code tail)) (C41.behind h _)
  | some k =>
    obtain ⟨pre, c, post, i, g1, g2, g3, g4, g5⟩ := hres
    have hk : c.2 = .Constructor ∨ (code, Kind.Constructor) ∈ pre := by
      have hl : pre.length < 8 := by
        have := congrArg List.length g1
        simp [codes] at this
        omega
      have hcg : codes[pre.length]? = some c := by rw [g1]; simp
      have hpg : codes.take pre.length = pre := by rw [g1]; simp
      have key : ∀ q < 8, ((codes[q]?).map (fun c => c.2)) = some .Constructor ∨
          ∀ code ∈ [[67, 49], [67, 50], [67, 51]], (code, Kind.Constructor) ∈ codes.take q := by decide
      rcases key _ hl with e | e
      · rw [hcg] at e
        left; exact Option.some.inj e
      · right; rw [← hpg]; exact e code hc
    rcases hk with e | e
    · rw [hr, g2, e]
    · exact absurd (g5 _ e _ (C41.occurs_end ds id code tail)) (C41.behind h _)

/-- The common part of the other three kinds, whose names have no parameters left to describe. -/
theorem C41.other (ds id : Name) (h : Ident ds id) (x : Nat) (hx : x = 67 ∨ x = 68 ∨ x = 97) (w code : Name) (k : Kind)
    (hc : (code, k) ∈ codes) (hcode : OccursAt (x :: w) code 0)
    (hw : ∀ c ∈ codes, ∀ j ≤ w.length + 1, startsWith c.1 ((x :: w).drop j) = true → c.2 = k)
    (hs : C41.Small (C41.nested ds id (x :: w))) : ∃ n, run (C41.nested ds id (x :: w)) n = some (some k) := by
  obtain ⟨n, r, hr⟩ := C41_returns_partial _ (C41.nested_start ds id (x :: w)) hs
  refine ⟨n, ?_⟩
  have hocc : OccursAt (C41.nested ds id (x :: w)) code (3 + ds.length + id.length) := by
    obtain ⟨p, q, e1, e2⟩ := hcode
    have hp : p = [] := List.eq_nil_of_length_eq_zero e2
    subst hp
    rw [e1]
    exact C41.occurs_end ds id code q
  have hres := C41_result _ n r hr
  cases r with
  | none => exact absurd (hres _ hc _ hocc) (C41.behind h _)
  | some k' =>
    obtain ⟨pre, c, post, i, g1, g2, g3, g4, _⟩ := hres
    have hcm : c ∈ codes := by rw [g1]; simp
    have hi : 3 + ds.length + id.length ≤ i := by
      apply Nat.le_of_not_lt
      intro hlt
      exact g4 (C41.before h x hx w hcm g3 hlt)
    obtain ⟨hi2, hst⟩ := (C41.occurs_iff _ _ _).1 g3
    have e : C41.nested ds id (x :: w) = ([95, 90, 78] ++ ds ++ id) ++ x :: w := by simp [C41.nested]
    have hlen : ([95, 90, 78] ++ ds ++ id).length = 3 + ds.length + id.length := by simp; omega
    rw [e, show i = ([95, 90, 78] ++ ds ++ id).length + (i - (3 + ds.length + id.length)) by omega, List.drop_append] at hst
    rw [e, List.length_append, hlen, List.length_cons] at hi2
    rw [List.drop_eq_nil_of_le (by omega), List.nil_append, Nat.add_sub_cancel_left] at hst
    rw [hr, g2, hw c hcm _ (by omega) hst]

/-- C41: destructors, `_ZN<length><class>D1Ev` (also `D0` and `D2`). -/
theorem C41_destructor_partial (ds id : Name) (d : Nat) (h : Ident ds id) (hd : d ∈ [48, 49, 50])
    (hs : C41.Small (C41.nested ds id [68, d, 69, 118])) : ∃ n, run (C41.nested ds id [68, d, 69, 118]) n = some (some .Destructor) := by
  simp only [List.mem_cons, List.not_mem_nil, or_false] at hd
  rcases hd with e | e | e <;> subst e
  · exact C41.other ds id h 68 (by decide) [48, 69, 118] [68, 48] .Destructor (by decide) ⟨[], [69, 118], rfl, rfl⟩ (by decide +kernel) hs
  · exact C41.other ds id h 68 (by decide) [49, 69, 118] [68, 49] .Destructor (by decide) ⟨[], [69, 118], rfl, rfl⟩ (by decide +kernel) hs
  · exact C41.other ds id h 68 (by decide) [50, 69, 118] [68, 50] .Destructor (by decide) ⟨[], [69, 118], rfl, rfl⟩ (by decide +kernel) hs

/-- C41: copy assignment, `_ZN<length><class>aSERKS_`. -/
theorem C41_copy_partial (ds id : Name) (h : Ident ds id) (hs : C41.Small (C41.nested ds id [97, 83, 69, 82, 75, 83, 95])) :
    ∃ n, run (C41.nested ds id [97, 83, 69, 82, 75, 83, 95]) n = some (some .CopyAssignment) :=
  C41.other ds id h 97 (by decide) [83, 69, 82, 75, 83, 95] [97, 83, 69, 82, 75, 83, 95] .CopyAssignment (by decide) ⟨[], [], rfl, rfl⟩
    (by decide +kernel) hs

/-- C41: move assignment, `_ZN<length><class>aSEOS_`. -/
theorem C41_move_partial (ds id : Name) (h : Ident ds id) (hs : C41.Small (C41.nested ds id [97, 83, 69, 79, 83, 95])) :
    ∃ n, run (C41.nested ds id [97, 83, 69, 79, 83, 95]) n = some (some .MoveAssignment) :=
  C41.other ds id h 97 (by decide) [83, 69, 79, 83, 95] [97, 83, 69, 79, 83, 95] .MoveAssignment (by decide) ⟨[], [], rfl, rfl⟩
    (by decide +kernel) hs

end

/-- The bound on the length of the class name is needed: with a longer one the scan goes on in the middle of the name and takes
digits there for a length prefix; the constructor is not recognized. -/
theorem C41_long_false : run (ascii "_ZN60aaaaaaaaaaaaaaaaaaaaaaaaaaaaaaaaaaaaaaaaaaaaaaaaaaaaa99aaaaaC1Ev") 10 = some none := by decide +kernel

/-! ## Examples -/

/-- The class `xC1`, whose name contains a code. -/
theorem C41.ident : Ident [51] [120, 67, 49] :=
  ⟨by decide, by decide, by decide, by decide, by decide, by simp [isDigit], by decide⟩

theorem C41.small_of (name : Name) (h : ∀ c < name.length, (stoul (digitsOf (name.drop c))).isSome) : C41.Small name := by
  intro c
  by_cases hc : c < name.length
  · exact h c hc
  · rw [List.drop_eq_nil_of_le (by omega)]; decide

example : C41.nested [51] [120, 67, 49] [68, 49, 69, 118] = ascii "_ZN3xC1D1Ev" := by decide +kernel

example := C41_destructor_partial [51] [120, 67, 49] 49 C41.ident (by decide) (C41.small_of _ (by decide +kernel))

example := C41_constructor_partial [51] [120, 67, 49] [67, 50] (ascii "ERKS_") C41.ident (by decide) (C41.small_of _ (by decide +kernel))

example := C41_copy_partial [51] [120, 67, 49] C41.ident (C41.small_of _ (by decide +kernel))

example := C41_move_partial [51] [120, 67, 49] C41.ident (C41.small_of _ (by decide +kernel))

/-- In `_ZN3xC1D1Ev` the code `C1` is inside of the identifier and `D1` is not. -/
example : Blocked (ascii "_ZN3xC1D1Ev") 5 ∧ ¬ Blocked (ascii "_ZN3xC1D1Ev") 7 :=
  ⟨(C41_blocked _ 5 false (by decide +kernel)).1 rfl, fun h => absurd ((C41_blocked _ 7 true (by decide +kernel)).2 h) (by simp)⟩

example := C41_result (ascii "_ZN3xC1D1Ev") 11 (some .Destructor) (by decide +kernel)

end Phasar.SpecialMember
