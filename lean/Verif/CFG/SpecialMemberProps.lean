import Verif.CFG.SpecialMember
/-!
# Property C41: classifying special member functions
-/
namespace Phasar.SpecialMember

theorem C41.starts_iff : ∀ (pat s : Name), startsWith pat s = true ↔ ∃ q, s = pat ++ q := by
  intro pat
  induction pat with
  | nil => intro s; simp [startsWith]
  | cons p pat ih =>
    intro s
    cases s with
    | nil => simp [startsWith]
    | cons c s =>
      simp only [startsWith, Bool.and_eq_true, beq_iff_eq, ih, List.cons_append, List.cons.injEq]
      constructor
      · rintro ⟨rfl, q, rfl⟩; exact ⟨q, rfl, rfl⟩
      · rintro ⟨q, rfl, rfl⟩; exact ⟨rfl, q, rfl⟩

theorem C41.occurs_iff (name code : Name) (i : Nat) : OccursAt name code i ↔ i ≤ name.length ∧ startsWith code (name.drop i) = true := by
  rw [C41.starts_iff]
  constructor
  · rintro ⟨p, q, rfl, rfl⟩
    exact ⟨by simp only [List.length_append]; omega, q, by simp⟩
  · rintro ⟨h1, q, h2⟩
    exact ⟨name.take i, q, by rw [List.append_assoc, ← h2, List.take_append_drop], by simp; omega⟩

theorem C41.findFrom_some {pat : Name} : ∀ (s : Name) (i j : Nat), findFrom pat i s = some j →
    ∃ k, j = i + k ∧ k ≤ s.length ∧ startsWith pat (s.drop k) = true ∧ ∀ k' < k, startsWith pat (s.drop k') = false := by
  intro s
  induction s with
  | nil =>
    intro i j h
    simp only [findFrom] at h
    split at h
    · cases h; exact ⟨0, rfl, Nat.le_refl _, by assumption, by omega⟩
    · cases h
  | cons c s ih =>
    intro i j h
    simp only [findFrom] at h
    split at h
    · cases h; exact ⟨0, rfl, Nat.zero_le _, by assumption, by omega⟩
    · rename_i hn
      obtain ⟨k, h1, h2, h3, h4⟩ := ih (i + 1) j h
      refine ⟨k + 1, by omega, by simp; omega, by simpa using h3, fun k' hk' => ?_⟩
      cases k' with
      | zero => simpa using hn
      | succ k' => simpa using h4 k' (by omega)

theorem C41.findFrom_none {pat : Name} : ∀ (s : Name) (i : Nat), findFrom pat i s = none →
    ∀ k ≤ s.length, startsWith pat (s.drop k) = false := by
  intro s
  induction s with
  | nil =>
    intro i h k hk
    simp only [findFrom] at h
    split at h
    · cases h
    · rename_i hn
      simp only [List.length_nil, Nat.le_zero] at hk
      subst hk
      simpa using hn
  | cons c s ih =>
    intro i h k hk
    simp only [findFrom] at h
    split at h
    · cases h
    · rename_i hn
      cases k with
      | zero => simpa using hn
      | succ k => simpa using ih (i + 1) h k (by simpa using hk)

/-- C41: `find` returns the first occurrence from the given position on. -/
theorem C41_find (name code : Name) (b : Nat) :
    match find name code b with
    | some i => b ≤ i ∧ OccursAt name code i ∧ ∀ j, b ≤ j → j < i → ¬ OccursAt name code j
    | none => ∀ j, b ≤ j → ¬ OccursAt name code j := by
  split
  · rename_i i h
    unfold find at h
    split at h
    · obtain ⟨k, h1, h2, h3, h4⟩ := C41.findFrom_some _ _ _ h
      simp only [List.length_drop] at h2
      rw [List.drop_drop] at h3
      refine ⟨by omega, (C41.occurs_iff _ _ _).2 ⟨by omega, by rw [h1]; exact h3⟩, fun j hj1 hj2 ho => ?_⟩
      have := h4 (j - b) (by omega)
      rw [List.drop_drop, show b + (j - b) = j by omega, ((C41.occurs_iff _ _ _).1 ho).2] at this
      cases this
    · cases h
  · rename_i h
    intro j hj ho
    obtain ⟨h1, h2⟩ := (C41.occurs_iff _ _ _).1 ho
    unfold find at h
    rw [if_pos (by omega)] at h
    have := C41.findFrom_none _ _ h (j - b) (by simp; omega)
    rw [List.drop_drop, show b + (j - b) = j by omega, h2] at this
    cases this

/-! ## The first loop -/

/-- `n` iterations from an arbitrary state. -/
def C41.iter (name : Name) : Nat → St → St
  | 0, s => s
  | n + 1, s => C41.iter name n (step name s)

theorem C41.iter_comm (name : Name) : ∀ n s, C41.iter name n (step name s) = step name (C41.iter name n s) := by
  intro n
  induction n with
  | zero => intro s; rfl
  | succ n ih => intro s; exact ih _

theorem C41.loop_iter (name : Name) (n : Nat) : loop name n = C41.iter name n ⟨codes, 0, []⟩ := by
  induction n with
  | zero => rfl
  | succ n ih => rw [loop, ih, C41.iter, C41.iter_comm]

theorem C41.iter_add (name : Name) : ∀ m n s, C41.iter name (m + n) s = C41.iter name n (C41.iter name m s) := by
  intro m
  induction m with
  | zero => intro n s; simp [C41.iter]
  | succ m ih => intro n s; rw [Nat.succ_add, C41.iter, ih]; rfl

theorem C41.iter_fix {name : Name} {s : St} (h : step name s = s) : ∀ n, C41.iter name n s = s := by
  intro n
  induction n with
  | zero => rfl
  | succ n ih => rw [C41.iter, h, ih]

/-- Finishing one code that does not occur at the start of the name: all its occurrences from `bl` on are recorded, in
ascending order. -/
theorem C41.one_code (name code : Name) (k : Kind) (rest : List (Name × Kind)) (h0 : ¬ OccursAt name code 0) :
    ∀ (m bl : Nat) (found : List (Nat × Kind)), name.length + 1 - bl ≤ m →
      ∃ n l, C41.iter name n ⟨(code, k) :: rest, bl, found⟩ = ⟨rest, 0, found ++ l⟩ ∧
        (∀ p, p ∈ l ↔ p.2 = k ∧ bl ≤ p.1 ∧ OccursAt name code p.1) ∧ l.Pairwise (fun a b => a.1 < b.1) := by
  intro m
  induction m with
  | zero =>
    intro bl found hm
    have hf := C41_find name code bl
    cases h : find name code bl with
    | none =>
      rw [h] at hf
      refine ⟨1, [], by simp [C41.iter, step, h], fun p => ?_, List.Pairwise.nil⟩
      simp only [List.not_mem_nil, false_iff]
      rintro ⟨_, h1, h2⟩
      exact hf _ h1 h2
    | some i =>
      rw [h] at hf
      have := ((C41.occurs_iff _ _ _).1 hf.2.1).1
      omega
  | succ m ih =>
    intro bl found hm
    have hf := C41_find name code bl
    cases h : find name code bl with
    | none =>
      rw [h] at hf
      refine ⟨1, [], by simp [C41.iter, step, h], fun p => ?_, List.Pairwise.nil⟩
      simp only [List.not_mem_nil, false_iff]
      rintro ⟨_, h1, h2⟩
      exact hf _ h1 h2
    | some i =>
      rw [h] at hf
      simp only at hf
      cases i with
      | zero => exact absurd hf.2.1 h0
      | succ i =>
        have hi := ((C41.occurs_iff _ _ _).1 hf.2.1).1
        obtain ⟨n, l, h1, h2, h3⟩ := ih (i + 2) (found ++ [(i + 1, k)]) (by omega)
        refine ⟨n + 1, (i + 1, k) :: l, ?_, fun p => ?_, ?_⟩
        · simp only [C41.iter, step, h]
          rw [h1]
          simp
        · rw [List.mem_cons, h2]
          constructor
          · rintro (rfl | ⟨e1, e2, e3⟩)
            · exact ⟨rfl, hf.1, hf.2.1⟩
            · exact ⟨e1, by omega, e3⟩
          · rintro ⟨e1, e2, e3⟩
            by_cases e : p.1 = i + 1
            · exact Or.inl (Prod.ext e e1)
            · refine Or.inr ⟨e1, ?_, e3⟩
              have : ¬ p.1 < i + 1 := fun hlt => hf.2.2 _ e2 hlt e3
              omega
        · refine List.Pairwise.cons (fun p hp => ?_) h3
          have := ((h2 p).1 hp).2.1
          simp only; omega

theorem C41.codes_done (name : Name) : ∀ (cs : List (Name × Kind)) (found : List (Nat × Kind)), (∀ c ∈ cs, ¬ OccursAt name c.1 0) →
    ∃ n l, C41.iter name n ⟨cs, 0, found⟩ = ⟨[], 0, found ++ l⟩ ∧ ∀ p, p ∈ l ↔ ∃ c ∈ cs, p.2 = c.2 ∧ OccursAt name c.1 p.1 := by
  intro cs
  induction cs with
  | nil => intro found _; exact ⟨0, [], by simp [C41.iter], by simp⟩
  | cons c cs ih =>
    intro found h
    obtain ⟨code, k⟩ := c
    obtain ⟨n, l, h1, h2, _⟩ := C41.one_code name code k cs (h (code, k) (by simp)) _ 0 found (Nat.le_refl _)
    obtain ⟨n', l', h1', h2'⟩ := ih (found ++ l) fun c hc => h c (by simp [hc])
    refine ⟨n + n', l ++ l', ?_, fun p => ?_⟩
    · rw [C41.iter_add, h1, h1', List.append_assoc]
    · rw [List.mem_append, h2, h2']
      simp only [Nat.zero_le, true_and, List.mem_cons, exists_eq_or_imp]

theorem C41.stuck (name : Name) : ∀ (cs : List (Name × Kind)) (found : List (Nat × Kind)), (∃ c ∈ cs, OccursAt name c.1 0) →
    ∃ n s, C41.iter name n ⟨cs, 0, found⟩ = s ∧ step name s = s ∧ s.it ≠ [] := by
  intro cs
  induction cs with
  | nil => rintro found ⟨c, hc, _⟩; cases hc
  | cons c cs ih =>
    intro found h
    obtain ⟨code, k⟩ := c
    by_cases h0 : OccursAt name code 0
    · refine ⟨0, ⟨(code, k) :: cs, 0, found⟩, rfl, ?_, by simp⟩
      have hf := C41_find name code 0
      cases hfind : find name code 0 with
      | none => rw [hfind] at hf; exact absurd h0 (hf 0 (Nat.le_refl _))
      | some i =>
        rw [hfind] at hf
        cases i with
        | zero => simp [step, hfind]
        | succ i => exact absurd h0 (hf.2.2 0 (Nat.le_refl _) (by omega))
    · obtain ⟨n, l, h1, _⟩ := C41.one_code name code k cs h0 _ 0 found (Nat.le_refl _)
      have h' : ∃ c ∈ cs, OccursAt name c.1 0 := by
        obtain ⟨c, hc, ho⟩ := h
        rcases List.mem_cons.1 hc with rfl | hc
        · exact absurd ho h0
        · exact ⟨c, hc, ho⟩
      obtain ⟨n', s, e1, e2, e3⟩ := ih (found ++ l) h'
      exact ⟨n + n', s, by rw [C41.iter_add, h1]; exact e1, e2, e3⟩

theorem C41.iter_nil {name : Name} {s : St} (h : s.it = []) : step name s = s := by
  unfold step; rw [h]

/-- C41: the first loop ends if and only if the name does not start with one of the codes. -/
theorem C41_loop_ends (name : Name) : (∃ n, (loop name n).it = []) ↔ ∀ c ∈ codes, ¬ OccursAt name c.1 0 := by
  constructor
  · rintro ⟨n, hn⟩ c hc ho
    obtain ⟨m, s, h1, h2, h3⟩ := C41.stuck name codes [] ⟨c, hc, ho⟩
    rw [C41.loop_iter] at hn
    have e1 : C41.iter name (n + m) ⟨codes, 0, []⟩ = C41.iter name n ⟨codes, 0, []⟩ := by
      rw [C41.iter_add]; exact C41.iter_fix (C41.iter_nil hn) m
    have e2 : C41.iter name (m + n) ⟨codes, 0, []⟩ = s := by
      rw [C41.iter_add, h1]; exact C41.iter_fix h2 n
    rw [Nat.add_comm, e1] at e2
    rw [← e2] at h3
    exact h3 hn
  · intro h
    obtain ⟨n, l, h1, _⟩ := C41.codes_done name codes [] h
    exact ⟨n, by rw [C41.loop_iter, h1]⟩

/-- C41: when it ends, exactly the occurrences of the codes have been found. -/
theorem C41_found (name : Name) (n : Nat) (hn : (loop name n).it = []) (i : Nat) (k : Kind) :
    (i, k) ∈ (loop name n).found ↔ ∃ c ∈ codes, k = c.2 ∧ OccursAt name c.1 i := by
  obtain ⟨m, l, h1, h2⟩ := C41.codes_done name codes [] ((C41_loop_ends name).1 ⟨n, hn⟩)
  rw [C41.loop_iter] at hn ⊢
  have e1 : C41.iter name (n + m) ⟨codes, 0, []⟩ = C41.iter name n ⟨codes, 0, []⟩ := by
    rw [C41.iter_add]; exact C41.iter_fix (C41.iter_nil hn) m
  have e2 : C41.iter name (m + n) ⟨codes, 0, []⟩ = C41.iter name m ⟨codes, 0, []⟩ := by
    rw [C41.iter_add]; exact C41.iter_fix (C41.iter_nil (by rw [h1])) n
  rw [Nat.add_comm, e1] at e2
  rw [e2, h1]
  simpa using h2 (i, k)

/-! ## The whole function -/

/-- Every sequence of digits in the name (from any position) denotes a number below `2^64`. -/
def C41.Small (name : Name) : Prop := ∀ c, (stoul (digitsOf (name.drop c))).isSome

theorem C41.noName_some {name : Name} (h : C41.Small name) (idx : Nat) : ∀ fuel c, ∃ b, noName name idx fuel c = some b := by
  intro fuel
  induction fuel with
  | zero => intro c; exact ⟨_, rfl⟩
  | succ fuel ih =>
    intro c
    unfold noName
    split
    · split
      · exact ⟨_, rfl⟩
      · split
        · have := h c
          cases hs : stoul (digitsOf (name.drop c)) with
          | none => rw [hs] at this; cases this
          | some v =>
            simp only
            split
            · exact ⟨_, rfl⟩
            · exact ih _
        · exact ih _
    · exact ⟨_, rfl⟩

theorem C41.classify_some {name : Name} (h : C41.Small name) : ∀ l, ∃ r, classify name l = some r := by
  intro l
  induction l with
  | nil => exact ⟨_, rfl⟩
  | cons p l ih =>
    obtain ⟨i, k⟩ := p
    obtain ⟨b, hb⟩ := C41.noName_some h i i 0
    unfold classify
    rw [hb]
    cases b with
    | true => exact ⟨_, rfl⟩
    | false => exact ih

/-- The fuel of the inner loop suffices: `idx - c` iterations reach the end. -/
theorem C41_fuel (name : Name) (idx : Nat) : ∀ m fuel c, idx - c ≤ fuel → fuel ≤ m → noName name idx m c = noName name idx fuel c := by
  intro m
  induction m with
  | zero => intro fuel c _ h; rw [Nat.le_zero.1 h]
  | succ m ih =>
    intro fuel c h1 h2
    cases fuel with
    | zero =>
      unfold noName
      rw [if_neg (by omega)]
    | succ fuel =>
      unfold noName
      by_cases hc : c < idx
      · rw [if_pos hc, if_pos hc]
        cases name[c]? with
        | none => rfl
        | some d =>
          simp only
          rw [ih fuel (c + d + 1) (by omega) (by omega), ih fuel (c + 1) (by omega) (by omega)]
      · rw [if_neg hc, if_neg hc]

/-- C41 (partial): the function returns for every name that starts with none of the codes and contains no numbers of `2^64`
or more.  Missing: the other names, for which it does not (`C41_hang_false`, `C41_throw_false`). -/
theorem C41_returns_partial (name : Name) (h0 : ∀ c ∈ codes, ¬ OccursAt name c.1 0) (hs : C41.Small name) : Returns name := by
  obtain ⟨n, hn⟩ := (C41_loop_ends name).2 h0
  obtain ⟨r, hr⟩ := C41.classify_some hs (loop name n).found
  exact ⟨n, r, by rw [run, if_pos hn, hr]⟩

/-- C41: the result does not depend on how many iterations are counted. -/
theorem C41_deterministic (name : Name) (m n : Nat) (r r' : Option Kind) (h1 : run name m = some r) (h2 : run name n = some r') :
    r = r' := by
  unfold run at h1 h2
  by_cases e1 : (loop name m).it = []
  case neg => rw [if_neg e1] at h1; cases h1
  by_cases e2 : (loop name n).it = []
  case neg => rw [if_neg e2] at h2; cases h2
  rw [if_pos e1] at h1
  rw [if_pos e2] at h2
  rw [C41.loop_iter] at *
  have f1 : C41.iter name (m + n) ⟨codes, 0, []⟩ = C41.iter name m ⟨codes, 0, []⟩ := by
    rw [C41.iter_add]; exact C41.iter_fix (C41.iter_nil e1) n
  have f2 : C41.iter name (n + m) ⟨codes, 0, []⟩ = C41.iter name n ⟨codes, 0, []⟩ := by
    rw [C41.iter_add]; exact C41.iter_fix (C41.iter_nil e2) m
  rw [Nat.add_comm, f1] at f2
  rw [f2, h2] at h1
  exact (Option.some.inj h1).symm

theorem C41.not_starts {name : Name} (h : (codes.all fun c => !startsWith c.1 name) = true) : ∀ c ∈ codes, ¬ OccursAt name c.1 0 := by
  intro c hc ho
  have h1 := ((C41.occurs_iff _ _ _).1 ho).2
  have h2 := List.all_eq_true.1 h c hc
  simp only [List.drop_zero] at h1
  rw [h1] at h2
  cases h2

/-- C41: names mangled by the Itanium ABI (they start with `_Z`) never hang. -/
theorem C41_mangled (rest : Name) : ∃ n, (loop (95 :: 90 :: rest) n).it = [] := by
  refine (C41_loop_ends _).2 (C41.not_starts ?_)
  simp [codes, startsWith]

/-- C41 does not hold: the function does not return for the name `C1`. -/
theorem C41_hang_false : ¬ Returns (ascii "C1") := by
  rintro ⟨n, r, hr⟩
  unfold run at hr
  split at hr
  · rename_i h
    refine (C41_loop_ends _).1 ⟨n, h⟩ ([67, 49], .Constructor) (by simp [codes]) ⟨[], [], by decide +kernel, rfl⟩
  · cases hr

/-- ... and throws an exception for a name with a number of `2^64` or more before a code. -/
theorem C41_throw_false : ∃ n, (loop (ascii "f99999999999999999999C1") n).it = [] ∧ run (ascii "f99999999999999999999C1") n = none :=
  ⟨9, by decide +kernel, by decide +kernel⟩

/-- The classification is wrong for methods whose name contains a code: `A::xC1()`, mangled `_ZN1A3xC1Ev`, is taken for a
constructor, because `C = C + *C` skips the 49 characters after the first digit. -/
theorem C41_method_false : run (ascii "_ZN1A3xC1Ev") 9 = some (some .Constructor) ∧
    run (ascii "_Z3xC1v") 9 = some none := by decide +kernel

/-! ## Examples -/

example : run (ascii "_ZN1AC1Ev") 9 = some (some .Constructor) ∧ run (ascii "_ZN1AD2Ev") 9 = some (some .Destructor) ∧
    run (ascii "_ZN1AaSERKS_") 9 = some (some .CopyAssignment) ∧ run (ascii "main") 8 = some none := by decide +kernel

example : (∀ c ∈ codes, ¬ OccursAt (ascii "_ZN1AC1Ev") c.1 0) ∧ C41.Small (ascii "_ZN1AC1Ev") := by
  refine ⟨C41.not_starts (by decide +kernel), fun c => ?_⟩
  by_cases h : c < 10
  · have : ∀ c < 10, (stoul (digitsOf ((ascii "_ZN1AC1Ev").drop c))).isSome := by decide +kernel
    exact this c h
  · rw [List.drop_eq_nil_of_le (by have : (ascii "_ZN1AC1Ev").length = 9 := by decide +kernel
                                   omega)]
    decide

end Phasar.SpecialMember
