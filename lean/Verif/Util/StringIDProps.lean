import Verif.Util.StringID
/-!
# Property C48: `StringIDLess`
-/
namespace Phasar.StringID

theorem C48.val_some {s : Str} {v : Int} (h : strtol s = some v) : strtolVal s = v := by rw [strtolVal, h]
theorem C48.val_none {s : Str} (h : strtol s = none) : strtolVal s = 0 := by rw [strtolVal, h]

/-- What the comparison does: numbers before everything else, numbers by value, and all other strings are equivalent. -/
theorem C48.idLess_eq (b : Bool) (l r : Str) (hb : b = true → l = r) : idLess b l r = (match strtol l, strtol r with
    | some x, some y => decide (x < y)
    | some _, none => true
    | none, _ => false) := by
  unfold idLess
  cases hl : strtol l with
  | some x =>
    cases hr : strtol r with
    | some y => simp [C48.val_some hl, C48.val_some hr]
    | none => simp
  | none =>
    cases hr : strtol r with
    | some y => simp
    | none =>
      cases b with
      | false => simp [C48.val_none hl, C48.val_none hr]
      | true =>
        rw [hb rfl]
        simp
        generalize r = r
        induction r with
        | nil => rfl
        | cons c cs ih => simp [strLess, ih]

/-- C48: comparing an object with itself gives the same as comparing two equal strings. -/
theorem C48_same_object (s : Str) : idLess true s s = idLess false s s := by
  rw [C48.idLess_eq true s s (fun _ => rfl), C48.idLess_eq false s s (by simp)]

theorem C48.less_eq (l r : Str) : idLess false l r = (match strtol l, strtol r with
    | some x, some y => decide (x < y)
    | some _, none => true
    | none, _ => false) := C48.idLess_eq false l r (by simp)

/-- C48: `StringIDLess` is a strict weak order. -/
theorem C48_strict_weak_order : StrictWeakOrder (idLess false) := by
  constructor
  · intro a
    rw [C48.less_eq]
    cases strtol a <;> simp
  · intro a b c
    simp only [C48.less_eq]
    cases strtol a <;> cases strtol b <;> cases strtol c <;> simp <;> omega
  · intro a b c
    simp only [C48.less_eq]
    cases strtol a <;> cases strtol b <;> cases strtol c <;> simp <;> omega

/-- C48: numbers come before all other strings. -/
theorem C48_numbers_first (l r : Str) (v : Int) (hl : strtol l = some v) (hr : strtol r = none) :
    idLess false l r = true ∧ idLess false r l = false := by
  rw [C48.less_eq, C48.less_eq, hl, hr]; exact ⟨rfl, rfl⟩

/-- C48: numbers are ordered by value. -/
theorem C48_by_value (l r : Str) (x y : Int) (hl : strtol l = some x) (hr : strtol r = some y) :
    idLess false l r = true ↔ x < y := by
  rw [C48.less_eq, hl, hr]; exact decide_eq_true_iff

/-! ### What `strtol` computes for the ids that are used -/

/-- The decimal digits of `n`, most significant first. -/
def C48.decimal (n : Nat) : Str := if h : n < 10 then [48 + n] else C48.decimal (n / 10) ++ [48 + n % 10]
termination_by n
decreasing_by omega

theorem C48.value_cons (a c : Nat) (cs : Str) : value a (c :: cs) = value (a * 10 + (c - 48)) cs := List.foldl_cons ..
theorem C48.value_nil (a : Nat) : value a [] = a := List.foldl_nil ..

theorem C48.value_append (ds : Str) (a c : Nat) : value a (ds ++ [c]) = value a ds * 10 + (c - 48) := by
  induction ds generalizing a with
  | nil => rw [List.nil_append, C48.value_cons, C48.value_nil, C48.value_nil]
  | cons d ds ih => rw [List.cons_append, C48.value_cons, C48.value_cons, ih]

theorem C48.value_decimal (n : Nat) : value 0 (C48.decimal n) = n := by
  induction n using Nat.strongRecOn with
  | _ n ih =>
    rw [C48.decimal]
    split
    · rw [C48.value_cons, C48.value_nil]; omega
    · rw [C48.value_append, ih (n / 10) (by omega)]
      omega

theorem C48.decimal_digit (n : Nat) : ∀ c ∈ C48.decimal n, isDigit c = true := by
  induction n using Nat.strongRecOn with
  | _ n ih =>
    intro c hc
    rw [C48.decimal] at hc
    split at hc
    · simp only [List.mem_singleton] at hc
      subst hc
      simp [isDigit]; omega
    · rcases List.mem_append.1 hc with h | h
      · exact ih _ (by omega) c h
      · simp only [List.mem_singleton] at h
        subst h
        simp [isDigit]; omega

theorem C48.decimal_ne_nil (n : Nat) : C48.decimal n ≠ [] := by
  rw [C48.decimal]; split <;> simp

theorem C48.digits_append (ds : Str) (h : ∀ c ∈ ds, isDigit c = true) (rest : Str) : digits (ds ++ rest) = ds ++ digits rest := by
  induction ds with
  | nil => rfl
  | cons d ds ih =>
    simp only [List.cons_append, digits, h d (by simp), if_true]
    rw [ih fun c hc => h c (by simp [hc])]

theorem C48.strtol_decimal (n : Nat) (rest : Str) (hr : ∀ c cs, rest = c :: cs → isDigit c = false) :
    strtol (C48.decimal n ++ rest) = some (clamp n) := by
  have hrest : digits rest = [] := by
    cases rest with
    | nil => rfl
    | cons c cs => simp [digits, hr c cs rfl]
  have hd : digits (C48.decimal n ++ rest) = C48.decimal n := by
    rw [C48.digits_append _ (C48.decimal_digit n), hrest, List.append_nil]
  have hv := C48.value_decimal n
  have hdig := C48.decimal_digit n
  cases hdec : C48.decimal n with
  | nil => exact absurd hdec (C48.decimal_ne_nil n)
  | cons d ds =>
    rw [hdec] at hd hdig hv
    have h1 : isDigit d = true := hdig d (by simp)
    have h2 : skipSpace (d :: ds ++ rest) = d :: ds ++ rest := by
      simp only [isDigit, Bool.and_eq_true, decide_eq_true_eq] at h1
      simp [skipSpace, isSpace]
      omega
    have h3 : sign (d :: ds ++ rest) = (false, d :: ds ++ rest) := by
      simp only [isDigit, Bool.and_eq_true, decide_eq_true_eq] at h1
      unfold sign
      split
      · rename_i e; injection e with e; omega
      · rename_i e; injection e with e; omega
      · rfl
    unfold strtol
    simp only [h2, h3, hd, hv, Bool.false_eq_true, if_false]

/-- C48: the id of a statement, a decimal number (followed by anything that is not a digit), is converted to that number. -/
theorem C48_strtol_number (n : Nat) (hn : n ≤ 9223372036854775807) (rest : Str) (hr : ∀ c cs, rest = c :: cs → isDigit c = false) :
    strtol (C48.decimal n ++ rest) = some (n : Int) := by
  rw [C48.strtol_decimal n rest hr]
  unfold clamp
  rw [if_neg (by omega), if_neg (by omega)]

/-- C48: numbers beyond the range of `long` are converted to its greatest value: all of them are equivalent, and they come
after all the others. -/
theorem C48_saturates (n : Nat) (hn : 9223372036854775807 ≤ n) (rest : Str) (hr : ∀ c cs, rest = c :: cs → isDigit c = false) :
    strtol (C48.decimal n ++ rest) = some 9223372036854775807 := by
  rw [C48.strtol_decimal n rest hr]
  unfold clamp
  rw [if_neg (by omega)]
  split
  · rfl
  · congr 1; omega

/-- C48: a string that starts with neither white space, nor a sign, nor a digit is no number: all names of functions. -/
theorem C48_strtol_name (c : Nat) (cs : Str) (h1 : isSpace c = false) (h2 : isDigit c = false) (h3 : c ≠ 43) (h4 : c ≠ 45) :
    strtol (c :: cs) = none := by
  have e1 : skipSpace (c :: cs) = c :: cs := by simp [skipSpace, h1]
  have e2 : sign (c :: cs) = (false, c :: cs) := by
    unfold sign
    split
    · rename_i e; injection e with e; exact absurd e h4
    · rename_i e; injection e with e; exact absurd e h3
    · rfl
  unfold strtol
  simp only [e1, e2, digits, h2, Bool.false_eq_true, if_false]

/-- C48 (partial): two different ids of statements are never equivalent.  Missing: ids that are not numbers
(`C48_names_false`) or numbers with something attached (`C48_suffix_false`). -/
theorem C48_distinct_partial (m n : Nat) (hm : m ≤ 9223372036854775807) (hn : n ≤ 9223372036854775807) (h : m ≠ n) :
    idLess false (C48.decimal m) (C48.decimal n) = true ∨ idLess false (C48.decimal n) (C48.decimal m) = true := by
  have e1 := C48_strtol_number m hm [] (by simp)
  have e2 := C48_strtol_number n hn [] (by simp)
  rw [List.append_nil] at e1 e2
  rw [C48_by_value _ _ _ _ e1 e2, C48_by_value _ _ _ _ e2 e1]
  omega

/-- C48 does not hold: different numbers beyond the range of `long` are equivalent. -/
theorem C48_overflow_false (m n : Nat) (hm : 9223372036854775807 ≤ m) (hn : 9223372036854775807 ≤ n) :
    idLess false (C48.decimal m) (C48.decimal n) = false := by
  have e1 := C48_saturates m hm [] (by simp)
  have e2 := C48_saturates n hn [] (by simp)
  rw [List.append_nil] at e1 e2
  rw [C48.less_eq, e1, e2]
  rfl

/-- C48 instance: the hypotheses of `C48_saturates` and `C48_overflow_false` are met by these two ids. -/
example : strtol (ascii "99999999999999999999") = some 9223372036854775807 ∧
    idLess false (ascii "99999999999999999999") (ascii "99999999999999999998") = false ∧
    C48.decimal 99999999999999999999 = ascii "99999999999999999999" := by
  refine ⟨by decide +kernel, by decide +kernel, by simp [C48.decimal]; decide⟩

/-- C48 does not hold: any two ids that are not numbers are equivalent, whatever they are. -/
theorem C48_nonnumeric (l r : Str) (hl : strtol l = none) (hr : strtol r = none) :
    idLess false l r = false ∧ idLess false r l = false := by
  rw [C48.less_eq, C48.less_eq, hl, hr]; exact ⟨rfl, rfl⟩

/-- ... for instance the ids of two arguments of a function, which `getMetaDataID` (`LLVMShorthands.cpp:246-273`) returns;
lexicographically they differ. -/
theorem C48_names_false : idLess false (ascii "main.0") (ascii "main.1") = false ∧
    idLess false (ascii "main.1") (ascii "main.0") = false ∧ strLess (ascii "main.0") (ascii "main.1") = true := by
  decide +kernel

/-- Numbers with different suffixes are equivalent as well. -/
theorem C48_suffix_false : idLess false (ascii "12") (ascii "12.1") = false ∧ idLess false (ascii "12.1") (ascii "12") = false := by
  decide +kernel

/-! ### Nodes and edges of the exported graph -/

/-- C48: the order of the graph's nodes is a strict weak order. -/
theorem C48_node_order : StrictWeakOrder nodeLess := by
  have hs := C48_strict_weak_order
  have heq : ∀ l r : DOTNode, nodeLess l r = if l.factId = r.factId then idLess false l.stmtId r.stmtId else decide (l.factId < r.factId) := by
    intro l r
    unfold nodeLess
    by_cases h : l.factId = r.factId
    · rw [if_pos h]
      split
      · rfl
      · rfl
    · rw [if_neg (by omega), if_neg h]
  constructor
  · intro a; rw [heq, if_pos rfl]; exact hs.irrefl _
  · intro a b c h1 h2
    rw [heq] at h1 h2 ⊢
    split at h1 <;> split at h2
    · rename_i e1 e2
      rw [if_pos (e1.trans e2)]
      exact hs.trans _ _ _ h1 h2
    · rename_i e1 e2
      simp only [decide_eq_true_eq] at h2
      rw [if_neg (by omega)]; simp only [decide_eq_true_eq]; omega
    · rename_i e1 e2
      simp only [decide_eq_true_eq] at h1
      rw [if_neg (by omega)]; simp only [decide_eq_true_eq]; omega
    · simp only [decide_eq_true_eq] at h1 h2
      rw [if_neg (by omega)]; simp only [decide_eq_true_eq]; omega
  · intro a b c h1 h2 h3 h4
    rw [heq] at h1 h2 h3 h4
    have e1 : a.factId = b.factId := by
      by_cases e : a.factId = b.factId
      · exact e
      · rw [if_neg e] at h1
        rw [if_neg (fun x => e x.symm)] at h2
        simp only [decide_eq_false_iff_not] at h1 h2
        omega
    have e2 : b.factId = c.factId := by
      by_cases e : b.factId = c.factId
      · exact e
      · rw [if_neg e] at h3
        rw [if_neg (fun x => e x.symm)] at h4
        simp only [decide_eq_false_iff_not] at h3 h4
        omega
    rw [if_pos e1] at h1
    rw [if_pos e1.symm] at h2
    rw [if_pos e2] at h3
    rw [if_pos e2.symm] at h4
    rw [heq, heq, if_pos (e1.trans e2), if_pos (e1.trans e2).symm]
    exact hs.incomp _ _ _ h1 h2 h3 h4

theorem C48.eq_iff (a b : DOTNode) : nodeEq a b = true ↔ nodeLess a b = false ∧ nodeLess b a = false := by
  simp [nodeEq]

/-- C48: the order of the graph's edges is a strict weak order. -/
theorem C48_edge_order : StrictWeakOrder edgeLess := by
  have hs := C48_node_order
  -- a node may be exchanged for an equivalent one
  have hlt : ∀ a b c, nodeEq a b = true → nodeLess b c = true → nodeLess a c = true := by
    intro a b c h1 h2
    rw [C48.eq_iff] at h1
    cases h3 : nodeLess a c with
    | true => rfl
    | false =>
      cases h4 : nodeLess c a with
      | true => rw [hs.trans b c a h2 h4] at h1; cases h1.2
      | false =>
        have := hs.incomp b a c h1.2 h1.1 h3 h4
        rw [h2] at this; cases this.1
  have hgt : ∀ a b c, nodeLess a b = true → nodeEq b c = true → nodeLess a c = true := by
    intro a b c h1 h2
    rw [C48.eq_iff] at h2
    cases h3 : nodeLess a c with
    | true => rfl
    | false =>
      cases h4 : nodeLess c a with
      | true => rw [hs.trans c a b h4 h1] at h2; cases h2.2
      | false =>
        have := hs.incomp a c b h3 h4 h2.2 h2.1
        rw [h1] at this; cases this.1
  have hsymm : ∀ a b, nodeEq a b = true → nodeEq b a = true := by
    intro a b; rw [C48.eq_iff, C48.eq_iff]; exact fun h => ⟨h.2, h.1⟩
  have htr : ∀ a b c, nodeEq a b = true → nodeEq b c = true → nodeEq a c = true := by
    intro a b c h1 h2
    rw [C48.eq_iff] at *
    exact hs.incomp a b c h1.1 h1.2 h2.1 h2.2
  have hne : ∀ a b, nodeLess a b = true → nodeEq a b ≠ true := by
    intro a b h; rw [Ne, C48.eq_iff, h]; simp
  constructor
  · intro a
    unfold edgeLess
    split <;> exact hs.irrefl _
  · intro a b c h1 h2
    unfold edgeLess at *
    by_cases e1 : nodeEq a.1 b.1 = true
    · rw [if_pos e1] at h1
      by_cases e2 : nodeEq b.1 c.1 = true
      · rw [if_pos e2] at h2
        rw [if_pos (htr _ _ _ e1 e2)]
        exact hs.trans _ _ _ h1 h2
      · rw [if_neg e2] at h2
        rw [if_neg (fun e => e2 (htr _ _ _ (hsymm _ _ e1) e))]
        exact hlt _ _ _ e1 h2
    · rw [if_neg e1] at h1
      by_cases e2 : nodeEq b.1 c.1 = true
      · rw [if_neg (fun e => e1 (htr _ _ _ e (hsymm _ _ e2)))]
        exact hgt _ _ _ h1 e2
      · rw [if_neg e2] at h2
        have := hs.trans _ _ _ h1 h2
        rw [if_neg (hne _ _ this)]
        exact this
  · intro a b c h1 h2 h3 h4
    unfold edgeLess at *
    have key : ∀ x y : DOTNode × DOTNode, (if nodeEq x.1 y.1 = true then nodeLess x.2 y.2 else nodeLess x.1 y.1) = false →
        (if nodeEq y.1 x.1 = true then nodeLess y.2 x.2 else nodeLess y.1 x.1) = false →
        nodeEq x.1 y.1 = true ∧ nodeEq x.2 y.2 = true := by
      intro x y k1 k2
      by_cases e : nodeEq x.1 y.1 = true
      · rw [if_pos e] at k1
        rw [if_pos (hsymm _ _ e)] at k2
        exact ⟨e, (C48.eq_iff _ _).2 ⟨k1, k2⟩⟩
      · rw [if_neg e] at k1
        rw [if_neg (fun e' => e (hsymm _ _ e'))] at k2
        exact absurd ((C48.eq_iff _ _).2 ⟨k1, k2⟩) e
    obtain ⟨p1, p2⟩ := key a b h1 h2
    obtain ⟨q1, q2⟩ := key b c h3 h4
    have r1 := htr _ _ _ p1 q1
    have r2 := htr _ _ _ p2 q2
    rw [if_pos r1, if_pos (hsymm _ _ r1)]
    exact (C48.eq_iff _ _).1 r2

/-! ### Examples -/

example : strtol (ascii "42") = some 42 ∧ strtol (ascii " -7x") = some (-7) ∧ strtol (ascii "x7") = none ∧ strtol (ascii "+") = none := by
  decide +kernel

example : idLess false (ascii "9") (ascii "10") = true ∧ idLess false (ascii "10") (ascii "main.0") = true := by decide +kernel

example : C48.decimal 120 = ascii "120" := by
  simp [C48.decimal]; decide +kernel

example : edgeLess (⟨ascii "3", 1⟩, ⟨ascii "4", 1⟩) (⟨ascii "3", 1⟩, ⟨ascii "10", 1⟩) = true := by decide +kernel

end Phasar.StringID
