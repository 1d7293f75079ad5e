import Verif.Analysis.LCA
/-!
# Properties C35 and C36: the linear constant analysis
-/
namespace Phasar.LCA
open JoinLat

/-! ## C35: folding -/

theorem C35.ofInt_sub (a b : BitVec 64) : BitVec.ofInt 64 (a.toInt - b.toInt) = a - b := by
  apply BitVec.eq_of_toInt_eq
  rw [BitVec.toInt_ofInt, BitVec.toInt_sub]

theorem C35.setWidth_signExtend {w : Nat} (hw : w ≤ 64) (x : BitVec w) : (x.signExtend 64).setWidth w = x := by
  apply BitVec.eq_of_getLsbD_eq
  intro i hi
  rw [BitVec.getLsbD_setWidth, BitVec.getLsbD_signExtend]
  simp [hi, show i < 64 by omega]

theorem C35.setWidth_ofInt {w : Nat} (hw : w ≤ 64) (s : Int) : (BitVec.ofInt 64 s).setWidth w = BitVec.ofInt w s := by
  apply BitVec.eq_of_toNat_eq
  rw [BitVec.toNat_setWidth, BitVec.toNat_ofInt, BitVec.toNat_ofInt]
  have h1 : ((2 ^ w : Nat) : Int) ∣ ((2 ^ 64 : Nat) : Int) := Int.natCast_dvd_natCast.2 (Nat.pow_dvd_pow 2 hw)
  have h2 := Int.emod_emod_of_dvd s h1
  have h3 : 0 ≤ s % ((2 ^ 64 : Nat) : Int) := Int.emod_nonneg _ (by decide)
  have h4 : 0 ≤ s % ((2 ^ w : Nat) : Int) := Int.emod_nonneg _ (by have := Nat.two_pow_pos w; omega)
  apply Int.ofNat_inj.1
  rw [Int.toNat_of_nonneg h4, ← h2, Int.natCast_emod, Int.toNat_of_nonneg h3]

theorem C35.checked_val {s : Int} {r : BitVec 64} (h : checked s = .val r) : r = BitVec.ofInt 64 s := by
  unfold checked at h
  split at h
  · cases h
  · cases h; rfl

/-- The operations that treat operands as unsigned although the analysis computes with signed ones. -/
def C35.Unsigned : Op → Prop
  | .udiv | .urem => True
  | _ => False

/-- C35 (partial): fold a binary instruction on `w`-bit constants (which the analysis represents by their sign extension).
If the analysis computes the constant `r` and the instruction computes `z`, then `z` consists of the low `w` bits of `r`,
and `r = z` as signed numbers whenever `r` is a `w`-bit number.  For `udiv` and `urem` the operands have to be
non-negative. Missing: `r` need not be a `w`-bit number (`C35_width_false`), unsigned division of negative operands
(`C35_unsigned_false`). -/
theorem C35_fold_partial {w : Nat} (hw0 : 0 < w) (hw : w ≤ 64) (op : Op) (x y z : BitVec w) (r : BitVec 64)
    (hu : C35.Unsigned op → x.msb = false ∧ y.msb = false)
    (hf : foldConst op (x.signExtend 64) (y.signExtend 64) = some (.val r)) (hl : llvm op x y = some z) :
    r.setWidth w = z ∧ (-2 ^ (w - 1) ≤ r.toInt → r.toInt < 2 ^ (w - 1) → r.toInt = z.toInt) := by
  have key : r.setWidth w = z := by
    cases op <;> simp only [foldConst, llvm, Option.some.injEq] at hf hl
    · rw [C35.checked_val hf, C35.setWidth_ofInt hw, BitVec.toInt_signExtend_of_le hw, BitVec.toInt_signExtend_of_le hw,
        BitVec.ofInt_add, BitVec.ofInt_toInt, BitVec.ofInt_toInt, hl]
    · rw [C35.checked_val hf, C35.setWidth_ofInt hw, BitVec.toInt_signExtend_of_le hw, BitVec.toInt_signExtend_of_le hw, ← hl]
      apply BitVec.eq_of_toInt_eq
      rw [BitVec.toInt_ofInt, BitVec.toInt_sub]
    · rw [C35.checked_val hf, C35.setWidth_ofInt hw, BitVec.toInt_signExtend_of_le hw, BitVec.toInt_signExtend_of_le hw,
        BitVec.ofInt_mul, BitVec.ofInt_toInt, BitVec.ofInt_toInt, hl]
    · split at hl
      · cases hl
      · injection hl with hl
        split at hf
        · cases hf
        · split at hf
          · cases hf
          · simp only [Option.some.injEq, LatticeDomain.val.injEq] at hf
            obtain ⟨hx, hy⟩ := hu trivial
            rw [← hf, C35.setWidth_ofInt hw, BitVec.toInt_signExtend_of_le hw, BitVec.toInt_signExtend_of_le hw, ← hl]
            have h1 := BitVec.toInt_udiv_of_msb hx y
            have h2 : x.toInt = x.toNat := BitVec.toInt_eq_toNat_of_msb hx
            have h3 : y.toInt = y.toNat := BitVec.toInt_eq_toNat_of_msb hy
            rw [h2, h3, Int.tdiv_eq_ediv_of_nonneg (by omega), ← h1, BitVec.ofInt_toInt]
    · split at hl
      · cases hl
      · rename_i hz
        injection hl with hl
        split at hf
        · cases hf
        · split at hf
          · cases hf
          · simp only [Option.some.injEq, LatticeDomain.val.injEq] at hf
            rw [← hf, C35.setWidth_ofInt hw, BitVec.toInt_signExtend_of_le hw, BitVec.toInt_signExtend_of_le hw, ← hl,
              ← BitVec.toInt_sdiv_of_ne_or_ne, BitVec.ofInt_toInt]
            by_cases hx : x = BitVec.intMin w
            · exact Or.inr (fun hy => hz (Or.inr ⟨hx, hy⟩))
            · exact Or.inl hx
    · split at hl
      · cases hl
      · injection hl with hl
        split at hf
        · cases hf
        · split at hf
          · cases hf
          · simp only [Option.some.injEq, LatticeDomain.val.injEq] at hf
            obtain ⟨hx, hy⟩ := hu trivial
            rw [← hf, C35.setWidth_ofInt hw, BitVec.toInt_signExtend_of_le hw, BitVec.toInt_signExtend_of_le hw, ← hl]
            have h1 := BitVec.toInt_umod_of_msb (y := y) hx
            have h2 : x.toInt = x.toNat := BitVec.toInt_eq_toNat_of_msb hx
            have h3 : y.toInt = y.toNat := BitVec.toInt_eq_toNat_of_msb hy
            rw [h3, Int.tmod_eq_emod_of_nonneg (by omega), ← h1, BitVec.ofInt_toInt]
    · split at hl
      · cases hl
      · injection hl with hl
        split at hf
        · cases hf
        · split at hf
          · cases hf
          · simp only [Option.some.injEq, LatticeDomain.val.injEq] at hf
            rw [← hf, C35.setWidth_ofInt hw, BitVec.toInt_signExtend_of_le hw, BitVec.toInt_signExtend_of_le hw, ← hl,
              ← BitVec.toInt_srem, BitVec.ofInt_toInt]
    · simp only [LatticeDomain.val.injEq] at hf
      rw [← hf, ← BitVec.signExtend_and, C35.setWidth_signExtend hw, hl]
    · simp only [LatticeDomain.val.injEq] at hf
      rw [← hf, ← BitVec.signExtend_or, C35.setWidth_signExtend hw, hl]
    · simp only [LatticeDomain.val.injEq] at hf
      rw [← hf, ← BitVec.signExtend_xor, C35.setWidth_signExtend hw, hl]
    · cases hl
  refine ⟨key, fun h1 h2 => ?_⟩
  have hr : r = BitVec.ofInt 64 r.toInt := BitVec.ofInt_toInt.symm
  rw [← key]
  conv => rhs; rw [hr]
  rw [C35.setWidth_ofInt hw, BitVec.toInt_ofInt_eq_self hw0 h1 h2]

/-- C35 for 64-bit instructions: apart from unsigned division of negative operands, the folded constant is what the
instruction computes. -/
theorem C35_fold_64_partial (op : Op) (x y z r : BitVec 64) (hu : C35.Unsigned op → x.msb = false ∧ y.msb = false)
    (hf : foldConst op x y = some (.val r)) (hl : llvm op x y = some z) : r = z := by
  have := (C35_fold_partial (w := 64) (by decide) (Nat.le_refl _) op x y z r hu (by simpa using hf) hl).1
  simpa using this

/-- The mathematical result of an operation on integers; division truncates, and there is none by zero. -/
def C35.exact : Op → Int → Int → Option Int
  | .add, x, y => some (x + y)
  | .sub, x, y => some (x - y)
  | .mul, x, y => some (x * y)
  | .udiv, x, y | .sdiv, x, y => if y = 0 then none else some (x.tdiv y)
  | .urem, x, y | .srem, x, y => if y = 0 then none else some (x.tmod y)
  | _, _, _ => none

/-- C35: for all operations but the bitwise ones, the result is the mathematical result if there is one and it fits into 64
bits, and bottom otherwise. -/
theorem C35_exact (op : Op) (hop : op ≠ .and ∧ op ≠ .or ∧ op ≠ .xor) (a b : BitVec 64) (v : V) (hf : foldConst op a b = some v) :
    match C35.exact op a.toInt b.toInt with
    | some e => if -2 ^ 63 ≤ e ∧ e < 2 ^ 63 then ∃ r, v = .val r ∧ r.toInt = e else v = .bottom
    | none => v = .bottom := by
  have ht : ∀ e : Int, -2 ^ 63 ≤ e → e < 2 ^ 63 → (BitVec.ofInt 64 e).toInt = e := by
    intro e h1 h2
    rw [BitVec.toInt_ofInt]
    exact Int.bmod_eq_of_le (by omega) (by omega)
  have hchk : ∀ e : Int, if -2 ^ 63 ≤ e ∧ e < 2 ^ 63 then ∃ r, checked e = .val r ∧ r.toInt = e else checked e = .bottom := by
    intro e
    unfold checked
    split
    · rename_i h
      rw [if_neg (by omega)]
      exact ⟨_, rfl, ht e h.1 h.2⟩
    · rename_i h
      rw [if_pos (by omega)]
  have hb : b.toInt = 0 ↔ b = 0#64 := by
    constructor
    · intro h; exact BitVec.eq_of_toInt_eq (by simpa using h)
    · rintro rfl; rfl
  have hrange : ∀ x : BitVec 64, -2 ^ 63 ≤ x.toInt ∧ x.toInt < 2 ^ 63 := fun x => ⟨BitVec.le_toInt x, BitVec.toInt_lt⟩
  have hdiv : ∀ v : V, (if a = BitVec.intMin 64 ∧ b = -1#64 then some .bottom else if b = 0#64 then some .bottom
      else some (.val (BitVec.ofInt 64 (a.toInt.tdiv b.toInt)))) = some v →
      match (if b.toInt = 0 then none else some (a.toInt.tdiv b.toInt)) with
      | some e => if -2 ^ 63 ≤ e ∧ e < 2 ^ 63 then ∃ r, v = .val r ∧ r.toInt = e else v = .bottom
      | none => v = .bottom := by
    intro v hf
    by_cases h1 : a = BitVec.intMin 64 ∧ b = -1#64
    · rw [if_pos h1] at hf
      cases hf
      obtain ⟨rfl, rfl⟩ := h1
      rw [if_neg (by decide)]
      simp only [if_neg (show ¬ (-2 ^ 63 ≤ (BitVec.intMin 64).toInt.tdiv (-1#64).toInt ∧
        (BitVec.intMin 64).toInt.tdiv (-1#64).toInt < 2 ^ 63) by decide)]
    · rw [if_neg h1] at hf
      by_cases h2 : b = 0#64
      · rw [if_pos h2] at hf
        cases hf
        rw [if_pos (hb.2 h2)]
      · rw [if_neg h2] at hf
        cases hf
        rw [if_neg (fun h => h2 (hb.1 h))]
        have he : (a.sdiv b).toInt = a.toInt.tdiv b.toInt := by
          refine BitVec.toInt_sdiv_of_ne_or_ne a b ?_
          by_cases h3 : a = BitVec.intMin 64
          · exact .inr fun h4 => h1 ⟨h3, h4⟩
          · exact .inl h3
        have hr := hrange (a.sdiv b)
        rw [he] at hr
        simp only [if_pos hr]
        exact ⟨_, rfl, ht _ hr.1 hr.2⟩
  have hrem : ∀ v : V, (if b = 0#64 then some .bottom else if a = BitVec.intMin 64 ∧ b = -1#64 then none
      else some (.val (BitVec.ofInt 64 (a.toInt.tmod b.toInt)))) = some v →
      match (if b.toInt = 0 then none else some (a.toInt.tmod b.toInt)) with
      | some e => if -2 ^ 63 ≤ e ∧ e < 2 ^ 63 then ∃ r, v = .val r ∧ r.toInt = e else v = .bottom
      | none => v = .bottom := by
    intro v hf
    by_cases h2 : b = 0#64
    · rw [if_pos h2] at hf
      cases hf
      rw [if_pos (hb.2 h2)]
    · rw [if_neg h2] at hf
      by_cases h1 : a = BitVec.intMin 64 ∧ b = -1#64
      · rw [if_pos h1] at hf; cases hf
      · rw [if_neg h1] at hf
        cases hf
        rw [if_neg (fun h => h2 (hb.1 h))]
        have he : (a.srem b).toInt = a.toInt.tmod b.toInt := BitVec.toInt_srem a b
        have hr := hrange (a.srem b)
        rw [he] at hr
        simp only [if_pos hr]
        exact ⟨_, rfl, ht _ hr.1 hr.2⟩
  cases op with
  | add => cases hf; exact hchk _
  | sub => cases hf; exact hchk _
  | mul => cases hf; exact hchk _
  | udiv => exact hdiv v hf
  | sdiv => exact hdiv v hf
  | urem => exact hrem v hf
  | srem => exact hrem v hf
  | and => exact absurd rfl hop.1
  | or => exact absurd rfl hop.2.1
  | xor => exact absurd rfl hop.2.2
  | other => cases hf; rfl

example : ∃ r, (.val 6#64 : V) = .val r ∧ r.toInt = 6 :=
  C35_exact .mul (by decide) 2#64 3#64 (.val 6#64) (by decide)
example : (LatticeDomain.bottom : V) = .bottom :=
  C35_exact .sdiv (by decide) (BitVec.intMin 64) (-1#64) .bottom (by decide)

/-- C35: the bitwise operations are exact for every width. -/
theorem C35_bitwise {w : Nat} (op : Op) (hop : op = .and ∨ op = .or ∨ op = .xor) (x y : BitVec w) :
    ∃ z, llvm op x y = some z ∧ foldConst op (x.signExtend 64) (y.signExtend 64) = some (.val (z.signExtend 64)) := by
  rcases hop with rfl | rfl | rfl
  · exact ⟨x &&& y, rfl, by simp only [foldConst, BitVec.signExtend_and]⟩
  · exact ⟨x ||| y, rfl, by simp only [foldConst, BitVec.signExtend_or]⟩
  · exact ⟨x ^^^ y, rfl, by simp only [foldConst, BitVec.signExtend_xor]⟩

/-- C35: constants that are no longer `w`-bit numbers stay right modulo `2^w` under addition, subtraction, multiplication
and the bitwise operations, so chains of these are right in the low bits. -/
theorem C35_chain {w : Nat} (hw : w ≤ 64) (op : Op) (hop : op = .add ∨ op = .sub ∨ op = .mul ∨ op = .and ∨ op = .or ∨ op = .xor)
    (a b r : BitVec 64) (hf : foldConst op a b = some (.val r)) : llvm op (a.setWidth w) (b.setWidth w) = some (r.setWidth w) := by
  rcases hop with rfl | rfl | rfl | rfl | rfl | rfl <;> simp only [foldConst, llvm, Option.some.injEq] at hf ⊢
  · rw [C35.checked_val hf, BitVec.ofInt_add, BitVec.ofInt_toInt, BitVec.ofInt_toInt, BitVec.setWidth_add _ _ hw]
  · rw [C35.checked_val hf, C35.ofInt_sub, BitVec.sub_eq_add_neg, BitVec.sub_eq_add_neg, BitVec.setWidth_add _ _ hw,
      BitVec.setWidth_neg_of_le hw]
  · rw [C35.checked_val hf, BitVec.ofInt_mul, BitVec.ofInt_toInt, BitVec.ofInt_toInt, BitVec.setWidth_mul _ _ hw]
  · cases hf; rw [BitVec.setWidth_and]
  · cases hf; rw [BitVec.setWidth_or]
  · cases hf; rw [BitVec.setWidth_xor]

/-- C35: folding has undefined behaviour exactly for the remainder of the smallest number by -1. -/
theorem C35_undefined (op : Op) (a b : BitVec 64) :
    foldConst op a b = none ↔ (op = .srem ∨ op = .urem) ∧ a = BitVec.intMin 64 ∧ b = -1#64 := by
  have hz : (-1#64 : BitVec 64) ≠ 0#64 := by decide
  cases op <;> simp only [foldConst] <;> (repeat' split) <;> simp_all

/-- So "folding never triggers undefined behaviour" is false: `srem i64 INT64_MIN, -1` (undefined in LLVM as well, but
possible in code that is not executed) and `urem i64 9223372036854775808, 18446744073709551615`, which is defined. -/
theorem C35_undefined_false : foldConst .srem (BitVec.intMin 64) (-1#64) = none ∧
    foldConst .urem (BitVec.intMin 64) (-1#64) = none ∧ llvm .urem (BitVec.intMin 64) (-1#64) = some (BitVec.intMin 64) := by
  decide

/-- The result is not reduced to the width of the instruction: `add i8 127, 1` is folded to 128, but computes -128.  A
division then goes wrong also in the low bits: `sdiv i8 (add i8 127, 1), 2` is folded to 64, but computes -64. -/
theorem C35_width_false : foldConst .add ((127#8).signExtend 64) ((1#8).signExtend 64) = some (.val 128#64) ∧
    llvm .add 127#8 1#8 = some (128#8) ∧ (128#8).toInt = -128 ∧ (128#64).toInt = 128 ∧
    foldConst .sdiv 128#64 2#64 = some (.val 64#64) ∧ llvm .sdiv 128#8 2#8 = some (192#8) ∧ (192#8).toInt = -64 := by decide

/-- `udiv i32 4294967294, 2` is folded to -1, but computes 2147483647; `urem i32 4294967295, 2` is folded to -1, but
computes 1. -/
theorem C35_unsigned_false :
    foldConst .udiv ((4294967294#32).signExtend 64) ((2#32).signExtend 64) = some (.val (-1#64)) ∧
    llvm .udiv 4294967294#32 2#32 = some 2147483647#32 ∧
    foldConst .urem ((4294967295#32).signExtend 64) ((2#32).signExtend 64) = some (.val (-1#64)) ∧
    llvm .urem 4294967295#32 2#32 = some 1#32 := by decide

example : (7#32).setWidth 32 = 7#32 ∧ (-2 ^ (32 - 1) ≤ (7#64).toInt → (7#64).toInt < 2 ^ (32 - 1) → (7#64).toInt = (7#32).toInt) :=
  C35_fold_partial (by decide) (by decide) .sdiv (-21#32) (-3#32) 7#32 7#64 (fun h => h.elim) (by decide) (by decide)

/-! ## C36: edge functions -/

/-- The `BinOp`s that occur: both operands constant on the edge from the zero fact, or one operand constant and the other one
the source fact, which is not a constant itself. -/
def BinOp.WF (b : BinOp) : Prop :=
  b.curr.constInt? = none ∧
    ((b.curr = .zero ∧ b.lop.constInt?.isSome ∧ b.rop.constInt?.isSome) ∨ (b.lop = b.curr ∧ b.rop.constInt?.isSome) ∨
      (b.rop = b.curr ∧ b.lop.constInt?.isSome))

/-- C36: the edge function the analysis chooses for a binary operator and a fact from which it generates the operator is
such a `BinOp` or `AllBottom`, provided facts are not constants. -/
theorem C36_created (op : Op) (lop rop curr : Val) (hc : curr.constInt? = none) (hg : generates lop rop curr = true) :
    binEdge op lop rop curr = .allBottom ∨ (∃ b, binEdge op lop rop curr = .bin b ∧ b.WF) := by
  unfold binEdge
  split
  · exact Or.inl rfl
  · rename_i h
    refine Or.inr ⟨_, rfl, hc, ?_⟩
    simp only [generates, Bool.or_eq_true, decide_eq_true_eq, Bool.and_eq_true] at hg
    rcases hg with (hg | hg) | ⟨⟨h1, h2⟩, h3⟩
    · refine Or.inr (Or.inl ⟨hg, ?_⟩)
      cases h' : rop.constInt? with
      | some _ => rfl
      | none => exact absurd (Or.inl ⟨hg.symm, h'⟩) h
    · refine Or.inr (Or.inr ⟨hg, ?_⟩)
      cases h' : lop.constInt? with
      | some _ => rfl
      | none => exact absurd (Or.inr ⟨hg.symm, h'⟩) h
    · exact Or.inl ⟨h1, h2, h3⟩

/-- What a `BinOp` computes, in the three cases. -/
theorem C36.bin_cases {b : BinOp} (h : b.WF) :
    (∃ l r, ∀ s, b.ap s = foldConst b.op l r) ∨
    (∃ r, ∀ s, b.ap s = if s = .bottom then some .bottom else execute b.op s (.val r)) ∨
    (∃ l, ∀ s, b.ap s = if s = .bottom then some .bottom else execute b.op (.val l) s) := by
  obtain ⟨op, lop, rop, curr⟩ := b
  obtain ⟨hc, h⟩ := h
  simp only at hc h
  rcases h with ⟨h1, h2, h3⟩ | ⟨h1, h2⟩ | ⟨h1, h2⟩
  · cases lop <;> cases rop <;> simp [Val.constInt?] at h2 h3
    rename_i l r
    subst h1
    exact Or.inl ⟨l, r, fun s => by simp [BinOp.ap, Val.constInt?, execute]⟩
  · cases rop <;> simp [Val.constInt?] at h2
    rename_i r
    subst h1
    refine Or.inr (Or.inl ⟨r, fun s => ?_⟩)
    cases lop <;> simp [Val.constInt?] at hc <;> simp [BinOp.ap, Val.constInt?] <;> (split <;> simp_all)
  · cases lop <;> simp [Val.constInt?] at h2
    rename_i l
    subst h1
    refine Or.inr (Or.inr ⟨l, fun s => ?_⟩)
    cases rop <;> simp [Val.constInt?] at hc <;> simp [BinOp.ap, Val.constInt?] <;> (split <;> simp_all)

theorem C36.checked_ne_top (s : Int) : checked s ≠ .top := by
  unfold checked; split <;> simp

theorem C36.fold_ne_top (op : Op) (a b : BitVec 64) : foldConst op a b ≠ some .top := by
  cases op <;> simp only [foldConst] <;> (repeat' split) <;> simp [C36.checked_ne_top]

theorem C36.execute_ne_top (op : Op) (a b : V) : execute op a b ≠ some .top := by
  unfold execute; split
  · exact C36.fold_ne_top _ _ _
  · simp

/-- Edge functions all of whose `BinOp`s are well-formed. -/
def EF.WF : EF → Prop
  | .bin b => b.WF
  | .comp f g => f.WF ∧ g.WF
  | _ => True

/-- C36: a well-formed `BinOp` never reaches `report_fatal_error`: the only values without result are the undefined
remainders of C35. -/
theorem C36_no_fatal (b : BinOp) (h : b.WF) (s : V) (hn : b.ap s = none) :
    (b.op = .srem ∨ b.op = .urem) := by
  have hx : ∀ l r, execute b.op l r = none → (b.op = .srem ∨ b.op = .urem) := by
    intro l r he
    unfold execute at he
    split at he
    · exact ((C35_undefined _ _ _).1 he).1
    · cases he
  rcases C36.bin_cases h with ⟨l, r, e⟩ | ⟨r, e⟩ | ⟨l, e⟩
  · rw [e] at hn; exact ((C35_undefined _ _ _).1 hn).1
  · rw [e] at hn
    split at hn
    · cases hn
    · exact hx _ _ hn
  · rw [e] at hn
    split at hn
    · cases hn
    · exact hx _ _ hn

theorem C36.mono_bottom : ∀ (f : EF), f.WF → ∀ (x u v : V), x ≠ .top → f.ap x = some u → f.ap .bottom = some v →
    u = v ∨ (v = .bottom ∧ u ≠ .top) := by
  intro f
  induction f with
  | id => intro _ x u v hx hu hv; cases hu; cases hv; exact Or.inr ⟨rfl, hx⟩
  | allBottom => intro _ x u v _ hu hv; cases hu; cases hv; exact Or.inl rfl
  | allTop => intro _ x u v _ hu hv; cases hu; cases hv; exact Or.inl rfl
  | const g c => intro _ x u v _ hu hv; cases hu; cases hv; exact Or.inl rfl
  | bin b =>
    intro hw x u v hx hu hv
    simp only [EF.ap] at hu hv
    rcases C36.bin_cases hw with ⟨l, r, e⟩ | ⟨r, e⟩ | ⟨l, e⟩
    · rw [e] at hu hv; exact Or.inl (Option.some.inj (hu.symm.trans hv))
    · rw [e] at hu hv
      simp only [if_true, Option.some.injEq] at hv
      refine Or.inr ⟨hv.symm, ?_⟩
      split at hu
      · cases hu; simp
      · intro ht; subst ht; exact C36.execute_ne_top _ _ _ hu
    · rw [e] at hu hv
      simp only [if_true, Option.some.injEq] at hv
      refine Or.inr ⟨hv.symm, ?_⟩
      split at hu
      · cases hu; simp
      · intro ht; subst ht; exact C36.execute_ne_top _ _ _ hu
  | comp f g ihf ihg =>
    intro hw x u v hx hu hv
    simp only [EF.ap] at hu hv
    cases h1 : f.ap x with
    | none => rw [h1] at hu; cases hu
    | some u1 =>
      cases h2 : f.ap .bottom with
      | none => rw [h2] at hv; cases hv
      | some v1 =>
        rw [h1] at hu
        rw [h2] at hv
        simp only [Option.bind_some] at hu hv
        rcases ihf hw.1 x u1 v1 hx h1 h2 with h | ⟨h, h'⟩
        · subst h
          exact Or.inl (Option.some.inj (hu.symm.trans hv))
        · subst h
          exact ihg hw.2 u1 u v h' hu hv

theorem C36.le_cases {x y : V} (h : x ⊑ y) : x = .top ∨ x = y ∨ y = .bottom := by
  unfold JoinLat.le at h
  change LatticeDomain.join x y = y at h
  cases x <;> cases y <;> simp [LatticeDomain.join, LatticeDomain.isTop, LatticeDomain.index] at h ⊢
  assumption

/-- C36: monotone on the values other than top. -/
theorem C36_monotone (f : EF) (hf : f.WF) (x y u v : V) (hx : x ≠ .top) (hxy : x ⊑ y) (hu : f.ap x = some u)
    (hv : f.ap y = some v) : u ⊑ v := by
  rcases C36.le_cases hxy with h | h | h
  · exact absurd h hx
  · subst h
    rw [hu] at hv
    injection hv with hv
    exact hv ▸ le_refl u
  · subst h
    rcases C36.mono_bottom f hf x u v hx hu hv with h | ⟨h, _⟩
    · exact h ▸ le_refl u
    · subst h; exact le_bottom u

/-- The linear functions `a*x + b` with `a ≠ 0` (and exclusive or): addition, subtraction and exclusive or with a constant,
multiplication by a constant other than zero, and their compositions. -/
def EF.Linear : EF → Prop
  | .bin b => b.WF ∧ (b.op = .add ∨ b.op = .sub ∨ b.op = .xor ∨ (b.op = .mul ∧ b.lop ≠ .const 0#64 ∧ b.rop ≠ .const 0#64))
  | .comp f g => f.Linear ∧ g.Linear
  | _ => True

theorem C36.checked_inj {s t : Int} {r : BitVec 64} (h1 : checked s = .val r) (h2 : checked t = .val r) : s = t := by
  unfold checked at h1 h2
  split at h1
  · cases h1
  · rename_i ha
    split at h2
    · cases h2
    · rename_i hb
      simp only [LatticeDomain.val.injEq] at h1 h2
      have h := congrArg BitVec.toInt (h1.trans h2.symm)
      rw [BitVec.toInt_ofInt_eq_self (by decide) (by omega) (by omega),
        BitVec.toInt_ofInt_eq_self (by decide) (by omega) (by omega)] at h
      exact h

theorem C36.fold_total {op : Op} (h : op = .add ∨ op = .sub ∨ op = .xor ∨ op = .mul) (a b : BitVec 64) :
    ∃ u, foldConst op a b = some u := by
  rcases h with rfl | rfl | rfl | rfl <;> exact ⟨_, rfl⟩

theorem C36.xor_cancel {a b c : BitVec 64} (h : a ^^^ c = b ^^^ c) : a = b := by
  have := congrArg (· ^^^ c) h
  simpa [BitVec.xor_assoc] using this

theorem C36.fold_inj_right {op : Op} {a b c r : BitVec 64} (h : op = .add ∨ op = .sub ∨ op = .xor ∨ (op = .mul ∧ c ≠ 0#64))
    (h1 : foldConst op a c = some (.val r)) (h2 : foldConst op b c = some (.val r)) : a = b := by
  rcases h with rfl | rfl | rfl | ⟨rfl, hc⟩ <;> simp only [foldConst, Option.some.injEq] at h1 h2
  · exact BitVec.eq_of_toInt_eq (by have := C36.checked_inj h1 h2; omega)
  · exact BitVec.eq_of_toInt_eq (by have := C36.checked_inj h1 h2; omega)
  · simp only [LatticeDomain.val.injEq] at h1 h2
    exact C36.xor_cancel (h1.trans h2.symm)
  · have := C36.checked_inj h1 h2
    refine BitVec.eq_of_toInt_eq (Int.eq_of_mul_eq_mul_right (fun h0 => hc ?_) this)
    exact BitVec.eq_of_toInt_eq (by rw [h0]; rfl)

theorem C36.fold_inj_left {op : Op} {a b c r : BitVec 64} (h : op = .add ∨ op = .sub ∨ op = .xor ∨ (op = .mul ∧ c ≠ 0#64))
    (h1 : foldConst op c a = some (.val r)) (h2 : foldConst op c b = some (.val r)) : a = b := by
  rcases h with rfl | rfl | rfl | ⟨rfl, hc⟩ <;> simp only [foldConst, Option.some.injEq] at h1 h2
  · exact BitVec.eq_of_toInt_eq (by have := C36.checked_inj h1 h2; omega)
  · exact BitVec.eq_of_toInt_eq (by have := C36.checked_inj h1 h2; omega)
  · simp only [LatticeDomain.val.injEq] at h1 h2
    refine C36.xor_cancel (c := c) ?_
    rw [BitVec.xor_comm a, BitVec.xor_comm b]
    exact h1.trans h2.symm
  · have := C36.checked_inj h1 h2
    refine BitVec.eq_of_toInt_eq (Int.eq_of_mul_eq_mul_left (fun h0 => hc ?_) this)
    exact BitVec.eq_of_toInt_eq (by rw [h0]; rfl)

theorem C36.linear_cases {b : BinOp} (h : (EF.bin b).Linear) :
    (∃ l r, ∀ s, b.ap s = foldConst b.op l r) ∨
    (∃ r, (b.op = .mul → r ≠ 0#64) ∧ ∀ s, b.ap s = if s = .bottom then some .bottom else execute b.op s (.val r)) ∨
    (∃ l, (b.op = .mul → l ≠ 0#64) ∧ ∀ s, b.ap s = if s = .bottom then some .bottom else execute b.op (.val l) s) := by
  obtain ⟨⟨hc, h⟩, hl⟩ := h
  obtain ⟨op, lop, rop, curr⟩ := b
  simp only at hc h hl
  have hz : op = .mul → lop ≠ .const 0#64 ∧ rop ≠ .const 0#64 := by
    rintro rfl
    simpa using hl
  rcases h with ⟨h1, h2, h3⟩ | ⟨h1, h2⟩ | ⟨h1, h2⟩
  · cases lop <;> cases rop <;> simp [Val.constInt?] at h2 h3
    rename_i l r
    subst h1
    exact Or.inl ⟨l, r, fun s => by simp [BinOp.ap, Val.constInt?, execute]⟩
  · cases rop <;> simp [Val.constInt?] at h2
    rename_i r
    subst h1
    refine Or.inr (Or.inl ⟨r, fun hm hr => (hz hm).2 (by rw [hr]), fun s => ?_⟩)
    cases lop <;> simp [Val.constInt?] at hc <;> simp [BinOp.ap, Val.constInt?] <;> (split <;> simp_all)
  · cases lop <;> simp [Val.constInt?] at h2
    rename_i l
    subst h1
    refine Or.inr (Or.inr ⟨l, fun hm hr => (hz hm).1 (by rw [hr]), fun s => ?_⟩)
    cases rop <;> simp [Val.constInt?] at hc <;> simp [BinOp.ap, Val.constInt?] <;> (split <;> simp_all)

/-- On the values other than top, a linear function is constant, or injective up to bottom. -/
def C36.K (f : EF) : Prop :=
  (∀ x, ∃ u, f.ap x = some u) ∧
  ((∃ v, ∀ x, x ≠ .top → f.ap x = some v) ∨
   (f.ap .bottom = some .bottom ∧ ∀ x, x ≠ .top → ∃ u, u ≠ .top ∧ f.ap x = some u ∧
     ∀ y, y ≠ .top → f.ap y = some u → u ≠ .bottom → x = y))

theorem C36.linear_K : ∀ f : EF, f.Linear → C36.K f := by
  intro f
  induction f with
  | id => intro _; exact ⟨fun x => ⟨x, rfl⟩, Or.inr ⟨rfl, fun x hx => ⟨x, hx, rfl, fun y _ h _ => by cases h; rfl⟩⟩⟩
  | allBottom => intro _; exact ⟨fun x => ⟨_, rfl⟩, Or.inl ⟨_, fun _ _ => rfl⟩⟩
  | allTop => intro _; exact ⟨fun x => ⟨_, rfl⟩, Or.inl ⟨_, fun _ _ => rfl⟩⟩
  | const g c => intro _; exact ⟨fun x => ⟨_, rfl⟩, Or.inl ⟨_, fun _ _ => rfl⟩⟩
  | bin b =>
    intro h
    have hop : b.op = .add ∨ b.op = .sub ∨ b.op = .xor ∨ b.op = .mul := by
      rcases h.2 with h | h | h | h
      · exact Or.inl h
      · exact Or.inr (Or.inl h)
      · exact Or.inr (Or.inr (Or.inl h))
      · exact Or.inr (Or.inr (Or.inr h.1))
    have hex : ∀ x y : V, ∃ u, execute b.op x y = some u := by
      intro x y
      unfold execute
      split
      · exact C36.fold_total hop _ _
      · exact ⟨_, rfl⟩
    rcases C36.linear_cases h with ⟨l, r, e⟩ | ⟨r, hr, e⟩ | ⟨l, hr, e⟩
    · obtain ⟨u, hu⟩ := C36.fold_total hop l r
      exact ⟨fun x => ⟨u, by simp only [EF.ap, e, hu]⟩, Or.inl ⟨u, fun x _ => by simp only [EF.ap, e, hu]⟩⟩
    · refine ⟨fun x => ?_, Or.inr ⟨by simp only [EF.ap, e, if_true], fun x hx => ?_⟩⟩
      · simp only [EF.ap, e]
        split
        · exact ⟨_, rfl⟩
        · exact hex _ _
      · cases x with
        | top => exact absurd rfl hx
        | bottom => exact ⟨.bottom, by simp, by simp only [EF.ap, e, if_true], fun _ _ _ h => absurd rfl h⟩
        | val a =>
          obtain ⟨u, hu⟩ := hex (.val a) (.val r)
          refine ⟨u, fun ht => C36.execute_ne_top _ _ _ (ht ▸ hu), by simp only [EF.ap, e]; rw [if_neg (by simp)]; exact hu,
            fun y hy h1 h2 => ?_⟩
          simp only [EF.ap, e] at h1
          cases y with
          | top => exact absurd rfl hy
          | bottom => simp at h1; exact absurd h1.symm h2
          | val a' =>
            rw [if_neg (by simp)] at h1
            cases u with
            | top => exact absurd hu (C36.execute_ne_top _ _ _)
            | bottom => exact absurd rfl h2
            | val u =>
              have : a = a' := C36.fold_inj_right (c := r) (by
                rcases hop with h | h | h | h
                · exact Or.inl h
                · exact Or.inr (Or.inl h)
                · exact Or.inr (Or.inr (Or.inl h))
                · exact Or.inr (Or.inr (Or.inr ⟨h, hr h⟩))) hu h1
              rw [this]
    · refine ⟨fun x => ?_, Or.inr ⟨by simp only [EF.ap, e, if_true], fun x hx => ?_⟩⟩
      · simp only [EF.ap, e]
        split
        · exact ⟨_, rfl⟩
        · exact hex _ _
      · cases x with
        | top => exact absurd rfl hx
        | bottom => exact ⟨.bottom, by simp, by simp only [EF.ap, e, if_true], fun _ _ _ h => absurd rfl h⟩
        | val a =>
          obtain ⟨u, hu⟩ := hex (.val l) (.val a)
          refine ⟨u, fun ht => C36.execute_ne_top _ _ _ (ht ▸ hu), by simp only [EF.ap, e]; rw [if_neg (by simp)]; exact hu,
            fun y hy h1 h2 => ?_⟩
          simp only [EF.ap, e] at h1
          cases y with
          | top => exact absurd rfl hy
          | bottom => simp at h1; exact absurd h1.symm h2
          | val a' =>
            rw [if_neg (by simp)] at h1
            cases u with
            | top => exact absurd hu (C36.execute_ne_top _ _ _)
            | bottom => exact absurd rfl h2
            | val u =>
              have : a = a' := C36.fold_inj_left (c := l) (by
                rcases hop with h | h | h | h
                · exact Or.inl h
                · exact Or.inr (Or.inl h)
                · exact Or.inr (Or.inr (Or.inl h))
                · exact Or.inr (Or.inr (Or.inr ⟨h, hr h⟩))) hu h1
              rw [this]
  | comp f g ihf ihg =>
    intro h
    obtain ⟨tf, kf⟩ := ihf h.1
    obtain ⟨tg, kg⟩ := ihg h.2
    refine ⟨fun x => ?_, ?_⟩
    · obtain ⟨u, hu⟩ := tf x
      obtain ⟨v, hv⟩ := tg u
      exact ⟨v, by simp only [EF.ap, hu, Option.bind_some, hv]⟩
    · rcases kf with ⟨v, hv⟩ | ⟨fb, fi⟩
      · obtain ⟨w, hw⟩ := tg v
        exact Or.inl ⟨w, fun x hx => by simp only [EF.ap, hv x hx, Option.bind_some, hw]⟩
      · rcases kg with ⟨v, hv⟩ | ⟨gb, gi⟩
        · refine Or.inl ⟨v, fun x hx => ?_⟩
          obtain ⟨u, hu, h1, _⟩ := fi x hx
          simp only [EF.ap, h1, Option.bind_some, hv u hu]
        · refine Or.inr ⟨by simp only [EF.ap, fb, Option.bind_some, gb], fun x hx => ?_⟩
          obtain ⟨u, hu, h1, h2⟩ := fi x hx
          obtain ⟨w, hw, h3, h4⟩ := gi u hu
          refine ⟨w, hw, by simp only [EF.ap, h1, Option.bind_some, h3], fun y hy h5 h6 => ?_⟩
          obtain ⟨u', hu', h1', h2'⟩ := fi y hy
          simp only [EF.ap, h1', Option.bind_some] at h5
          have := h4 u' hu' h5 h6
          subst this
          exact h2 y hy h1' (fun hb => by subst hb; rw [gb] at h5; injection h5 with h5; exact h6 h5.symm)

theorem C36.join_ne {x y : V} (hx : x ≠ .top) (hy : y ≠ .top) (h : x ≠ y) : join x y = .bottom := by
  change LatticeDomain.join x y = _
  cases x <;> cases y <;> simp_all [LatticeDomain.join, LatticeDomain.isTop, LatticeDomain.index]

/-- C36 (partial): linear functions are distributive on the values other than top.  Missing: functions that map different
constants to the same one (`C36_distributive_false`). -/
theorem C36_distributive_partial (f : EF) (hf : f.Linear) (x y : V) (hx : x ≠ .top) (hy : y ≠ .top) :
    ∃ u v, f.ap x = some u ∧ f.ap y = some v ∧ f.ap (join x y) = some (join u v) := by
  obtain ⟨tf, kf⟩ := C36.linear_K f hf
  by_cases h : x = y
  · subst h
    obtain ⟨u, hu⟩ := tf x
    exact ⟨u, u, hu, hu, by rw [join_idem, join_idem]; exact hu⟩
  · rcases kf with ⟨v, hv⟩ | ⟨fb, fi⟩
    · exact ⟨v, v, hv x hx, hv y hy, by rw [C36.join_ne hx hy h, join_idem]; exact hv _ (by simp)⟩
    · obtain ⟨u, hu, h1, h2⟩ := fi x hx
      obtain ⟨v, hv, h3, h4⟩ := fi y hy
      refine ⟨u, v, h1, h3, ?_⟩
      rw [C36.join_ne hx hy h, fb]
      by_cases huv : u = v
      · subst huv
        by_cases hub : u = .bottom
        · subst hub; rw [join_idem]
        · exact absurd (h2 y hy h3 hub) h
      · rw [C36.join_ne hu hv huv]

/-- Multiplication by zero (and, in the same way, `and` with a mask, division, remainder) is not distributive: joining the
arguments 3 and 4 loses that the result is 0 in both cases. -/
theorem C36_distributive_false :
    let f := EF.bin ⟨.mul, .node 0, .const 0#64, .node 0⟩
    f.WF ∧ f.ap (.val 3#64) = some (.val 0#64) ∧ f.ap (.val 4#64) = some (.val 0#64) ∧
    f.ap (join (.val 3#64) (.val 4#64)) = some .bottom := by
  refine ⟨⟨rfl, Or.inr (Or.inl ⟨rfl, rfl⟩)⟩, ?_, ?_, ?_⟩ <;> decide

/-- On the top value the functions are not monotone: `x + 1` maps top to bottom. -/
theorem C36_monotone_top_false :
    let f := EF.bin ⟨.add, .node 0, .const 1#64, .node 0⟩
    f.WF ∧ (LatticeDomain.top : V) ⊑ .val 3#64 ∧ f.ap .top = some .bottom ∧ f.ap (.val 3#64) = some (.val 4#64) ∧
    ¬ ((LatticeDomain.bottom : V) ⊑ .val 4#64) := by
  refine ⟨⟨rfl, Or.inr (Or.inl ⟨rfl, rfl⟩)⟩, top_le _, ?_, ?_, ?_⟩
  · decide
  · decide
  · intro h; cases C36.le_cases h with
    | inl h => cases h
    | inr h => rcases h with h | h <;> cases h

/-! ### Composition -/

/-- Functions whose composers contain only `BinOp`s and composers as the first part, as `compose` produces them. -/
def EF.Proper : EF → Prop
  | .bin b => b.WF
  | .comp f g => f.Proper ∧ g.Proper ∧ (∃ b, f = .bin b) ∧ g.isConstant = false ∧ g.isId = false
  | _ => True

theorem C36.default_ap {f g r : EF} (h : EF.defaultCompose f g = some r) (x : V) (u : V) (hu : f.ap x = some u) :
    r.ap x = g.ap u := by
  unfold EF.defaultCompose at h
  split at h
  · cases h
    cases g <;> simp [EF.isId] at *
    simp only [EF.ap, hu]
  · split at h
    · cases h
      cases g <;> simp [EF.isConstant] at * <;> rfl
    · cases h

theorem C36.default_none {f g : EF} (h : EF.defaultCompose f g = none) : g.isId = false ∧ g.isConstant = false := by
  unfold EF.defaultCompose at h
  split at h
  · cases h
  · split at h
    · cases h
    · simp_all

/-- C36: `compose` is composition of functions: where the first function has a result, the composed function has the result
of the second one on it. -/
theorem C36_compose : ∀ (f g h : EF), f.Proper → f ≠ .allTop → f ≠ .allBottom → f.compose g = some h → ∀ x u, f.ap x = some u →
    h.ap x = g.ap u := by
  intro f
  induction f with
  | id => intro g h _ _ _ hc x u hu; cases hc; cases hu; rfl
  | allBottom => intro _ _ _ _ hb; exact absurd rfl hb
  | allTop => intro _ _ _ ht; exact absurd rfl ht
  | const gen c =>
    intro g h _ _ _ hc x u hu
    unfold EF.compose at hc
    split at hc
    · rename_i r hr
      cases hc
      exact C36.default_ap hr x u hu
    · simp only [EF.ap, Option.some.injEq] at hu
      subst hu
      split at hc
      · cases hc
      · rename_i e; cases hc; rw [e]; rfl
      · rename_i e; cases hc; rw [e]; rfl
      · rename_i v e; cases hc; rw [e]; rfl
  | bin b =>
    intro g h _ _ _ hc x u hu
    unfold EF.compose at hc
    split at hc
    · rename_i r hr
      cases hc
      exact C36.default_ap hr x u hu
    · cases hc
      rw [EF.ap, hu, Option.bind_some]
  | comp a b iha ihb =>
    intro g h hp _ _ hc x u hu
    unfold EF.compose at hc
    split at hc
    · rename_i r hr
      cases hc
      exact C36.default_ap hr x u hu
    · obtain ⟨h1, h2, ⟨b', h3⟩, h4, h5⟩ := hp
      cases hb : b.compose g with
      | none => rw [hb] at hc; cases hc
      | some m =>
        rw [hb, Option.bind_some] at hc
        cases ha : a.ap x with
        | none => rw [EF.ap, ha] at hu; cases hu
        | some y =>
          rw [EF.ap, ha, Option.bind_some] at hu
          have e1 := iha m h h1 (by rw [h3]; simp) (by rw [h3]; simp) hc x y ha
          have e2 := ihb g m h2 (fun hh => by rw [hh] at h4; simp [EF.isConstant] at h4)
            (fun hh => by rw [hh] at h4; simp [EF.isConstant] at h4) hb y u hu
          rw [e1, e2]

/-- C36: composing with `AllBottom` first over-approximates. -/
theorem C36_compose_bottom (g h : EF) (hc : EF.allBottom.compose g = some h) (x v : V) (hv : g.ap .bottom = some v) :
    ∃ w, h.ap x = some w ∧ v ⊑ w := by
  unfold EF.compose at hc
  injection hc with hc
  split at hc
  · rename_i hg
    subst hc
    cases g <;> simp [EF.isConstant] at hg
    · cases hv; exact ⟨_, rfl, le_refl _⟩
    · cases hv; exact ⟨_, rfl, le_refl _⟩
    · cases hv; exact ⟨_, rfl, le_refl _⟩
  · subst hc; exact ⟨_, rfl, le_bottom v⟩

/-- Composing with `AllTop` first is not composition, and not an over-approximation either: it gives `x + 1`, where the
composition is constantly bottom. -/
theorem C36_compose_top_false :
    let g := EF.bin ⟨.add, .node 0, .const 1#64, .node 0⟩
    EF.allTop.compose g = some g ∧ g.ap .top = some .bottom ∧ g.ap (.val 1#64) = some (.val 2#64) := by decide

theorem C36.proper_compose : ∀ (f g h : EF), f.Proper → g.Proper → f.compose g = some h → h.Proper := by
  have hd : ∀ {f g r : EF}, f.Proper → g.Proper → EF.defaultCompose f g = some r → r.Proper := by
    intro f g r hf hg h
    unfold EF.defaultCompose at h
    split at h
    · cases h; exact hf
    · split at h
      · cases h; exact hg
      · cases h
  intro f
  induction f with
  | id => intro g h _ hg hc; cases hc; exact hg
  | allBottom =>
    intro g h _ hg hc
    unfold EF.compose at hc
    injection hc with hc
    split at hc <;> subst hc
    · exact hg
    · trivial
  | allTop =>
    intro g h _ hg hc
    unfold EF.compose at hc
    injection hc with hc
    split at hc <;> subst hc
    · trivial
    · exact hg
  | const gen c =>
    intro g h hf hg hc
    unfold EF.compose at hc
    split at hc
    · rename_i r hr
      cases hc
      exact hd hf hg hr
    · split at hc <;> cases hc <;> trivial
  | bin b =>
    intro g h hf hg hc
    unfold EF.compose at hc
    split at hc
    · rename_i r hr
      cases hc
      exact hd hf hg hr
    · rename_i hn
      cases hc
      exact ⟨hf, hg, ⟨b, rfl⟩, (C36.default_none hn).2, (C36.default_none hn).1⟩
  | comp a b iha ihb =>
    intro g h hf hg hc
    unfold EF.compose at hc
    split at hc
    · rename_i r hr
      cases hc
      exact hd hf hg hr
    · cases hb : b.compose g with
      | none => rw [hb] at hc; cases hc
      | some m =>
        rw [hb, Option.bind_some] at hc
        exact iha m h hf.1 (ihb g m hf.2.1 hg hb) hc

/-! ### Joins -/

theorem C36.bin_eq {a b : BinOp} (ha : a.WF) (hb : b.WF) (h : a.eq b = true) : a = b := by
  obtain ⟨op, lop, rop, curr⟩ := a
  obtain ⟨op', lop', rop', curr'⟩ := b
  simp only [BinOp.eq, decide_eq_true_eq] at h
  obtain ⟨rfl, rfl, rfl⟩ := h
  obtain ⟨h1, h2⟩ := ha
  obtain ⟨h3, h4⟩ := hb
  simp only at h1 h2 h3 h4
  have : curr = curr' := by
    rcases h2 with ⟨e1, e2, e3⟩ | ⟨e1, e2⟩ | ⟨e1, e2⟩ <;> rcases h4 with ⟨f1, f2, f3⟩ | ⟨f1, f2⟩ | ⟨f1, f2⟩ <;>
      subst_vars <;> simp_all
  rw [this]

/-- C36: functions that compare equal are equal (up to the class of a constant), although `BinOp::operator==` ignores
`CurrNode`. -/
theorem C36_equal : ∀ (f g : EF), f.Proper → g.Proper → f.eq g = true → f = g := by
  intro f
  induction f with
  | id => intro g _ _ h; cases g <;> simp [EF.eq] at h; rfl
  | allBottom => intro g _ _ h; cases g <;> simp [EF.eq] at h; rfl
  | allTop => intro g _ _ h; cases g <;> simp [EF.eq] at h; rfl
  | const gen c => intro g _ _ h; cases g <;> simp [EF.eq] at h; rw [h.1, h.2]
  | bin b =>
    intro g hf hg h
    cases g <;> simp [EF.eq] at h
    rw [C36.bin_eq hf hg h]
  | comp a b iha ihb =>
    intro g hf hg h
    cases g <;> simp [EF.eq] at h
    rw [iha _ hf.1 hg.1 h.1, ihb _ hf.2.1 hg.2.1 h.2]

/-- The function `h` lies above `f` and `g` where both have a result. -/
def C36.Upper (f g h : EF) : Prop := ∀ x u v, f.ap x = some u → g.ap x = some v → ∃ w, h.ap x = some w ∧ u ⊑ w ∧ v ⊑ w

theorem C36.upper_bot (f g : EF) : C36.Upper f g .allBottom := fun _ u v _ _ => ⟨_, rfl, le_bottom u, le_bottom v⟩

theorem C36.upper_symm {f g h : EF} (H : C36.Upper f g h) : C36.Upper g f h := fun x u v hu hv =>
  let ⟨w, h1, h2, h3⟩ := H x v u hv hu
  ⟨w, h1, h3, h2⟩

theorem C36.default_upper {f g r : EF} (hf : f.Proper) (hg : g.Proper) (h : EF.defaultJoin f g = some r) : C36.Upper f g r := by
  unfold EF.defaultJoin at h
  split at h
  · cases h
    rename_i hb
    cases g <;> simp [EF.isBot] at hb
    exact C36.upper_bot _ _
  · split at h
    · cases h
      rename_i ht
      simp only [Bool.or_eq_true] at ht
      rcases ht with ht | ht
      · cases g <;> simp [EF.isTop] at ht
        intro x u v hu hv
        cases hv
        exact ⟨u, hu, le_refl u, top_le u⟩
      · have := C36_equal g f hg hf ht
        subst this
        intro x u v hu hv
        rw [hu] at hv
        cases hv
        exact ⟨u, hu, le_refl u, le_refl u⟩
    · split at h
      · cases h; exact C36.upper_bot _ _
      · cases h

theorem C36.lin_upper {f g : EF} (hf : f.Proper) (hg : g.Proper) : C36.Upper f g (EF.joinLin f g) := by
  unfold EF.joinLin
  split
  · rename_i r hr; exact C36.default_upper hf hg hr
  · exact C36.upper_bot _ _

theorem C36.const_upper (gen : Bool) (c : BitVec 64) {g : EF} (hg : g.Proper) : C36.Upper (.const gen c) g (EF.joinConst gen c g) := by
  unfold EF.joinConst
  split
  · rename_i r hr; exact C36.default_upper (f := .const gen c) trivial hg hr
  · cases g with
    | const gen' c' =>
      simp only
      intro x u v hu hv
      cases hu
      cases hv
      have h1 : (LatticeDomain.val c : V) ⊑ join (.val c) (.val c') := le_join_left _ _
      have h2 : (LatticeDomain.val c' : V) ⊑ join (.val c) (.val c') := le_join_right _ _
      change _ ⊑ LatticeDomain.join _ _ at h1
      change _ ⊑ LatticeDomain.join _ _ at h2
      generalize LatticeDomain.join (LatticeDomain.val c) (LatticeDomain.val c') = j at *
      cases j with
      | top => exact ⟨_, rfl, le_bottom _, le_bottom _⟩
      | bottom => exact ⟨_, rfl, le_bottom _, le_bottom _⟩
      | val j => exact ⟨_, rfl, h1, h2⟩
    | bin b => exact C36.upper_symm (C36.lin_upper (f := .bin b) (g := .const gen c) hg trivial)
    | comp a b => exact C36.upper_symm (C36.lin_upper (f := .comp a b) (g := .const gen c) hg trivial)
    | id => exact C36.upper_bot _ _
    | allBottom => exact C36.upper_bot _ _
    | allTop => exact C36.upper_bot _ _

/-- C36: the join is an upper bound of both functions (and has a result where both have one). -/
theorem C36_join (f g : EF) (hf : f.Proper) (hg : g.Proper) (x u v : V) (hu : f.ap x = some u) (hv : g.ap x = some v) :
    ∃ w, (f.joinWith g).ap x = some w ∧ u ⊑ w ∧ v ⊑ w := by
  have H : C36.Upper f g (f.joinWith g) := by
    cases f with
    | id =>
      cases g with
      | id => exact fun x u v hu hv => by cases hu; cases hv; exact ⟨_, rfl, le_refl _, le_refl _⟩
      | allTop => exact fun x u v hu hv => by cases hu; cases hv; exact ⟨_, rfl, le_refl _, top_le _⟩
      | allBottom => exact C36.upper_bot _ _
      | const gen c => exact C36.upper_symm (C36.const_upper gen c (g := .id) trivial)
      | bin b => exact C36.upper_symm (C36.lin_upper (f := .bin b) (g := .id) hg trivial)
      | comp a b => exact C36.upper_symm (C36.lin_upper (f := .comp a b) (g := .id) hg trivial)
    | allBottom => exact C36.upper_bot _ _
    | allTop => exact fun x u v hu hv => by cases hu; exact ⟨v, hv, top_le _, le_refl _⟩
    | const gen c => exact C36.const_upper gen c hg
    | bin b => exact C36.lin_upper hf hg
    | comp a b => exact C36.lin_upper hf hg
  exact H x u v hu hv

theorem C36.proper_join {f g : EF} (hf : f.Proper) (hg : g.Proper) : (f.joinWith g).Proper := by
  have hd : ∀ {f g r : EF}, f.Proper → g.Proper → EF.defaultJoin f g = some r → r.Proper := by
    intro f g r hf hg h
    unfold EF.defaultJoin at h
    split at h
    · cases h; exact hg
    · split at h
      · cases h; exact hf
      · split at h
        · cases h; trivial
        · cases h
  have hl : ∀ {f g : EF}, f.Proper → g.Proper → (EF.joinLin f g).Proper := by
    intro f g hf hg
    unfold EF.joinLin
    split
    · rename_i hr; exact hd hf hg hr
    · trivial
  have hc : ∀ gen c {g : EF}, g.Proper → (EF.joinConst gen c g).Proper := by
    intro gen c g hg
    unfold EF.joinConst
    split
    · rename_i hr; exact hd (f := .const gen c) trivial hg hr
    · split
      · split <;> trivial
      · exact hl hg (by trivial)
      · exact hl hg (by trivial)
      · trivial
  cases f with
  | id => cases g <;> first | trivial | exact hc _ _ (g := .id) trivial | exact hl hg (g := .id) trivial
  | allBottom => trivial
  | allTop => exact hg
  | const gen c => exact hc gen c hg
  | bin b => exact hl hf hg
  | comp a b => exact hl hf hg

/-- The edge functions that any sequence of compositions and joins builds from those the analysis creates. -/
inductive C36.Built : EF → Prop
  | id : Built .id
  | bottom : Built .allBottom
  | top : Built .allTop
  | gen (c : BitVec 64) : Built (.const true c)
  | bin (b : BinOp) : b.WF → Built (.bin b)
  | compose {f g h : EF} : Built f → Built g → f.compose g = some h → Built h
  | join {f g : EF} : Built f → Built g → Built (f.joinWith g)

/-- C36: the conditions of the theorems above hold for all functions that are ever built. -/
theorem C36_built {f : EF} (h : C36.Built f) : f.Proper ∧ f.WF := by
  have h1 : f.Proper := by
    induction h with
    | id => trivial
    | bottom => trivial
    | top => trivial
    | gen => trivial
    | bin _ h => exact h
    | compose _ _ hc ih1 ih2 => exact C36.proper_compose _ _ _ ih1 ih2 hc
    | join _ _ ih1 ih2 => exact C36.proper_join ih1 ih2
  refine ⟨h1, ?_⟩
  clear h
  induction f with
  | bin b => exact h1
  | comp a b iha ihb => exact ⟨iha h1.1, ihb h1.2.1⟩
  | _ => trivial

example : ∃ h, (EF.bin ⟨.mul, .node 0, .const 3#64, .node 0⟩).compose (.bin ⟨.add, .node 1, .const 4#64, .node 1⟩) = some h ∧
    h.ap (.val 5#64) = some (.val 19#64) ∧ h.Proper ∧ h.Linear := by
  refine ⟨_, rfl, by decide, ?_, ?_⟩
  · exact ⟨⟨rfl, Or.inr (Or.inl ⟨rfl, rfl⟩)⟩, ⟨rfl, Or.inr (Or.inl ⟨rfl, rfl⟩)⟩, ⟨_, rfl⟩, rfl, rfl⟩
  · exact ⟨⟨⟨rfl, Or.inr (Or.inl ⟨rfl, rfl⟩)⟩, Or.inr (Or.inr (Or.inr ⟨rfl, by decide, by decide⟩))⟩,
      ⟨⟨rfl, Or.inr (Or.inl ⟨rfl, rfl⟩)⟩, Or.inl rfl⟩⟩

example : (EF.const true 7#64).joinWith (.const false 7#64) = .const false 7#64 ∧
    (EF.const true 7#64).joinWith (.const true 8#64) = .allBottom ∧
    (EF.bin ⟨.add, .node 1, .const 4#64, .node 1⟩).joinWith (.bin ⟨.add, .node 1, .const 5#64, .node 1⟩) = .allBottom := by decide

example : binEdge .add (.node 3) (.const 4#64) (.node 3) = .bin ⟨.add, .node 3, .const 4#64, .node 3⟩ ∧
    binEdge .add (.node 3) (.node 4) (.node 3) = .allBottom ∧ generates (.node 3) (.const 4#64) (.node 3) = true := by decide

end Phasar.LCA
