import Verif.Path.ConstrLemmas

/-!
# The meaning of translated conditions: helper lemmas
-/

namespace Phasar.PathConstr

open Phasar

variable {P : Prog} {ρ : Nat → LV} {m : Mdl}

theorem Uses.trans {a b c : Nat} (h : Uses P a b) (h' : Uses P b c) : Uses P a c := by
  induction h' with
  | self => exact h
  | cast _ hk ih => exact .cast ih hk
  | binL _ hk ih => exact .binL ih hk
  | binR _ hk ih => exact .binR ih hk
  | cmpL _ hk ih => exact .cmpL ih hk
  | cmpR _ hk ih => exact .cmpR ih hk

theorem Runs.sub {a b : Nat} (h : Runs P ρ a) (h' : Uses P a b) : Runs P ρ b := fun v hv => h v (h'.trans hv)

theorem Arg.uses {l l' : Nat} (h : Arg P ρ l l') : Uses P l l' := by
  cases h with
  | same => exact .self
  | cast hk _ => exact .cast .self hk

theorem Arg.val {l l' : Nat} (h : Arg P ρ l l') : (ρ l).bits.toInt = (ρ l').bits.toInt := by
  cases h with
  | same => rfl
  | cast _ h => exact h

/-- The translation of an operand is that of what is behind the cast. -/
theorem Arg.operand {l l' k : Nat} {R : Nat → CAV → Prop} {g : Bool} {e : CAV} (h : Arg P ρ l l') (he : pOperand' P k R g l' e) :
    pOperand P k R g l e := by
  have hn : ∀ c w u, P.kind l' ≠ .cast c w u := by
    intro c w u hk
    simp only [pOperand', hk] at he
  unfold pOperand
  cases h with
  | same =>
    split
    · rename_i hk; exact (hn _ _ _ hk).elim
    · exact he
  | cast hk _ => simp only [hk]; exact he

/-- An operand is translated to an expression with a value. -/
def Denotes (P : Prog) (m : Mdl) (g : Bool) (v : Nat) (s : Srt) (z : ZV) : Prop :=
  ∃ k e, pOperand' P k (pBin P k) g v e ∧ e.1.sort = s ∧ e.1.eval m = z

theorem denotes_var {v p : Nat} {d n : Option String} {t : Ty} {s : Srt} (g : Bool) (h1 : P.kind v = .load p)
    (h2 : P.kind p = .alloca d n t) (h3 : constOf (srcName d n) t = .ok (.const s (srcName d n))) :
    Denotes P m g v s ((E.const s (srcName d n)).eval m) := by
  refine ⟨0, (.const s (srcName d n), [p]), ?_, rfl, rfl⟩
  simp only [pOperand', h1, h2, pAlloca, varName_eq]
  exact ⟨_, h3, rfl⟩

/-- The sort of the constant of an element. -/
def elemSort : Ty → Srt
  | .int w => if w = 1 then .bool else .int
  | _ => .bv

theorem denotes_elem {v p : Nat} {n : Option String} {i : String} {t : Ty} {ops : List Nat} (g : Bool) (h1 : P.kind v = .load p)
    (h2 : P.kind p = .gep n i t ops) (h3 : t ≠ .fp) :
    Denotes P m g v (elemSort t) ((E.const (elemSort t) (gepName n i)).eval m) := by
  refine ⟨0, (.const (elemSort t) (gepName n i), [p]), ?_, rfl, rfl⟩
  simp only [pOperand', h1, h2, pLoad, pGEP]
  exact ⟨h3, by cases t <;> rfl⟩

theorem denotes_call {v i : Nat} {n : String} {t : Ty} {ops : List Nat} {s : Srt} (g : Bool) (h1 : P.kind v = .call (some ⟨some n, t, i⟩) ops)
    (h3 : constOf n t = .ok (.const s n)) : Denotes P m g v s ((E.const s n).eval m) := by
  refine ⟨0, (.const s n, [i]), ?_, rfl, rfl⟩
  simp only [pOperand', h1, getCall, h3, Out.bind]

/-- Two operands with the same number of steps. -/
theorem denotes_two {g : Bool} {l r l' r' : Nat} {s s' : Srt} {z z' : ZV} (hl : Denotes P m g l' s z) (hr : Denotes P m g r' s' z')
    (al : ∀ k e, pOperand' P k (pBin P k) g l' e → pOperand P k (pBin P k) g l e)
    (ar : ∀ k e, pOperand' P k (pBin P k) g r' e → pOperand P k (pBin P k) g r e) :
    ∃ k a b, pOperand P k (pBin P k) g l a ∧ pOperand P k (pBin P k) g r b ∧ a.1.sort = s ∧ a.1.eval m = z ∧ b.1.sort = s' ∧ b.1.eval m = z' := by
  obtain ⟨k1, a, h1, h2, h3⟩ := hl
  obtain ⟨k2, b, h4, h5, h6⟩ := hr
  exact ⟨max k1 k2, a, b, al _ _ (pOperand'_mono (Nat.le_max_left _ _) (fun _ _ => pBin_mono (Nat.le_max_left _ _)) h1),
    ar _ _ (pOperand'_mono (Nat.le_max_right _ _) (fun _ _ => pBin_mono (Nat.le_max_right _ _)) h4), h2, h3, h5, h6⟩

theorem pOperand_same {k v : Nat} {R : Nat → CAV → Prop} {g : Bool} {e : CAV} (he : pOperand' P k R g v e) : pOperand P k R g v e :=
  Arg.operand (ρ := fun _ => ⟨(0 : BitVec 1)⟩) .same he

/-- A binary operator as operand. -/
theorem denotes_bin {g : Bool} {v l r : Nat} {o : BOp} {s : Srt} {z : ZV} (hk : P.kind v = .bin o l r)
    (h : ∃ k a b x, pOperand P k (pBin P k) false l a ∧ pOperand P k (pBin P k) false r b ∧ binE o a.1 b.1 = .ok x ∧ x.sort = s ∧ x.eval m = z) :
    Denotes P m g v s z := by
  obtain ⟨k, a, b, x, h1, h2, h3, h4, h5⟩ := h
  refine ⟨k + 1, (x, a.2 ++ b.2), ?_, h4, h5⟩
  simp only [pOperand', hk]
  simp only [pBin, hk]
  exact ⟨a, b, x, h1, h2, h3, rfl⟩

theorem lv_toInt {w : Nat} {a : LV} {x : BitVec w} (h : a = ⟨x⟩) : a.bits.toInt = x.toInt := by rw [h]

theorem msb_of_nonneg {w : Nat} {x : BitVec w} (h : 0 ≤ x.toInt) : x.msb = false := by
  rw [BitVec.msb_eq_toInt]
  simp; exact h

/-- The operators on signed values. -/
theorem nowrap_val {o : BOp} {w : Nat} {x y z : BitVec w} (h : NoWrap o x y) (hz : o.sem x y = some z) :
    ∃ p, (∀ a b : E, a.sort = .int → b.sort = .int → binE o a b = .ok (.ar p a b)) ∧ zInt m p x.toInt y.toInt = z.toInt := by
  have key : ∀ (p : AOp) (a b : E), a.sort = .int → b.sort = .int → mkAr p a b = .ok (.ar p a b) := by
    intro p a b ha hb
    simp [mkAr, ha, hb]
  have hnn : ∀ {x y : BitVec w}, 0 ≤ x.toInt → 0 < y.toInt → x.msb = false ∧ y.msb = false ∧ y.toInt ≠ 0 := by
    intro x y h1 h2
    exact ⟨msb_of_nonneg h1, msb_of_nonneg (by omega), by omega⟩
  cases o with
  | add =>
    cases hz
    exact ⟨.add, fun a b ha hb => key _ a b ha hb, (BitVec.toInt_add_of_not_saddOverflow (by simp only [NoWrap] at h; simp [h])).symm⟩
  | sub =>
    cases hz
    exact ⟨.sub, fun a b ha hb => key _ a b ha hb, (BitVec.toInt_sub_of_not_ssubOverflow (by simp only [NoWrap] at h; simp [h])).symm⟩
  | mul =>
    cases hz
    exact ⟨.mul, fun a b ha hb => key _ a b ha hb, (BitVec.toInt_mul_of_not_smulOverflow (by simp only [NoWrap] at h; simp [h])).symm⟩
  | udiv =>
    obtain ⟨hx, hy, hy0⟩ := hnn h.1 h.2
    simp only [BOp.sem] at hz
    split at hz
    · cases hz
    · cases hz
      refine ⟨.div, fun a b ha hb => key _ a b ha hb, ?_⟩
      rw [zInt, if_neg hy0, BitVec.toInt_udiv_of_msb hx, BitVec.toInt_eq_toNat_of_msb hx, BitVec.toInt_eq_toNat_of_msb hy]
  | sdiv =>
    obtain ⟨hx, hy, hy0⟩ := hnn h.1 h.2
    simp only [BOp.sem] at hz
    split at hz
    · cases hz
    · cases hz
      refine ⟨.div, fun a b ha hb => key _ a b ha hb, ?_⟩
      have : x.sdiv y = x.udiv y := by simp [BitVec.sdiv, hx, hy]
      rw [zInt, if_neg hy0, this]
      show _ = (x / y).toInt
      rw [BitVec.toInt_udiv_of_msb hx, BitVec.toInt_eq_toNat_of_msb hx, BitVec.toInt_eq_toNat_of_msb hy]
  | urem =>
    obtain ⟨hx, hy, hy0⟩ := hnn h.1 h.2
    simp only [BOp.sem] at hz
    split at hz
    · cases hz
    · cases hz
      refine ⟨.rem, fun a b ha hb => key _ a b ha hb, ?_⟩
      rw [zInt, if_neg hy0, if_pos (Int.le_of_lt h.2), BitVec.toInt_umod_of_msb hx, BitVec.toInt_eq_toNat_of_msb hx, BitVec.toInt_eq_toNat_of_msb hy]
  | srem =>
    obtain ⟨hx, hy, hy0⟩ := hnn h.1 h.2
    simp only [BOp.sem] at hz
    split at hz
    · cases hz
    · cases hz
      refine ⟨.rem, fun a b ha hb => key _ a b ha hb, ?_⟩
      rw [zInt, if_neg hy0, if_pos (Int.le_of_lt h.2), BitVec.toInt_srem, Int.tmod_eq_emod_of_nonneg h.1]
  | _ => exact h.elim

theorem num_val {v : Nat} (h : Num P ρ m v) (g : Bool) (hr : Runs P ρ v) : Denotes P m g v .int (.int (ρ v).bits.toInt) := by
  induction h generalizing g with
  | const hk hw =>
    rename_i v x
    have := hr v .self
    simp only [At, hk] at this
    refine ⟨0, (.intV x.bits.toInt, []), ?_, rfl, by rw [this]; rfl⟩
    simp only [pOperand', hk, intLit]
    rw [if_pos (BitVec.toInt_signExtend_of_le hw)]
  | var h1 h2 h3 h4 =>
    have := denotes_var (m := m) (s := .int) g h1 h2 (by simp [constOf, h3])
    rw [h4]; exact this
  | elem h1 h2 h3 h4 =>
    have := denotes_elem (m := m) g h1 h2 (by simp)
    simp only [elemSort, if_neg h3] at this
    rw [h4]; exact this
  | call h1 h3 h4 =>
    have := denotes_call (m := m) (s := .int) g h1 (by simp [constOf, h3])
    rw [h4]; exact this
  | bin hk al _ ar _ hn ihl ihr =>
    rename_i v o l r l' r' _ _
    have hat := hr v .self
    simp only [At, hk] at hat
    obtain ⟨w, x, y, z, h1, h2, h3, h4⟩ := hat
    obtain ⟨p, h5, h6⟩ := nowrap_val (m := m) (hn w x y h1 h2) h3
    obtain ⟨k, a, b, b1, b2, b3, b4, b5, b6⟩ := denotes_two
      (ihl false (hr.sub ((Uses.binL .self hk).trans al.uses))) (ihr false (hr.sub ((Uses.binR .self hk).trans ar.uses)))
      (fun _ _ => al.operand) (fun _ _ => ar.operand)
    refine denotes_bin hk ⟨k, a, b, _, b1, b2, h5 _ _ b3 b5, b3, ?_⟩
    rw [← al.val, lv_toInt h1] at b4
    rw [← ar.val, lv_toInt h2] at b6
    simp only [E.eval, b4, b6]
    rw [h6, lv_toInt h4]

theorem ofBool_inj {a b : Bool} (h : (⟨BitVec.ofBool a⟩ : LV) = ⟨BitVec.ofBool b⟩) : a = b := by
  have h' : BitVec.ofBool a = BitVec.ofBool b := by injection h
  cases a <;> cases b <;> first | rfl | exact absurd h' (by decide)

theorem lv_eq {w : Nat} {x y : BitVec w} (h : (⟨x⟩ : LV) = ⟨y⟩) : x = y := by injection h

theorem flag_val {v : Nat} (h : Flag P ρ m v) (g : Bool) (hr : Runs P ρ v) : ∃ b, ρ v = ⟨BitVec.ofBool b⟩ ∧ Denotes P m g v .bool (.bool b) := by
  induction h generalizing g with
  | var h1 h2 h3 => exact ⟨_, h3, denotes_var (m := m) (s := .bool) g h1 h2 rfl⟩
  | elem h1 h2 h3 => exact ⟨_, h3, denotes_elem (m := m) g h1 h2 (by simp)⟩
  | call h1 h3 => exact ⟨_, h3, denotes_call (m := m) (s := .bool) g h1 rfl⟩
  | bin hk ho _ _ ihl ihr =>
    rename_i v o l r _ _
    have hat := hr v .self
    simp only [At, hk] at hat
    obtain ⟨w, x, y, z, h1, h2, h3, h4⟩ := hat
    obtain ⟨bl, c1, c2⟩ := ihl false (hr.sub (.binL .self hk))
    obtain ⟨br, c3, c4⟩ := ihr false (hr.sub (.binR .self hk))
    rw [h1] at c1
    obtain rfl : w = 1 := congrArg LV.w c1
    obtain rfl := lv_eq c1
    rw [h2] at c3
    obtain rfl := lv_eq c3
    obtain ⟨k, a, b, b1, b2, b3, b4, b5, b6⟩ := denotes_two c2 c4 (fun _ _ => pOperand_same) (fun _ _ => pOperand_same)
    have mk : ∀ p, mkLo p a.1 b.1 = .ok (.lo p a.1 b.1) := by intro p; simp [mkLo, b3, b5]
    rcases ho with rfl | rfl | rfl
    · refine ⟨bl && br, ?_, denotes_bin hk ⟨k, a, b, _, b1, b2, mk _, b3, ?_⟩⟩
      · cases h3; rw [h4]; cases bl <;> cases br <;> rfl
      · simp only [E.eval, b4, b6]
    · refine ⟨bl || br, ?_, denotes_bin hk ⟨k, a, b, _, b1, b2, mk _, b3, ?_⟩⟩
      · cases h3; rw [h4]; cases bl <;> cases br <;> rfl
      · simp only [E.eval, b4, b6]
    · refine ⟨bl ^^ br, ?_, denotes_bin hk ⟨k, a, b, _, b1, b2, mk _, b3, ?_⟩⟩
      · cases h3; rw [h4]; cases bl <;> cases br <;> rfl
      · simp only [E.eval, b4, b6]

theorem ptr_val {v : Nat} (h : Ptr P ρ m v) (g : Bool) (hr : Runs P ρ v) : ∃ x : BitVec 64, ρ v = ⟨x⟩ ∧ Denotes P m g v .bv (.bv x) := by
  cases h with
  | null hk =>
    have := hr v .self
    simp only [At, hk] at this
    exact ⟨0, this, 0, (.bvV 0, []), by simp only [pOperand', hk], rfl, rfl⟩
  | var h1 h2 h3 => exact ⟨_, h3, denotes_var (m := m) (s := .bv) g h1 h2 rfl⟩
  | elem h1 h2 h3 => exact ⟨_, h3, denotes_elem (m := m) g h1 h2 (by simp)⟩
  | call h1 h3 => exact ⟨_, h3, denotes_call (m := m) (s := .bv) g h1 rfl⟩

/-- Comparisons of signed values. -/
theorem pred_val {p : Pred} (hp : p ≠ .fcmp) {w : Nat} {x y : BitVec w} (hu : p.unsigned = true → x.msb = y.msb) :
    ∃ o, (∀ a b : E, a.sort = b.sort → a.sort ≠ .bool → cmpE p a b = .ok (.rel o a b)) ∧ zRelI o x.toInt y.toInt = p.sem x y := by
  have key : ∀ (o : ROp) (a b : E), a.sort = b.sort → a.sort ≠ .bool → mkRel o a b = .ok (.rel o a b) := by
    intro o a b h1 h2
    simp [mkRel, h1]; rw [← h1]; intro h; exact (h2 h).elim
  have hlt : p.unsigned = true → x.ult y = x.slt y := fun h => (BitVec.slt_eq_ult_of_msb_eq (hu h)).symm
  have hgt : p.unsigned = true → y.ult x = y.slt x := fun h => (BitVec.slt_eq_ult_of_msb_eq (hu h).symm).symm
  have sle : ∀ a b : BitVec w, a.sle b = decide (a.toInt ≤ b.toInt) := fun a b => rfl
  have ule : ∀ a b : BitVec w, a.ule b = !(b.ult a) := by
    intro a b
    simp only [BitVec.ule, BitVec.ult]
    by_cases h : a.toNat ≤ b.toNat
    · simp [h]
    · simp [h]; omega
  cases p with
  | eq => exact ⟨.eq, key _, by simp only [zRelI, Pred.sem]; rw [Bool.eq_iff_iff]; simp [BitVec.toInt_inj]⟩
  | ne => exact ⟨.ne, key _, by simp only [zRelI, Pred.sem]; rw [Bool.eq_iff_iff]; simp [BitVec.toInt_inj]⟩
  | ugt => exact ⟨.gt, key _, by simp only [Pred.sem]; rw [hgt rfl]; rfl⟩
  | uge =>
    refine ⟨.ge, key _, ?_⟩
    simp only [Pred.sem]
    rw [ule, hlt rfl, BitVec.slt_eq_decide]
    simp only [zRelI]
    rw [Bool.eq_iff_iff]; simp
  | ult => exact ⟨.lt, key _, by simp only [Pred.sem]; rw [hlt rfl]; rfl⟩
  | ule =>
    refine ⟨.le, key _, ?_⟩
    simp only [Pred.sem]
    rw [ule, hgt rfl, BitVec.slt_eq_decide]
    simp only [zRelI]
    rw [Bool.eq_iff_iff]; simp
  | sgt => exact ⟨.gt, key _, rfl⟩
  | sge => exact ⟨.ge, key _, rfl⟩
  | slt => exact ⟨.lt, key _, rfl⟩
  | sle => exact ⟨.le, key _, rfl⟩
  | fcmp => exact (hp rfl).elim

/-- The translation of the condition of a branch for the true way. -/
def pHead (P : Prog) (k c : Nat) (e : CAV) : Prop :=
  match P.kind c with
  | .cmp .. => pCmp P k c e
  | .bin .. => pBin P k c e
  | .call g _ => getCall g = .ok e
  | _ => False

theorem good_val {c : Nat} (h : Good P ρ m c) (hr : Runs P ρ c) :
    ∃ b k e, ρ c = ⟨BitVec.ofBool b⟩ ∧ pHead P k c e ∧ e.1.sort = .bool ∧ e.1.eval m = .bool b := by
  cases h with
  | num hk hp al hl ar hr' hu =>
    rename_i p l r l' r'
    have hat := hr c .self
    simp only [At, hk] at hat
    obtain ⟨w, x, y, h1, h2, h3⟩ := hat hp
    obtain ⟨o, h4, h5⟩ := pred_val hp (fun h => hu h w x y h1 h2)
    obtain ⟨k, a, b, b1, b2, b3, b4, b5, b6⟩ := denotes_two
      (num_val hl true (hr.sub ((Uses.cmpL .self hk).trans al.uses))) (num_val hr' true (hr.sub ((Uses.cmpR .self hk).trans ar.uses)))
      (fun _ _ => al.operand) (fun _ _ => ar.operand)
    rw [← al.val, lv_toInt h1] at b4
    rw [← ar.val, lv_toInt h2] at b6
    refine ⟨p.sem x y, k, (.rel o a.1 b.1, a.2 ++ b.2), h3, ?_, rfl, ?_⟩
    · simp only [pHead, pCmp, hk]
      exact ⟨a, b, _, b1, b2, h4 _ _ (b3.trans b5.symm) (by rw [b3]; simp), rfl⟩
    · simp only [E.eval, b4, b6]; rw [h5]
  | ptr hk hp hl hr' hu =>
    rename_i p l r
    have hat := hr c .self
    simp only [At, hk] at hat
    obtain ⟨w, x, y, h1, h2, h3⟩ := hat hp
    obtain ⟨o, h4, h5⟩ := pred_val hp (fun h => hu h w x y h1 h2)
    obtain ⟨x', c1, c2⟩ := ptr_val hl true (hr.sub (.cmpL .self hk))
    obtain ⟨y', c3, c4⟩ := ptr_val hr' true (hr.sub (.cmpR .self hk))
    rw [h1] at c1
    obtain rfl : w = 64 := congrArg LV.w c1
    obtain rfl := lv_eq c1
    rw [h2] at c3
    obtain rfl := lv_eq c3
    obtain ⟨k, a, b, b1, b2, b3, b4, b5, b6⟩ := denotes_two c2 c4 (fun _ _ => pOperand_same) (fun _ _ => pOperand_same)
    refine ⟨p.sem x y, k, (.rel o a.1 b.1, a.2 ++ b.2), h3, ?_, rfl, ?_⟩
    · simp only [pHead, pCmp, hk]
      exact ⟨a, b, _, b1, b2, h4 _ _ (b3.trans b5.symm) (by rw [b3]; simp), rfl⟩
    · simp only [E.eval, b4, b6]; rw [h5]
  | flags hk hp hl hr' =>
    rename_i p l r
    have hat := hr c .self
    simp only [At, hk] at hat
    obtain ⟨w, x, y, h1, h2, h3⟩ := hat (by rcases hp with rfl | rfl <;> simp)
    obtain ⟨x', c1, c2⟩ := flag_val hl true (hr.sub (.cmpL .self hk))
    obtain ⟨y', c3, c4⟩ := flag_val hr' true (hr.sub (.cmpR .self hk))
    rw [h1] at c1
    obtain rfl : w = 1 := congrArg LV.w c1
    obtain rfl := lv_eq c1
    rw [h2] at c3
    obtain rfl := lv_eq c3
    obtain ⟨k, a, b, b1, b2, b3, b4, b5, b6⟩ := denotes_two c2 c4 (fun _ _ => pOperand_same) (fun _ _ => pOperand_same)
    have mk : ∀ o, o = .eq ∨ o = .ne → mkRel o a.1 b.1 = .ok (.rel o a.1 b.1) := by
      intro o ho; simp [mkRel, b3, b5, ho]
    rcases hp with rfl | rfl
    · refine ⟨_, k, (.rel .eq a.1 b.1, a.2 ++ b.2), h3, ?_, rfl, ?_⟩
      · simp only [pHead, pCmp, hk]
        exact ⟨a, b, _, b1, b2, mk _ (.inl rfl), rfl⟩
      · simp only [E.eval, b4, b6]; cases x' <;> cases y' <;> rfl
    · refine ⟨_, k, (.rel .ne a.1 b.1, a.2 ++ b.2), h3, ?_, rfl, ?_⟩
      · simp only [pHead, pCmp, hk]
        exact ⟨a, b, _, b1, b2, mk _ (.inr rfl), rfl⟩
      · simp only [E.eval, b4, b6]; cases x' <;> cases y' <;> rfl
  | logic hk hf =>
    obtain ⟨b, h1, k, e, h2, h3, h4⟩ := flag_val hf false hr
    refine ⟨b, k, e, h1, ?_, h3, h4⟩
    simp only [pOperand', hk] at h2
    simp only [pHead, hk]
    exact h2
  | call hk hf =>
    obtain ⟨b, h1, k, e, h2, h3, h4⟩ := flag_val hf false hr
    refine ⟨b, k, e, h1, ?_, h3, h4⟩
    simp only [pOperand', hk] at h2
    simp only [pHead, hk]
    exact h2

/-! ## Edges -/

theorem pHead_mono {k k' c : Nat} (hk : k ≤ k') {e : CAV} (h : pHead P k c e) : pHead P k' c e := by
  unfold pHead at *
  split at h
  · exact pCmp_mono hk h
  · exact pBin_mono hk h
  · exact h
  · exact h.elim

theorem pCond_head {k : Nat} {ign : Bool} {c t f succ : Nat} (hx : ∃ e, pHead P k c e) (e : CAV) :
    pCond P k ign c t f succ e ↔ pWay P ign t f succ (pHead P k c) e := by
  obtain ⟨_, hx⟩ := hx
  unfold pHead at hx
  split at hx
  · rename_i hk
    have : pHead P k c = pCmp P k c := by funext y; simp only [pHead, hk]
    rw [this]; simp only [pCond, hk]
  · rename_i hk
    have : pHead P k c = pBin P k c := by funext y; simp only [pHead, hk]
    rw [this]; simp only [pCond, hk]
  · rename_i g _ hk
    have : pHead P k c = fun e => getCall g = .ok e := by funext y; simp only [pHead, hk]
    rw [this]; simp only [pCond, hk]
  · exact hx.elim

theorem rewind_parent (hB : Blocks P) {ign : Bool} {b : Nat} : P.parent (rewind P ign b) = P.parent b := by
  unfold rewind
  have key : ∀ {o : Option Nat}, (∀ i, o = some i → i ∈ (P.block (P.parent b)).takeWhile (· ≠ b)) → P.parent (o.getD b) = P.parent b := by
    intro o ho
    cases o with
    | none => rfl
    | some i => exact hB _ i ((List.takeWhile_sublist _).subset (ho i rfl))
  apply key
  intro i hi
  split at hi
  · exact List.mem_of_find?_eq_some hi
  · exact List.mem_of_mem_head? hi

theorem firstInst_parent (hB : Blocks P) {ign : Bool} {t i : Nat} (h : firstInst P ign t = some i) : P.parent i = t := by
  unfold firstInst at h
  cases hb : P.block t with
  | nil => simp [hb] at h
  | cons j js =>
    simp only [hb] at h
    split at h
    · exact hB t i (by rw [hb]; exact List.mem_cons_of_mem _ (List.mem_of_find?_eq_some h))
    · cases h; exact hB t _ (by rw [hb]; exact List.mem_cons_self)

/-- The first statement of a block that does not begin with a debug instruction is where the edge starts. -/
theorem rewind_first {ign : Bool} {b : Nat} (hb : b ∈ P.block (P.parent b))
    (hd : ign = true → ∀ i, (P.block (P.parent b)).head? = some i → P.dbg i = false) :
    (P.block (P.parent b)).head? = some (rewind P ign b) ∧ firstInst P ign (P.parent b) = some (rewind P ign b) := by
  unfold rewind firstInst
  cases hl : P.block (P.parent b) with
  | nil => rw [hl] at hb; cases hb
  | cons j js =>
    have hj : ign = true → P.dbg j = false := fun h => hd h j (by rw [hl]; rfl)
    have hdb : (ign && P.dbg j) = false := by
      cases ign
      · rfl
      · simp [hj rfl]
    simp only [hdb, List.head?_cons]
    have hrw : (if ign = true then List.find? (fun j => !P.dbg j) (List.takeWhile (fun x => decide (x ≠ b)) (j :: js))
        else (List.takeWhile (fun x => decide (x ≠ b)) (j :: js)).head?).getD b = j := by
      by_cases h : j = b
      · subst h; simp
      · rw [List.takeWhile_cons]
        simp only [ne_eq, h, not_false_eq_true, decide_true, if_true]
        cases ign
        · simp
        · simp [hj rfl]
    rw [hrw]
    simp

/-- The constraint of an edge with an exactly translated condition. -/
theorem way_val (hB : Blocks P) {ign : Bool} {t f succ : Nat} (htf : t ≠ f) {T : CAV → Prop} {x e : CAV} {v : Bool}
    (hT : ∀ y, T y → y = x) (hv : x.1.eval m = .bool v) (h : pWay P ign t f succ T e) :
    Holds m e.1 ↔ (v = true ∧ P.parent succ = t) ∨ (v = false ∧ P.parent succ = f) := by
  unfold pWay at h
  split at h
  · rename_i h1
    have hp := firstInst_parent hB h1
    rw [hT e h, Holds, hv]
    constructor
    · intro h; exact .inl ⟨by simpa using h, hp⟩
    · rintro (h | h)
      · rw [h.1]
      · exact (htf (hp.symm.trans h.2)).elim
  · split at h
    · rename_i h1
      have hp := firstInst_parent hB h1
      obtain ⟨y, n, h2, h3, rfl⟩ := h
      have := hT y h2
      subst this
      unfold mkNot at h3
      split at h3
      · cases h3
        simp only [Holds, E.eval, hv]
        constructor
        · intro h; exact .inr ⟨by simpa using h, hp⟩
        · rintro (h | h)
          · exact (htf (h.2.symm.trans hp)).elim
          · rw [h.1]; rfl
      · cases h3
    · exact h.elim

theorem pHead_det {k k' c : Nat} {e e' : CAV} (h : pHead P k c e) (h' : pHead P k' c e') : e = e' := by
  have h := pHead_mono (Nat.le_max_left k k') h
  have h' := pHead_mono (Nat.le_max_right k k') h'
  unfold pHead at h h'
  split at h
  · rename_i hk; simp only [hk] at h'; exact pCmp_det h h'
  · rename_i hk; simp only [hk] at h'; exact pBin_det h h'
  · rename_i hk
    simp only [hk] at h'
    rw [h] at h'; cases h'; rfl
  · exact h.elim

/-- Exactly translated conditions have a constraint on both ways. -/
theorem good_edge {ign : Bool} {a b cond t f : Nat} (hbr : P.br a = some (cond, t, f))
    (hb : b ∈ P.block (P.parent b)) (hto : P.parent b = t ∨ P.parent b = f)
    (hd : ign = true → ∀ i, (P.block (P.parent b)).head? = some i → P.dbg i = false)
    (hr : Runs P ρ cond) (hg : Good P ρ m cond) : ∃ k e vs, pEdge P k ign a b (some (e, vs)) := by
  obtain ⟨v, k, x, h1, h2, h3, h4⟩ := good_val hg hr
  obtain ⟨h5, h6⟩ := rewind_first hb hd
  have ht : isTarget P t f (rewind P ign b) = true := by
    unfold isTarget
    rcases hto with rfl | rfl <;> rw [h5] <;> simp
  have hw : ∃ e, pWay P ign t f (rewind P ign b) (pHead P k cond) e := by
    unfold pWay
    by_cases h7 : firstInst P ign t = some (rewind P ign b)
    · exact ⟨x, by rw [if_pos h7]; exact h2⟩
    · have h8 : firstInst P ign f = some (rewind P ign b) := by
        rcases hto with h | h
        · rw [← h] at h7; exact (h7 h6).elim
        · rw [← h]; exact h6
      exact ⟨(.not x.1, x.2), by rw [if_neg h7, if_pos h8]; exact ⟨x, _, h2, by simp [mkNot, h3], rfl⟩⟩
  obtain ⟨e, he⟩ := hw
  refine ⟨k, e.1, e.2.eraseDups, ?_⟩
  simp only [pEdge, hbr]
  rw [if_pos ht]
  exact ⟨e, (pCond_head ⟨x, h2⟩ e).2 he, rfl⟩

/-- The constraint of an exactly translated condition holds on the way that is taken. -/
theorem good_holds (hB : Blocks P) {k : Nat} {ign : Bool} {a b cond t f : Nat} (hbr : P.br a = some (cond, t, f)) (htf : t ≠ f)
    (hr : Runs P ρ cond) (hg : Good P ρ m cond) {e : CAV} (he : pEdge P k ign a b (some e)) :
    Holds m e.1 ↔ (ρ cond = ⟨(1 : BitVec 1)⟩ ∧ P.parent b = t) ∨ (ρ cond = ⟨(0 : BitVec 1)⟩ ∧ P.parent b = f) := by
  obtain ⟨v, k', x, h1, h2, h3, h4⟩ := good_val hg hr
  have he := pEdge_mono (Nat.le_max_left k k') he
  have h2 := pHead_mono (Nat.le_max_right k k') h2
  simp only [pEdge, hbr] at he
  split at he
  · obtain ⟨y, h5, h6⟩ := he
    have h5 := (pCond_head ⟨x, h2⟩ y).1 h5
    cases h6
    have := way_val hB htf (x := x) (fun y hy => pHead_det hy h2) h4 h5
    rw [rewind_parent hB] at this
    refine this.trans ?_
    rw [h1]
    have e1 : (⟨BitVec.ofBool v⟩ : LV) = ⟨(1 : BitVec 1)⟩ ↔ v = true :=
      ⟨fun h => ofBool_inj (b := true) h, fun h => by rw [h]; rfl⟩
    have e0 : (⟨BitVec.ofBool v⟩ : LV) = ⟨(0 : BitVec 1)⟩ ↔ v = false :=
      ⟨fun h => ofBool_inj (b := false) h, fun h => by rw [h]; rfl⟩
    rw [e1, e0]
  · cases he

/-! ## Phis and truncations -/

theorem phiLoop_true {k : Nat} {ty : E} : ∀ {is : List Nat} {s e : CAV}, pPhiLoop P k ty is s e → s.1.eval m = .bool true →
    s.1.sort = .bool → e.1.eval m = .bool true := by
  intro is
  induction is with
  | nil => intro s e h hs _; rw [h]; exact hs
  | cons i is ih =>
    intro s e h hs hb
    obtain ⟨r, x, _, h2, h3⟩ := h
    unfold mkOr at h2
    split at h2
    · cases h2
      refine ih h3 ?_ rfl
      simp only [E.eval, hs]
      split <;> simp_all
    · cases h2

theorem phi_holds {k : Nat} {ign : Bool} {a b cond t f : Nat} (hbr : P.br a = some (cond, t, f)) {ty : Ty} {ins : List Nat}
    (hk : P.kind cond = .phi ty ins) {e : CAV} (he : pEdge P k ign a b (some e)) : Holds m e.1 := by
  simp only [pEdge, hbr] at he
  split at he
  · obtain ⟨y, h5, h6⟩ := he
    simp only [pCond, hk, pPhi] at h5
    obtain ⟨_, _, h7⟩ := h5
    cases h6
    have := phiLoop_true (m := m) h7 rfl rfl
    exact this
  · cases he

theorem odd_toInt {w : Nat} (hw : 1 < w) (x : BitVec w) : x.setWidth 1 = 1 ↔ x.toInt % 2 = 1 := by
  have h1 : x.setWidth 1 = 1 ↔ x.toNat % 2 = 1 := by
    rw [← BitVec.toNat_inj]
    simp
  rw [h1, BitVec.toInt_eq_toNat_cond]
  obtain ⟨n, rfl⟩ : ∃ n, w = n + 1 := ⟨w - 1, by omega⟩
  have h2 : (2 : Nat) ^ (n + 1) = 2 * 2 ^ n := by rw [Nat.pow_succ, Nat.mul_comm]
  rw [h2]
  split
  · omega
  · push_cast; omega

theorem trunc_holds {k : Nat} {ign : Bool} {a b cond t f v p : Nat} (hbr : P.br a = some (cond, t, f)) (hk : P.kind cond = .cast .trunc 1 v)
    (hl : P.kind v = .load p) (hn : Num P ρ m v) (hr : Runs P ρ cond) {e : CAV} (he : pEdge P k ign a b (some e)) :
    Holds m e.1 ↔ ρ cond = ⟨(1 : BitVec 1)⟩ := by
  obtain ⟨k', x, h1, h2, h3⟩ := num_val hn false (hr.sub (.cast .self hk))
  have he := pEdge_mono (Nat.le_max_left k k') he
  have h1 := pOperand'_mono (Nat.le_max_right k k') (R' := pBin P k') (fun _ _ h => h) h1
  simp only [pEdge, hbr] at he
  split at he
  · obtain ⟨y, h5, h6⟩ := he
    cases h6
    simp only [pCond, hk, hl] at h5
    obtain ⟨_, z, o, h7, h8, rfl⟩ := h5
    have h1' : pLoad P (max k k') v p x := by
      simp only [pOperand', hl] at h1
      split at h1
      · rename_i hp; simp only [pLoad, hp]; exact h1
      · exact h1
    have := pLoad_det h7 h1'
    subst this
    unfold mkOdd at h8
    split at h8
    · cases h8
    · cases h8
      have hat := hr cond .self
      simp only [At, hk, Cast.sem] at hat
      simp only [Holds, E.eval, h3, hat.2]
      simp only [ZV.bool.injEq, decide_eq_true_eq]
      rw [← odd_toInt hat.1]
      constructor
      · intro h; rw [h]
      · intro h; exact lv_eq h
  · cases he

/-- On the way that is taken the constraint holds. -/
theorem fair_holds (hB : Blocks P) {k : Nat} {ign : Bool} {a b cond t f : Nat} (hbr : P.br a = some (cond, t, f)) (htf : t ≠ f)
    (ht : Takes P ρ a b) (hg : Fair P ρ m cond) {e : CAV} (he : pEdge P k ign a b (some e)) : Holds m e.1 := by
  obtain ⟨hr, ht⟩ := ht cond t f hbr
  cases hg with
  | good hg => exact (good_holds hB hbr htf hr hg he).2 ht
  | phi hk => exact phi_holds hbr hk he
  | odd hk hl hn h1 => exact (trunc_holds hbr hk hl hn hr he).2 h1

/-! ## Constants and sorts -/

/-- Expressions of the right sorts. -/
def E.WS : E → Prop
  | .ar _ a b => a.WS ∧ b.WS ∧ a.sort = b.sort ∧ a.sort ≠ .bool
  | .lo _ a b => a.WS ∧ b.WS ∧ a.sort = b.sort ∧ a.sort ≠ .int
  | .sh _ a b => a.WS ∧ b.WS ∧ a.sort = .bv ∧ b.sort = .bv
  | .rel _ a b => a.WS ∧ b.WS ∧ a.sort = b.sort
  | .not a => a.WS ∧ a.sort = .bool
  | .or a b => a.WS ∧ b.WS ∧ a.sort = .bool ∧ b.sort = .bool
  | .odd a => a.WS ∧ a.sort ≠ .bool
  | _ => True

/-- The sort of a value. -/
def ZV.sort : ZV → Srt
  | .bool _ => .bool
  | .int _ => .int
  | .bv _ => .bv

theorem WS_sort : ∀ {e : E}, e.WS → (e.eval m).sort = e.sort := by
  intro e
  induction e with
  | const s n => intro _; cases s <;> rfl
  | intV | bvV | boolV => intro _; rfl
  | ar o a b iha ihb =>
    rintro ⟨h1, h2, h3, h4⟩
    have ha := iha h1; have hb := ihb h2
    simp only [E.eval, E.sort]
    split <;> simp_all [ZV.sort]
  | lo o a b iha ihb =>
    rintro ⟨h1, h2, h3, h4⟩
    have ha := iha h1; have hb := ihb h2
    simp only [E.eval, E.sort]
    split <;> simp_all [ZV.sort]
  | sh o a b iha ihb =>
    rintro ⟨h1, h2, h3, h4⟩
    have ha := iha h1; have hb := ihb h2
    simp only [E.eval, E.sort]
    split <;> simp_all [ZV.sort]
  | rel o a b iha ihb =>
    rintro ⟨h1, h2, h3⟩
    simp only [E.eval, E.sort]
    split <;> rfl
  | not a iha =>
    rintro ⟨h1, h2⟩
    have ha := iha h1
    simp only [E.eval, E.sort]
    split
    · rfl
    · rw [ha, h2]
  | or a b iha ihb =>
    rintro ⟨h1, h2, h3, h4⟩
    have ha := iha h1
    simp only [E.eval, E.sort]
    split
    · rfl
    · rw [ha, h3]
  | odd a iha =>
    rintro ⟨h1, h2⟩
    have ha := iha h1
    simp only [E.eval, E.sort]
    split
    · rfl
    · rfl
    · rename_i h3 h4
      revert ha h3 h4
      cases a.eval m <;> simp [ZV.sort]

/-- What is true of all translations. -/
def Inv (P : Prog) (e : CAV) : Prop := e.1.WS ∧ ∀ n ∈ e.1.consts, n = "PHI" ∨ ∃ v ∈ e.2, Names P v n

theorem Inv.two {a b : CAV} {x : E} (ha : Inv P a) (hb : Inv P b) (hx : x.WS) (hc : x.consts = a.1.consts ++ b.1.consts) :
    Inv P (x, a.2 ++ b.2) := by
  refine ⟨hx, ?_⟩
  intro n hn
  have hn : n ∈ x.consts := hn
  rw [hc, List.mem_append] at hn
  rcases hn with hn | hn
  · rcases ha.2 n hn with h | ⟨v, h1, h2⟩
    · exact .inl h
    · exact .inr ⟨v, List.mem_append_left _ h1, h2⟩
  · rcases hb.2 n hn with h | ⟨v, h1, h2⟩
    · exact .inl h
    · exact .inr ⟨v, List.mem_append_right _ h1, h2⟩

theorem constOf_const {n : String} {t : Ty} {x : E} (h : constOf n t = .ok x) : ∃ s, x = .const s n := by
  unfold constOf at h
  split at h <;> first | (cases h; exact ⟨_, rfl⟩) | (split at h <;> cases h <;> exact ⟨_, rfl⟩) | cases h

theorem inv_alloca {a : Nat} {e : CAV} (h : pAlloca P a e) : Inv P e := by
  unfold pAlloca at h
  split at h
  · rename_i d n t hk
    obtain ⟨x, h1, rfl⟩ := h
    obtain ⟨s, rfl⟩ := constOf_const h1
    refine ⟨trivial, fun y hy => .inr ⟨a, by simp, .inl ⟨d, n, t, hk, ?_⟩⟩⟩
    simpa [E.consts, varName_eq] using hy
  · exact h.elim

theorem inv_gep {g : Nat} {e : CAV} (h : pGEP P g e) : Inv P e := by
  unfold pGEP at h
  split at h
  · rename_i s i t ops hk
    obtain ⟨_, rfl⟩ := h
    refine ⟨trivial, fun y hy => .inr ⟨g, by simp, .inr (.inl ⟨s, i, t, ops, hk, ?_⟩)⟩⟩
    simpa [E.consts] using hy
  · exact h.elim

theorem inv_load {k v p : Nat} {e : CAV} (h : pLoad P k v p e) : Inv P e := by
  unfold pLoad at h
  split at h
  · exact inv_alloca h
  · exact inv_gep h
  · obtain ⟨b, _, h⟩ := h
    unfold pBase at h
    split at h
    · exact inv_alloca h
    · exact inv_gep h
    · exact h.elim

theorem inv_call {u : Nat} {f : Option Callee} {ops : List Nat} {e : CAV} (hk : P.kind u = .call f ops) (h : getCall f = .ok e) : Inv P e := by
  unfold getCall at h
  split at h
  · cases h
  · rename_i f
    split at h
    · cases h
    · rename_i n hn
      obtain ⟨x, h1, h2⟩ := Out.bind_ok.1 h
      cases h2
      obtain ⟨s, rfl⟩ := constOf_const h1
      refine ⟨trivial, fun y hy => .inr ⟨f.id, by simp, .inr (.inr ⟨u, f, ops, hk, rfl, ?_⟩)⟩⟩
      rw [hn]; simp [E.consts] at hy; rw [hy]

theorem inv_operand' {k : Nat} {R : Nat → CAV → Prop} (hR : ∀ v e, R v e → Inv P e) {g : Bool} {v : Nat} {e : CAV}
    (h : pOperand' P k R g v e) : Inv P e := by
  unfold pOperand' at h
  split at h
  · unfold intLit at h
    split at h
    · cases h; exact ⟨trivial, fun _ h => by cases h⟩
    · cases h
  · rw [h]; exact ⟨trivial, fun _ h => by cases h⟩
  · split at h
    · exact inv_alloca h
    · exact inv_load h
  · exact hR _ _ h
  · rename_i hk; exact inv_call hk h
  · exact inv_gep h.2
  · exact h.elim

theorem inv_operand {k : Nat} {R : Nat → CAV → Prop} (hR : ∀ v e, R v e → Inv P e) {g : Bool} {v : Nat} {e : CAV}
    (h : pOperand P k R g v e) : Inv P e := by
  unfold pOperand at h
  split at h <;> exact inv_operand' hR h

theorem mkAr_ok {o : AOp} {a b x : E} (h : mkAr o a b = .ok x) : x = .ar o a b ∧ a.sort = b.sort ∧ a.sort ≠ .bool := by
  unfold mkAr at h
  split at h
  · rename_i h1; cases h; exact ⟨rfl, by rw [h1.1, h1.2], by rw [h1.1]; simp⟩
  · split at h
    · rename_i h1; cases h; exact ⟨rfl, by rw [h1.1, h1.2.1], by rw [h1.1]; simp⟩
    · cases h

theorem mkLo_ok {o : LOp} {a b x : E} (h : mkLo o a b = .ok x) : x = .lo o a b ∧ a.sort = b.sort ∧ a.sort ≠ .int := by
  unfold mkLo at h
  split at h
  · rename_i h1; cases h; exact ⟨rfl, h1⟩
  · cases h

theorem mkSh_ok {o : SOp} {a b x : E} (h : mkSh o a b = .ok x) : x = .sh o a b ∧ a.sort = .bv ∧ b.sort = .bv := by
  unfold mkSh at h
  split at h
  · rename_i h1; cases h; exact ⟨rfl, h1⟩
  · cases h

theorem binE_ok {o : BOp} {a b x : E} (ha : a.WS) (hb : b.WS) (h : binE o a b = .ok x) : x.WS ∧ x.consts = a.consts ++ b.consts := by
  unfold binE at h
  split at h <;> first
    | (obtain ⟨rfl, h1, h2⟩ := mkAr_ok h; exact ⟨⟨ha, hb, h1, h2⟩, rfl⟩)
    | (obtain ⟨rfl, h1, h2⟩ := mkLo_ok h; exact ⟨⟨ha, hb, h1, h2⟩, rfl⟩)
    | (obtain ⟨rfl, h1, h2⟩ := mkSh_ok h; exact ⟨⟨ha, hb, h1, h2⟩, rfl⟩)

theorem cmpE_ok {p : Pred} {a b x : E} (ha : a.WS) (hb : b.WS) (h : cmpE p a b = .ok x) :
    x.WS ∧ x.consts = a.consts ++ b.consts ∧ x.sort = .bool := by
  have key : ∀ {o : ROp}, mkRel o a b = .ok x → x.WS ∧ x.consts = a.consts ++ b.consts ∧ x.sort = .bool := by
    intro o h
    unfold mkRel at h
    split at h
    · rename_i h1; cases h; exact ⟨⟨ha, hb, h1.1⟩, rfl, rfl⟩
    · cases h
  unfold cmpE at h
  split at h <;> first | exact key h | cases h

theorem inv_bin : ∀ {k v : Nat} {e : CAV}, pBin P k v e → Inv P e := by
  intro k
  induction k with
  | zero => intro v e h; exact h.elim
  | succ k ih =>
    intro v e h
    simp only [pBin] at h
    split at h
    · obtain ⟨a, b, x, h1, h2, h3, rfl⟩ := h
      have ha := inv_operand (fun _ _ => ih) h1
      have hb := inv_operand (fun _ _ => ih) h2
      obtain ⟨h4, h5⟩ := binE_ok ha.1 hb.1 h3
      exact ha.two hb h4 h5
    · exact h.elim

theorem inv_cmp {k v : Nat} {e : CAV} (h : pCmp P k v e) : Inv P e ∧ e.1.sort = .bool := by
  unfold pCmp at h
  split at h
  · obtain ⟨a, b, x, h1, h2, h3, rfl⟩ := h
    have ha := inv_operand (fun _ _ => inv_bin) h1
    have hb := inv_operand (fun _ _ => inv_bin) h2
    obtain ⟨h4, h5, h6⟩ := cmpE_ok ha.1 hb.1 h3
    exact ⟨ha.two hb h4 h5, h6⟩
  · exact h.elim

theorem inv_phiIn {k i : Nat} {t : Ty} {ty : E} (ht : constOf "PHI" t = .ok ty) {e : CAV} (h : pPhiIn P k ty i e) : Inv P e := by
  unfold pPhiIn at h
  split at h
  · obtain ⟨s, rfl⟩ := constOf_const ht
    rw [h]
    split
    · exact ⟨trivial, fun _ h => by cases h⟩
    · split
      · exact ⟨trivial, fun _ h => by cases h⟩
      · exact ⟨trivial, fun n h => .inl (by simpa [E.consts] using h)⟩
  · exact inv_load h
  · rename_i hk; exact inv_call hk h
  · exact (inv_cmp h).1
  · exact h.elim

theorem inv_phiLoop {k : Nat} {t : Ty} {ty : E} (ht : constOf "PHI" t = .ok ty) : ∀ {is : List Nat} {s e : CAV}, Inv P s → s.1.sort = .bool →
    pPhiLoop P k ty is s e → Inv P e ∧ e.1.sort = .bool := by
  intro is
  induction is with
  | nil => intro s e hs hb h; rw [h]; exact ⟨hs, hb⟩
  | cons i is ih =>
    intro s e hs hb h
    obtain ⟨r, x, h1, h2, h3⟩ := h
    have hr := inv_phiIn ht h1
    unfold mkOr at h2
    split at h2
    · rename_i h4
      cases h2
      exact ih (s := (.or s.1 r.1, s.2 ++ r.2)) (hs.two hr ⟨hs.1, hr.1, h4.1, h4.2⟩ rfl) rfl h3
    · cases h2

theorem inv_way {ign : Bool} {t f succ : Nat} {T : CAV → Prop} (hT : ∀ e, T e → Inv P e) {e : CAV} (h : pWay P ign t f succ T e) :
    Inv P e ∧ ((∀ e, T e → e.1.sort = .bool) → e.1.sort = .bool) := by
  unfold pWay at h
  split at h
  · exact ⟨hT e h, fun hb => hb e h⟩
  · split at h
    · obtain ⟨x, n, h1, h2, rfl⟩ := h
      unfold mkNot at h2
      split at h2
      · rename_i h3
        cases h2
        have := hT x h1
        exact ⟨⟨⟨this.1, h3⟩, this.2⟩, fun _ => rfl⟩
      · cases h2
    · exact h.elim

theorem eraseDups_nodup {l : List Nat} : l.eraseDups.Nodup := by
  have key : ∀ n (l : List Nat), l.length ≤ n → l.eraseDups.Nodup := by
    intro n
    induction n with
    | zero => intro l hl; obtain rfl : l = [] := List.length_eq_zero_iff.1 (by omega); simp
    | succ n ih =>
      intro l hl
      cases l with
      | nil => simp
      | cons a l =>
        rw [List.eraseDups_cons, List.nodup_cons]
        refine ⟨?_, ih _ ?_⟩
        · intro h
          rw [List.mem_eraseDups] at h
          simp at h
        · have := List.length_filter_le (fun b => !b == a) l
          simp at hl; omega
  exact key _ l (Nat.le_refl _)

theorem inv_edge {k : Nat} {ign : Bool} {a b cond t f : Nat} (hbr : P.br a = some (cond, t, f)) {e : CAV} (he : pEdge P k ign a b (some e)) :
    Inv P e ∧ e.2.Nodup ∧ ((∀ o l r, P.kind cond ≠ .bin o l r) → (∀ g ops, P.kind cond = .call g ops → ∀ x, g = some x → x.ret = .int 1) →
      e.1.sort = .bool) := by
  simp only [pEdge, hbr] at he
  split at he
  · obtain ⟨y, h5, h6⟩ := he
    cases h6
    suffices h : Inv P y ∧ ((∀ o l r, P.kind cond ≠ .bin o l r) → (∀ g ops, P.kind cond = .call g ops → ∀ x, g = some x → x.ret = .int 1) →
        y.1.sort = .bool) by
      refine ⟨⟨h.1.1, fun n hn => ?_⟩, eraseDups_nodup, h.2⟩
      rcases h.1.2 n hn with h | ⟨v, h1, h2⟩
      · exact .inl h
      · exact .inr ⟨v, List.mem_eraseDups.2 h1, h2⟩
    unfold pCond at h5
    split at h5
    · have := inv_way (fun _ h => (inv_cmp h).1) h5
      exact ⟨this.1, fun _ _ => this.2 fun _ h => (inv_cmp h).2⟩
    · rename_i o l r hk
      exact ⟨(inv_way (fun _ => inv_bin) h5).1, fun h => (h _ _ _ hk).elim⟩
    · rename_i g ops hk
      have := inv_way (fun _ h => inv_call hk h) h5
      refine ⟨this.1, fun _ hc => this.2 fun x hx => ?_⟩
      unfold getCall at hx
      split at hx
      · cases hx
      · rename_i g
        split at hx
        · cases hx
        · have := hc _ _ hk _ rfl
          simp only [this, constOf, Out.bind] at hx
          cases hx; rfl
    · obtain ⟨_, h5⟩ := h5
      split at h5
      · obtain ⟨x, o, h1, h2, rfl⟩ := h5
        have hx := inv_load h1
        unfold mkOdd at h2
        split at h2
        · cases h2
        · rename_i hb
          cases h2
          exact ⟨⟨⟨hx.1, hb⟩, hx.2⟩, fun _ _ => rfl⟩
      · exact h5.elim
    · unfold pPhi at h5
      split at h5
      · obtain ⟨ty, h1, h2⟩ := h5
        have := inv_phiLoop h1 (s := (.boolV true, [])) ⟨trivial, fun _ h => by cases h⟩ rfl h2
        exact ⟨this.1, fun _ _ => this.2⟩
      · exact h5.elim
    · exact h5.elim
  · cases he

/-! ## Caches -/

theorem reached_ok (hw : WF P) {c : Cache} (h : Reached P c) : CacheOk P c := by
  induction h with
  | new => intro v e h; cases h
  | step _ h ih => exact (edge_sound hw ih h).2

theorem conOf_sound (hw : WF P) {k : Nat} {ign : Bool} {a b : Nat} {e : CAV} (h : conOf P k ign a b = some e) :
    ∃ k', pEdge P k' ign a b (some e) := by
  unfold conOf at h
  split at h
  · rename_i r c' hr
    rw [← h]
    exact (edge_sound hw (reached_ok hw .new) hr).1
  · cases h

end Phasar.PathConstr
