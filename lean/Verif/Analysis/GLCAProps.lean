import Verif.Analysis.GLCA
/-!
# C39: the value sets of the generalized constant analysis over-approximate

Specification.  A set stands for the values it lists, or for all values if it contains the
unknown value.  Floating-point values are represented up to the comparison the code uses for
its sets (`FP.same`).  The integer operations are specified by their arithmetic on the
unsigned and signed readings of the operands, as in the LLVM language reference.
-/
namespace Phasar.GLCA

variable {P : FP}

/-- Spec: the set `S` stands for the value `v`. -/
def Covers (S : List (EV P)) (v : EV P) : Prop :=
  EV.top ∈ S ∨ ∃ e ∈ S, e = v ∨ same e v = some true

/-- Spec: `z` is the result of an LLVM integer instruction on `x` and `y`; no `z` is related
if the instruction is undefined or its result poison. -/
def LLVM (op : Op) {w : Nat} (x y z : BitVec w) : Prop :=
  match op with
  | .add => z.toNat = (x.toNat + y.toNat) % 2 ^ w
  | .sub => z.toNat = (x.toNat + (2 ^ w - y.toNat)) % 2 ^ w
  | .mul => z.toNat = x.toNat * y.toNat % 2 ^ w
  | .udiv => y.toNat ≠ 0 ∧ z.toNat = x.toNat / y.toNat
  | .urem => y.toNat ≠ 0 ∧ z.toNat = x.toNat % y.toNat
  | .sdiv => y.toNat ≠ 0 ∧ z.toInt = x.toInt.tdiv y.toInt
  | .srem => y.toNat ≠ 0 ∧ z.toInt = x.toInt.tmod y.toInt
  | .shl => y.toNat < w ∧ z.toNat = x.toNat * 2 ^ y.toNat % 2 ^ w
  | .lshr => y.toNat < w ∧ z.toNat = x.toNat / 2 ^ y.toNat
  | .ashr => y.toNat < w ∧ z.toInt = x.toInt / 2 ^ y.toNat
  | .and => ∀ i, z.getLsbD i = (x.getLsbD i && y.getLsbD i)
  | .or => ∀ i, z.getLsbD i = (x.getLsbD i || y.getLsbD i)
  | .xor => ∀ i, z.getLsbD i = (x.getLsbD i != y.getLsbD i)
  | _ => False

/-! ## Helper lemmas -/

theorem C39.same_int {w : Nat} {x : BitVec w} {e : EV P}
    (h : same e (.int w x) = some true) : e = .int w x := by
  cases e with
  | top => simp [same] at h
  | fp _ => simp [same] at h
  | str _ => simp [same] at h
  | int w' y =>
    by_cases hw : w = w'
    · subst hw
      simp [same] at h
      rw [h]
    · simp only [same, dif_neg hw] at h
      split at h <;> simp at h

theorem C39.same_top {e : EV P} (h : same e (.top) = some true) : e = .top := by
  cases e <;> simp [same] at h
  rfl

theorem C39.covers_top {S : List (EV P)} (h : Covers S .top) : EV.top ∈ S := by
  rcases h with h | ⟨e, he, h | h⟩
  · exact h
  · exact h ▸ he
  · exact C39.same_top h ▸ he

theorem C39.has_true : ∀ {S : List (EV P)} {v : EV P}, has S v = some true →
    ∃ e ∈ S, same e v = some true := by
  intro S v
  induction S with
  | nil => simp [has]
  | cons e S ih =>
    intro h
    simp only [has] at h
    split at h
    · cases h
    · exact ⟨e, List.mem_cons_self, by assumption⟩
    · obtain ⟨e', he', hs⟩ := ih h
      exact ⟨e', List.mem_cons_of_mem _ he', hs⟩

theorem C39.insert_covers {S S' : List (EV P)} {v : EV P} (h : insert S v = some S') :
    (∀ e ∈ S, e ∈ S') ∧ Covers S' v ∧ (∀ e ∈ S', e ∈ S ∨ e = v) := by
  unfold insert at h
  split at h
  · cases h
  · cases h
    rename_i hh
    obtain ⟨e, he, hs⟩ := C39.has_true hh
    exact ⟨fun _ h => h, Or.inr ⟨e, he, Or.inr hs⟩, fun _ h => Or.inl h⟩
  · cases h
    refine ⟨fun e he => by simp [he], Or.inr ⟨v, by simp, Or.inl rfl⟩, fun e he => ?_⟩
    simpa using he

theorem C39.covers_mono {S S' : List (EV P)} {v : EV P} (hs : ∀ e ∈ S, e ∈ S')
    (h : Covers S v) : Covers S' v := by
  rcases h with h | ⟨e, he, h⟩
  · exact Or.inl (hs _ h)
  · exact Or.inr ⟨e, hs _ he, h⟩

theorem C39.build_covers : ∀ {L acc S : List (EV P)}, build L acc = some S →
    (∀ e ∈ acc, e ∈ S) ∧ (∀ v ∈ L, Covers S v) ∧ (∀ e ∈ S, e ∈ acc ∨ e ∈ L) := by
  intro L
  induction L with
  | nil =>
    intro acc S h
    simp only [build, Option.some.injEq] at h
    subst h
    exact ⟨fun _ h => h, by simp, fun _ h => Or.inl h⟩
  | cons v vs ih =>
    intro acc S h
    simp only [build, Option.bind_eq_some_iff] at h
    obtain ⟨acc', hi, h⟩ := h
    obtain ⟨h1, h2, h3⟩ := C39.insert_covers hi
    obtain ⟨g1, g2, g3⟩ := ih h
    refine ⟨fun e he => g1 _ (h1 _ he), fun u hu => ?_, fun e he => ?_⟩
    · rcases List.mem_cons.1 hu with rfl | hu
      · exact C39.covers_mono g1 h2
      · exact g2 _ hu
    · rcases g3 _ he with h | h
      · rcases h3 _ h with h | rfl
        · exact Or.inl h
        · exact Or.inr List.mem_cons_self
      · exact Or.inr (List.mem_cons_of_mem _ h)

theorem C39.joinLoop_covers {max : Nat} : ∀ {R acc S : List (EV P)},
    joinLoop max R acc = some S →
    S = [.top] ∨ ((∀ e ∈ acc, e ∈ S) ∧ (∀ v ∈ R, Covers S v) ∧ (∀ e ∈ S, e ∈ acc ∨ e ∈ R) ∧
      (acc.length ≤ max → S.length ≤ max)) := by
  intro R
  induction R with
  | nil =>
    intro acc S h
    simp only [joinLoop, Option.some.injEq] at h
    subst h
    exact Or.inr ⟨fun _ h => h, by simp, fun _ h => Or.inl h, id⟩
  | cons v vs ih =>
    intro acc S h
    simp only [joinLoop] at h
    split at h
    · cases h
    · rename_i acc' hi
      split at h
      · cases h; exact Or.inl rfl
      · rename_i hle
        obtain ⟨h1, h2, h3⟩ := C39.insert_covers hi
        rcases ih h with h | ⟨g1, g2, g3, g4⟩
        · exact Or.inl h
        · refine Or.inr ⟨fun e he => g1 _ (h1 _ he), fun u hu => ?_, fun e he => ?_, fun _ => g4 (by omega)⟩
          · rcases List.mem_cons.1 hu with rfl | hu
            · exact C39.covers_mono g1 h2
            · exact g2 _ hu
          · rcases g3 _ he with h | h
            · rcases h3 _ h with h | rfl
              · exact Or.inl h
              · exact Or.inr List.mem_cons_self
            · exact Or.inr (List.mem_cons_of_mem _ h)

theorem C39.build_length : ∀ {L acc S : List (EV P)}, build L acc = some S →
    S.length ≤ acc.length + L.length := by
  intro L
  induction L with
  | nil => intro acc S h; simp only [build, Option.some.injEq] at h; subst h; simp
  | cons v vs ih =>
    intro acc S h
    simp only [build, Option.bind_eq_some_iff] at h
    obtain ⟨acc', hi, h⟩ := h
    have := ih h
    have h2 : acc'.length ≤ acc.length + 1 := by
      unfold insert at hi
      split at hi
      · cases hi
      · cases hi; omega
      · cases hi; simp
    simp only [List.length_cons]
    omega

theorem C39.binLoop_covers {op : Op} {max : Nat} : ∀ {ps : List (EV P × EV P)}
    {acc S : List (EV P)}, binLoop op max ps acc = some S →
    S = [.top] ∨ ((∀ e ∈ acc, e ∈ S) ∧
      (∀ p ∈ ps, ∃ z, binOp1 op p.1 p.2 = some z ∧ Covers S z) ∧
      (acc.length ≤ max → S.length ≤ max) ∧
      (∀ e ∈ S, e ∈ acc ∨ ∃ p ∈ ps, binOp1 op p.1 p.2 = some e)) := by
  intro ps
  induction ps with
  | nil =>
    intro acc S h
    simp only [binLoop, Option.some.injEq] at h
    subst h
    exact Or.inr ⟨fun _ h => h, by simp, id, fun _ h => Or.inl h⟩
  | cons p ps ih =>
    obtain ⟨a, b⟩ := p
    intro acc S h
    simp only [binLoop] at h
    split at h
    · cases h
    · rename_i z hz
      split at h
      · cases h
      · rename_i acc' hi
        split at h
        · cases h; exact Or.inl rfl
        · rename_i hle
          obtain ⟨h1, h2, h3⟩ := C39.insert_covers hi
          rcases ih h with h | ⟨g1, g2, g3, g4⟩
          · exact Or.inl h
          · refine Or.inr ⟨fun e he => g1 _ (h1 _ he), fun u hu => ?_, fun _ => g3 (by omega), fun e he => ?_⟩
            · rcases List.mem_cons.1 hu with rfl | hu
              · exact ⟨z, hz, C39.covers_mono g1 h2⟩
              · exact g2 _ hu
            · rcases g4 _ he with h | ⟨p, hp, h⟩
              · rcases h3 _ h with h | rfl
                · exact Or.inl h
                · exact Or.inr ⟨(a, b), List.mem_cons_self, hz⟩
              · exact Or.inr ⟨p, List.mem_cons_of_mem _ hp, h⟩

theorem C39.isTop_iff {L : List (EV P)} : isTopValue L = true ↔ L = [.top] := by
  unfold isTopValue
  split <;> simp_all

/-! ## Join -/

/-- The join covers both arguments. -/
theorem C39_join_covers {L R S : List (EV P)} {max : Nat} (h : join L R max = some S)
    {v : EV P} (hv : v ∈ L ∨ v ∈ R) : Covers S v := by
  unfold join at h
  split at h
  · cases h; exact Or.inl (by simp)
  · simp only [Option.bind_eq_some_iff] at h
    obtain ⟨B, hb, h⟩ := h
    obtain ⟨-, b2, -⟩ := C39.build_covers hb
    rcases C39.joinLoop_covers h with rfl | ⟨g1, g2, -, -⟩
    · exact Or.inl (by simp)
    · rcases hv with hv | hv
      · exact C39.covers_mono g1 (b2 _ hv)
      · exact g2 _ hv

/-- The join is precise: it is the unknown value, or all its members stem from the arguments. -/
theorem C39_join_precise {L R S : List (EV P)} {max : Nat} (h : join L R max = some S) :
    S = [.top] ∨ ∀ e ∈ S, e ∈ L ∨ e ∈ R := by
  unfold join at h
  split at h
  · cases h; exact Or.inl rfl
  · simp only [Option.bind_eq_some_iff] at h
    obtain ⟨B, hb, h⟩ := h
    obtain ⟨-, -, b3⟩ := C39.build_covers hb
    rcases C39.joinLoop_covers h with rfl | ⟨-, -, g3, -⟩
    · exact Or.inl rfl
    · refine Or.inr fun e he => ?_
      rcases g3 e he with h | h
      · rcases b3 e h with h | h
        · simp at h
        · exact Or.inl h
      · exact Or.inr h

/-- Exceeding the bound yields the unknown value, if the left argument respects the bound. -/
theorem C39_join_bound_partial {L R S : List (EV P)} {max : Nat} (h : join L R max = some S)
    (hL : L.length ≤ max) : S = [.top] ∨ S.length ≤ max := by
  unfold join at h
  split at h
  · cases h; exact Or.inl rfl
  · simp only [Option.bind_eq_some_iff] at h
    obtain ⟨B, hb, h⟩ := h
    have := C39.build_length hb
    rcases C39.joinLoop_covers h with rfl | ⟨-, -, -, g4⟩
    · exact Or.inl rfl
    · exact Or.inr (g4 (by simp at this; omega))

/-! ## Binary operations -/

/-- A binary operation on sets covers the operation on every pair of members (and the
operation is defined on every pair unless the result is unknown). -/
theorem C39_binop_covers {op : Op} {L R S : List (EV P)} {max : Nat}
    (h : performBinOp op L R max = some S) {a b : EV P} (ha : a ∈ L) (hb : b ∈ R) :
    EV.top ∈ S ∨ ∃ z, binOp1 op a b = some z ∧ Covers S z := by
  unfold performBinOp at h
  split at h
  · cases h; exact Or.inl (by simp)
  · rcases C39.binLoop_covers h with rfl | ⟨-, g2, -, -⟩
    · exact Or.inl (by simp)
    · refine Or.inr (g2 (a, b) ?_)
      simp only [List.mem_flatMap, List.mem_map]
      exact ⟨a, ha, b, hb, rfl⟩

/-- A result of a set operation is the unknown value or contains results of pairs only. -/
theorem C39_binop_precise {op : Op} {L R S : List (EV P)} {max : Nat}
    (h : performBinOp op L R max = some S) {e : EV P} (he : e ∈ S) :
    S = [.top] ∨ ∃ a ∈ L, ∃ b ∈ R, binOp1 op a b = some e := by
  unfold performBinOp at h
  split at h
  · cases h; exact Or.inl rfl
  · rcases C39.binLoop_covers h with rfl | ⟨-, -, -, g4⟩
    · exact Or.inl rfl
    · rcases g4 e he with h | ⟨⟨a, b⟩, hp, h⟩
      · simp at h
      · simp only [List.mem_flatMap, List.mem_map, Prod.mk.injEq] at hp
        obtain ⟨a', ha, b', hb, rfl, rfl⟩ := hp
        exact Or.inr ⟨a', ha, b', hb, h⟩

/-- Exceeding the bound yields the unknown value, for any arguments. -/
theorem C39_binop_bound {op : Op} {L R S : List (EV P)} {max : Nat}
    (h : performBinOp op L R max = some S) : S = [.top] ∨ S.length ≤ max := by
  unfold performBinOp at h
  split at h
  · cases h; exact Or.inl rfl
  · rcases C39.binLoop_covers h with rfl | ⟨-, -, g3, -⟩
    · exact Or.inl rfl
    · exact Or.inr (g3 (by simp))

theorem C39.toInt_pow {w : Nat} (x : BitVec w) (n : Nat) :
    (x.sshiftRight n).toInt = x.toInt / 2 ^ n := by
  rw [BitVec.toInt_sshiftRight, Int.shiftRight_eq_div_pow]
  simp

/-- Every integer operation except subtraction computes the LLVM result. -/
theorem C39_intop_partial {op : Op} (hop : op ≠ .sub) {w : Nat} {x y z : BitVec w}
    (h : LLVM op x y z) : binOp1 (P := P) op (.int w x) (.int w y) = some (.int w z) := by
  have key : intOp op x y = some z := by
    have ne0 : y.toNat ≠ 0 → ¬ y = 0#w := fun h h' => h (by simp [h'])
    cases op with
    | sub => exact absurd rfl hop
    | fadd => exact h.elim
    | fsub => exact h.elim
    | fmul => exact h.elim
    | fdiv => exact h.elim
    | frem => exact h.elim
    | add =>
      have h : z.toNat = (x.toNat + y.toNat) % 2 ^ w := h
      simp only [intOp, Option.some.injEq]
      exact BitVec.eq_of_toNat_eq (by rw [BitVec.toNat_add, h])
    | mul =>
      have h : z.toNat = x.toNat * y.toNat % 2 ^ w := h
      simp only [intOp, Option.some.injEq]
      exact BitVec.eq_of_toNat_eq (by rw [BitVec.toNat_mul, h])
    | udiv =>
      obtain ⟨h0, h⟩ : y.toNat ≠ 0 ∧ z.toNat = x.toNat / y.toNat := h
      simp only [intOp, if_neg (ne0 h0), Option.some.injEq]
      exact BitVec.eq_of_toNat_eq (by rw [BitVec.udiv_eq, BitVec.toNat_udiv, h])
    | urem =>
      obtain ⟨h0, h⟩ : y.toNat ≠ 0 ∧ z.toNat = x.toNat % y.toNat := h
      simp only [intOp, if_neg (ne0 h0), Option.some.injEq]
      exact BitVec.eq_of_toNat_eq (by rw [BitVec.umod_eq, BitVec.toNat_umod, h])
    | sdiv =>
      obtain ⟨h0, h⟩ : y.toNat ≠ 0 ∧ z.toInt = x.toInt.tdiv y.toInt := h
      simp only [intOp, if_neg (ne0 h0), Option.some.injEq]
      apply BitVec.eq_of_toInt_eq
      rw [BitVec.toInt_sdiv, ← h, BitVec.toInt_bmod_cancel]
    | srem =>
      obtain ⟨h0, h⟩ : y.toNat ≠ 0 ∧ z.toInt = x.toInt.tmod y.toInt := h
      simp only [intOp, if_neg (ne0 h0), Option.some.injEq]
      exact BitVec.eq_of_toInt_eq (by rw [BitVec.toInt_srem, h])
    | shl =>
      obtain ⟨h0, h⟩ : y.toNat < w ∧ z.toNat = x.toNat * 2 ^ y.toNat % 2 ^ w := h
      simp only [intOp, Option.some.injEq]
      exact BitVec.eq_of_toNat_eq (by rw [BitVec.toNat_shiftLeft, Nat.shiftLeft_eq, h])
    | lshr =>
      obtain ⟨h0, h⟩ : y.toNat < w ∧ z.toNat = x.toNat / 2 ^ y.toNat := h
      simp only [intOp, Option.some.injEq]
      exact BitVec.eq_of_toNat_eq (by
        rw [BitVec.toNat_ushiftRight, Nat.shiftRight_eq_div_pow, h])
    | ashr =>
      obtain ⟨h0, h⟩ : y.toNat < w ∧ z.toInt = x.toInt / 2 ^ y.toNat := h
      simp only [intOp, Option.some.injEq]
      exact BitVec.eq_of_toInt_eq (by rw [C39.toInt_pow, h])
    | and =>
      have h : ∀ i, z.getLsbD i = (x.getLsbD i && y.getLsbD i) := h
      simp only [intOp, Option.some.injEq]
      exact BitVec.eq_of_getLsbD_eq (fun i _ => by rw [BitVec.getLsbD_and, h])
    | or =>
      have h : ∀ i, z.getLsbD i = (x.getLsbD i || y.getLsbD i) := h
      simp only [intOp, Option.some.injEq]
      exact BitVec.eq_of_getLsbD_eq (fun i _ => by rw [BitVec.getLsbD_or, h])
    | xor =>
      have h : ∀ i, z.getLsbD i = (x.getLsbD i != y.getLsbD i) := h
      simp only [intOp, Option.some.injEq]
      exact BitVec.eq_of_getLsbD_eq (fun i _ => by rw [BitVec.getLsbD_xor, h])
  simp [binOp1, key]

/-- End to end for integers: whatever the LLVM instruction yields on two integers the sets
stand for is again stood for by the result.  Missing: subtraction (`C39_sub_false`). -/
theorem C39_binop_partial {op : Op} (hop : op ≠ .sub) {L R S : List (EV P)} {max : Nat}
    (h : performBinOp op L R max = some S) {w : Nat} {x y z : BitVec w}
    (hx : Covers L (.int w x)) (hy : Covers R (.int w y)) (hz : LLVM op x y z) :
    Covers S (.int w z) := by
  have lift : ∀ {T : List (EV P)} {u : BitVec w}, Covers T (.int w u) →
      EV.top ∈ T ∨ (EV.int w u) ∈ T := by
    intro T u h
    rcases h with h | ⟨e, he, h | h⟩
    · exact Or.inl h
    · exact Or.inr (h ▸ he)
    · exact Or.inr (C39.same_int h ▸ he)
  have topl : ∀ b : EV P, binOp1 op .top b = some .top := by intro b; cases b <;> rfl
  have topr : ∀ a : EV P, binOp1 op a .top = some .top := by intro a; cases a <;> rfl
  have fin : ∀ {a b : EV P}, a ∈ L → b ∈ R → (a = .top ∨ b = .top) → Covers S (.int w z) := by
    intro a b ha hb hab
    rcases C39_binop_covers h ha hb with h | ⟨u, hu, hc⟩
    · exact Or.inl h
    · have : u = .top := by
        rcases hab with rfl | rfl
        · rw [topl] at hu; exact (Option.some.inj hu).symm
        · rw [topr] at hu; exact (Option.some.inj hu).symm
      subst this
      exact Or.inl (C39.covers_top hc)
  rcases lift hx with hx | hx
  · rcases lift hy with hy | hy
    · exact fin hx hy (Or.inl rfl)
    · exact fin hx hy (Or.inl rfl)
  · rcases lift hy with hy | hy
    · exact fin hx hy (Or.inr rfl)
    · rcases C39_binop_covers h hx hy with h | ⟨u, hu, hc⟩
      · exact Or.inl h
      · rw [C39_intop_partial hop hz] at hu
        cases hu
        exact hc

/-! ## No failure on well-typed sets -/

/-- All integers of the set have width `w`, as for the values of one IR variable; floats do
not occur. -/
def Typed (w : Nat) (S : List (EV P)) : Prop :=
  ∀ e ∈ S, e = .top ∨ ∃ x : BitVec w, e = .int w x

theorem C39.has_typed {w : Nat} : ∀ {S : List (EV P)}, Typed w S → ∀ {v : EV P},
    (v = .top ∨ ∃ x : BitVec w, v = .int w x) → ∃ b, has S v = some b := by
  intro S
  induction S with
  | nil => intro _ v _; exact ⟨_, rfl⟩
  | cons e S ih =>
    intro ht v hv
    have he := ht e List.mem_cons_self
    obtain ⟨b, hb⟩ : ∃ b, same e v = some b := by
      rcases he with rfl | ⟨x, rfl⟩ <;> rcases hv with rfl | ⟨y, rfl⟩ <;> simp [same]
    simp only [has, hb]
    cases b
    · exact ih (fun e he => ht e (List.mem_cons_of_mem _ he)) hv
    · exact ⟨_, rfl⟩

theorem C39.insert_typed {w : Nat} {S : List (EV P)} (ht : Typed w S) {v : EV P}
    (hv : v = .top ∨ ∃ x : BitVec w, v = .int w x) :
    ∃ S', insert S v = some S' ∧ Typed w S' := by
  obtain ⟨b, hb⟩ := C39.has_typed ht hv
  have : ∃ S', insert S v = some S' := by
    unfold insert; rw [hb]; cases b <;> exact ⟨_, rfl⟩
  obtain ⟨S', hS⟩ := this
  refine ⟨S', hS, fun e he => ?_⟩
  rcases (C39.insert_covers hS).2.2 e he with h | rfl
  · exact ht e h
  · exact hv

/-- On sets of unknowns and integers of one width the join does not fail. -/
theorem C39_join_defined {w : Nat} {L R : List (EV P)} (hL : Typed w L) (hR : Typed w R)
    (max : Nat) : ∃ S, join L R max = some S := by
  have hb : ∀ {L acc : List (EV P)}, Typed w L → Typed w acc →
      ∃ S, build L acc = some S ∧ Typed w S := by
    intro L
    induction L with
    | nil => intro acc _ h; exact ⟨acc, rfl, h⟩
    | cons v vs ih =>
      intro acc h1 h2
      obtain ⟨acc', hi, ht⟩ := C39.insert_typed h2 (h1 v List.mem_cons_self)
      obtain ⟨S, hS, hT⟩ := ih (fun e he => h1 e (List.mem_cons_of_mem _ he)) ht
      exact ⟨S, by simp [build, hi, hS], hT⟩
  have hj : ∀ {R acc : List (EV P)}, Typed w R → Typed w acc →
      ∃ S, joinLoop max R acc = some S := by
    intro R
    induction R with
    | nil => intro acc _ h; exact ⟨acc, rfl⟩
    | cons v vs ih =>
      intro acc h1 h2
      obtain ⟨acc', hi, ht⟩ := C39.insert_typed h2 (h1 v List.mem_cons_self)
      obtain ⟨S, hS⟩ := ih (fun e he => h1 e (List.mem_cons_of_mem _ he)) ht
      simp only [joinLoop, hi]
      split
      · exact ⟨_, rfl⟩
      · exact ⟨S, hS⟩
  unfold join
  split
  · exact ⟨_, rfl⟩
  · obtain ⟨B, hB, hT⟩ := hb hL (acc := []) (by intro e he; simp at he)
    obtain ⟨S, hS⟩ := hj hR hT
    exact ⟨S, by simp [hB, hS]⟩

/-- On sets of unknowns and integers of one width a binary operation does not fail, provided
the right set has no zero. -/
theorem C39_binop_defined_partial {w : Nat} {op : Op} {L R : List (EV P)} (hL : Typed w L)
    (hR : Typed w R) (h0 : EV.int w 0#w ∉ R) (max : Nat) :
    ∃ S, performBinOp op L R max = some S := by
  have one : ∀ {a b : EV P}, a ∈ L → b ∈ R →
      ∃ z, binOp1 op a b = some z ∧ (z = .top ∨ ∃ x : BitVec w, z = .int w x) := by
    intro a b ha hb
    rcases hL a ha with rfl | ⟨x, rfl⟩
    · exact ⟨.top, by cases b <;> rfl, Or.inl rfl⟩
    · rcases hR b hb with rfl | ⟨y, rfl⟩
      · exact ⟨.top, rfl, Or.inl rfl⟩
      · have hy : ¬ y = 0#w := fun h => h0 (h ▸ hb)
        have : ∃ z, intOp op x y = some z := by
          cases op <;> simp [intOp, hy]
        obtain ⟨z, hz⟩ := this
        exact ⟨.int w z, by simp [binOp1, hz], Or.inr ⟨z, rfl⟩⟩
  have loop : ∀ {ps : List (EV P × EV P)} {acc : List (EV P)},
      (∀ p ∈ ps, p.1 ∈ L ∧ p.2 ∈ R) → Typed w acc → ∃ S, binLoop op max ps acc = some S := by
    intro ps
    induction ps with
    | nil => intro acc _ _; exact ⟨acc, rfl⟩
    | cons p ps ih =>
      obtain ⟨a, b⟩ := p
      intro acc hp ht
      obtain ⟨ha, hb⟩ := hp (a, b) List.mem_cons_self
      obtain ⟨z, hz, hzt⟩ := one ha hb
      obtain ⟨acc', hi, ht'⟩ := C39.insert_typed ht hzt
      obtain ⟨S, hS⟩ := ih (fun p h => hp p (List.mem_cons_of_mem _ h)) ht'
      simp only [binLoop, hz, hi]
      split
      · exact ⟨_, rfl⟩
      · exact ⟨S, hS⟩
  unfold performBinOp
  split
  · exact ⟨_, rfl⟩
  · refine loop (fun p hp => ?_) (by intro e he; simp at he)
    simp only [List.mem_flatMap, List.mem_map] at hp
    obtain ⟨a, ha, b, hb, rfl⟩ := hp
    exact ⟨ha, hb⟩

/-! ## The order on sets -/

theorem C39.allIn_covers : ∀ {L R : List (EV P)}, allIn L R = some true →
    ∀ v ∈ L, ∃ e ∈ R, same e v = some true := by
  intro L
  induction L with
  | nil => simp
  | cons e L ih =>
    intro R h v hv
    simp only [allIn] at h
    split at h
    · cases h
    · cases h
    · rename_i hh
      rcases List.mem_cons.1 hv with rfl | hv
      · exact C39.has_true hh
      · exact ih h v hv

/-- `operator<` is sound as "square subset": the larger set stands for every member of the
smaller one. -/
theorem C39_less {L R : List (EV P)} (h : less L R = some true) {v : EV P} (hv : v ∈ L) :
    Covers R v := by
  unfold less at h
  split at h
  · split at h
    · cases h
    · cases h
    · split at h
      · rename_i he
        simp at he
        simp [he] at hv
      · unfold setEq at h
        split at h
        · rename_i hl
          have hlen : R.length = 1 := by simpa using hl
          match R, hlen with
          | [r], _ =>
            obtain ⟨e, he, hs⟩ := C39.allIn_covers h r (by simp)
            simp at he
            subst he
            have : r = .top := by cases r <;> simp [same] at hs; rfl
            exact Or.inl (by simp [this])
        · cases h
  · obtain ⟨e, he, hs⟩ := C39.allIn_covers h v hv
    exact Or.inr ⟨e, he, Or.inr hs⟩

/-! ## Typecasts -/

/-- Truncation below 31 bits keeps the truncated bits (only the width of the stored integer
is not adjusted). -/
theorem C39_typecast_partial {w bits : Nat} (hb : bits < 31) (hw : bits < w) (x : BitVec w) :
    ∃ z : BitVec w, typecast1 (P := P) .integer bits (.int w x) = some (.int w z) ∧
      z.toNat = x.toNat % 2 ^ bits := by
  refine ⟨x &&& BitVec.ofNat w (2 ^ bits - 1), ?_, ?_⟩
  · simp only [typecast1]
    rw [if_neg (by omega), if_neg (by omega)]
  · rw [BitVec.toNat_and, BitVec.toNat_ofNat]
    have h1 : (2 : Nat) ^ bits < 2 ^ w := Nat.pow_lt_pow_right (by omega) hw
    have h2 : (0 : Nat) < 2 ^ bits := Nat.pow_pos (by omega)
    rw [Nat.mod_eq_of_lt (by omega : 2 ^ bits - 1 < 2 ^ w), Nat.and_two_pow_sub_one_eq_mod]

/-- Every member of a set that is cast is represented by its cast. -/
theorem C39_typecast_covers {S T : List (EV P)} {d : Dest} {bits : Nat}
    (h : performTypecast S d bits = some T) {v : EV P} (hv : v ∈ S) :
    EV.top ∈ T ∨ ∃ z, typecast1 d bits v = some z ∧ Covers T z := by
  have loop : ∀ {vs acc T : List (EV P)}, castLoop d bits vs acc = some T →
      T = [.top] ∨ ((∀ e ∈ acc, e ∈ T) ∧
        ∀ v ∈ vs, ∃ z, typecast1 d bits v = some z ∧ Covers T z) := by
    intro vs
    induction vs with
    | nil =>
      intro acc T h
      simp only [castLoop, Option.some.injEq] at h
      subst h
      exact Or.inr ⟨fun _ h => h, by simp⟩
    | cons v vs ih =>
      intro acc T h
      simp only [castLoop] at h
      split at h
      · cases h
      · cases h; exact Or.inl rfl
      · rename_i z _ hz
        simp only [Option.bind_eq_some_iff] at h
        obtain ⟨acc', hi, h⟩ := h
        obtain ⟨h1, h2, -⟩ := C39.insert_covers hi
        rcases ih h with h | ⟨g1, g2⟩
        · exact Or.inl h
        · refine Or.inr ⟨fun e he => g1 _ (h1 _ he), fun u hu => ?_⟩
          rcases List.mem_cons.1 hu with rfl | hu
          · exact ⟨_, hz, C39.covers_mono g1 h2⟩
          · exact g2 _ hu
  unfold performTypecast at h
  split at h
  · cases h; exact Or.inl (by simp)
  · rcases loop h with rfl | ⟨-, g⟩
    · exact Or.inl (by simp)
    · exact Or.inr (g v hv)

/-! ## The unknown value, strings, binary edge functions -/

/-- The unknown value absorbs: a join with it is the unknown value; operations on it, or on a set without values, give it. -/
theorem C39_unknown (op : Op) (S : List (EV P)) (d : Dest) (bits max : Nat) :
    join [.top] S max = some [.top] ∧ join S [.top] max = some [.top] ∧
    performBinOp op [.top] S max = some [.top] ∧ performBinOp op S [.top] max = some [.top] ∧
    performBinOp op [] S max = some [.top] ∧ performBinOp op S [] max = some [.top] ∧
    performTypecast (P := P) [.top] d bits = some [.top] ∧ performTypecast (P := P) [] d bits = some [.top] := by
  simp [join, performBinOp, performTypecast, isTopValue]

/-- Strings: addition is concatenation, everything else is unknown. -/
theorem C39_strings (op : Op) (s t : String) :
    binOp1 (P := P) op (.str s) (.str t) = some (if op = .add ∨ op = .fadd then .str (s ++ t) else .top) := by
  cases op <;> simp [binOp1]

/-- Values of different kinds, and the unknown value, combine to the unknown value. -/
theorem C39_mixed (op : Op) (w : Nat) (x : BitVec w) (s : String) (v : EV P) :
    binOp1 (P := P) op (.int w x) (.str s) = some .top ∧ binOp1 (P := P) op (.str s) (.int w x) = some .top ∧
    binOp1 op .top v = some .top ∧ binOp1 op v .top = some .top := by
  refine ⟨rfl, rfl, ?_, ?_⟩ <;> cases v <;> rfl

/-- The edge function of a binary operation with a constant operand computes the operation with the constant on the right
side: whatever the instruction yields is stood for, and the result respects the bound of the domain. -/
theorem C39_binary_edge_partial {op : Op} (hop : op ≠ .sub) {const src S : List (EV P)} {left : Bool}
    (h : binaryTarget op const left src = some S) {w : Nat} {c x z : BitVec w}
    (hc : Covers const (.int w c)) (hx : Covers src (.int w x))
    (hz : if left then LLVM op c x z else LLVM op x c z) :
    Covers S (.int w z) ∧ (S = [.top] ∨ S.length ≤ 2) := by
  cases left with
  | true => exact ⟨C39_binop_partial hop h hc hx hz, C39_binop_bound h⟩
  | false => exact ⟨C39_binop_partial hop h hx hc hz, C39_binop_bound h⟩

/-- `operator<` is strict: equal sets, in particular a set and itself, are not smaller than each other. -/
theorem C39_less_strict {L R : List (EV P)} (h : setEq L R = some true) : less L R = some false := by
  have hl : L.length = R.length := by
    unfold setEq at h
    split at h
    · assumption
    · cases h
  unfold less
  rw [if_pos (by omega), h]

/-! ## What is false -/

/-- A floating-point side for the examples: the integers. -/
def C39.P0 : FP where
  F := Int
  same a b := a == b
  add a b := some (a + b)
  sub a b := some (a - b)
  mul a b := some (a * b)
  div a b := some (a / b)
  rem a b := some (a % b)
  toBits x w := BitVec.ofInt w x
  ofInt _ x := x

instance : DecidableEq C39.P0.F := inferInstanceAs (DecidableEq Int)

/-- Decidable equality of values, for the examples. -/
instance C39.decEq [DecidableEq P.F] : DecidableEq (EV P)
  | .top, .top => isTrue rfl
  | .int w x, .int w' y =>
      if h : w = w' then
        if h' : h ▸ x = y then isTrue (by subst h; subst h'; rfl)
        else isFalse (by intro e; cases e; exact h' rfl)
      else isFalse (by intro e; cases e; exact h rfl)
  | .fp x, .fp y => if h : x = y then isTrue (by rw [h]) else isFalse (by intro e; cases e; exact h rfl)
  | .str x, .str y => if h : x = y then isTrue (by rw [h]) else isFalse (by intro e; cases e; exact h rfl)
  | .top, .int .. | .top, .fp _ | .top, .str _ | .int .., .top | .int .., .fp _ | .int .., .str _
  | .fp _, .top | .fp _, .int .. | .fp _, .str _ | .str _, .top | .str _, .int .. | .str _, .fp _ =>
      isFalse (by intro e; cases e)

/-- Shorthand for the examples: a 32-bit integer. -/
def C39.i (n : Int) : EV C39.P0 := .int 32 (BitVec.ofInt 32 n)

/-- Integer subtraction is wrong: `5 - 3` becomes 0. -/
theorem C39_sub_false : ¬ ∀ (L R S : List (EV C39.P0)) (x y z : BitVec 32),
    performBinOp .sub L R 2 = some S → Covers L (.int 32 x) → Covers R (.int 32 y) →
    LLVM .sub x y z → Covers S (.int 32 z) := by
  intro h
  have := h [C39.i 5] [C39.i 3] [C39.i 0] 5#32 3#32 2#32 (by decide)
    (Or.inr ⟨_, by decide, Or.inl rfl⟩) (Or.inr ⟨_, by decide, Or.inl rfl⟩)
    (by show (2#32).toNat = _; decide)
  rcases this with h | ⟨e, he, h | h⟩
  · revert h; decide
  · subst h; revert he; decide
  · rw [C39.same_int h] at he; revert he; decide

/-- The bound is not enforced if the left argument of a join already exceeds it; the join
then depends on the order of its arguments. -/
theorem C39_join_bound_false :
    join [C39.i 1, C39.i 2, C39.i 3] [] 2 = some [C39.i 1, C39.i 2, C39.i 3] ∧
    join [] [C39.i 1, C39.i 2, C39.i 3] 2 = some [EV.top] := by decide

/-- A constant division by zero fails an assertion instead of giving the unknown value. -/
theorem C39_div_zero_false : performBinOp .sdiv [C39.i 1] [C39.i 0] 2 = none := by decide

/-- A cast from 64 to 32 bits computes `1 << 32`, which is undefined. -/
theorem C39_trunc_false :
    performTypecast [(EV.int 64 7#64 : EV C39.P0)] .integer 32 = none := by decide

/-- A widening cast keeps the width, so the next operation with a constant of the wider type
fails an assertion. -/
theorem C39_ext_false :
    performTypecast [C39.i 7] .integer 64 = some [C39.i 7] ∧
    performBinOp .add [C39.i 7] [(EV.int 64 1#64 : EV C39.P0)] 2 = none := by decide

/-- A zero extension is treated as a sign extension: -1 (32 bits) stays -1 when read as the
64-bit value the set's users see, where LLVM's `zext` yields 4294967295. -/
theorem C39_zext_false :
    performTypecast [C39.i (-1)] .integer 64 = some [C39.i (-1)] ∧
    (BitVec.ofInt 32 (-1)).toInt ≠ ((BitVec.ofInt 32 (-1)).setWidth 64).toInt := by decide

/-- The bound used by the edge functions is the constant 2: configuring the analysis with a
maximum of 1 still gives sets of two values. -/
theorem C39_configured_false :
    binaryTarget .add [C39.i 1] false [C39.i 1, C39.i 2] = some [C39.i 2, C39.i 3] := by decide

/-- The binary edge function maps the empty set (no value yet) to the unknown value although
it maps `{1}` to `{2}`: it is not monotone. -/
theorem C39_empty_false :
    less ([] : List (EV C39.P0)) [C39.i 1] = some true ∧
    binaryTarget .add [C39.i 1] false [] = some [EV.top] ∧
    binaryTarget .add [C39.i 1] false [C39.i 1] = some [C39.i 2] ∧
    less [EV.top] [C39.i 2] = some false := by decide

/-! ## Non-vacuity -/

example : join [C39.i 1] [C39.i 2, C39.i 1] 2 = some [C39.i 1, C39.i 2] := by decide
example : join [C39.i 1, C39.i 3] [C39.i 2, C39.i 1] 2 = some [EV.top] := by decide
example : performBinOp .mul [C39.i 2, C39.i 3] [C39.i (-7)] 2 =
    some [C39.i (-14), C39.i (-21)] := by decide
example : performBinOp .mul [C39.i 2, C39.i 3] [C39.i 1, C39.i 5] 2 = some [EV.top] := by decide
example : LLVM .sdiv (BitVec.ofInt 8 (-7)) 2#8 (BitVec.ofInt 8 (-3)) :=
  ⟨by decide, by decide⟩
example : LLVM .ashr (BitVec.ofInt 8 (-7)) 1#8 (BitVec.ofInt 8 (-4)) :=
  ⟨by decide, by decide⟩
example : Typed 32 [C39.i 1, EV.top, C39.i 2] := by
  intro e he
  simp at he
  rcases he with rfl | rfl | rfl
  · exact Or.inr ⟨_, rfl⟩
  · exact Or.inl rfl
  · exact Or.inr ⟨_, rfl⟩
example : less [C39.i 1] [C39.i 2, C39.i 1] = some true := by decide
example : less [C39.i 1, C39.i 2] [EV.top] = some true := by decide
example : performTypecast [(EV.int 64 258#64 : EV C39.P0)] .integer 8 =
    some [EV.int 64 2#64] := by decide

example : ∃ S, binaryTarget .shl [C39.i 1] true [C39.i 3] = some S ∧ S = [C39.i 8] ∧
    LLVM .shl (BitVec.ofInt 32 1) (BitVec.ofInt 32 3) (BitVec.ofInt 32 8) :=
  ⟨_, by decide, rfl, by decide, by decide⟩
example : binOp1 (P := C39.P0) .add (.str "ab") (.str "c") = some (.str "abc") := by decide
example : setEq [C39.i 1, C39.i 2] [C39.i 2, C39.i 1] = some true := by decide

end Phasar.GLCA
