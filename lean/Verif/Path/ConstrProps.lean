import Verif.Path.ConstrSem
import Verif.Path.FilterProps

/-!
# Properties of the constraints of edges (C55)

`Runs`, `Takes`, `Good`, `Holds` and the other specifications are at the end of `Constr.lean`; `Feasible`, `Matched` and `Walk` are those
of C54.
-/

namespace Phasar.PathConstr

open Phasar

variable {P : Prog} {ρ : Nat → LV} {m : Mdl}

/-- C55, cache: whatever was translated before, the result of an edge is the one that is computed without a cache, and there is only one. -/
theorem C55_cache (hw : WF P) {c : Cache} (hc : Reached P c) (ign : Bool) (a b : Nat) :
    (∀ r, (∃ k c', edge P k ign a b c = .ok (r, c')) ↔ ∃ k c', edge P k ign a b (fun _ => none) = .ok (r, c')) ∧
    ∀ c2, Reached P c2 → ∀ k k' r r' c' c'', edge P k ign a b c = .ok (r, c') → edge P k' ign a b c2 = .ok (r', c'') → r = r' := by
  have hn : CacheOk P (fun _ => none) := reached_ok hw .new
  refine ⟨fun r => ⟨?_, ?_⟩, ?_⟩
  · rintro ⟨k, c', h⟩
    obtain ⟨k', h'⟩ := (edge_sound hw (reached_ok hw hc) h).1
    obtain ⟨c'', h'', _⟩ := edge_sim hw hn h'
    exact ⟨k', c'', h''⟩
  · rintro ⟨k, c', h⟩
    obtain ⟨k', h'⟩ := (edge_sound hw hn h).1
    obtain ⟨c'', h'', _⟩ := edge_sim hw (reached_ok hw hc) h'
    exact ⟨k', c'', h''⟩
  · intro c2 hc2 k k' r r' c' c'' h h'
    obtain ⟨k1, h1⟩ := (edge_sound hw (reached_ok hw hc) h).1
    obtain ⟨k2, h2⟩ := (edge_sound hw (reached_ok hw hc2) h').1
    exact pEdge_det h1 h2

/-- C55, steps: more steps do not change a result. -/
theorem C55_steps (hw : WF P) {c : Cache} (hc : Reached P c) {ign : Bool} {a b k : Nat} {r : Option CAV} {c' : Cache}
    (h : edge P k ign a b c = .ok (r, c')) : ∃ k0, ∀ k', k0 ≤ k' → ∃ c'', edge P k' ign a b c = .ok (r, c'') := by
  obtain ⟨k0, h0⟩ := (edge_sound hw (reached_ok hw hc) h).1
  refine ⟨k0, fun k' hk' => ?_⟩
  obtain ⟨c'', h'', _⟩ := edge_sim hw (reached_ok hw hc) (pEdge_mono hk' h0)
  exact ⟨c'', h''⟩

/-- C55, no constraint: an edge has no constraint only if it does not start at a conditional branch or does not go to the first statement of
one of the branch's blocks. -/
theorem C55_none (hw : WF P) {c : Cache} (hc : Reached P c) (ign : Bool) (a b : Nat) :
    (∃ k c', edge P k ign a b c = .ok (none, c')) ↔
      ∀ cond t f, P.br a = some (cond, t, f) → (P.block t).head? ≠ some (rewind P ign b) ∧ (P.block f).head? ≠ some (rewind P ign b) := by
  have key : ∀ k, pEdge P k ign a b none ↔
      ∀ cond t f, P.br a = some (cond, t, f) → (P.block t).head? ≠ some (rewind P ign b) ∧ (P.block f).head? ≠ some (rewind P ign b) := by
    intro k
    unfold pEdge
    split
    · rename_i h; simp [h]
    · rename_i cond t f h
      split
      · rename_i h1
        unfold isTarget at h1
        constructor
        · rintro ⟨_, _, h⟩; cases h
        · intro h2
          have := h2 _ _ _ h
          simp [this] at h1
      · rename_i h1
        unfold isTarget at h1
        simp only [true_iff]
        intro c' t' f' h'
        rw [h] at h'; cases h'
        simpa using h1
  constructor
  · rintro ⟨k, c', h⟩
    obtain ⟨k', h'⟩ := (edge_sound hw (reached_ok hw hc) h).1
    exact (key k').1 h'
  · intro h
    obtain ⟨c', h', _⟩ := edge_sim (k := 0) hw (reached_ok hw hc) ((key 0).2 h)
    exact ⟨0, c', h'⟩

/-- C55, exactness (partial: only for the conditions in `Good`): the translation of the edge ends with a constraint, and the constraint holds
in exactly the models for which the branch takes the edge. -/
theorem C55_exact_partial (hw : WF P) (hB : Blocks P) {c : Cache} (hc : Reached P c) {ign : Bool} {a b cond t f : Nat}
    (hbr : P.br a = some (cond, t, f)) (htf : t ≠ f) (hb : b ∈ P.block (P.parent b)) (hto : P.parent b = t ∨ P.parent b = f)
    (hd : ign = true → ∀ i, (P.block (P.parent b)).head? = some i → P.dbg i = false)
    (hr : Runs P ρ cond) (hg : Good P ρ m cond) :
    ∃ k0 e vs, (∀ k, k0 ≤ k → ∃ c', edge P k ign a b c = .ok (some (e, vs), c')) ∧ (Holds m e ↔ Takes P ρ a b) := by
  obtain ⟨k0, e, vs, h⟩ := good_edge hbr hb hto hd hr hg
  refine ⟨k0, e, vs, fun k hk => ?_, ?_⟩
  · obtain ⟨c', h', _⟩ := edge_sim hw (reached_ok hw hc) (pEdge_mono hk h)
    exact ⟨c', h'⟩
  · rw [good_holds hB hbr htf hr hg h]
    constructor
    · intro h1 c1 t1 f1 h2
      rw [hbr] at h2; cases h2
      exact ⟨hr, h1⟩
    · intro h1
      exact (h1 _ _ _ hbr).2

/-- C55, branches on a truncated variable (partial: only right on the way to the true block): the constraint of either way says that the
variable is odd. -/
theorem C55_trunc_partial (hw : WF P) {c c' : Cache} (hc : Reached P c) {ign : Bool} {k a b cond t f v p : Nat}
    (hbr : P.br a = some (cond, t, f)) (hk : P.kind cond = .cast .trunc 1 v) (hl : P.kind v = .load p) (hn : Num P ρ m v)
    (hr : Runs P ρ cond) {e : E} {vs : List Nat} (h : edge P k ign a b c = .ok (some (e, vs), c')) :
    Holds m e ↔ ρ cond = ⟨(1 : BitVec 1)⟩ := by
  obtain ⟨k', h'⟩ := (edge_sound hw (reached_ok hw hc) h).1
  exact trunc_holds hbr hk hl hn hr h'

/-- C55, phis: the constraint of a branch on a phi holds in every model. -/
theorem C55_phi (hw : WF P) {c c' : Cache} (hc : Reached P c) {ign : Bool} {k a b cond t f : Nat} (hbr : P.br a = some (cond, t, f))
    {ty : Ty} {ins : List Nat} (hk : P.kind cond = .phi ty ins) {e : E} {vs : List Nat}
    (h : edge P k ign a b c = .ok (some (e, vs), c')) (m : Mdl) : Holds m e := by
  obtain ⟨k', h'⟩ := (edge_sound hw (reached_ok hw hc) h).1
  exact phi_holds hbr hk h'

/-- C55, variables: the variables of a constraint are listed once each, and every constant in the constraint belongs to one of them. -/
theorem C55_variables (hw : WF P) {c c' : Cache} (hc : Reached P c) {ign : Bool} {k a b : Nat} {e : E} {vs : List Nat}
    (h : edge P k ign a b c = .ok (some (e, vs), c')) : vs.Nodup ∧ ∀ n ∈ e.consts, n = "PHI" ∨ ∃ v ∈ vs, Names P v n := by
  obtain ⟨k', h'⟩ := (edge_sound hw (reached_ok hw hc) h).1
  cases hbr : P.br a with
  | none => simp only [pEdge, hbr] at h'; cases h'
  | some x =>
    obtain ⟨cond, t, f⟩ := x
    have := inv_edge hbr h'
    exact ⟨this.2.1, this.1.2⟩

/-- C55, sorts: the constraint is true or false in every model, unless the condition is a binary operator or the call of a function
that does not return `i1`. -/
theorem C55_sort (hw : WF P) {c c' : Cache} (hc : Reached P c) {ign : Bool} {k a b cond t f : Nat} (hbr : P.br a = some (cond, t, f))
    (hn : ∀ o l r, P.kind cond ≠ .bin o l r) (hcall : ∀ g ops, P.kind cond = .call g ops → ∀ x, g = some x → x.ret = .int 1)
    {e : E} {vs : List Nat} (h : edge P k ign a b c = .ok (some (e, vs), c')) (m : Mdl) : ∃ v, e.eval m = .bool v := by
  obtain ⟨k', h'⟩ := (edge_sound hw (reached_ok hw hc) h).1
  have := inv_edge hbr h'
  have h1 := WS_sort (m := m) this.1.1
  rw [this.2.2 hn hcall] at h1
  revert h1
  simp only
  cases e.eval m with
  | bool v => intro _; exact ⟨v, rfl⟩
  | int => intro h; cases h
  | bv => intro h; cases h

/-- C55, casts: sign extension keeps the signed value; zero extension does if it is not negative, truncation if it fits. -/
theorem C55_casts {l c w l'} (hk : P.kind l = .cast c w l') (hr : At P ρ l)
    (hc : c = .sext ∨ c = .bits ∨ (c = .zext ∧ 0 ≤ (ρ l').bits.toInt) ∨
      (c = .trunc ∧ 0 < w ∧ -2 ^ (w - 1) ≤ (ρ l').bits.toInt ∧ (ρ l').bits.toInt < 2 ^ (w - 1))) : Arg P ρ l l' := by
  refine .cast hk ?_
  simp only [At, hk] at hr
  rcases hc with rfl | rfl | ⟨rfl, h0⟩ | ⟨rfl, h0, h1, h2⟩
  · simp only [Cast.sem] at hr
    rw [hr.2]
    exact BitVec.toInt_signExtend_of_le (Nat.le_of_lt hr.1)
  · simp only [Cast.sem] at hr
    rw [hr]
  · simp only [Cast.sem] at hr
    rw [hr.2]
    have hm := msb_of_nonneg h0
    have hlt := (ρ l').bits.isLt
    have hw1 : (2 : Nat) ^ (ρ l').w * 2 ≤ 2 ^ w := by
      rw [← Nat.pow_succ]
      exact Nat.pow_le_pow_right (by omega) hr.1
    have hnat : ((ρ l').bits.setWidth w).toNat = (ρ l').bits.toNat := by
      rw [BitVec.toNat_setWidth]
      exact Nat.mod_eq_of_lt (by omega)
    rw [BitVec.toInt_eq_toNat_of_msb hm, BitVec.toInt_eq_toNat_cond, hnat]
    show (if 2 * _ < 2 ^ w then _ else _) = _
    rw [if_pos (by omega)]
  · simp only [Cast.sem] at hr
    rw [hr.2]
    show ((ρ l').bits.setWidth w).toInt = (ρ l').bits.toInt
    have hp : (2 : Int) ^ w = 2 * 2 ^ (w - 1) := by
      obtain ⟨n, rfl⟩ : ∃ n, w = n + 1 := ⟨w - 1, by omega⟩
      rw [Int.pow_succ]; simp; omega
    rw [BitVec.toInt_setWidth]
    have : ((ρ l').bits.toNat : Int).bmod (2 ^ w) = (ρ l').bits.toInt.bmod (2 ^ w) := by
      rw [BitVec.toInt_eq_toNat_cond]
      split
      · rfl
      · obtain ⟨n, hn⟩ := Nat.le.dest (Nat.le_of_lt hr.1)
        have : ((2 ^ (ρ l').w : Nat) : Int) = ((2 ^ w : Nat) : Int) * (2 ^ n : Nat) := by
          rw [← hn, Nat.pow_add]; push_cast; rfl
        rw [this, Int.sub_mul_bmod_self_left]
    rw [this]
    rw [Int.bmod_eq_of_le_mul_two] <;> push_cast <;> omega

/-- C55, paths (partial: only for paths whose conditions are in `Fair`, with one model for all of them): the constraints of all steps of a
path that is taken hold. -/
theorem C55_path_partial (hw : WF P) (hB : Blocks P) (k : Nat) (ign : Bool) {path : List Nat}
    (h : ∀ q ∈ PathFilter.pairs path, ∀ c t f, P.br q.1 = some (c, t, f) → t ≠ f ∧ ∃ ρ, Takes P ρ q.1 q.2 ∧ Fair P ρ m c) :
    PathFilter.Feasible (conOf P k ign) Holds m path := by
  intro q hq e he
  obtain ⟨k', h'⟩ := conOf_sound hw he
  cases hbr : P.br q.1 with
  | none => simp only [pEdge, hbr] at h'; cases h'
  | some x =>
    obtain ⟨cond, t, f⟩ := x
    obtain ⟨htf, ρ, h1, h2⟩ := h q hq cond t f hbr
    exact fair_holds hB hbr htf h1 h2 h'

/-- C55, reported paths (partial as before): if there are not too many paths, a path through the recorded graph that is taken is reported. -/
theorem C55_reported_partial {z : PathFilter.Z3 E} (hs : z.Sound Holds) (hf : z.SeesFalse) (hw : WF P) (hB : Blocks P) (k : Nat) (ign : Bool)
    {p : PathFilter.Prog Nat} (hp : ∀ n, p.isCall n = true → p.isExit n = false) {addr : Nat → Nat}
    (ha : ∀ a b, addr a = addr b → a = b) (inst : Nat) {g : Adj.Graph (List Nat) Nat} (hg : PathFilter.C54.Suitable g) {leaf : Nat}
    (hl : PathFilter.findLeaf g = some leaf) :
    ∃ B, ∀ maxPaths, ∃ k0, ∀ k1, k0 ≤ k1 → ∃ ps, PathFilter.pathsTo z (conOf P k ign) p addr none maxPaths k1 inst g = some ps ∧
      (B < maxPaths → ∀ r ∈ g.roots, ∀ us, Dag.Walk g r us leaf → PathFilter.Matched p (Dag.labelsFwd g us ++ [inst]) →
        (∃ m, ∀ q ∈ PathFilter.pairs (Dag.labelsFwd g us ++ [inst]), ∀ c t f, P.br q.1 = some (c, t, f) →
          t ≠ f ∧ ∃ ρ, Takes P ρ q.1 q.2 ∧ Fair P ρ m c) → Dag.labelsFwd g us ∈ ps.map (·.1)) := by
  obtain ⟨B, h⟩ := PathFilter.C54_paths hs hf (conOf P k ign) hp ha none inst hg hl
  refine ⟨B, fun mp => ?_⟩
  obtain ⟨k0, h⟩ := h mp
  refine ⟨k0, fun k1 hk1 => ?_⟩
  obtain ⟨ps, h1, _, _, h2⟩ := h k1 hk1
  refine ⟨ps, h1, fun hB' r hr us hu hm hq => ?_⟩
  obtain ⟨m, hq⟩ := hq
  exact h2 hB' r hr us hu hm ⟨m, (fun a h => by cases h), C55_path_partial hw hB k ign hq⟩

/-- C55, loads: what is translated for a load is the constant of the first alloca or GEP that is found when the operands are followed. -/
theorem C55_base {c c' : Cache} (hw : WF P) (hc : Reached P c) {k v p : Nat} (hk : P.kind v = .load p) {r : CAV}
    (h : getLoad P k v p c = .ok (r, c')) : ∃ b s n, BaseOf P v b ∧ r = (.const s n, [b]) ∧ Names P b n := by
  have hp := ((getLoad_ok hk).2 c (reached_ok hw hc) r c' h).1
  have hA : ∀ b, pAlloca P b r → ∃ s n, r = (.const s n, [b]) ∧ Names P b n := by
    intro b hb
    unfold pAlloca at hb
    split at hb
    · rename_i d n t hkb
      obtain ⟨x, h1, rfl⟩ := hb
      obtain ⟨s, rfl⟩ := constOf_const h1
      exact ⟨s, _, rfl, .inl ⟨d, n, t, hkb, varName_eq d n⟩⟩
    · exact hb.elim
  have hG : ∀ b, pGEP P b r → ∃ s n, r = (.const s n, [b]) ∧ Names P b n := by
    intro b hb
    unfold pGEP at hb
    split at hb
    · rename_i n i t ops hkb
      exact ⟨_, _, hb.2, .inr (.inl ⟨n, i, t, ops, hkb, rfl⟩)⟩
    · exact hb.elim
  have hv : ∀ b, BaseOf P p b → BaseOf P v b := fun b hb =>
    .opnd (by rw [hk]; intros; simp) (by rw [hk]; intros; simp) (by rw [hk]; simp [opsOf]) hb
  unfold pLoad at hp
  split at hp
  · rename_i hkp
    obtain ⟨s, n, h1⟩ := hA p hp
    exact ⟨p, s, n, hv p (.alloca hkp), h1⟩
  · rename_i hkp
    obtain ⟨s, n, h1⟩ := hG p hp
    exact ⟨p, s, n, hv p (.gep hkp), h1⟩
  · obtain ⟨b, h1, h2⟩ := hp
    obtain ⟨v', hv', hb⟩ := track_base h1
    obtain rfl : v' = v := by simpa using hv'
    unfold pBase at h2
    split at h2
    · obtain ⟨s, n, h3⟩ := hA b h2
      exact ⟨b, s, n, hb, h3⟩
    · obtain ⟨s, n, h3⟩ := hG b h2
      exact ⟨b, s, n, hb, h3⟩
    · exact h2.elim

/-- C55, shifts: a shift is only translated for bit vectors, and has the value that the instruction has where that is defined. -/
theorem C55_shift {o : BOp} (ho : o = .shl ∨ o = .lshr ∨ o = .ashr) {a b e : E} (h : binE o a b = .ok e) :
    a.sort = .bv ∧ b.sort = .bv ∧
    ∀ m x y z, a.eval m = .bv x → b.eval m = .bv y → o.sem x y = some z → e.eval m = .bv z := by
  rcases ho with rfl | rfl | rfl <;> simp only [binE, mkSh] at h <;> split at h <;> first | cases h | skip
  all_goals
    rename_i hs
    refine ⟨hs.1, hs.2, fun m x y z hx hy hz => ?_⟩
    simp only [BOp.sem] at hz
    split at hz
    · cases hz
      simp only [E.eval, hx, hy]
    · cases hz

/-! ## Concrete cases -/

/-- A function: the list of its values, the conditional branch at each number, the blocks. -/
def C55.prog (vals : List VK) (brs : List (Nat × Nat × Nat × Nat)) (blocks : List (List Nat)) : Prog where
  kind v := (vals[v]?).getD .other
  br a := (brs.find? (·.1 == a)).map (·.2)
  block b := (blocks[b]?).getD []
  parent v := (blocks.findIdx? (·.contains v)).getD 99
  dbg _ := false

/-- Values by number. -/
def C55.vals (l : List LV) : Nat → LV := fun v => (l[v]?).getD ⟨0#1⟩

/-- A model of Z3 from the values of integer variables. -/
def C55.mdl (l : List (String × Int)) : Mdl where
  bool _ := false
  int n := ((l.find? (·.1 == n)).map (·.2)).getD 0
  bv n := if n = "p" then 8 else 16
  div0 _ := 0
  rem0 _ := 0

theorem C55.wf_of {vals : List VK} {brs : List (Nat × Nat × Nat × Nat)} {blocks : List (List Nat)}
    (h : ∀ x ∈ brs, ∃ ops, ((vals[x.1]?).getD .other) = .inst ops) : WF (C55.prog vals brs blocks) := by
  intro a x hx
  simp only [C55.prog, Option.map_eq_some_iff] at hx
  obtain ⟨y, h1, _⟩ := hx
  have h2 := List.find?_some h1
  simp only [beq_iff_eq] at h2
  obtain ⟨ops, h3⟩ := h y (List.mem_of_find?_eq_some h1)
  exact ⟨ops, by rw [h2] at h3; exact h3⟩

theorem C55.blocks_of {vals : List VK} {brs : List (Nat × Nat × Nat × Nat)} {blocks : List (List Nat)}
    (h : ∀ B < blocks.length, ∀ i ∈ (blocks[B]?).getD [], (blocks.findIdx? (·.contains i)).getD 99 = B) : Blocks (C55.prog vals brs blocks) := by
  intro B i hi
  simp only [C55.prog] at hi
  by_cases hB : B < blocks.length
  · exact h B hB i hi
  · rw [List.getElem?_eq_none (by omega)] at hi; cases hi

/-- The statements of the first block, the two blocks behind the branch. -/
def C55.bbs (n : Nat) : List (List Nat) := [[n], [n + 1], [n + 2]]

/-- `int x; if (x > 0) ...`: the branch is 4, its blocks start with 5 and 6. -/
def C55.pos : Prog :=
  C55.prog [.alloca (some "x") none (.int 32), .load 0, .constInt ⟨0#32⟩, .cmp .sgt 1 2, .inst [3]] [(4, 3, 1, 2)] (C55.bbs 4)

/-- `*(x + 1)` with a bitcast of the address, and `*y` with a load of the address: the first alloca or GEP that is found. -/
def C55.far : Prog :=
  C55.prog [.alloca none (some "x") .ptr, .gep (some "xi") "7" (.int 8) [0], .cast .bits 64 1, .load 2, .load 0, .load 4] [] []

example : ∃ c', getLoad C55.far 9 3 2 (fun _ => none) = .ok ((.const .int "xi", [1]), c') := ⟨_, rfl⟩

example : ∃ c' r, getLoad C55.far 9 5 4 (fun _ => none) = .ok (r, c') ∧ r = (.const .bv "x", [0]) ∧ BaseOf C55.far 5 0 ∧
    Names C55.far 0 "x" :=
  ⟨_, _, rfl, rfl, .opnd (by intros; simp [C55.far, C55.prog]) (by intros; simp [C55.far, C55.prog]) (u := 4) (by decide)
    (.opnd (by intros; simp [C55.far, C55.prog]) (by intros; simp [C55.far, C55.prog]) (u := 0) (by decide) (.alloca rfl)),
    .inl ⟨_, _, _, rfl, rfl⟩⟩

example : binE .lshr (.const .bv "p") (.bvV 2) = .ok (.sh .lshr (.const .bv "p") (.bvV 2)) ∧
    ∀ m : Mdl, (E.const .bv "p").eval m = .bv (m.bv "p") ∧ BOp.lshr.sem (m.bv "p") 2 = some (m.bv "p" >>> (2 : BitVec 64)) :=
  ⟨rfl, fun m => ⟨rfl, by simp [BOp.sem]⟩⟩

/-- The values with `x = 5` and with `x = -5`. -/
def C55.pos5 : Nat → LV := C55.vals [⟨0#64⟩, ⟨5#32⟩, ⟨0#32⟩, ⟨1#1⟩]
def C55.neg5 : Nat → LV := C55.vals [⟨0#64⟩, ⟨(-5 : BitVec 32)⟩, ⟨0#32⟩, ⟨0#1⟩]

theorem C55.pos_wf : WF C55.pos := C55.wf_of (by simp)
theorem C55.pos_blocks : Blocks C55.pos := C55.blocks_of (by decide)

theorem C55.pos_runs : Runs C55.pos C55.pos5 3 ∧ Runs C55.pos C55.neg5 3 := by
  constructor <;> intro v _
  · match v with
    | 0 => trivial
    | 1 => trivial
    | 2 => rfl
    | 3 => exact fun _ => ⟨32, 5, 0, rfl, rfl, rfl⟩
    | 4 => trivial
    | v + 5 => trivial
  · match v with
    | 0 => trivial
    | 1 => trivial
    | 2 => rfl
    | 3 => exact fun _ => ⟨32, -5, 0, rfl, rfl, rfl⟩
    | 4 => trivial
    | v + 5 => trivial

theorem C55.pos_good : Good C55.pos C55.pos5 (C55.mdl [("x", 5)]) 3 ∧ Good C55.pos C55.neg5 (C55.mdl [("x", -5)]) 3 :=
  ⟨.num (P := C55.pos) (p := .sgt) (l := 1) (r := 2) rfl (by decide) .same (.var (p := 0) (d := some "x") (n := none) (w := 32) rfl rfl (by decide) rfl) .same
      (.const (x := ⟨0#32⟩) rfl (by decide)) (fun h => by cases h),
    .num (P := C55.pos) (p := .sgt) (l := 1) (r := 2) rfl (by decide) .same (.var (p := 0) (d := some "x") (n := none) (w := 32) rfl rfl (by decide) rfl) .same
      (.const (x := ⟨0#32⟩) rfl (by decide)) (fun h => by cases h)⟩

/-- The constraint of the true edge is `x > 0`, of the false edge its negation, also after the other edge was translated. -/
example : ∃ c, edge C55.pos 3 true 4 5 (fun _ => none) = .ok (some (.rel .gt (.const .int "x") (.intV 0), [0]), c) ∧
    ∃ c', edge C55.pos 3 true 4 6 c = .ok (some (.not (.rel .gt (.const .int "x") (.intV 0)), [0]), c') := ⟨_, rfl, _, rfl⟩

example : ∃ k0 e vs, (∀ k, k0 ≤ k → ∃ c', edge C55.pos k true 4 6 (fun _ => none) = .ok (some (e, vs), c')) ∧
    (Holds (C55.mdl [("x", -5)]) e ↔ Takes C55.pos C55.neg5 4 6) :=
  C55_exact_partial C55.pos_wf C55.pos_blocks .new (cond := 3) (t := 1) (f := 2) rfl (by decide) (by decide) (.inr rfl) (by decide)
    C55.pos_runs.2 C55.pos_good.2

example : ∃ c, Reached C55.pos c ∧ (∃ e, c 0 = some e) ∧
    ∀ k k' r r' c' c'', edge C55.pos k true 4 6 c = .ok (r, c') → edge C55.pos k' true 4 6 (fun _ => none) = .ok (r', c'') → r = r' := by
  refine ⟨_, .step (k := 3) (ign := true) (a := 4) (b := 5) .new rfl, ⟨_, rfl⟩, ?_⟩
  exact (C55_cache C55.pos_wf (.step (k := 3) (ign := true) (a := 4) (b := 5) .new rfl) true 4 6).2 _ .new

example : (∃ k c', edge C55.pos k true 3 4 (fun _ => none) = .ok (none, c')) ∧ ¬ ∃ k c', edge C55.pos k true 4 5 (fun _ => none) = .ok (none, c') := by
  rw [C55_none C55.pos_wf .new, C55_none C55.pos_wf .new]
  constructor
  · intro c t f h; cases h
  · intro h; exact (h 3 1 2 rfl).1 rfl

example : ∃ k0, ∀ k', k0 ≤ k' → ∃ c'', edge C55.pos k' true 4 5 (fun _ => none) = .ok (some (.rel .gt (.const .int "x") (.intV 0), [0]), c'') :=
  C55_steps C55.pos_wf .new (k := 3) rfl

example : [0].Nodup ∧ ∀ n ∈ (E.rel .gt (.const .int "x") (.intV 0)).consts, n = "PHI" ∨ ∃ v ∈ [0], Names C55.pos v n :=
  C55_variables C55.pos_wf .new (ign := true) (k := 3) (a := 4) (b := 5) rfl

example (m : Mdl) : ∃ v, (E.rel .gt (.const .int "x") (.intV 0)).eval m = .bool v :=
  C55_sort C55.pos_wf .new (ign := true) (k := 3) (a := 4) (b := 5) (cond := 3) (t := 1) (f := 2) rfl (fun _ _ _ h => by cases h)
    (fun _ _ h => by cases h) rfl m

/-- `x + 2 * y == 7` with `x` a `char`, and `b && f()` for a Boolean `b`. -/
def C55.sum : Prog :=
  C55.prog [.alloca (some "x") none (.int 8), .load 0, .cast .sext 32 1, .alloca (some "y") none (.int 32), .load 3, .constInt ⟨2#32⟩, .bin .mul 5 4,
    .bin .add 2 6, .constInt ⟨7#32⟩, .cmp .eq 7 8, .inst [9], .other, .other, .alloca (some "b") none (.int 1), .load 13,
    .call (some ⟨some "f", .int 1, 50⟩) [], .bin .and 14 15, .inst [16]] [(10, 9, 1, 2), (17, 16, 4, 5)]
    [[10], [11], [12], [17], [18], [19]]

def C55.sumV : Nat → LV :=
  C55.vals [⟨0#64⟩, ⟨(-3 : BitVec 8)⟩, ⟨(-3 : BitVec 32)⟩, ⟨0#64⟩, ⟨5#32⟩, ⟨2#32⟩, ⟨10#32⟩, ⟨7#32⟩, ⟨7#32⟩, ⟨1#1⟩, ⟨0#1⟩, ⟨0#1⟩, ⟨0#1⟩, ⟨0#1⟩, ⟨1#1⟩, ⟨0#1⟩, ⟨0#1⟩]

def C55.sumM : Mdl := { C55.mdl [("x", -3), ("y", 5)] with bool := fun n => n == "b" }

theorem C55.sum_runs : ∀ v, At C55.sum C55.sumV v := by
  intro v
  match v with
  | 0 | 1 | 3 | 4 | 10 | 11 | 12 | 13 | 14 | 15 | 17 => trivial
  | 2 => exact ⟨by decide, rfl⟩
  | 5 | 8 => rfl
  | 6 => exact ⟨32, 2, 5, 10, rfl, rfl, rfl, rfl⟩
  | 7 => exact ⟨32, -3, 10, 7, rfl, rfl, rfl, rfl⟩
  | 9 => exact fun _ => ⟨32, 7, 7, rfl, rfl, rfl⟩
  | 16 => exact ⟨1, 1, 0, 0, rfl, rfl, rfl, rfl⟩
  | v + 18 => trivial

theorem C55.sum_cast : Arg C55.sum C55.sumV 2 1 := C55_casts (c := .sext) (w := 32) rfl (C55.sum_runs 2) (.inl rfl)

theorem C55.sum_num : Num C55.sum C55.sumV C55.sumM 7 := by
  refine .bin (P := C55.sum) (o := .add) (l := 2) (r := 6) (l' := 1) rfl C55.sum_cast
    (.var (p := 0) (d := some "x") (n := none) (w := 8) rfl rfl (by decide) rfl) .same
    (.bin (P := C55.sum) (o := .mul) (l := 5) (r := 4) rfl .same (.const (x := ⟨2#32⟩) rfl (by decide)) .same
      (.var (p := 3) (d := some "y") (n := none) (w := 32) rfl rfl (by decide) rfl) ?_) ?_
  · intro w x y hx hy
    obtain rfl : 32 = w := congrArg LV.w hx
    cases hx; cases hy; simp only [NoWrap]; decide
  · intro w x y hx hy
    obtain rfl : 32 = w := congrArg LV.w hx
    cases hx; cases hy; simp only [NoWrap]; decide

example : Good C55.sum C55.sumV C55.sumM 9 :=
  .num (P := C55.sum) (p := .eq) (l := 7) (r := 8) rfl (by decide) .same C55.sum_num .same (.const (x := ⟨7#32⟩) rfl (by decide)) (fun h => by cases h)

example : Good C55.sum C55.sumV C55.sumM 16 :=
  .logic (o := .and) (l := 14) (r := 15) rfl (.bin (o := .and) (l := 14) (r := 15) rfl (.inl rfl)
    (.var (p := 13) (d := some "b") (n := none) rfl rfl rfl) (.call (n := "f") (i := 50) (ops := []) rfl rfl))

/-- The constraint of `x + 2 * y == 7` lists `x` and `y`. -/
example : conOf C55.sum 5 true 10 11 =
    some (.rel .eq (.ar .add (.const .int "x") (.ar .mul (.intV 2) (.const .int "y"))) (.intV 7), [0, 3]) := rfl

/-- Zero extension of 200 as `i16` and truncation of -5: the signed value is kept. -/
example : Arg (C55.prog [.other, .cast .zext 32 0] [] []) (C55.vals [⟨200#16⟩, ⟨200#32⟩]) 1 0 ∧
    Arg (C55.prog [.other, .cast .trunc 8 0] [] []) (C55.vals [⟨(-5 : BitVec 32)⟩, ⟨(-5 : BitVec 8)⟩]) 1 0 :=
  ⟨C55_casts (c := .zext) (w := 32) rfl ⟨by decide, rfl⟩ (.inr (.inr (.inl ⟨rfl, by decide⟩))),
    C55_casts (c := .trunc) (w := 8) rfl ⟨by decide, rfl⟩ (.inr (.inr (.inr ⟨rfl, by decide, by decide, by decide⟩)))⟩

/-- A null check of a pointer. -/
def C55.nullp : Prog :=
  C55.prog [.alloca (some "p") none .ptr, .load 0, .null, .cmp .ne 1 2, .inst [3]] [(4, 3, 1, 2)] (C55.bbs 4)

example : Good C55.nullp (C55.vals [⟨0#64⟩, ⟨8#64⟩, ⟨0#64⟩, ⟨1#1⟩]) (C55.mdl []) 3 ∧
    conOf C55.nullp 3 true 4 6 = some (.not (.rel .ne (.const .bv "p") (.bvV 0)), [0]) :=
  ⟨.ptr (P := C55.nullp) (p := .ne) (l := 1) (r := 2) rfl (by decide) (.var (p := 0) (d := some "p") (n := none) rfl rfl rfl) (.null rfl) (fun h => by cases h), rfl⟩

/-- A phi of a comparison and a constant. -/
def C55.phi : Prog :=
  C55.prog [.alloca (some "x") none (.int 32), .load 0, .constInt ⟨0#32⟩, .cmp .sgt 1 2, .constInt ⟨0#1⟩, .phi (.int 1) [4, 3], .inst [5]]
    [(6, 5, 1, 2)] (C55.bbs 6)

example (m : Mdl) : Holds m (.or (.or (.boolV true) (.boolV false)) (.rel .gt (.const .int "x") (.intV 0))) :=
  C55_phi (P := C55.phi) (C55.wf_of (by simp)) .new (ign := true) (k := 3) (a := 6) (b := 8) (cond := 5) (t := 1) (f := 2) rfl rfl (vs := [0]) rfl m

/-- A branch on `trunc i8 %x to i1`. -/
def C55.tr : Prog := C55.prog [.alloca (some "x") none (.int 8), .load 0, .cast .trunc 1 1, .inst [2]] [(3, 2, 1, 2)] (C55.bbs 3)

theorem C55.tr_num (x : BitVec 8) (b : LV) {m : Mdl} (h : x.toInt = m.int "x") : Num C55.tr (C55.vals [⟨0#64⟩, ⟨x⟩, b]) m 1 :=
  .var (P := C55.tr) (p := 0) (d := some "x") (n := none) (w := 8) rfl rfl (by decide) h

theorem C55.tr_runs (x : BitVec 8) : Runs C55.tr (C55.vals [⟨0#64⟩, ⟨x⟩, ⟨x.setWidth 1⟩]) 2 := by
  intro v _
  match v with
  | 0 | 1 | 3 => trivial
  | 2 => exact ⟨(by decide : 1 < 8), rfl⟩
  | v + 4 => trivial

example : Holds (C55.mdl [("x", 7)]) (.odd (.const .int "x")) :=
  (C55_trunc_partial (P := C55.tr) (C55.wf_of (by simp)) .new (ign := true) (k := 3) (a := 3) (b := 4) (cond := 2) (t := 1) (f := 2) (v := 1) (p := 0)
    rfl rfl rfl (C55.tr_num 7 _ rfl) (C55.tr_runs 7) (vs := [0]) rfl).2 rfl

/-- A path with two branches. -/
def C55.two : Prog :=
  C55.prog [.alloca (some "x") none (.int 32), .load 0, .constInt ⟨0#32⟩, .cmp .sgt 1 2, .inst [3], .load 0, .cmp .slt 5 2, .inst [6]]
    [(4, 3, 1, 2), (7, 6, 3, 4)] [[4], [5, 6, 7], [8], [9], [10]]

/-- All statements of `x > 0` and then not `x < 0` with `x = 5`. -/
example : PathFilter.Feasible (conOf C55.two 4 true) Holds (C55.mdl [("x", 5)]) [4, 5, 6, 7, 10] := by
  refine C55_path_partial (P := C55.two) (C55.wf_of (by simp)) (C55.blocks_of (by decide)) 4 true ?_
  have runs : ∀ v, At C55.two (C55.vals [⟨0#64⟩, ⟨5#32⟩, ⟨0#32⟩, ⟨1#1⟩, ⟨0#1⟩, ⟨5#32⟩, ⟨0#1⟩]) v := by
    intro v
    match v with
    | 0 | 1 | 4 | 5 | 7 => trivial
    | 2 => rfl
    | 3 => exact fun _ => ⟨32, 5, 0, rfl, rfl, rfl⟩
    | 6 => exact fun _ => ⟨32, 5, 0, rfl, rfl, rfl⟩
    | v + 8 => trivial
  intro q hq c t f h
  simp only [PathFilter.pairs, List.tail, List.zip_cons_cons, List.zip_nil_right, List.mem_cons, List.not_mem_nil, or_false] at hq
  rcases hq with rfl | rfl | rfl | rfl
  · cases h
    refine ⟨by decide, C55.vals [⟨0#64⟩, ⟨5#32⟩, ⟨0#32⟩, ⟨1#1⟩, ⟨0#1⟩, ⟨5#32⟩, ⟨0#1⟩], ?_, .good ?_⟩
    · intro c t f h; cases h; exact ⟨fun v _ => runs v, .inl ⟨rfl, rfl⟩⟩
    · exact .num (P := C55.two) (p := .sgt) (l := 1) (r := 2) rfl (by decide) .same
        (.var (p := 0) (d := some "x") (n := none) (w := 32) rfl rfl (by decide) rfl) .same (.const (x := ⟨0#32⟩) rfl (by decide)) (fun h => by cases h)
  · cases h
  · cases h
  · cases h
    refine ⟨by decide, C55.vals [⟨0#64⟩, ⟨5#32⟩, ⟨0#32⟩, ⟨1#1⟩, ⟨0#1⟩, ⟨5#32⟩, ⟨0#1⟩], ?_, .good ?_⟩
    · intro c t f h; cases h; exact ⟨fun v _ => runs v, .inr ⟨rfl, rfl⟩⟩
    · exact .num (P := C55.two) (p := .slt) (l := 5) (r := 2) rfl (by decide) .same
        (.var (p := 0) (d := some "x") (n := none) (w := 32) rfl rfl (by decide) rfl) .same (.const (x := ⟨0#32⟩) rfl (by decide)) (fun h => by cases h)

/-- A Z3 on the expressions of this model: conjunction and disjunction of what is true. -/
def C55.z : PathFilter.Z3 E where
  tt := .boolV true
  ff := .boolV false
  and a b := .lo .and (.rel .eq a (.boolV true)) (.rel .eq b (.boolV true))
  or a b := .lo .or (.rel .eq a (.boolV true)) (.rel .eq b (.boolV true))
  simplify := id
  isFalse e := e = .boolV false
  check l := if l.any (fun e => match e with
    | .boolV false => true
    | .lo .and (.rel .eq (.boolV false) (.boolV true)) _ => true
    | _ => false) then .unsat else .unknown

theorem C55.z_sound : C55.z.Sound Holds ∧ C55.z.SeesFalse := by
  have nrm : ∀ (m : Mdl) (a : E), ∃ v, (E.rel .eq a (.boolV true)).eval m = .bool v ∧ (v = true ↔ Holds m a) := by
    intro m a
    simp only [E.eval, Holds]
    cases a.eval m <;> simp
  refine ⟨⟨fun _ => rfl, (fun _ h => by cases h), ?_, ?_, fun _ _ => Iff.rfl, ?_, ?_⟩, ?_⟩
  · intro m a b
    obtain ⟨v, h1, h2⟩ := nrm m a
    obtain ⟨w, h3, h4⟩ := nrm m b
    rw [← h2, ← h4]
    simp [C55.z, Holds, E.eval.eq_def m (.lo _ _ _), h1, h3]
  · intro m a b
    obtain ⟨v, h1, h2⟩ := nrm m a
    obtain ⟨w, h3, h4⟩ := nrm m b
    rw [← h2, ← h4]
    simp [C55.z, Holds, E.eval.eq_def m (.lo _ _ _), h1, h3]
  · intro m a h
    simp only [C55.z, decide_eq_true_eq] at h
    rw [h]; intro h; cases h
  · intro l h m hl
    simp only [C55.z] at h
    split at h
    · rename_i h1
      obtain ⟨e, h2, h3⟩ := List.any_eq_true.1 h1
      have h4 := hl e h2
      split at h3
      · cases h4
      · rename_i x
        obtain ⟨v, h5, -⟩ := nrm m (.boolV false)
        simp only [Holds, E.eval] at h4
        revert h4
        simp
        cases x.eval m <;> simp
      · cases h3
    · cases h
  · rintro l ⟨c, h1, h2⟩
    have : l.any (fun e => match e with
      | .boolV false => true
      | .lo .and (.rel .eq (.boolV false) (.boolV true)) _ => true
      | _ => false) = true := by
      refine List.any_eq_true.2 ⟨c, h1, ?_⟩
      rcases h2 with rfl | ⟨d, rfl⟩ <;> rfl
    simp only [C55.z, this, if_true]

/-- The path through the true edge of `C55.pos` is reported. -/
example : ∃ B, ∀ maxPaths, B < maxPaths → ∃ k0, ∀ k, k0 ≤ k → ∃ ps,
    PathFilter.pathsTo C55.z (conOf C55.pos 3 true) PathFilter.C54.plain id none maxPaths k 5 ⟨[[4], [5]], [[1], []], [0]⟩ = some ps ∧
      [4, 5] ∈ ps.map (·.1) := by
  obtain ⟨B, h⟩ := C55_reported_partial C55.z_sound.1 C55.z_sound.2 C55.pos_wf C55.pos_blocks 3 true (p := PathFilter.C54.plain)
    (fun _ h => by cases h) (addr := id) (fun _ _ h => h) 5 (g := ⟨[[4], [5]], [[1], []], [0]⟩) (leaf := 1)
    (PathFilter.C54.suitable rfl (by decide) (by decide) (by decide)) rfl
  refine ⟨B, fun mp hB => ?_⟩
  obtain ⟨k0, h⟩ := h mp
  refine ⟨k0, fun k hk => ?_⟩
  obtain ⟨ps, h1, h2⟩ := h k hk
  refine ⟨ps, h1, h2 hB 0 (.head _) [0, 1] (.cons ⟨_, rfl, .head _⟩ (.one (by decide))) ((PathFilter.matched_iff _ _).2 (by decide))
    ⟨C55.mdl [("x", 5)], ?_⟩⟩
  intro q hq c t f h
  simp only [PathFilter.pairs, Dag.labelsFwd] at hq
  rcases List.mem_cons.1 hq with rfl | hq
  · cases h
    refine ⟨by decide, C55.pos5, ?_, .good C55.pos_good.1⟩
    intro c t f h; cases h
    exact ⟨C55.pos_runs.1, .inl ⟨rfl, rfl⟩⟩
  · rcases List.mem_cons.1 hq with rfl | hq
    · cases h
    · cases hq

/-! ## Where the constraints are wrong -/

/-- The edge is taken with these values, the model has the value of every variable, and the constraint does not hold. -/
def C55.Wrong (P : Prog) (ρ : Nat → LV) (m : Mdl) (a b : Nat) : Prop :=
  Takes P ρ a b ∧ (∀ v p d n w, P.kind v = .load p → P.kind p = .alloca d n (.int w) → (ρ v).bits.toInt = m.int (srcName d n)) ∧
    (∀ v p d n, P.kind v = .load p → P.kind p = .alloca d n .ptr → ρ v = ⟨m.bv (srcName d n)⟩) ∧
    ∃ e, conOf P 9 true a b = some e ∧ ¬ Holds m e.1

/-- C55 is false for the false edge of a branch on a truncated variable: it gets the constraint of the true edge
(`LLVMPathConstraints.cpp:211-219`). -/
theorem C55_trunc_false : ∃ P ρ m a b, C55.Wrong P ρ m a b := by
  refine ⟨C55.tr, C55.vals [⟨0#64⟩, ⟨4#8⟩, ⟨0#1⟩], C55.mdl [("x", 4)], 3, 5, ?_, ?_, ?_, _, rfl, by unfold Holds; decide⟩
  · intro c t f h; cases h; exact ⟨C55.tr_runs 4, .inr ⟨rfl, rfl⟩⟩
  · intro v p d n w h1 h2
    match v with
    | 1 => cases h1; cases h2; rfl
    | 0 | 2 | 3 => cases h1
    | v + 4 => cases h1
  · intro v p d n h1 h2
    match v with
    | 1 => cases h1; cases h2
    | 0 | 2 | 3 => cases h1
    | v + 4 => cases h1

/-- `x <op> k` for an `int x` and then a comparison with a constant. -/
def C55.opcmp (w : Nat) (o : BOp) (k : BitVec w) (p : Pred) (r : BitVec w) : Prog :=
  C55.prog [.alloca (some "x") none (.int w), .load 0, .constInt ⟨k⟩, .bin o 1 2, .constInt ⟨r⟩, .cmp p 3 4, .inst [5]] [(6, 5, 1, 2)] (C55.bbs 6)

theorem C55.opcmp_wrong {w : Nat} {o : BOp} {k : BitVec w} {p : Pred} {r x y : BitVec w} (hy : o.sem x k = some y)
    (ht : p.sem y r = true) {m : Mdl} (hm : x.toInt = m.int "x")
    (h : ∃ e, conOf (C55.opcmp w o k p r) 9 true 6 7 = some e ∧ ¬ Holds m e.1) : ∃ P ρ m a b, C55.Wrong P ρ m a b := by
  refine ⟨C55.opcmp w o k p r, C55.vals [⟨0#64⟩, ⟨x⟩, ⟨k⟩, ⟨y⟩, ⟨r⟩, ⟨1#1⟩], m, 6, 7, ?_, ?_, ?_, h⟩
  · intro c t f h; cases h
    refine ⟨fun v _ => ?_, .inl ⟨rfl, rfl⟩⟩
    match v with
    | 0 | 1 | 6 => trivial
    | 2 | 4 => rfl
    | 3 => exact ⟨w, x, k, y, rfl, rfl, hy, rfl⟩
    | 5 => exact fun _ => ⟨w, y, r, rfl, rfl, by rw [ht]; rfl⟩
    | v + 7 => trivial
  · intro v p d n w h1 h2
    match v with
    | 1 => cases h1; cases h2; exact hm
    | 0 | 2 | 3 | 4 | 5 | 6 => cases h1
    | v + 7 => cases h1
  · intro v p d n h1 h2
    match v with
    | 1 => cases h1; cases h2
    | 0 | 2 | 3 | 4 | 5 | 6 => cases h1
    | v + 7 => cases h1

/-- C55 is false for additions that wrap around: `x + 1 < 0` with the greatest `x` is taken, the constraint has no overflow
(`LLVMPathConstraints.cpp:417-419`). -/
theorem C55_wrap_false : ∃ P ρ m a b, C55.Wrong P ρ m a b :=
  C55.opcmp_wrong (w := 8) (o := .add) (k := 1) (p := .slt) (r := 0) (x := 127) (y := 128) rfl rfl (m := C55.mdl [("x", 127)]) rfl
    ⟨_, rfl, by unfold Holds; decide⟩

/-- C55 is false for divisions of negative numbers: `x / 2 == -3` with `x = -7` is taken, Z3 rounds down
(`LLVMPathConstraints.cpp:427-432`). -/
theorem C55_sdiv_false : ∃ P ρ m a b, C55.Wrong P ρ m a b :=
  C55.opcmp_wrong (w := 32) (o := .sdiv) (k := 2) (p := .eq) (r := -3) (x := -7) (y := -3) rfl rfl (m := C55.mdl [("x", -7)]) rfl
    ⟨_, rfl, by unfold Holds; decide⟩

/-- C55 is false for remainders of negative numbers: `x % 2 == -1` with `x = -7` is taken (`LLVMPathConstraints.cpp:433-437`). -/
theorem C55_srem_false : ∃ P ρ m a b, C55.Wrong P ρ m a b :=
  C55.opcmp_wrong (w := 32) (o := .srem) (k := 2) (p := .eq) (r := -1) (x := -7) (y := -1) rfl rfl (m := C55.mdl [("x", -7)]) rfl
    ⟨_, rfl, by unfold Holds; decide⟩

/-- C55 is false for unsigned comparisons, which become signed ones: `x + 0 > 0u` with `x = -1` is taken
(`LLVMPathConstraints.cpp:344-352`). -/
theorem C55_unsigned_false : ∃ P ρ m a b, C55.Wrong P ρ m a b :=
  C55.opcmp_wrong (w := 32) (o := .add) (k := 0) (p := .ugt) (r := 0) (x := -1) (y := -1) rfl rfl (m := C55.mdl [("x", -1)]) rfl
    ⟨_, rfl, by unfold Holds; decide⟩

/-- C55 is false behind a zero extension, which is skipped: `(unsigned char) x == 255` with `x = -1` is taken
(`LLVMPathConstraints.cpp:240-242`). -/
theorem C55_zext_false : ∃ P ρ m a b, C55.Wrong P ρ m a b := by
  refine ⟨C55.prog [.alloca (some "x") none (.int 8), .load 0, .cast .zext 32 1, .constInt ⟨255#32⟩, .cmp .eq 2 3, .inst [4]] [(5, 4, 1, 2)] (C55.bbs 5),
    C55.vals [⟨0#64⟩, ⟨255#8⟩, ⟨255#32⟩, ⟨255#32⟩, ⟨1#1⟩], C55.mdl [("x", -1)], 5, 6, ?_, ?_, ?_, _, rfl, by unfold Holds; decide⟩
  · intro c t f h; cases h
    refine ⟨fun v _ => ?_, .inl ⟨rfl, rfl⟩⟩
    match v with
    | 0 | 1 | 5 => trivial
    | 2 => exact ⟨by decide, rfl⟩
    | 3 => rfl
    | 4 => exact fun _ => ⟨32, 255, 255, rfl, rfl, rfl⟩
    | v + 6 => trivial
  · intro v p d n w h1 h2
    match v with
    | 1 => cases h1; cases h2; rfl
    | 0 | 2 | 3 | 4 | 5 => cases h1
    | v + 6 => cases h1
  · intro v p d n h1 h2
    match v with
    | 1 => cases h1; cases h2
    | 0 | 2 | 3 | 4 | 5 => cases h1
    | v + 6 => cases h1

/-- C55 is false for a branch whose two blocks are the same: it always goes there, the constraint asks for the condition. -/
theorem C55_same_target_false : ∃ P ρ m a b, C55.Wrong P ρ m a b := by
  refine ⟨C55.prog [.alloca (some "x") none (.int 32), .load 0, .constInt ⟨0#32⟩, .cmp .sgt 1 2, .inst [3]] [(4, 3, 1, 1)] (C55.bbs 4),
    C55.neg5, C55.mdl [("x", -5)], 4, 5, ?_, ?_, ?_, _, rfl, by unfold Holds; decide⟩
  · intro c t f h; cases h
    refine ⟨fun v _ => ?_, .inr ⟨rfl, rfl⟩⟩
    match v with
    | 0 | 1 | 4 => trivial
    | 2 => rfl
    | 3 => exact fun _ => ⟨32, -5, 0, rfl, rfl, rfl⟩
    | v + 5 => trivial
  · intro v p d n w h1 h2
    match v with
    | 1 => cases h1; cases h2; rfl
    | 0 | 2 | 3 | 4 => cases h1
    | v + 5 => cases h1
  · intro v p d n h1 h2
    match v with
    | 1 => cases h1; cases h2
    | 0 | 2 | 3 | 4 => cases h1
    | v + 5 => cases h1

/-- C55 is false for values read through pointers: `*p == *q` is translated as `p == q` (`LLVMPathConstraints.cpp:542-573`). -/
theorem C55_deref_false : ∃ P ρ m a b, C55.Wrong P ρ m a b := by
  refine ⟨C55.prog [.alloca (some "p") none .ptr, .load 0, .load 1, .alloca (some "q") none .ptr, .load 3, .load 4, .cmp .eq 2 5, .inst [6]]
      [(7, 6, 1, 2)] (C55.bbs 7),
    C55.vals [⟨0#64⟩, ⟨8#64⟩, ⟨1#32⟩, ⟨0#64⟩, ⟨16#64⟩, ⟨1#32⟩, ⟨1#1⟩], C55.mdl [], 7, 8, ?_, ?_, ?_, _, rfl, by unfold Holds; decide⟩
  · intro c t f h; cases h
    refine ⟨fun v _ => ?_, .inl ⟨rfl, rfl⟩⟩
    match v with
    | 0 | 1 | 2 | 3 | 4 | 5 | 7 => trivial
    | 6 => exact fun _ => ⟨32, 1, 1, rfl, rfl, rfl⟩
    | v + 8 => trivial
  · intro v p d n w h1 h2
    match v with
    | 1 | 2 | 4 | 5 => cases h1; cases h2
    | 0 | 3 | 6 | 7 => cases h1
    | v + 8 => cases h1
  · intro v p d n h1 h2
    match v with
    | 1 | 4 => cases h1; cases h2; rfl
    | 2 | 5 => cases h1; cases h2
    | 0 | 3 | 6 | 7 => cases h1
    | v + 8 => cases h1

/-- Two branches, each on a comparison with zero: `a > 0` and then `b < 0`. -/
def C55.both (x a y b : VK) : Prog :=
  C55.prog [x, a, .constInt ⟨0#32⟩, .cmp .sgt 1 2, .inst [3], y, b, .cmp .slt 6 2, .inst [7]] [(4, 3, 1, 2), (8, 7, 3, 4)]
    [[4], [6, 7, 8], [9], [10], [11]]

/-- The path is taken with one value for every instruction, but no model satisfies its constraints. -/
def C55.Lost (P : Prog) (ρ : Nat → LV) (path : List Nat) : Prop :=
  (∀ q ∈ PathFilter.pairs path, Takes P ρ q.1 q.2) ∧ ∀ m, ¬ PathFilter.Feasible (conOf P 9 true) Holds m path

theorem C55.both_lost {x a y b : VK} (ha : ∀ ρ : Nat → LV, At (C55.both x a y b) ρ 0 ∧ At (C55.both x a y b) ρ 1 ∧ At (C55.both x a y b) ρ 5 ∧
      At (C55.both x a y b) ρ 6)
    {n : String} {vs vs' : List Nat} (h1 : conOf (C55.both x a y b) 9 true 4 6 = some (.rel .gt (.const .int n) (.intV 0), vs))
    (h2 : conOf (C55.both x a y b) 9 true 8 10 = some (.rel .lt (.const .int n) (.intV 0), vs')) :
    ∃ P ρ path, C55.Lost P ρ path := by
  refine ⟨C55.both x a y b, C55.vals [⟨0#64⟩, ⟨5#32⟩, ⟨0#32⟩, ⟨1#1⟩, ⟨0#1⟩, ⟨0#64⟩, ⟨(-5 : BitVec 32)⟩, ⟨1#1⟩], [4, 6, 7, 8, 10], ?_, ?_⟩
  · have runs : ∀ v, At (C55.both x a y b) (C55.vals [⟨0#64⟩, ⟨5#32⟩, ⟨0#32⟩, ⟨1#1⟩, ⟨0#1⟩, ⟨0#64⟩, ⟨(-5 : BitVec 32)⟩, ⟨1#1⟩]) v := by
      intro v
      match v with
      | 0 => exact (ha _).1
      | 1 => exact (ha _).2.1
      | 5 => exact (ha _).2.2.1
      | 6 => exact (ha _).2.2.2
      | 4 | 8 => trivial
      | 2 => rfl
      | 3 => exact fun _ => ⟨32, 5, 0, rfl, rfl, rfl⟩
      | 7 => exact fun _ => ⟨32, -5, 0, rfl, rfl, rfl⟩
      | v + 9 => trivial
    intro q hq c t f h
    simp only [PathFilter.pairs, List.tail, List.zip_cons_cons, List.zip_nil_right, List.mem_cons, List.not_mem_nil, or_false] at hq
    rcases hq with rfl | rfl | rfl | rfl
    · cases h; exact ⟨fun v _ => runs v, .inl ⟨rfl, rfl⟩⟩
    · cases h
    · cases h
    · cases h; exact ⟨fun v _ => runs v, .inl ⟨rfl, rfl⟩⟩
  · intro m h
    have e1 := h (4, 6) (by simp [PathFilter.pairs]) _ h1
    have e2 := h (8, 10) (by simp [PathFilter.pairs]) _ h2
    simp [Holds, E.eval, zRelI] at e1 e2
    omega

/-- C55 is false on paths that assign a variable between two branches: all loads of the variable are one constant
(`LLVMPathConstraints.cpp:464-540`). -/
theorem C55_changed_false : ∃ P ρ path, C55.Lost P ρ path :=
  C55.both_lost (x := .alloca (some "x") none (.int 32)) (a := .load 0) (y := .inst [0]) (b := .load 0) (fun _ => ⟨trivial, trivial, trivial, trivial⟩)
    rfl rfl

/-- C55 is false for variables without a name: they are one constant (`LLVMPathConstraints.cpp:475-503`). -/
theorem C55_unnamed_false : ∃ P ρ path, C55.Lost P ρ path :=
  C55.both_lost (x := .alloca none none (.int 32)) (a := .load 0) (y := .alloca none none (.int 32)) (b := .load 5)
    (fun _ => ⟨trivial, trivial, trivial, trivial⟩) rfl rfl

/-- C55 is false for two calls of one function: they are one constant (`LLVMPathConstraints.cpp:635-657`). -/
theorem C55_call_false : ∃ P ρ path, C55.Lost P ρ path :=
  C55.both_lost (x := .other) (a := .call (some ⟨some "f", .int 32, 50⟩) []) (y := .other) (b := .call (some ⟨some "f", .int 32, 50⟩) [])
    (fun _ => ⟨trivial, trivial, trivial, trivial⟩) rfl rfl

/-- The translation ends the program, for every number of steps from some on. -/
def C55.Fatal (P : Prog) (a b : Nat) : Prop := ∃ k0, ∀ k, k0 ≤ k → edge P k true a b (fun _ => none) = .fail

/-- C55, total, is false: the translation ends the program for a conjunction of comparisons, for `!f()`, and for `*p > 0`, which compares a
pointer with an integer. -/
theorem C55_fatal_false :
    C55.Fatal (C55.prog [.alloca (some "x") none (.int 32), .load 0, .constInt ⟨0#32⟩, .cmp .sgt 1 2, .cmp .slt 1 2, .bin .and 3 4, .inst [5]]
      [(6, 5, 1, 2)] (C55.bbs 6)) 6 7 ∧
    C55.Fatal (C55.prog [.call (some ⟨some "f", .int 1, 50⟩) [], .constInt ⟨1#1⟩, .bin .xor 0 1, .inst [2]] [(3, 2, 1, 2)] (C55.bbs 3)) 3 4 ∧
    C55.Fatal (C55.prog [.alloca (some "p") none .ptr, .load 0, .load 1, .constInt ⟨0#32⟩, .cmp .sgt 2 3, .inst [4]] [(5, 4, 1, 2)] (C55.bbs 5)) 5 6 := by
  refine ⟨⟨1, fun k hk => ?_⟩, ⟨1, fun k hk => ?_⟩, ⟨3, fun k hk => ?_⟩⟩
  · obtain ⟨k, rfl⟩ := Nat.exists_eq_add_of_le' hk; rfl
  · obtain ⟨k, rfl⟩ := Nat.exists_eq_add_of_le' hk; rfl
  · obtain ⟨k, rfl⟩ := Nat.exists_eq_add_of_le' hk; rfl

/-- C55, termination, is false: the search for the variable behind a load through two phis of a loop has no end
(`LLVMPathConstraints.cpp:558-572`). -/
theorem C55_endless_false : ∃ P a b, ∀ k, edge P k true a b (fun _ => none) = .more := by
  refine ⟨C55.prog [.phi .ptr [1], .phi .ptr [0], .load 0, .constInt ⟨0#32⟩, .cmp .sgt 2 3, .inst [4]] [(5, 4, 1, 2)] (C55.bbs 5), 5, 6, fun k => ?_⟩
  have key : ∀ k, ∀ v, v = 0 ∨ v = 1 ∨ v = 2 →
      track (C55.prog [.phi .ptr [1], .phi .ptr [0], .load 0, .constInt ⟨0#32⟩, .cmp .sgt 2 3, .inst [4]] [(5, 4, 1, 2)] (C55.bbs 5)) k [v] = .more := by
    intro k
    induction k with
    | zero => intro v _; rfl
    | succ k ih =>
      rintro v (rfl | rfl | rfl)
      · exact ih 1 (.inr (.inl rfl))
      · exact ih 0 (.inl rfl)
      · exact ih 0 (.inl rfl)
  have h := key k 2 (.inr (.inr rfl))
  show Out.bind (Out.bind (Out.bind (track _ k [2]) _) _) _ = _
  rw [h]
  rfl

/-- A block that begins with a debug instruction has no constraint when debug instructions are ignored: `isBranchTarget` looks at the first
statement of the block (`LLVMBasedCFG.cpp:215-225`). -/
theorem C55_debug_false : ∃ P a b, (∃ cond t f, P.br a = some (cond, t, f) ∧ firstInst P true t = some b) ∧
    conOf P 9 true a b = none ∧ conOf P 9 false a b ≠ none := by
  refine ⟨{ C55.prog [.alloca (some "x") none (.int 32), .load 0, .constInt ⟨0#32⟩, .cmp .sgt 1 2, .inst [3]] [(4, 3, 1, 2)] [[4], [5, 6], [7]] with
    dbg := fun v => v == 5 }, 4, 6, ⟨3, 1, 2, rfl, rfl⟩, rfl, ?_⟩
  intro h; cases h

end Phasar.PathConstr
