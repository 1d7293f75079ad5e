import Verif.EdgeFn.Lemmas
/-!
# Properties C12-C15: built-in edge functions and value domains
-/
set_option linter.unusedSimpArgs false
namespace Phasar
open JoinLat

/-! ## C15: value domains -/

section C15
variable {L : Type}

/-- Specification: a strict weak order in which incomparable means `eq`. -/
structure StrictOrder {A : Type} (lt eq : A → A → Prop) : Prop where
  irrefl : ∀ a, ¬ lt a a
  trans : ∀ a b c, lt a b → lt b c → lt a c
  tri : ∀ a b, (¬ lt a b ∧ ¬ lt b a) ↔ eq a b

/-- C15: the join of `LatticeDomain` makes it a join lattice with `Top` neutral and `Bottom` absorbing. -/
theorem C15_lattice_join [DecidableEq L] (a b c : LatticeDomain L) :
    LatticeDomain.join (LatticeDomain.join a b) c = LatticeDomain.join a (LatticeDomain.join b c) ∧
    LatticeDomain.join a b = LatticeDomain.join b a ∧ LatticeDomain.join a a = a ∧
    LatticeDomain.join .top a = a ∧ LatticeDomain.join .bottom a = .bottom :=
  ⟨join_assoc a b c, join_comm a b, join_idem a, top_join a, bottom_join a⟩

/-- C15: the join is the *least* upper bound in the flat order Top < values < Bottom. -/
theorem C15_lattice_join_lub [DecidableEq L] (a b : LatticeDomain L) :
    let flat : LatticeDomain L → LatticeDomain L → Prop := fun x y => x = .top ∨ y = .bottom ∨ x = y
    flat a (LatticeDomain.join a b) ∧ flat b (LatticeDomain.join a b) ∧
      ∀ u, flat a u → flat b u → flat (LatticeDomain.join a b) u := by
  cases a <;> cases b <;> simp [LatticeDomain.join, LatticeDomain.isTop, LatticeDomain.index]
  rename_i v w
  by_cases h : v = w
  · simp [h]
  · simp [h]
    exact fun u => h u.symm

example : LatticeDomain.join (.val 3) (.val 4) = (.bottom : LatticeDomain Nat) ∧
    LatticeDomain.join (.val 3) (.val 3) = (.val 3 : LatticeDomain Nat) := by decide

/-- C15: `operator==` never dereferences null and is an equivalence whenever the one of `L` is. -/
theorem C15_lattice_eq (eq : L → L → Bool) (hr : ∀ a, eq a a = true)
    (hs : ∀ a b, eq a b = true → eq b a = true)
    (ht : ∀ a b c, eq a b = true → eq b c = true → eq a c = true) :
    (∀ a b, (LatticeDomain.eqOp eq a b).isSome) ∧
    (∀ a, LatticeDomain.eqOp eq a a = some true) ∧
    (∀ a b, LatticeDomain.eqOp eq a b = some true → LatticeDomain.eqOp eq b a = some true) ∧
    (∀ a b c, LatticeDomain.eqOp eq a b = some true → LatticeDomain.eqOp eq b c = some true →
      LatticeDomain.eqOp eq a c = some true) := by
  refine ⟨?_, ?_, ?_, ?_⟩
  · intro a b; cases a <;> cases b <;>
      simp [LatticeDomain.eqOp, LatticeDomain.index, LatticeDomain.getValueOrNull]
  · intro a; cases a <;> simp [LatticeDomain.eqOp, LatticeDomain.getValueOrNull, hr]
  · intro a b; cases a <;> cases b <;>
      simp [LatticeDomain.eqOp, LatticeDomain.index, LatticeDomain.getValueOrNull]
    exact hs _ _
  · intro a b c; cases a <;> cases b <;> cases c <;>
      simp [LatticeDomain.eqOp, LatticeDomain.index, LatticeDomain.getValueOrNull]
    exact ht _ _ _

/-- C15: with a lawful `operator==` on `L`, the `operator==` of the domain decides equality. -/
theorem C15_lattice_eq_decides [DecidableEq L] (a b : LatticeDomain L) :
    LatticeDomain.eqOp (fun x y => decide (x = y)) a b = some (decide (a = b)) := by
  cases a <;> cases b <;>
    simp [LatticeDomain.eqOp, LatticeDomain.index, LatticeDomain.getValueOrNull]

/-- C15: `operator<` never reaches `llvm_unreachable`; it is a strict weak order consistent with
`operator==` whenever the one of `L` is; `Top` is smallest and `Bottom` largest. -/
theorem C15_lattice_lt (lt eq : L → L → Bool)
    (h : StrictOrder (fun a b => lt a b = true) (fun a b => eq a b = true)) :
    (∀ a b, (LatticeDomain.ltOp lt a b).isSome) ∧
    StrictOrder (fun a b => LatticeDomain.ltOp lt a b = some true)
      (fun a b => LatticeDomain.eqOp eq a b = some true) ∧
    (∀ a, a ≠ .top → LatticeDomain.ltOp lt .top a = some true) ∧
    (∀ a, a ≠ .bottom → LatticeDomain.ltOp lt a .bottom = some true) := by
  refine ⟨?_, ⟨?_, ?_, ?_⟩, ?_, ?_⟩
  · intro a b; cases a <;> cases b <;> simp [LatticeDomain.ltOp, LatticeDomain.isTop,
      LatticeDomain.isBottom, LatticeDomain.index, LatticeDomain.getValueOrNull]
  · intro a; cases a <;> simp [LatticeDomain.ltOp, LatticeDomain.isTop,
      LatticeDomain.isBottom, LatticeDomain.index, LatticeDomain.getValueOrNull]
    rename_i v
    have := h.irrefl v
    simpa using this
  · intro a b c; cases a <;> cases b <;> cases c <;> simp [LatticeDomain.ltOp, LatticeDomain.isTop,
      LatticeDomain.isBottom, LatticeDomain.index, LatticeDomain.getValueOrNull]
    exact h.trans _ _ _
  · intro a b; cases a <;> cases b <;> simp [LatticeDomain.ltOp, LatticeDomain.eqOp,
      LatticeDomain.isTop, LatticeDomain.isBottom, LatticeDomain.index, LatticeDomain.getValueOrNull]
    rename_i v w
    have := h.tri v w
    simpa using this
  · intro a; cases a <;> simp [LatticeDomain.ltOp, LatticeDomain.isTop,
      LatticeDomain.isBottom, LatticeDomain.index, LatticeDomain.getValueOrNull]
  · intro a; cases a <;> simp [LatticeDomain.ltOp, LatticeDomain.isTop,
      LatticeDomain.isBottom, LatticeDomain.index, LatticeDomain.getValueOrNull]

/-- The hypotheses of `C15_lattice_lt` hold for `int64_t`-like values. -/
example : StrictOrder (fun a b : Int => decide (a < b) = true) (fun a b => decide (a = b) = true) :=
  ⟨by intro a; simp, by intro a b c; simp; omega, by intro a b; simp; omega⟩

/-- C15: `BinaryDomain` is a join lattice and its built-in comparison a strict total order. Unlike
in `LatticeDomain`, the enumeration order puts `BOTTOM` *below* `TOP`. -/
theorem C15_binary (a b c : BinaryDomain) :
    BinaryDomain.join (BinaryDomain.join a b) c = BinaryDomain.join a (BinaryDomain.join b c) ∧
    BinaryDomain.join a b = BinaryDomain.join b a ∧ BinaryDomain.join a a = a ∧
    BinaryDomain.join .TOP a = a ∧ BinaryDomain.join .BOTTOM a = .BOTTOM ∧
    StrictOrder (fun a b => BinaryDomain.lt a b = true) (fun a b => a = b) ∧
    BinaryDomain.lt .BOTTOM .TOP = true := by
  refine ⟨join_assoc a b c, join_comm a b, join_idem a, top_join a, bottom_join a, ?_, rfl⟩
  refine ⟨?_, ?_, ?_⟩
  · intro a; cases a <;> decide
  · intro a b c; cases a <;> cases b <;> cases c <;> decide
  · intro a b; cases a <;> cases b <;> decide

end C15

/-! ## C12-C14: edge functions -/

namespace EF
variable {P L : Type} [JoinLat L] [DecidableEq P] [DecidableEq L]

/-- C12: composition over-approximates function composition, for monotone user functions. -/
theorem C12_compose_over (c : EFCfg P L) (hm : ∀ p x y, x ⊑ y → c.pap p x ⊑ c.pap p y)
    (f g : EF P L) (x : L) : ap c g (ap c f x) ⊑ ap c (compose c f g) x :=
  compose_over c hm f g x

/-- C12: composition is exact unless the first function is all-top or all-bottom; no assumption on
the user functions is needed. -/
theorem C12_compose_exact (c : EFCfg P L) (f g : EF P L) (hp : Proper f) (ht : f ≠ .allTop)
    (hb : f ≠ .allBottom) (x : L) : ap c (compose c f g) x = ap c g (ap c f x) :=
  compose_exact c f hp ht hb g x

/-- C12: the composers that composition builds never contain all-top or all-bottom, so
`C12_compose_exact` keeps applying along any sequence of compositions. -/
theorem C12_compose_proper (c : EFCfg P L) (f g : EF P L) (hf : Proper f) (hg : Proper g) :
    Proper (compose c f g) := compose_proper c f hf g hg

/-- C12: composing a constant with anything never produces a constant function holding Top or Bottom,
so `NonTopBotValue::unwrap` (`LatticeDomain.h:276-279`) is never applied to Top or Bottom. -/
theorem C12_const_unwrap_safe (c : EFCfg P L) (v w : L) (g : EF P L)
    (hv : v ≠ top ∧ v ≠ bottom) (hg : ∀ u, g = .const u → u ≠ top ∧ u ≠ bottom)
    (h : compose c (.const v) g = .const w) : w ≠ top ∧ w ≠ bottom := by
  simp only [compose] at h
  split at h
  · rename_i r hr
    unfold defaultComposeOrNull at hr
    split at hr
    · cases hr; cases h; exact hv
    · split at hr
      · cases hr; exact hg w h
      · cases hr
  · split at h
    · cases h; exact hv
    · split at h
      · cases h
      · split at h
        · cases h
        · rename_i h1 h2
          cases h
          exact ⟨fun h => h2 h.symm, fun h => h1 h.symm⟩

/-- Example configuration: user functions "add `p`" on a constant-propagation domain, bound 2. -/
def addCfg : EFCfg Int (LatticeDomain Int) where
  pap := fun p x => match x with
    | .val v => .val (v + p)
    | y => y
  N := 2
  soo := true

theorem addCfg_mono : ∀ p x y, x ⊑ y → addCfg.pap p x ⊑ addCfg.pap p y := by
  intro p x y h
  cases x <;> cases y <;>
    simp_all [addCfg, le, JoinLat.join, LatticeDomain.join, LatticeDomain.isTop, LatticeDomain.index]

example : Proper (.comp (.prim 3) (.prim 4) : EF Int (LatticeDomain Int)) ∧
    ap addCfg (compose addCfg (.comp (.prim 3) (.prim 4)) (.prim 5)) (.val 1) = .val 13 ∧
    compose addCfg (.const (.val 1)) (.prim 5) = .const (.val 6) := by
  refine ⟨⟨trivial, trivial, by simp, by simp, by simp, by simp⟩, by decide, by decide⟩

/-- C12, what is *not* true: composing with all-top in front is not exact. All-top followed by "+1"
behaves like "+1" instead of the constant Top. -/
theorem C12_allTop_not_exact :
    ap addCfg (compose addCfg .allTop (.prim 1)) (.val 1) ≠
      ap addCfg (.prim 1) (ap addCfg .allTop (.val 1)) := by decide

/-- C12, what is *not* true: with a non-monotone user function, composition with all-top in front is
not even an over-approximation. The user function sends Top to Bottom and everything else to Top. -/
theorem C12_allTop_not_over_nonmonotone :
    let c : EFCfg Unit BinaryDomain :=
      { pap := fun _ x => match x with | .TOP => .BOTTOM | .BOTTOM => .TOP, N := 0, soo := true }
    ¬ (ap c (.prim ()) (ap c .allTop .BOTTOM) ⊑ ap c (compose c .allTop (.prim ())) .BOTTOM) := by
  intro c h; cases h

/-! ### C13 -/

/-- C13: `joinWith` is a pointwise upper bound. -/
theorem C13_join_upper (c : EFCfg P L) (lt : EF P L → EF P L → Bool) (hlt : NoTies lt)
    (f g : EF P L) (x : L) :
    ap c f x ⊑ ap c (joinWith c lt f g) x ∧ ap c g x ⊑ ap c (joinWith c lt f g) x :=
  ⟨(joinWith_above c hlt f g).1 x, (joinWith_above c hlt f g).2 x⟩

/-- C13: as long as the operands together have at most `N` members (and it is not a constant against the
identity, which `ConstantEdgeFunction::join` sends to all-bottom), the join is exactly the pointwise join:
precision is only given up at the bound. -/
theorem C13_join_exact (c : EFCfg P L) (lt : EF P L → EF P L → Bool) (hlt : NoTies lt) (f g : EF P L)
    (h1 : ∀ v, f = .const v → g ≠ .id) (h2 : ∀ v, g = .const v → f ≠ .id)
    (hw : (match f with | .joinEF _ ms => ms.toList.length | _ => 1) +
      (match g with | .joinEF _ ms => ms.toList.length | _ => 1) ≤ c.N) (x : L) :
    ap c (joinWith c lt f g) x = join (ap c f x) (ap c g x) := by
  have hw' : width f + width g ≤ c.N := by
    revert hw; cases f <;> cases g <;> exact fun h => h
  obtain ⟨h3, h4⟩ := joinWith_above c hlt f g
  exact le_antisymm (joinWith_below c h1 h2 hw' x) (join_le (h3 x) (h4 x))

/-- Instance: two user functions fit the bound 2. -/
example : ap addCfg (joinWith addCfg (fun _ _ => true) (.prim 1) (.prim 2)) (.val 5) = .bottom ∧
    join (ap addCfg (.prim 1) (.val 5)) (ap addCfg (.prim 2) (.val 5)) = .bottom ∧
    ap addCfg (joinWith addCfg (fun _ _ => true) (.prim 1) (.prim 2)) .top = .top := by decide

/-- Joining a sequence of edge functions, where the handle comparison may differ from step to step
(new functions get new addresses). -/
def joinSeq (c : EFCfg P L) (f : EF P L) (gs : List ((EF P L → EF P L → Bool) × EF P L)) : EF P L :=
  gs.foldl (fun h g => joinWith c g.1 h g.2) f

/-- C13: after any sequence of joins the result is above the first function and every joined one. -/
theorem C13_join_sequence (c : EFCfg P L) (f : EF P L)
    (gs : List ((EF P L → EF P L → Bool) × EF P L)) (hlt : ∀ g ∈ gs, NoTies g.1) (x : L) :
    ap c f x ⊑ ap c (joinSeq c f gs) x ∧ ∀ g ∈ gs, ap c g.2 x ⊑ ap c (joinSeq c f gs) x := by
  induction gs generalizing f with
  | nil => exact ⟨le_refl _, fun g h => by cases h⟩
  | cons g gs ih =>
    obtain ⟨h1, h2⟩ := joinWith_above c (hlt g List.mem_cons_self) f g.2
    obtain ⟨h3, h4⟩ := ih (joinWith c g.1 f g.2) fun g' hg' => hlt g' (List.mem_cons_of_mem _ hg')
    refine ⟨le_trans (h1 x) h3, fun g' hg' => ?_⟩
    rcases List.mem_cons.1 hg' with rfl | hg'
    · exact le_trans (h2 x) h3
    · exact h4 g' hg'

/-- C13: the number of members of a `JoinEdgeFunction` never exceeds the bound `N`, whatever the
sequence of joins, if no input already violates it. -/
theorem C13_join_bounded (c : EFCfg P L) (f : EF P L)
    (gs : List ((EF P L → EF P L → Bool) × EF P L))
    (hf : ∀ s ms, f = .joinEF s ms → ms.toList.length ≤ c.N)
    (hg : ∀ g ∈ gs, ∀ s ms, g.2 = .joinEF s ms → ms.toList.length ≤ c.N) :
    ∀ s ms, joinSeq c f gs = .joinEF s ms → ms.toList.length ≤ c.N := by
  have key : ∀ {h : EF P L}, (∀ s ms, h = .joinEF s ms → ms.toList.length ≤ c.N) ↔ Bounded c h := by
    intro h
    cases h <;> simp [Bounded]
  rw [key] at hf ⊢
  induction gs generalizing f with
  | nil => exact hf
  | cons g gs ih =>
    exact ih (joinWith c g.1 f g.2) (joinWith_bounded c g.1 hf (key.1 (hg g List.mem_cons_self)))
      (fun g' hg' => hg g' (List.mem_cons_of_mem _ hg'))

/-- C13: joining constants never produces a constant function holding Top or Bottom, so
`NonTopBotValue::unwrap` is never applied to Top or Bottom. -/
theorem C13_const_unwrap_safe (c : EFCfg P L) (lt : EF P L → EF P L → Bool) (v w : L) (g : EF P L)
    (hv : v ≠ top ∧ v ≠ bottom) (h : joinWith c lt (.const v) g = .const w) :
    w ≠ top ∧ w ≠ bottom := by
  have h : joinConst c lt v g = .const w := h
  rcases joinConst_cases c lt v g with h' | h' | ⟨u, _, h', hb⟩ | ⟨h1, _, h'⟩ <;> rw [h] at h'
  · cases h'
  · cases h'; exact hv
  · cases h'
    exact ⟨ne_top_of_le' (le_join_left _ _) hv.1, hb⟩
  · exfalso
    rcases joinGeneric_cases c lt g (.const v) with h2 | h2 | h2 <;> rw [h2] at h'
    · cases h'
    · rw [← h'] at h1; cases h1
    · revert h'
      unfold create
      dsimp only
      split
      · simp
      · split <;> simp

/-- A comparison without ties on a two-element sample, and a three-step join that exceeds the bound. -/
example : joinSeq addCfg .allTop
    [(fun _ _ => true, .prim 1), (fun _ _ => true, .prim 2)] =
      .joinEF .top (.cons (.prim 1) (.cons (.prim 2) .nil)) ∧
    joinSeq addCfg .allTop
    [(fun _ _ => true, .prim 1), (fun _ _ => true, .prim 2), (fun _ _ => true, .prim 3)] =
      .allBottom := by decide

example : NoTies (fun _ _ : EF Int (LatticeDomain Int) => true) := by intro a b h; cases h

/-! ### C14 -/

/-- The chain of jump functions obtained from all-top by joining in `g 0, g 1, …`. -/
def chain (c : EFCfg P L) (lt : Nat → EF P L → EF P L → Bool) (g : Nat → EF P L) : Nat → EF P L
  | 0 => .allTop
  | n + 1 => joinWith c (lt n) (chain c lt g n) (g n)

/-- C14: in any infinite sequence of joins starting from all-top the function changes only boundedly
often (`H` = height of the value lattice), whatever the user functions and the handle comparisons. -/
theorem C14_converges (c : EFCfg P L) (rank : L → Nat) (hr : ∀ a b : L, join a b ≠ a →
    rank (join a b) < rank a) (lt : Nat → EF P L → EF P L → Bool) (g : Nat → EF P L) (M : Nat) :
    ((List.range M).filter fun n => decide (chain c lt g (n + 1) ≠ chain c lt g n)).length ≤
      4 + rank (top : L) * (c.N + 2) + c.N := by
  have key : ∀ M, ((List.range M).filter fun n =>
      decide (chain c lt g (n + 1) ≠ chain c lt g n)).length + pot c rank (chain c lt g M) ≤
      pot c rank (.allTop : EF P L) := by
    intro M
    induction M with
    | zero => simp [chain]
    | succ M ih =>
      rw [List.range_succ, List.filter_append, List.length_append]
      by_cases h : chain c lt g (M + 1) = chain c lt g M
      · simp only [List.filter_cons, h, ne_eq, not_true_eq_false, decide_false, List.filter_nil,
          List.length_nil]
        simpa [h] using ih
      · have := joinWith_pot c (rank := rank) hr (lt M) (chain c lt g M) (g M) h
        have h2 : pot c rank (chain c lt g (M + 1)) < pot c rank (chain c lt g M) := this
        simp only [ne_eq] at ih
        simp only [List.filter_cons, h, ne_eq, not_false_eq_true, decide_true, List.filter_nil,
          List.length_cons, List.length_nil, if_true]
        omega
  have h1 := key M
  have h2 : rank (top : L) * (c.N + 2) = rank (top : L) * (c.N + 1) + rank (top : L) := by
    rw [Nat.mul_add, Nat.mul_add]; omega
  simp only [pot] at h1
  omega

/-- Rank of the flat lattice. -/
def flatRank {A : Type} : LatticeDomain A → Nat
  | .top => 2
  | .val _ => 1
  | .bottom => 0

theorem flatRank_ok {A : Type} [DecidableEq A] (a b : LatticeDomain A) (h : join a b ≠ a) :
    flatRank (join a b) < flatRank a := by
  revert h
  cases a <;> cases b <;>
    simp [JoinLat.join, LatticeDomain.join, LatticeDomain.isTop, LatticeDomain.index, flatRank]
  rename_i v w
  by_cases h : v = w <;> simp [h, flatRank]

/-- C14 instance: constant propagation over `LatticeDomain` with bound 2 changes at most 14 times. -/
example (lt : Nat → EF Int (LatticeDomain Int) → EF Int (LatticeDomain Int) → Bool)
    (g : Nat → EF Int (LatticeDomain Int)) (M : Nat) :
    ((List.range M).filter fun n =>
      decide (chain addCfg lt g (n + 1) ≠ chain addCfg lt g n)).length ≤ 14 :=
  C14_converges addCfg flatRank flatRank_ok lt g M

end EF
end Phasar
