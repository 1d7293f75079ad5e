import Verif.Base.Lat
/-!
# `LatticeDomain` and `BinaryDomain`
-/
namespace Phasar
open JoinLat

/-- `enum class BinaryDomain { BOTTOM = 0, TOP = 1 }` (`include/phasar/Domain/BinaryDomain.h:29`). -/
inductive BinaryDomain where
  | BOTTOM
  | TOP
deriving DecidableEq, Repr

namespace BinaryDomain

/-- `JoinLatticeTraits<BinaryDomain>::join` (`BinaryDomain.h:40-43`). -/
def join (l r : BinaryDomain) : BinaryDomain := if l = r then l else .BOTTOM

/-- The underlying value of the enumeration (`BinaryDomain.h:29`); C++ compares scoped
enumerations by it. -/
def toNat : BinaryDomain → Nat
  | .BOTTOM => 0
  | .TOP => 1

/-- Built-in `operator<` of the enumeration (`BinaryDomain.h:29`). -/
def lt (l r : BinaryDomain) : Bool := l.toNat < r.toNat

/-- `JoinLatticeTraits<BinaryDomain>` (`BinaryDomain.h:35-44`). -/
instance : JoinLat BinaryDomain where
  join := join
  top := .TOP
  bottom := .BOTTOM
  join_assoc := by intro a b c; cases a <;> cases b <;> cases c <;> rfl
  join_comm := by intro a b; cases a <;> cases b <;> rfl
  join_idem := by intro a; cases a <;> rfl
  top_join := by intro a; cases a <;> rfl
  bottom_join := by intro a; cases a <;> rfl

end BinaryDomain

/-- `LatticeDomain<L>` = `std::variant<Top, L, Bottom>` (`include/phasar/Domain/LatticeDomain.h:64-65`). -/
inductive LatticeDomain (L : Type) where
  | top
  | val (v : L)
  | bottom
deriving DecidableEq, Repr

namespace LatticeDomain
variable {L : Type}

/-- `index()` of the variant (`LatticeDomain.h:65`). -/
def index : LatticeDomain L → Nat
  | .top => 0
  | .val _ => 1
  | .bottom => 2

/-- `isTop` (`LatticeDomain.h:71-73`). -/
def isTop (a : LatticeDomain L) : Bool := a.index == 0

/-- `isBottom` (`LatticeDomain.h:68-70`). -/
def isBottom (a : LatticeDomain L) : Bool := a.index == 2

/-- `getValueOrNull` (`LatticeDomain.h:75-80`). -/
def getValueOrNull : LatticeDomain L → Option L
  | .val v => some v
  | _ => none

/-- `operator==` (`LatticeDomain.h:127-138`), over the `operator==` of `L`. `none` models dereferencing
the null pointer `Rhs.getValueOrNull()`. -/
def eqOp (eq : L → L → Bool) (l r : LatticeDomain L) : Option Bool :=
  if l.index ≠ r.index then some false
  else match l.getValueOrNull with
    | some x => match r.getValueOrNull with
      | some y => some (eq x y)
      | none => none
    | none => some true

/-- `operator<` (`LatticeDomain.h:223-244`), over the `operator<` of `L`. `none` models
`llvm_unreachable`. -/
def ltOp (lt : L → L → Bool) (l r : LatticeDomain L) : Option Bool :=
  if r.isTop then some false
  else if l.isTop then some true
  else match l.getValueOrNull with
    | some x => match r.getValueOrNull with
      | some y => some (lt x y)
      | none => if r.isBottom then some true else none
    | none =>
      if l.isBottom then some false
      else if r.isBottom then some true else none

/-- `JoinLatticeTraits<LatticeDomain<L>>::join` (`LatticeDomain.h:250-262`). The `operator==` of the
variant over a lawful `operator==` of `L` is equality of values (proved in `Verif.EdgeFn.Props`). -/
def join [DecidableEq L] (l r : LatticeDomain L) : LatticeDomain L :=
  if l.isTop || decide (l = r) then r
  else if r.isTop then l
  else .bottom

/-- `JoinLatticeTraits<LatticeDomain<L>>` (`LatticeDomain.h:246-263`). -/
instance [DecidableEq L] : JoinLat (LatticeDomain L) where
  join := join
  top := .top
  bottom := .bottom
  join_assoc := by
    intro a b c
    cases a <;> cases b <;> cases c <;> simp [join, isTop, index] <;> (repeat' split) <;> simp_all
  join_comm := by
    intro a b
    cases a <;> cases b <;> simp [join, isTop, index]
    · rename_i x y
      by_cases h : x = y
      · simp [h]
      · simp [h, Ne.symm h]
  join_idem := by intro a; cases a <;> simp [join, isTop, index]
  top_join := by intro a; cases a <;> simp [join, isTop, index]
  bottom_join := by intro a; cases a <;> simp [join, isTop, index]

end LatticeDomain
end Phasar
