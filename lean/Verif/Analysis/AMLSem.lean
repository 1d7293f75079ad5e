import Verif.Analysis.AML

/-
What an abstract memory location is to stand for, without the factory: the
values of a run (AbstractMemoryLocation.h:47-52: "The byte offsets are applied
to the base-pointer alternating with memory loads").
-/

namespace Phasar.AML

/-- An access path of any length: a base and offsets with a load between any
    two of them (AbstractMemoryLocation.h:50-52). -/
structure Path where
  base : Nat
  offs : List Int
deriving DecidableEq, Repr

/-- A load and an addition for each offset (AbstractMemoryLocation.h:50-52). -/
def walk (m : Int → Int) (v : Int) : List Int → Int
  | [] => v
  | o :: r => walk m (m v + o) r

/-- The value an access path leads to: `ρ` gives the values of the bases, `m`
    the contents of the memory (AbstractMemoryLocation.h:50-52). -/
def den (ρ : Nat → Int) (m : Int → Int) (p : Path) : Int :=
  match p.offs with
  | [] => ρ p.base
  | o :: r => walk m (ρ p.base + o) r

/-- Pointer arithmetic on the last offset. -/
def addLast : List Int → Int → List Int
  | [], _ => []
  | [x], k => [x + k]
  | x :: y :: r, k => x :: addLast (y :: r) k

/-- The value of an instruction in a run: `dyn` gives the offsets of the
    `getelementptr`s that are no constants. -/
def IR.val (ρ : Nat → Int) (m : Int → Int) (dyn : Nat → Int) : IR → Int
  | .self i | .other i => ρ i
  | .load _ p => m (p.val ρ m dyn)
  | .cast _ p => p.val ρ m dyn
  | .gep i p off => p.val ρ m dyn + off.getD (dyn i)

/-- The access path of an instruction in a run. -/
def IR.path (dyn : Nat → Int) : IR → Path
  | .self i | .other i => ⟨i, [0]⟩
  | .load _ p => ⟨(p.path dyn).base, (p.path dyn).offs ++ [0]⟩
  | .cast _ p => p.path dyn
  | .gep i p off => ⟨(p.path dyn).base, addLast (p.path dyn).offs (off.getD (dyn i))⟩

/-- Whether the path of a value is known before the run: no offset on the way
    is unknown. -/
def IR.known : IR → Bool
  | .self _ | .other _ => true
  | .load _ p | .cast _ p => p.known
  | .gep _ p off => off.isSome && p.known

/-- A location stands for a path up to pointer arithmetic in its last offset:
    the path begins with all its offsets but the last. -/
def standsFor (l : Loc) (p : Path) : Prop :=
  l.base = p.base ∧ l.offs.dropLast <+: p.offs.dropLast

/-- A location that is no over-approximation says it is exact
    (AbstractMemoryLocation.h:92-94, 103-105); in any case it stands for the
    path. -/
def covers (l : Loc) (p : Path) : Prop :=
  standsFor l p ∧ (l.life ≠ 0 → l.offs = p.offs)

end Phasar.AML
