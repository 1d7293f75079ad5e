import Verif.Base.Lat
/-!
# The instruction interaction analysis: label sets and edge functions

Model of `include/phasar/PhasarLLVM/DataFlow/IfdsIde/Problems/IDEInstInteractionAnalysis.h:947-1088, 1197-1207`.
-/
namespace Phasar.IIA
open JoinLat

/-- The values `LatticeDomain<BitVectorSet<e_t>>` (`IDEInstInteractionAnalysis.h:947-949`).  A bit vector set is the number
whose `i`-th bit tells whether the label with position `i` is in the set; `Nat.lor` is the union of sets of any size
(`BitVectorSet::setUnion`, treated in `Verif.Util.BitVec`). -/
inductive Labels where
  | top
  | set (s : Nat)
  | bottom
deriving DecidableEq, Repr

/-- `joinImpl` (`IDEInstInteractionAnalysis.h:1197-1207`). -/
def joinImpl (l r : Labels) : Labels :=
  if l = .top ∨ r = .bottom then r
  else if r = .top ∨ l = .bottom then l
  else match l, r with
    | .set a, .set b => .set (a ||| b)
    | _, _ => .bottom

/-- The value lattice of the analysis: `join` (`IDEInstInteractionAnalysis.h:941`), `topElement` and `bottomElement`. -/
instance : JoinLat Labels where
  join := joinImpl
  top := .top
  bottom := .bottom
  join_assoc := by intro a b c; cases a <;> cases b <;> cases c <;> simp [joinImpl, Nat.or_assoc]
  join_comm := by
    intro a b
    cases a <;> cases b <;> simp [joinImpl]
    exact Nat.or_comm _ _
  join_idem := by intro a; cases a <;> simp [joinImpl]
  top_join := by intro a; cases a <;> simp [joinImpl]
  bottom_join := by intro a; cases a <;> simp [joinImpl]

/-- The edge functions: the three built-in ones, `IIAAKillOrReplaceEF` (`:947-992`) and `IIAAAddLabelsEF` (`:996-1030`). -/
inductive EF where
  | id
  | allTop
  | allBottom
  | kill (replacement : Labels)
  | add (data : Labels)
deriving DecidableEq, Repr

/-- `computeTarget` (`:951`, `:1000-1002`, `EdgeFunctionUtils.h:26-31, 51-60, 91-100`). -/
def EF.ap : EF → Labels → Labels
  | .id, x => x
  | .allTop, _ => .top
  | .allBottom, _ => .bottom
  | .kill r, _ => r
  | .add d, x => joinImpl x d

/-- `isConstant` (`:968`, `EdgeFunctionUtils.h:73, 113`). -/
def EF.isConstant : EF → Bool
  | .allTop | .allBottom | .kill _ => true
  | _ => false

/-- `getData` (`:1032-1042`); `none` is `report_fatal_error`. -/
def EF.getData : EF → Option Labels
  | .add d => some d
  | .kill r => some r
  | _ => none

/-- `defaultComposeOrNull` for handles (`EdgeFunctionUtils.h:135-150`). -/
def EF.defaultCompose (f g : EF) : Option EF :=
  if g = .id then some f
  else if g.isConstant || decide (f = .allTop) || decide (f = .id) then some g
  else if f = .allBottom then some f
  else none

/-- `extend` (`:1044-1062`); `none` is `report_fatal_error`. -/
def EF.extend (f g : EF) : Option EF :=
  match EF.defaultCompose f g with
  | some r => some r
  | none => match f.getData, g with
    | some d, .add d' => match f with
      | .add _ => some (.add (joinImpl d d'))
      | _ => some (.kill (joinImpl d d'))
    | _, _ => none

/-- `defaultJoinOrNull` for handles, `N = 0` (`EdgeFunctionUtils.h:429-447`). -/
def EF.defaultJoin (f g : EF) : Option EF :=
  if g = .allBottom ∨ f = .allTop then some g
  else if g = .allTop ∨ g = f ∨ f = .allBottom then some f
  else if g = .id then some .allBottom
  else none

/-- `combine` (`:1064-1088`); `none` is `report_fatal_error`. -/
def EF.combine (f g : EF) : Option EF :=
  if f = .id then some g
  else if g = .id ∧ f ≠ .allTop then some f
  else match EF.defaultJoin f g with
    | some r => some r
    | none => match f.getData, g.getData with
      | some a, some b => match f, g with
        | .kill _, .kill _ => some (.kill (joinImpl a b))
        | _, _ => some (.add (joinImpl a b))
      | _, _ => none

/-- Propagating along a path: the solver extends the jump function by one edge function after the other
(`IDESolver.h`, `FPropagate`). -/
def extendAll : EF → List EF → Option EF
  | f, [] => some f
  | f, g :: gs => match f.extend g with
    | some h => extendAll h gs
    | none => none

/-- Joining the jump functions of several paths. -/
def combineAll : EF → List EF → Option EF
  | f, [] => some f
  | f, g :: gs => match f.combine g with
    | some h => combineAll h gs
    | none => none

end Phasar.IIA
