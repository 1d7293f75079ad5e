import Verif.EdgeFn.Domain
/-!
# The built-in edge functions

`include/phasar/DataFlow/IfdsIde/EdgeFunctionUtils.h`, function by function.
-/
namespace Phasar
open JoinLat

mutual
/-- The built-in edge functions (`EdgeFunctionUtils.h`): `EdgeIdentity` (:23-41), `AllBottom` (:43-81),
`AllTop` (:83-120), `ConstantEdgeFunction` (:152-216), a composer (:243-294) and `JoinEdgeFunction`
(:298-400). `prim p` stands for a user-defined edge function that implements `compose`/`join` with the
documented defaults (`defaultComposeOrNull` and an `EdgeFunctionComposer`; `defaultJoinOrNull<L,N>`
and `JoinEdgeFunction<L,N>::create`). The composer is `DefaultJoinEdgeFunctionComposer` (:317-331).
Simplification: `P` is the type of user functions, identified by value. -/
inductive EF (P L : Type) where
  | id
  | allBottom
  | allTop
  | const (v : L)
  | prim (p : P)
  | comp (f g : EF P L)
  | joinEF (seed : L) (ms : EFs P L)
deriving DecidableEq

/-- The `SmallVector<EdgeFunction<l_t>, N> OtherEF` of a `JoinEdgeFunction` (`EdgeFunctionUtils.h:399`). -/
inductive EFs (P L : Type) where
  | nil
  | cons (f : EF P L) (fs : EFs P L)
deriving DecidableEq
end

namespace EFs
variable {P L : Type}

/-- The vector `OtherEF` as a list (`EdgeFunctionUtils.h:399`). -/
def toList : EFs P L → List (EF P L)
  | .nil => []
  | .cons f fs => f :: fs.toList

/-- A list as a vector `OtherEF` (`EdgeFunctionUtils.h:399`). -/
def ofList : List (EF P L) → EFs P L
  | [] => .nil
  | f :: fs => .cons f (ofList fs)

@[simp] theorem toList_ofList (l : List (EF P L)) : (ofList l).toList = l := by
  induction l with
  | nil => rfl
  | cons f fs ih => simp [ofList, toList, ih]

@[simp] theorem ofList_toList (l : EFs P L) : ofList l.toList = l := by
  match l with
  | .nil => rfl
  | .cons f fs => simp [ofList, toList, ofList_toList fs]

end EFs

/-- Parameters of the edge functions: what the user functions compute, the bound `N` of
`JoinEdgeFunction<L, N>` (`EdgeFunctionUtils.h:298`) and whether `ConstantEdgeFunction<L>` is small
enough to be stored inline (`EdgeFunctionBase::IsSOOCandidate`, `EdgeFunction.h:79-84`). -/
structure EFCfg (P L : Type) where
  pap : P → L → L
  N : Nat
  soo : Bool

namespace EF
variable {P L : Type} [JoinLat L] [DecidableEq P] [DecidableEq L]

mutual
/-- `computeTarget` of the built-in edge functions (`EdgeFunctionUtils.h`: :26-31, :51-60, :91-100,
:157-161, :246-248, :302-312). -/
def ap (c : EFCfg P L) : EF P L → L → L
  | .id, x => x
  | .allBottom, _ => bottom
  | .allTop, _ => top
  | .const v, _ => v
  | .prim p, x => c.pap p x
  | .comp f g, x => ap c g (ap c f x)
  | .joinEF s ms, x => apJoin c ms s x
/-- The loop of `JoinEdgeFunction::computeTarget` (`EdgeFunctionUtils.h:304-311`) with its early exit. -/
def apJoin (c : EFCfg P L) : EFs P L → L → L → L
  | .nil, v, _ => v
  | .cons f fs, v, x =>
    let v' := join v (ap c f x)
    if v' = bottom then v' else apJoin c fs v' x
end

/-- `isConstant` (`EdgeFunctionUtils.h:72`, `:112`, `:197`; default false, `EdgeFunction.h:555-559`). -/
def isConstant : EF P L → Bool
  | .allBottom => true
  | .allTop => true
  | .const _ => true
  | _ => false

/-- `defaultComposeOrNull(EdgeFunctionRef, EdgeFunction)` (`EdgeFunctionUtils.h:122-133`). -/
def defaultComposeOrNull (this second : EF P L) : Option (EF P L) :=
  if second = .id then some this
  else if second.isConstant then some second
  else none

/-- `composeWith` (`EdgeFunction.h:348-350`): dispatch on the first function to the `compose` of
`EdgeIdentity` (:33-37), `AllBottom` (:62-66), `AllTop` (:102-106), `ConstantEdgeFunction` (:163-201),
`EdgeFunctionComposer` (:257-266), `JoinEdgeFunction` (:314-335). -/
def compose (c : EFCfg P L) : EF P L → EF P L → EF P L
  | .id, g => g
  | .allBottom, g => if g.isConstant then g else .allBottom
  | .allTop, g => if g = .id then .allTop else g
  | .const v, g =>
    match defaultComposeOrNull (.const v) g with
    | some r => r
    | none =>
      let cv := ap c g v
      if c.soo = false ∧ cv = v then .const v
      else if bottom = cv then .allBottom
      else if top = cv then .allTop
      else .const cv
  | .prim p, g =>
    match defaultComposeOrNull (.prim p) g with
    | some r => r
    | none => .comp (.prim p) g
  | .comp a b, g =>
    match defaultComposeOrNull (.comp a b) g with
    | some r => r
    | none => compose c a (compose c b g)
  | .joinEF s ms, g =>
    match defaultComposeOrNull (.joinEF s ms) g with
    | some r => r
    | none => .comp (.joinEF s ms) g

/-- The part of `std::set_union` that handles the first element `a` of the first range against the
second range; `k` merges the rest of the first range (`EdgeFunctionUtils.h:385-386`). -/
def mergeInto (lt : EF P L → EF P L → Bool) (a : EF P L) (k : List (EF P L) → List (EF P L)) :
    List (EF P L) → List (EF P L)
  | [] => a :: k []
  | b :: r =>
    if lt a b then a :: k (b :: r)
    else if lt b a then b :: mergeInto lt a k r
    else a :: k r

/-- `std::set_union` as used at `EdgeFunctionUtils.h:385-386`, with the comparison `operator<` on
edge-function handles (`EdgeFunction.h:546-553`). That comparison looks at addresses, so it is an
arbitrary function here; in particular the inputs need not be sorted with respect to it. -/
def setUnion (lt : EF P L → EF P L → Bool) : List (EF P L) → List (EF P L) → List (EF P L)
  | [] => fun r => r
  | a :: l => mergeInto lt a (setUnion lt l)

/-- `GetEFArrayAndSeed` in `JoinEdgeFunction::create` (`EdgeFunctionUtils.h:368-374`). -/
def arrayAndSeed : EF P L → List (EF P L) × L
  | .joinEF s ms => (ms.toList, s)
  | f => ([f], top)

/-- `JoinEdgeFunction::create` (`EdgeFunctionUtils.h:365-394`). -/
def create (c : EFCfg P L) (lt : EF P L → EF P L → Bool) (l r : EF P L) : EF P L :=
  let ls := arrayAndSeed l
  let rs := arrayAndSeed r
  let seed := join ls.2 rs.2
  if seed = bottom then .allBottom
  else
    let v := setUnion lt ls.1 rs.1
    if v.length > c.N then .allBottom
    else .joinEF seed (EFs.ofList v)

/-- `defaultJoinOrNull<L, N>(EdgeFunctionRef, EdgeFunction)` (`EdgeFunctionUtils.h:410-428`); the value
lattice has `JoinLatticeTraits`. -/
def defaultJoinOrNull (c : EFCfg P L) (lt : EF P L → EF P L → Bool) (N : Nat) (this other : EF P L) :
    Option (EF P L) :=
  if other = .allBottom then some other
  else if other = .allTop ∨ other = this then some this
  else if other = .id then
    if N > 0 then some (create c lt this other) else some .allBottom
  else none

/-- `join` of the composer (`EdgeFunctionUtils.h:319-330`), of `JoinEdgeFunction` (`:507-516`) and of a
user function with the documented default (the dispatch does not go on from these). -/
def joinGeneric (c : EFCfg P L) (lt : EF P L → EF P L → Bool) (this other : EF P L) : EF P L :=
  match this with
  | .comp _ _ =>
    if other = .allBottom then other
    else if other = .allTop ∨ other = this then this
    else create c lt this other
  | _ =>
    match defaultJoinOrNull c lt c.N this other with
    | some r => r
    | none => create c lt this other

/-- `ConstantEdgeFunction::join` (`EdgeFunctionUtils.h:464-505`). -/
def joinConst (c : EFCfg P L) (lt : EF P L → EF P L → Bool) (v : L) (other : EF P L) : EF P L :=
  match defaultJoinOrNull c lt 0 (.const v) other with
  | some r => r
  | none =>
    if other = .id then .allBottom
    else if other.isConstant = false then joinGeneric c lt other (.const v)
    else
      let ov := ap c other top
      let j := join v ov
      if bottom = j then .allBottom
      else if c.soo = false ∧ j = ov then other
      else if c.soo = false ∧ j = v then .const v
      else .const j

/-- `joinWith` (`EdgeFunction.h:381-387`): dispatch on the first function to the `join` of
`EdgeIdentity` (:450-462), `AllBottom` (:68-72), `AllTop` (:108-112), `ConstantEdgeFunction`, or
`joinGeneric`. `lt` is the handle comparison at the time of this call. -/
def joinWith (c : EFCfg P L) (lt : EF P L → EF P L → Bool) : EF P L → EF P L → EF P L
  | .id, g =>
    if g = .id ∨ g = .allTop then .id
    else if g = .allBottom then g
    else match g with
      | .const v => joinConst c lt v .id
      | g => joinGeneric c lt g .id
  | .allBottom, _ => .allBottom
  | .allTop, g => g
  | .const v, g => joinConst c lt v g
  | f, g => joinGeneric c lt f g

end EF
end Phasar
