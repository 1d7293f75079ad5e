import Verif.Alias.Stratified

/-!
# Model of the unification-based CFL alias analysis

Models `lib/PhasarLLVM/Pointer/external/llvm/CFLSteensAliasAnalysis.cpp` (the copy PhASAR ships) on top of the graph
(`Verif/Alias/CFLAnders.lean`) and the stratified sets (`Verif/Alias/Stratified.lean`).  Left out as there: summaries of
callees; the cache of functions.
-/
namespace Phasar.CFLSteens
open CFLAnders Stratified

/-- The first loop of `buildSetsFrom`, `CFLSteensAliasAnalysis.cpp:194-211`, on one value: its levels and attributes. -/
def valueOps (g : Graph) (v : Nat) : List Op :=
  .add ⟨v, 0⟩ :: .note ⟨v, 0⟩ (g.attrFor ⟨v, 0⟩) :: (List.range (g.levels v - 1)).flatMap fun i =>
    [.add ⟨v, i + 1⟩, .note ⟨v, i + 1⟩ (g.attrFor ⟨v, i + 1⟩), .below ⟨v, i⟩ ⟨v, i + 1⟩]

/-- The second loop of `buildSetsFrom`, `CFLSteensAliasAnalysis.cpp:214-225`, on one value: its assignments. -/
def edgeOps (g : Graph) (v : Nat) : List Op :=
  (List.range (g.levels v)).flatMap fun i => (g.edges.filter fun e => e.1 = ⟨v, i⟩).map fun e => .with_ ⟨v, i⟩ e.2

/-- `buildSetsFrom`, `CFLSteensAliasAnalysis.cpp:187-228`.  `skip` is `canSkipAddingToSets`, `:97-117`; `vs` are the
values of the graph in the order of its hash table. -/
def setOps (g : Graph) (skip : Nat → Bool) (vs : List Nat) : List Op :=
  (vs.filter fun v => !skip v).flatMap (valueOps g) ++ (vs.filter fun v => !skip v).flatMap (edgeOps g)

/-- `buildSetsFrom` for a function, `CFLSteensAliasAnalysis.cpp:187-228`. -/
def sets (f : Fn) (skip : Nat → Bool) (vs : List Nat) : Option Sets :=
  result (setOps (buildGraph f) skip vs)

/-- `query` and `alias`, `CFLSteensAliasAnalysis.cpp:269-334` and `CFLSteensAliasAnalysis.h:74-92`: whether the answer differs
from `NoAlias`, for two pointers of a function. -/
def mayAlias (s : Sets) (x y : Nat) : Bool :=
  x == y ||
  match s.values ⟨x, 0⟩, s.values ⟨y, 0⟩ with
  | some i, some j =>
    let a := (s.links i).attrs
    let b := (s.links j).attrs
    if i = j then true
    else if !a.any || !b.any then false
    else if a.unkCaller || b.unkCaller then true
    else a.globalArg && b.globalArg
  | _, _ => true

end Phasar.CFLSteens
