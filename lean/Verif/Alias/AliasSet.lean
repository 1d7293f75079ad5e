/-!
# Model of `LLVMAliasSet`

Models `lib/PhasarLLVM/Pointer/LLVMAliasSet.cpp`, `include/phasar/Pointer/AliasSetOwner.h` and
`include/phasar/Utils/BoxedPointer.h`.  Memory is explicit: alias sets live at addresses, may be released, and
released addresses may be handed out again by the allocator, which is a parameter (any choice of an unused
address).  A `BoxedPtr` points to an entry of the stable vector `AllPTS` (see C28) and is given by its index.
Accesses to released sets, null boxes and failed assertions are `none`.  The traversal of the LLVM IR is abstract:
the module supplies, per function, the calls to `addPointer`, `addSingletonAliasSet` and `mergeAliasSets` it leads
to, and LLVM's own alias analysis is an arbitrary function.
-/
namespace Phasar.Alias

variable {V : Type} [DecidableEq V]

/-- The data of `LLVMAliasSet`, `LLVMAliasSet.h:156-163`, and of its `AliasSetOwner`, `AliasSetOwner.h:112-115`:
the sets by address (`none`: not allocated or released), the boxes `AllPTS`, and `AliasSets`. -/
structure St (V : Type) where
  sets : Nat → Option (List V)
  boxes : List Nat
  al : V → Option Nat

/-- Changing the set at an address. -/
def St.put (s : St V) (a : Nat) (S : Option (List V)) : St V := { s with sets := fun b => if b = a then S else s.sets b }

/-- Setting the box of a value, `AliasSets[V] = PTS`. -/
def St.setAl (s : St V) (v : V) (b : Nat) : St V := { s with al := fun w => if w = v then some b else s.al w }

/-- `AliasSetOwner::acquire`, `AliasSetOwner.h:80-91`: the allocator returns the address `a`. -/
def acquire (s : St V) (a : Nat) : Option (St V × Nat) :=
  if (s.sets a).isNone then some ({ s.put a (some []) with boxes := s.boxes ++ [a] }, s.boxes.length) else none

/-- `AliasSetOwner::release`, `AliasSetOwner.h:93-106`. -/
def release (s : St V) (a : Nat) : Option (St V) := if (s.sets a).isSome then some (s.put a none) else none

/-- `*PTS` for a box, `BoxedPointer.h:41-53`. -/
def deref (s : St V) (b : Nat) : Option (List V) := (s.boxes[b]?).bind s.sets

/-- Inserting into a `DenseSet`. -/
def ins (S : List V) (v : V) : List V := if v ∈ S then S else S ++ [v]

/-- Inserting a range, `LLVMAliasSet.cpp:245`. -/
def insAll (S : List V) : List V → List V
  | [] => S
  | v :: vs => insAll (ins S v) vs

/-- The loop that redirects the boxes of the smaller set, `LLVMAliasSet.cpp:249-255`. -/
def reindex (al : V → Option Nat) (small large : Nat) : List V → List Nat → Option (List Nat)
  | [], boxes => some boxes
  | v :: vs, boxes => (al v).bind (fun b => (boxes[b]?).bind (fun a =>
      reindex al small large vs (if a = small then boxes.set b large else boxes)))

/-- `mergeAliasSets` for two boxes, `LLVMAliasSet.cpp:226-258`. -/
def mergeBoxes (s : St V) (b1 b2 : Nat) : Option (St V) :=
  if b1 = b2 then some s else
  match s.boxes[b1]?, s.boxes[b2]? with
  | some a1, some a2 =>
    if a1 = a2 then some s else
    match s.sets a1, s.sets a2 with
    | some S1, some S2 =>
      let small := if S1.length > S2.length then a2 else a1
      let large := if S1.length > S2.length then a1 else a2
      let Ss := if S1.length > S2.length then S2 else S1
      let Sl := if S1.length > S2.length then S1 else S2
      (reindex s.al small large Ss s.boxes).bind (fun boxes =>
        release { s.put large (some (insAll Sl Ss)) with boxes := boxes } small)
    | _, _ => none
  | _, _ => none

/-- `mergeAliasSets` for two values, `LLVMAliasSet.cpp:211-224`. -/
def mergeVals (s : St V) (v w : V) : Option (St V) :=
  if v = w then some s else
  match s.al v, s.al w with
  | some b1, some b2 => mergeBoxes s b1 b2
  | _, _ => none

/-- `addSingletonAliasSet`, `LLVMAliasSet.cpp:198-209`, with the allocator `fresh`. -/
def addSingleton (fresh : St V → Nat) (s : St V) (v : V) : Option (St V) :=
  match s.al v with
  | some b => match deref s b with
    | some S => if v ∈ S then some s else none
    | none => none
  | none => (acquire s (fresh s)).bind (fun r =>
      (r.1.boxes[r.2]?).bind (fun a => (r.1.sets a).map (fun S => (r.1.put a (some (ins S v))).setAl v r.2)))

/-- Adding `V` to the set of a box, or merging its set with it, `LLVMAliasSet.cpp:374-379` and `396-401`. -/
def attach (s : St V) (b : Nat) (v : V) : Option (St V) :=
  match s.al v with
  | some bv => mergeBoxes s b bv
  | none => (s.boxes[b]?).bind (fun a => (s.sets a).map (fun S => (s.setAl v b).put a (some (ins S v))))

/-- The indices of the representatives that may alias `V`, `LLVMAliasSet.cpp:349-353`. -/
def toMerge (may : V → V → Bool) (v : V) (reps : List V) : List V := reps.filter (may v)

/-- The merges with the further representatives, `LLVMAliasSet.cpp:388-394`. -/
def mergeAll (s : St V) (b : Nat) : List V → Option (St V)
  | [] => some s
  | r :: rs => (s.al r).bind (fun b' => (mergeBoxes s b b').bind (fun s' => mergeAll s' b rs))

/-- The representatives that stay when several may alias `V`, `LLVMAliasSet.cpp:386-394` and `403-404`: of those
that may alias `V`, only the first of each type; `seen` are the types met so far. -/
def keepReps {Ty : Type} [DecidableEq Ty] (may : V → V → Bool) (ty : V → Ty) (v : V) : List Ty → List V → List V
  | _, [] => []
  | seen, r :: rs => if may v r then
      (if ty r ∈ seen then keepReps may ty v seen rs else r :: keepReps may ty v (ty r :: seen) rs)
    else r :: keepReps may ty v seen rs

/-- The representatives after `addPointer`, `LLVMAliasSet.cpp:366-411`. -/
def nextReps {Ty : Type} [DecidableEq Ty] (may : V → V → Bool) (ty : V → Ty) (v : V) (reps : List V) : List V :=
  match toMerge may v reps with
  | [] => reps ++ [v]
  | [r] => if ty v ≠ ty r then reps ++ [v] else reps
  | rs => keepReps may ty v [] reps ++ (if ty v ∈ rs.map ty then [] else [v])

/-- `addPointer`, `LLVMAliasSet.cpp:344-412`: the state; the representatives are `nextReps`. -/
def addPointer (fresh : St V → Nat) (may : V → V → Bool) (s : St V) (reps : List V) (v : V) : Option (St V) :=
  match toMerge may v reps with
  | [] => addSingleton fresh s v
  | r :: rs => (s.al r).bind (fun b => (mergeAll s b rs).bind (fun s' => attach s' b v))

/-- A primitive step: the calls that change the alias sets; `newFn` starts the analysis of another function with
no representatives (`LLVMAliasSet.cpp:467`). -/
inductive Op (V : Type) where
  | single (v : V)
  | ptr (v : V)
  | merge (v w : V)
  | newFn
deriving DecidableEq

/-- One primitive step on the state and the representatives. -/
def step {Ty : Type} [DecidableEq Ty] (fresh : St V → Nat) (may : V → V → Bool) (ty : V → Ty) (p : St V × List V) :
    Op V → Option (St V × List V)
  | .single v => (addSingleton fresh p.1 v).map (fun s => (s, p.2))
  | .ptr v => (addPointer fresh may p.1 p.2 v).map (fun s => (s, nextReps may ty v p.2))
  | .merge v w => (mergeVals p.1 v w).map (fun s => (s, p.2))
  | .newFn => some (p.1, [])

/-- A sequence of primitive steps. -/
def run {Ty : Type} [DecidableEq Ty] (fresh : St V → Nat) (may : V → V → Bool) (ty : V → Ty) (p : St V × List V) :
    List (Op V) → Option (St V × List V)
  | [] => some p
  | o :: os => (step fresh may ty p o).bind (fun p' => run fresh may ty p' os)

/-- The empty analysis. -/
def empty : St V := ⟨fun _ => none, [], fun _ => none⟩

/-- The last lines of `alias`, `LLVMAliasSet.cpp:561-562`. -/
def aliasQ (s : St V) (v w : V) : Option Bool := (s.al v).bind (fun b => (deref s b).map (fun S => decide (w ∈ S)))

/-- The last lines of `getAliasSet`, `LLVMAliasSet.cpp:581-585`, for a known value: what the returned box holds. -/
def aliasSet (s : St V) (v : V) : Option (List V) := (s.al v).bind (deref s)

/-! ## The analysis of values and functions -/

/-- What the alias analysis needs to know about the module: which values are interesting pointers
(`LLVMBasedICFG`-independent predicate used at `LLVMAliasSet.cpp:154`); for a global its using instructions with
their function and the pair merged for it (`LLVMAliasSet.cpp:165-187`), for any other value its function
(`LLVMAliasSet.cpp:191`); and per function whether it is a declaration and the calls its instructions lead to
(`LLVMAliasSet.cpp:470-547`). -/
structure Mod (V F : Type) where
  interesting : V → Bool
  users : V → Option (List (F × Option (V × V)))
  fn : V → Option F
  decl : F → Bool
  events : F → List (Op V)

/-- `computeFunctionsAliasSet`, `LLVMAliasSet.cpp:444-551`: the steps it makes and the functions analysed. -/
def computeFn {F : Type} [DecidableEq F] (m : Mod V F) (done : List F) : Option F → List (Op V) × List F
  | none => ([], done)
  | some f => if f ∈ done then ([], done) else (if m.decl f then [] else .newFn :: m.events f, f :: done)

/-- The loop over the users of a global, `LLVMAliasSet.cpp:165-187`. -/
def computeUsers {F : Type} [DecidableEq F] (m : Mod V F) : List F → List (F × Option (V × V)) → List (Op V) × List F
  | done, [] => ([], done)
  | done, u :: us =>
    let r := computeFn m done (some u.1)
    let q := computeUsers m r.2 us
    (r.1 ++ ((match u.2 with | some p => [.merge p.1 p.2] | none => []) ++ q.1), q.2)

/-- `computeValuesAliasSet`, `LLVMAliasSet.cpp:153-196`. -/
def computeVal {F : Type} [DecidableEq F] (m : Mod V F) (done : List F) (v : V) : List (Op V) × List F :=
  if m.interesting v then
    match m.users v with
    | some us => let r := computeUsers m done us; (.single v :: r.1, r.2)
    | none => let r := computeFn m done (m.fn v); (.single v :: r.1, r.2)
  else ([], done)

/-- A call of the interface. -/
inductive Call (V : Type) where
  | compute (v : V)
  | introduce (v w : V)
deriving DecidableEq

/-- `computeValuesAliasSet` as run by the constructor, `alias` and `getAliasSet` (`LLVMAliasSet.cpp:75-81`,
`559-560`, `580`), and `introduceAlias`, `LLVMAliasSet.cpp:685-697`: the steps made. -/
def call {F : Type} [DecidableEq F] (m : Mod V F) (done : List F) : Call V → List (Op V) × List F
  | .compute v => computeVal m done v
  | .introduce v w =>
    if m.interesting v && m.interesting w then
      let r := computeVal m done v
      let q := computeVal m r.2 w
      (r.1 ++ (q.1 ++ [.merge v w]), q.2)
    else ([], done)

/-- A sequence of calls: all steps made. -/
def calls {F : Type} [DecidableEq F] (m : Mod V F) : List F → List (Call V) → List (Op V) × List F
  | done, [] => ([], done)
  | done, c :: cs => let r := call m done c; let q := calls m r.2 cs; (r.1 ++ q.1, q.2)

/-! ## `mergeWith` -/

/-- Looking for the first element known here, `LLVMAliasSet.cpp:661-664`. -/
def findKnown (s : St V) : List V → Option Nat
  | [] => none
  | v :: vs => match s.al v with
    | some b => some b
    | none => findKnown s vs

/-- Reindexing, `LLVMAliasSet.cpp:669-671`: `insert` does nothing for values known already.  Simplified: the code
reads `Search->second` after earlier inserts into the same `DenseMap`, which may have moved the entries
(use of an invalidated iterator, see DESIGN.md); here the box found at line 664 is used throughout. -/
def insertAl (s : St V) (b : Nat) : List V → St V
  | [] => s
  | v :: vs => insertAl (match s.al v with | some _ => s | none => s.setAl v b) b vs

/-- One entry of the other analysis, `LLVMAliasSet.cpp:659-682`: key and set. -/
def mergeEntry (fresh : St V → Nat) (s : St V) (k : V) (S : List V) : Option (St V) :=
  match findKnown s S with
  | some b => (s.boxes[b]?).bind (fun a => (s.sets a).map (fun S0 => insertAl (s.put a (some (insAll S0 S))) b S))
  | none => (acquire s (fresh s)).bind (fun r =>
      (r.1.boxes[r.2]?).map (fun a =>
        let s1 := r.1.put a (some S)
        match s1.al k with
        | some _ => s1
        | none => s1.setAl k r.2))

/-- `mergeWith`, `LLVMAliasSet.cpp:653-683`, for the keys of the other analysis in the order of its map. -/
def mergeWith (fresh : St V → Nat) (s other : St V) : List V → Option (St V)
  | [] => some s
  | k :: ks => (aliasSet other k).bind (fun S => (mergeEntry fresh s k S).bind (fun s' => mergeWith fresh s' other ks))

/-! ## Specification -/

/-- Specification: the smallest equivalence relation containing the pairs. -/
inductive Clos (P : List (V × V)) : V → V → Prop
  | pair {a b : V} : (a, b) ∈ P → Clos P a b
  | refl (a : V) : Clos P a a
  | symm {a b : V} : Clos P a b → Clos P b a
  | trans {a b c : V} : Clos P a b → Clos P b c → Clos P a c

/-- Specification: what `new` guarantees: as long as every allocated set is in the table of boxes, the allocator
returns an address that is not in use.  It may return released addresses again. -/
def Alloc (fresh : St V → Nat) : Prop := ∀ s : St V, (∀ a, s.sets a ≠ none → a ∈ s.boxes) → s.sets (fresh s) = none

/-- Specification state: the known pointers, the representatives, the pairs introduced. -/
structure Spec (V : Type) where
  known : List V
  reps : List V
  pairs : List (V × V)

/-- Specification: a step makes a pointer known and introduces pairs: `addPointer` every pair with a
representative that may alias the pointer.  `merge` needs both pointers known. -/
def specStep {Ty : Type} [DecidableEq Ty] (may : V → V → Bool) (ty : V → Ty) (p : Spec V) : Op V → Option (Spec V)
  | .single v => some { p with known := v :: p.known }
  | .ptr v => some ⟨v :: p.known, nextReps may ty v p.reps, (p.reps.filter (may v)).map (fun r => (r, v)) ++ p.pairs⟩
  | .merge v w => if v ∈ p.known ∧ w ∈ p.known then some { p with pairs := (v, w) :: p.pairs } else none
  | .newFn => some { p with reps := [] }

/-- Specification: a sequence of steps. -/
def specRun {Ty : Type} [DecidableEq Ty] (may : V → V → Bool) (ty : V → Ty) (p : Spec V) : List (Op V) → Option (Spec V)
  | [] => some p
  | o :: os => (specStep may ty p o).bind (fun p' => specRun may ty p' os)

/-- Specification: a step whose pair is known or that makes pointers known, for the module's events: every merge is
of pointers an earlier event of the function made known. -/
def Closed : List V → List (Op V) → Prop
  | _, [] => True
  | K, .single v :: os => Closed (v :: K) os
  | K, .ptr v :: os => Closed (v :: K) os
  | K, .merge v w :: os => (v ∈ K ∧ w ∈ K) ∧ Closed K os
  | K, .newFn :: os => Closed K os

/-- Specification: the pointers the steps make known. -/
def adds : List (Op V) → List V
  | [] => []
  | .single v :: os => v :: adds os
  | .ptr v :: os => v :: adds os
  | _ :: os => adds os

/-- Specification: a module as LLVM provides it: the merges of a function are of pointers added by it, and the
merge done for a user of a global is of the global or pointers the user's function adds. -/
def MWf {F : Type} (m : Mod V F) : Prop :=
  (∀ f, m.decl f = false → Closed [] (m.events f)) ∧
  ∀ g us, m.users g = some us → ∀ u, u ∈ us → ∀ p, u.2 = some p →
    m.decl u.1 = false ∧ (p.1 = g ∨ p.1 ∈ adds (m.events u.1)) ∧ (p.2 = g ∨ p.2 ∈ adds (m.events u.1))

end Phasar.Alias
