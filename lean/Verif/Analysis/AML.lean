/-
Abstract memory locations, the facts of the extended taint analysis, and the
factory that makes them
(include/phasar/PhasarLLVM/DataFlow/IfdsIde/Problems/ExtendedTaintAnalysis/AbstractMemoryLocation.h,
 include/phasar/PhasarLLVM/DataFlow/IfdsIde/Problems/ExtendedTaintAnalysis/AbstractMemoryLocationFactory.h,
 lib/PhasarLLVM/DataFlow/IfdsIde/Problems/ExtendedTaintAnalysis/AbstractMemoryLocation.cpp,
 lib/PhasarLLVM/DataFlow/IfdsIde/Problems/ExtendedTaintAnalysis/AbstractMemoryLocationFactory.cpp).

A failed assertion, a `back()` or `front()` of an empty sequence and an
unsigned difference below zero are the outcome `none`.  Offsets are integers;
the 64 bit arithmetic of `ptrdiff_t` is not modelled.
-/

namespace Phasar.AML

/-- AbstractMemoryLocation.h:37-45, 53-143: base pointer, offsets, and
    lifetime.  A value is a number. -/
structure Loc where
  base : Nat
  offs : List Int
  life : Nat
deriving DecidableEq, Repr

/-- AbstractMemoryLocation.h:103-105: `isOverApproximation`. -/
def Loc.isOver (l : Loc) : Bool := l.life == 0

/-- The values `createImpl` looks at (AbstractMemoryLocationFactory.cpp:182-225):
    `self` is a constant, an alloca, an argument or a call; `other` any value
    at which the loop stops; the offset of a `gep` is what `computeOffset`
    (AbstractMemoryLocation.cpp:58-71) returns.  A value is given with its
    operands as a tree, each node with its own number. -/
inductive IR where
  | self (id : Nat)
  | other (id : Nat)
  | load (id : Nat) (p : IR)
  | cast (id : Nat) (p : IR)
  | gep (id : Nat) (p : IR) (off : Option Int)
deriving DecidableEq, Repr

/-- The number of a value. -/
def IR.id : IR → Nat
  | .self i | .other i | .load i _ | .cast i _ | .gep i _ _ => i

/-- AbstractMemoryLocation.cpp:165-176: `MakeProfile`.  A pointer and an offset
    are two 32 bit words each in the code and one number here; the flag is one
    word.  `none` is the failed assertion of line 169. -/
def profile (b : Nat) (offs : List Int) (life : Nat) : Option (List Int) :=
  if life ≠ 0 ∧ offs = [] then none
  else some ((b : Int) :: (offs ++ [if life ≠ 0 then 1 else 0]))

/-- AbstractMemoryLocationFactory.h:75-82: the pool (nodes in the order of
    their creation) and the cache of `createImpl`. -/
structure Fac where
  pool : List Loc
  cache : List (Nat × Loc)
deriving DecidableEq, Repr

/-- AbstractMemoryLocationFactory.cpp:130-136: a new factory. -/
def Fac.empty : Fac := ⟨[], []⟩

/-- AbstractMemoryLocationFactory.cpp:153-165: `getOrCreateImpl`.  A node of
    the pool is found if its profile is the one asked for
    (AbstractMemoryLocation.cpp:178-180). -/
def getOrCreate (F : Fac) (b : Nat) (offs : List Int) (life : Nat) :
    Option (Loc × Fac) :=
  match profile b offs life with
  | none => none
  | some p =>
    match F.pool.find? (fun n => profile n.base n.offs n.life == some p) with
    | some n => some (n, F)
    | none => some (⟨b, offs, life⟩, { F with pool := F.pool ++ [⟨b, offs, life⟩] })

/-- AbstractMemoryLocationFactory.cpp:167-172: `getOrCreateImpl` for a value
    that defines itself. -/
def getOrCreateBase (F : Fac) (b : Nat) (bound : Nat) : Option (Loc × Fac) :=
  getOrCreate F b [0] (if bound = 0 then 0 else bound - 1)

/-- `Offs.back() += K` of a vector (AbstractMemoryLocationFactory.cpp:212, 340,
    367, 440); `none` if the vector is empty. -/
def addBack (offs : List Int) (k : Int) : Option (List Int) :=
  match offs.reverse with
  | [] => none
  | x :: r => some (((x + k) :: r).reverse)

/-- AbstractMemoryLocationFactory.cpp:199-225: the loop of `createImpl`; the
    offsets are collected from the value to its base. -/
def createLoop (bound : Nat) : IR → List Int → Nat → Option (Nat × List Int × Nat)
  | .self i, offs, ver => some (i, offs, ver)
  | .other i, offs, ver => some (i, offs, ver)
  | .load _ p, offs, ver => createLoop bound p (offs ++ [0]) (ver + 1)
  | .cast _ p, offs, ver => createLoop bound p offs ver
  | .gep _ p (some k), offs, ver =>
    match addBack offs k with
    | none => none
    | some o => createLoop bound p o ver
  | .gep _ p none, _, _ => createLoop bound p [0] bound

/-- `createImpl` for a value that is not in the cache
    (AbstractMemoryLocationFactory.cpp:182-242). -/
def createNew (F : Fac) (bound : Nat) (v : IR) : Option (Loc × Fac) :=
  match v with
  | .self i => getOrCreateBase F i bound
  | _ =>
    match createLoop bound v [0] 1 with
    | none => none
    | some (b, offs, ver) =>
      if offs.reverse.length > bound then
        if bound - min ver bound = 0 then
          getOrCreate F b (offs.reverse.take bound) (bound - min ver bound)
        else none
      else getOrCreate F b offs.reverse (bound - min ver bound)

/-- AbstractMemoryLocationFactory.cpp:174-251: `createImpl`. -/
def create (F : Fac) (bound : Nat) (v : IR) : Option (Loc × Fac) :=
  match F.cache.lookup v.id with
  | some l => some (l, F)
  | none =>
    match createNew F bound v with
    | none => none
    | some (l, F') => some (l, { F' with cache := (v.id, l) :: F'.cache })

/-- AbstractMemoryLocationFactory.cpp:260-274: `limitImpl`. -/
def limit (F : Fac) (l : Loc) : Option (Loc × Fac) :=
  getOrCreate F l.base l.offs.dropLast 0

/-- AbstractMemoryLocationFactory.cpp:276-318: `withIndirectionOfImpl`. -/
def withIndirection (F : Fac) (l : Loc) (ind : List Int) : Option (Loc × Fac) :=
  if l.life = 0 then some (l, F)
  else if ind = [] then getOrCreate F l.base (l.offs ++ [0]) (l.life - 1)
  else
    let ind' := if l.life < ind.length then ind.take l.life else ind
    getOrCreate F l.base (l.offs ++ ind') (l.life - ind'.length)

/-- AbstractMemoryLocationFactory.cpp:320-344: `withOffsetImpl`. -/
def withOffset (F : Fac) (l : Loc) (off : Option Int) : Option (Loc × Fac) :=
  if l.life = 0 then some (l, F)
  else
    match off with
    | none => limit F l
    | some k =>
      match addBack l.offs k with
      | none => none
      | some o => getOrCreate F l.base o l.life

/-- AbstractMemoryLocationFactory.cpp:346-385: `withOffsetsImpl`. -/
def withOffsets (F : Fac) (l : Loc) (offs : List Int) : Option (Loc × Fac) :=
  match offs with
  | [] => some (l, F)
  | k :: _ =>
    if l.life = 0 then some (l, F)
    else
      match addBack l.offs k with
      | none => none
      | some o =>
        let offs' := if l.life < offs.length - 1 then offs.take (l.life + 1) else offs
        if l.life + 1 < offs'.length then none
        else getOrCreate F l.base (o ++ offs'.tail) (l.life + 1 - offs'.length)

/-- `Offs.back() = 0` of a vector that may be empty
    (AbstractMemoryLocationFactory.cpp:417-419). -/
def zeroBack (offs : List Int) : List Int :=
  match offs.reverse with
  | [] => []
  | _ :: r => (0 :: r).reverse

/-- AbstractMemoryLocationFactory.cpp:387-422: `withTransferToImpl`. -/
def withTransferTo (F : Fac) (aml frm : Loc) (to : Nat) : Option (Loc × Fac) :=
  if aml.life = 0 ∧ frm.life = 0 then getOrCreateBase F to 0
  else
    let larger := if aml.offs.length ≥ frm.offs.length then aml.offs else frm.offs
    let smaller := if aml.offs.length ≥ frm.offs.length then frm.offs else aml.offs
    let rest := if smaller ≠ [] then larger.drop (smaller.length - 1) else larger
    getOrCreate F to (zeroBack rest) (min aml.life frm.life)

/-- AbstractMemoryLocationFactory.cpp:436-444: the offsets of `To` followed by
    those of `AML`. -/
def transferOffs (to : List Int) : List Int → Option (List Int)
  | [] => some to
  | k :: r =>
    if to = [] then some (to ++ r)
    else match addBack to k with
      | none => none
      | some o => some (o ++ r)

/-- AbstractMemoryLocationFactory.cpp:424-469: `withTransferFromImpl`. -/
def withTransferFrom (F : Fac) (aml to : Loc) : Option (Loc × Fac) :=
  if aml.life = 0 then some (to, F)
  else
    match transferOffs to.offs aml.offs with
    | none => none
    | some offs =>
      let maxSize := min (aml.offs.length + aml.life) (to.offs.length + to.life)
      let offs' := if offs.length > maxSize then offs.take maxSize else offs
      if maxSize < offs'.length then none
      else getOrCreate F to.base offs' (min aml.life (maxSize - offs'.length))

/-- AbstractMemoryLocation.cpp:73-79: `operator-`. -/
def sub (a b : Loc) : List Int :=
  if a.offs.length > b.offs.length then a.offs.drop (max 1 b.offs.length - 1)
  else b.offs.drop (max 1 a.offs.length - 1)

/-- AbstractMemoryLocation.cpp:81-85: `equivalentOffsets`. -/
def equivOffs (a b : Loc) : Bool :=
  a.offs.take (min a.offs.length b.offs.length) ==
    b.offs.take (min a.offs.length b.offs.length)

/-- AbstractMemoryLocation.cpp:87-94: `equivalent`. -/
def equiv (a b : Loc) : Bool :=
  if a.base ≠ b.base then false else equivOffs a b

/-- AbstractMemoryLocation.cpp:96-107: `equivalentExceptPointerArithmetics`. -/
def equivPA (a b : Loc) (lvl : Nat) : Bool :=
  if a.base ≠ b.base then false
  else if min a.offs.length b.offs.length ≤ lvl then true
  else a.offs.take (min a.offs.length b.offs.length - lvl) ==
    b.offs.take (min a.offs.length b.offs.length - lvl)

/-- AbstractMemoryLocation.cpp:109-137: `mustAlias`; `fn` gives the function of
    an instruction or argument, `must` says whether the alias analysis answers
    `MustAlias`. -/
def mustAlias (fn : Nat → Option Nat) (must : Nat → Nat → Bool) (a b : Loc) : Bool :=
  if a.base ≠ b.base ∧ (fn a.base ≠ fn b.base ∨ must a.base b.base = false) then false
  else equivOffs a b

/-- AbstractMemoryLocation.cpp:139-149: `isProperPrefixOf`. -/
def isProperPrefixOf (a b : Loc) : Bool :=
  if a.base ≠ b.base then false
  else if a.offs.length ≥ b.offs.length then false
  else a.offs == b.offs.take a.offs.length

/-- The calls a user of the factory makes; a value to `create` is given by its
    number. -/
inductive Op where
  | create (v : Nat)
  | indirection (l : Loc) (ind : List Int)
  | offset (l : Loc) (off : Option Int)
  | offsets (l : Loc) (offs : List Int)
  | transferTo (aml frm : Loc) (to : Nat)
  | transferFrom (aml to : Loc)
deriving DecidableEq, Repr

/-- The locations a call mentions. -/
def Op.args : Op → List Loc
  | .create _ => []
  | .indirection l _ | .offset l _ | .offsets l _ => [l]
  | .transferTo a f _ => [a, f]
  | .transferFrom a t => [a, t]

/-- AbstractMemoryLocationFactory.h:162-208: the public functions of the
    factory, for the values of a module and a fixed bound
    (IDEExtendedTaintAnalysis.cpp:767-769). -/
def exec (prog : Nat → IR) (bound : Nat) (F : Fac) : Op → Option (Loc × Fac)
  | .create v => create F bound (prog v)
  | .indirection l ind => withIndirection F l ind
  | .offset l off => withOffset F l off
  | .offsets l offs => withOffsets F l offs
  | .transferTo a f t => withTransferTo F a f t
  | .transferFrom a t => withTransferFrom F a t

/-- Factories that calls with locations of the pool lead to. -/
inductive Reached (prog : Nat → IR) (bound : Nat) : Fac → Prop where
  | empty : Reached prog bound Fac.empty
  | step {F F' : Fac} {op : Op} {l : Loc} :
      Reached prog bound F → (∀ a ∈ op.args, a ∈ F.pool) →
      exec prog bound F op = some (l, F') → Reached prog bound F'

/-! ### What the store, call and return functions of the analysis ask for -/

/-- IDEExtendedTaintAnalysis.cpp:170-173: the location a store generates for
    the tainted `src` when `val` is stored to `mem`. -/
def storeFact (F : Fac) (mem src val : Loc) : Option (Loc × Fac) :=
  withIndirection F mem (sub src val)

/-- IDEExtendedTaintAnalysis.cpp:463: the location of a call for the tainted
    `src` when `ret` is returned. -/
def retFact (F : Fac) (call src ret : Loc) : Option (Loc × Fac) :=
  withOffsets F call (sub src ret)

/-- IDEExtendedTaintAnalysis.cpp:440-448: what a return generates for a formal
    parameter and its actual argument; `ptr` says whether the parameter is a
    pointer.  The may-aliases of the argument (lines 450-458) are left out. -/
def mapBack (F : Fac) (ptr : Bool) (src formal actual : Loc) : Option (Option Loc × Fac) :=
  if ptr = false ∨ equiv src formal = false then some (none, F)
  else
    match withTransferFrom F src actual with
    | none => none
    | some (l, F') => some (some l, F')

/-! ### The memory of the nodes -/

/-- AbstractMemoryLocationFactory.h:69-70: pointers per node without offsets
    (link, base, two 32 bit numbers). -/
def minPtrs : Nat := 3

/-- AbstractMemoryLocationFactory.h:68, 71-72: pointers per block. -/
def ptrsPerBlock : Nat := (minPtrs + 3) * 1024

/-- AbstractMemoryLocationFactory.h:50-52: the sizes of the blocks (the newest
    first) and the position in the newest one. -/
structure Alloc where
  blocks : List Nat
  pos : Nat
deriving DecidableEq, Repr

/-- AbstractMemoryLocationFactory.cpp:57-68: the constructor. -/
def Alloc.new (cap : Nat) : Alloc :=
  if cap ≤ 1024 then ⟨[], 0⟩ else ⟨[(minPtrs + 3) * cap], 0⟩

/-- A place: the number of the block (the oldest is 0), the first pointer and
    the number of pointers. -/
structure Place where
  block : Nat
  start : Nat
  size : Nat
deriving DecidableEq, Repr

/-- AbstractMemoryLocationFactory.cpp:100-128: `Allocator::create` for a number
    of offsets; where the object is written, whether or not it fits. -/
def Alloc.create (A : Alloc) (n : Nat) : Place × Alloc :=
  let need := minPtrs + n
  let A' : Alloc :=
    if A.blocks.headD 0 - A.pos < need then ⟨ptrsPerBlock :: A.blocks, 0⟩ else A
  (⟨A'.blocks.length - 1, A'.pos, need⟩, { A' with pos := A'.pos + need })

/-- A sequence of allocations. -/
def Alloc.run (A : Alloc) : List Nat → List Place × Alloc
  | [] => ([], A)
  | n :: r =>
    let (p, A1) := A.create n
    let (ps, A2) := A1.run r
    (p :: ps, A2)

end Phasar.AML
