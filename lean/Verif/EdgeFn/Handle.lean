/-!
# Reference-counted edge-function handles

Model of the ownership part of `include/phasar/DataFlow/IfdsIde/EdgeFunction.h` and
`include/phasar/DataFlow/IfdsIde/DefaultEdgeFunctionSingletonCache.h`: constructors, assignments, destructor and swap of
`EdgeFunction`, the cache, and edge functions that hold further handles (e.g. `EdgeFunctionComposer`).

Left out: threads (the counter is an atomic; here steps are sequential), exceptions (`std::bad_alloc`), and what the edge
functions compute.  Addresses are never reused, so that a dangling handle is always recognised.
-/
namespace Phasar.Handle

/-- `EdgeFunction`: the members `EF` and `VTAndHeapAlloc` (`EdgeFunction.h:791-792`).  `null` is the default-constructed handle
(`EdgeFunction.h:178`), `soo` a small object stored in place of the pointer, `heap id cached` a pointer to the allocation
`id` with the policy `CustomHeapAllocated` (`cached`) or `DefaultHeapAllocated`. -/
inductive H where
  | null
  | soo (v : Nat)
  | heap (id : Nat) (cached : Bool)
deriving DecidableEq, Repr

/-- `RefCounted<T>` and `CachedRefCounted<T>` (`EdgeFunction.h:88-95`): the counter, the cache pointer (`none` for a plain
`RefCounted`), the value `T` (its equality class `key`) and the handles contained in the value. -/
structure Obj where
  rc : Nat
  cache : Option Nat
  key : Nat
  kids : List H
deriving DecidableEq, Repr

/-- Memory: the allocations (`none`: freed), the entries of all caches ((cache, key), allocation), and the handle variables
of the program (`none`: no handle lives there). -/
structure St where
  heap : List (Option Obj)
  caches : List ((Nat × Nat) × Nat)
  slots : List (Option H)
deriving DecidableEq, Repr

/-- `DefaultEdgeFunctionSingletonCache::lookup` (`DefaultEdgeFunctionSingletonCache.h:42-45`). -/
def lookup (cs : List ((Nat × Nat) × Nat)) (c k : Nat) : Option Nat :=
  match cs with
  | [] => none
  | ((c', k'), id) :: cs => if c' = c ∧ k' = k then some id else lookup cs c k

/-- `DefaultEdgeFunctionSingletonCache::erase` (`DefaultEdgeFunctionSingletonCache.h:53-55`). -/
def erase (cs : List ((Nat × Nat) × Nat)) (c k : Nat) : List ((Nat × Nat) × Nat) :=
  cs.filter fun e => decide (e.1 ≠ (c, k))

/-- The allocation `id`, if it is still there. -/
def alive (st : St) (id : Nat) : Option Obj :=
  match st.heap[id]? with
  | some (some o) => some o
  | _ => none

/-- The increment in the utility constructor `EdgeFunction(EF, VTAndHeapAlloc)` (`EdgeFunction.h:778-788`), used by all copying
constructors (`EdgeFunction.h:182-183, 233-246`).  `none`: the allocation was freed already. -/
def incr (h : H) (st : St) : Option St :=
  match h with
  | .heap id _ =>
    match alive st id with
    | none => none
    | some o => some { st with heap := st.heap.set id (some { o with rc := o.rc + 1 }) }
  | _ => some st

/-- `VTableFor<ConcreteEF>.destroy` without the destructors of the contained handles (`EdgeFunction.h:745-756`): with policy
`CustomHeapAllocated` the cache entry of the value is erased first.  `none`: the policy claims a cache the allocation does
not have. -/
def free (id : Nat) (o : Obj) (cached : Bool) (st : St) : Option St :=
  if cached then
    match o.cache with
    | none => none
    | some c => some { st with caches := erase st.caches c o.key, heap := st.heap.set id none }
  else some { st with heap := st.heap.set id none }

/-- The destructor of a handle (`EdgeFunction.h:216-227`), for a list of handles still to be destroyed.  When a counter reaches
zero the allocation is freed and the handles in its value are destroyed next (`delete`, `EdgeFunction.h:749-754`).  `none`:
access to a freed allocation, a counter below zero, or no fuel.  The fuel replaces the recursion of the C++ destructors;
`destroyAll` gives enough of it (shown in `C43_safe`).  Simplified: the memory counts as freed before the contained handles
are destroyed, which can only make more accesses invalid. -/
def dropAll : Nat → List H → St → Option St
  | _, [], st => some st
  | 0, _ :: _, _ => none
  | n + 1, .heap id cached :: hs, st =>
    match alive st id with
    | none => none
    | some o =>
      if o.rc = 0 then none
      else if o.rc = 1 then
        match free id o cached st with
        | none => none
        | some st' => dropAll n (o.kids ++ hs) st'
      else dropAll n hs { st with heap := st.heap.set id (some { o with rc := o.rc - 1 }) }
  | n + 1, _ :: hs, st => dropAll n hs st

/-- Number of handles inside the live allocations. -/
def kidsTotal (heap : List (Option Obj)) : Nat :=
  (heap.map fun o => match o with | some o => o.kids.length | none => 0).sum

/-- Destroys a list of handles (see `dropAll`). -/
def destroyAll (hs : List H) (st : St) : Option St := dropAll (hs.length + kidsTotal st.heap) hs st

/-- The handle in variable `i`. -/
def get (st : St) (i : Nat) : Option H :=
  match st.slots[i]? with
  | some (some h) => some h
  | _ => none

/-- Writes variable `i`. -/
def put (st : St) (i : Nat) (h : Option H) : St := { st with slots := st.slots.set i h }

/-- Copy-constructs a list of handles from variables, as done when an edge function is built from others
(`EdgeFunction.h:182-183` for each). -/
def copies : List Nat → St → Option (List H × St)
  | [], st => some ([], st)
  | j :: js, st =>
    match get st j with
    | none => none
    | some h =>
      match incr h st with
      | none => none
      | some st' =>
        match copies js st' with
        | none => none
        | some (hs, st'') => some (h :: hs, st'')

/-- Allocates an object with counter zero and a first handle to it: `new RefCounted` / `new CachedRefCounted` followed by the
utility constructor (`EdgeFunction.h:269-283, 300-319`). -/
def alloc (cache : Option Nat) (key : Nat) (kids : List H) (st : St) : H × St :=
  (.heap st.heap.length cache.isSome,
   { st with heap := st.heap ++ [some { rc := 1, cache := cache, key := key, kids := kids }] })

/-- The `n`-th handle inside the edge function that variable `j` refers to, as reached by
`F.cast<ConcreteEF>()->Member` (`EdgeFunction.h:593-597, 97-106`).  `none`: the allocation was freed. -/
def kidOf (st : St) (j n : Nat) : Option H :=
  match get st j with
  | some (.heap id _) =>
    match alive st id with
    | none => none
    | some o => o.kids[n]?
  | _ => none

/-- `EdgeFunctionRef` of a handle and back: the constructor `EdgeFunctionRef(EF, Policy == CustomHeapAllocated)`
(`EdgeFunction.h:155-160`) and `EdgeFunction(EdgeFunctionRef)` (`EdgeFunction.h:233-246`), without the increment. -/
def viaRef : H → H
  | .heap id cached =>
    let isCached := cached
    .heap id (if isCached then true else false)
  | h => h

/-- The operations of a program on its handle variables. -/
inductive Op where
  /-- `EdgeFunction()` (`EdgeFunction.h:178`) into variable `i`. -/
  | mkNull (i : Nat)
  /-- `EdgeFunction(ConcreteEF)` for a small object (`EdgeFunction.h:274-277`). -/
  | mkSoo (i v : Nat)
  /-- `EdgeFunction(ConcreteEF)` on the heap (`EdgeFunction.h:278-283`), the value holding copies of the handles `js`. -/
  | mk (i key : Nat) (js : List Nat)
  /-- `EdgeFunction(CachedEdgeFunction)` (`EdgeFunction.h:300-319`) with cache `c`. -/
  | mkCached (i c key : Nat) (js : List Nat)
  /-- Copy construction (`EdgeFunction.h:182-183`). -/
  | copy (i j : Nat)
  /-- Construction from an `EdgeFunctionRef` to the function of `j` (`EdgeFunction.h:233-246`). -/
  | fromRef (i j : Nat)
  /-- Copy construction from a handle inside the function of `j`. -/
  | copyKid (i j n : Nat)
  /-- Move construction (`EdgeFunction.h:186-189`). -/
  | move (i j : Nat)
  /-- Assignment from an lvalue (`EdgeFunction.h:203-206`). -/
  | assign (i j : Nat)
  /-- Assignment from a handle inside the function of `j`. -/
  | assignKid (i j n : Nat)
  /-- Assignment from an rvalue (`EdgeFunction.h:203-206`). -/
  | assignMove (i j : Nat)
  /-- Assignment of `nullptr` (`EdgeFunction.h:210-213`). -/
  | assignNull (i : Nat)
  /-- `swap` (`EdgeFunction.h:192-199`). -/
  | swap (i j : Nat)
  /-- Destruction (`EdgeFunction.h:216-227`). -/
  | destroy (i : Nat)
deriving DecidableEq, Repr

/-- Second half of `operator=(EdgeFunction Other)` (`EdgeFunction.h:203-206`): `other` is the parameter, already constructed;
the old handle is destroyed in place, then the parameter is moved in. -/
def assignTail (i : Nat) (other : H) (st : St) : Option St :=
  match get st i with
  | none => none
  | some old =>
    match destroyAll [old] (put st i none) with
    | none => none
    | some st' => some (put st' i (some other))

/-- One operation.  `none`: invalid memory access (or a program that does not respect `allowed`). -/
def step (op : Op) (st : St) : Option St :=
  match op with
  | .mkNull i => some (put st i (some .null))
  | .mkSoo i v => some (put st i (some (.soo v)))
  | .mk i key js =>
    match copies js st with
    | none => none
    | some (hs, st') =>
      let r := alloc none key hs st'
      some (put r.2 i (some r.1))
  | .mkCached i c key js =>
    match copies js st with
    | none => none
    | some (hs, st') =>
      match lookup st'.caches c key with
      | some id =>
        match incr (.heap id true) st' with
        | none => none
        | some st'' =>
          match destroyAll hs st'' with
          | none => none
          | some st3 => some (put st3 i (some (.heap id true)))
      | none =>
        let r := alloc (some c) key hs st'
        let st'' := { r.2 with caches := ((c, key), st'.heap.length) :: r.2.caches }
        some (put st'' i (some r.1))
  | .copy i j =>
    match get st j with
    | none => none
    | some h => (incr h st).map fun st' => put st' i (some h)
  | .fromRef i j =>
    match get st j with
    | none => none
    | some h => (incr (viaRef h) st).map fun st' => put st' i (some (viaRef h))
  | .copyKid i j n =>
    match kidOf st j n with
    | none => none
    | some h => (incr h st).map fun st' => put st' i (some h)
  | .move i j =>
    match get st j with
    | none => none
    | some h => some (put (put st j (some .null)) i (some h))
  | .assign i j =>
    match get st j with
    | none => none
    | some h => (incr h st).bind (assignTail i h)
  | .assignKid i j n =>
    match kidOf st j n with
    | none => none
    | some h => (incr h st).bind (assignTail i h)
  | .assignMove i j =>
    match get st j with
    | none => none
    | some h => assignTail i h (put st j (some .null))
  | .assignNull i =>
    match get st i with
    | none => none
    | some old => (destroyAll [old] (put st i none)).map fun st' => put st' i (some .null)
  | .swap i j =>
    match get st i, get st j with
    | some a, some b => some (put (put st i (some b)) j (some a))
    | _, _ => none
  | .destroy i =>
    match get st i with
    | none => none
    | some old => destroyAll [old] (put st i none)

/-- What C++ asks of the program: construct only where no handle lives, use only living handles, and reach into an edge
function only through its handle and at a member that exists. -/
def allowed (op : Op) (st : St) : Bool :=
  let isFree (i : Nat) := st.slots[i]? == some none
  let isLive (i : Nat) := (get st i).isSome
  match op with
  | .mkNull i | .mkSoo i _ => isFree i
  | .mk i _ js | .mkCached i _ _ js => isFree i && js.all isLive
  | .copy i j | .fromRef i j | .move i j => isFree i && isLive j
  | .copyKid i j n =>
    isFree i && (match get st j with
      | some (.heap id _) => (match alive st id with | some o => decide (n < o.kids.length) | none => true)
      | _ => false)
  | .assign i j | .assignMove i j | .swap i j => isLive i && isLive j
  | .assignKid i j n =>
    isLive i && (match get st j with
      | some (.heap id _) => (match alive st id with | some o => decide (n < o.kids.length) | none => true)
      | _ => false)
  | .assignNull i | .destroy i => isLive i

/-- The start: `n` variables, no handle, no allocation, empty caches. -/
def init (n : Nat) : St := { heap := [], caches := [], slots := List.replicate n none }

/-- Runs a program; `none` if an operation makes an invalid memory access. -/
def run : List Op → St → Option St
  | [], st => some st
  | op :: ops, st => (step op st).bind (run ops)

/-- The defaulted move constructor of the cache (`DefaultEdgeFunctionSingletonCache.h:36-37`): the entries now belong to `c'`, the
cache pointers inside the allocations stay. -/
def moveCache (c c' : Nat) (st : St) : St :=
  { st with caches := st.caches.map fun e => if e.1.1 = c then ((c', e.1.2), e.2) else e }

end Phasar.Handle
