/-!
# Model of `StableVector`

Models `include/phasar/Utils/StableVector.h`.  The heap is explicit: allocated blocks are lists of cells, a cell
holds an object or is raw memory.  Reading or destroying where there is no object, constructing where there is
one, accessing outside a block or in a block that is not allocated, and freeing a block with the wrong size or
with objects in it are all `none` (undefined behaviour or a leak).  A pointer into a block is the block's
address with an offset; `Start` always points at the beginning of a block, so `Pos` and `End` are kept as offsets
from it.  Machine arithmetic does not overflow (`max_size`, `StableVector.h:318-326`).
-/
set_option linter.unusedSectionVars false
namespace Phasar.SVec

variable {T : Type}

/-- The heap seen by the vectors: the allocated blocks by address, and a bound on the addresses used. -/
structure Heap (T : Type) where
  mem : Nat → Option (List (Option T))
  next : Nat

/-- Replacing the cells of a block. -/
def Heap.put (h : Heap T) (a : Nat) (c : Option (List (Option T))) : Heap T :=
  { h with mem := fun b => if b = a then c else h.mem b }

/-- `allocate(n)`, `StableVector.h:503`, `185`: a new block of `n` raw cells. -/
def alloc (h : Heap T) (n : Nat) : Heap T × Nat :=
  ({ (h.put h.next (some (List.replicate n none))) with next := h.next + 1 }, h.next)

/-- `deallocate(a, n)`, `StableVector.h:243`, `254`, `447`, `455`. -/
def dealloc (h : Heap T) (a n : Nat) : Option (Heap T) :=
  match h.mem a with
  | some c => if c.length = n ∧ c.all Option.isNone = true then some (h.put a none) else none
  | none => none

/-- `construct(a + o, x)`, `StableVector.h:273-274`, `526-527`. -/
def construct (h : Heap T) (a o : Nat) (x : T) : Option (Heap T) :=
  match h.mem a with
  | some c => match c[o]? with
    | some none => some (h.put a (some (c.set o (some x))))
    | _ => none
  | none => none

/-- Destroying `n` objects from offset `o` on, in the cells of one block. -/
def destroyCells (c : List (Option T)) (o : Nat) : Nat → Option (List (Option T))
  | 0 => some c
  | n + 1 => match c[o]? with
    | some (some _) => destroyCells (c.set o none) (o + 1) n
    | _ => none

/-- `std::destroy_n(a + o, n)`, `StableVector.h:241`, `249`, `352`, `385`, `391`, `412`, `417`. -/
def destroyN (h : Heap T) (a o n : Nat) : Option (Heap T) :=
  if n = 0 then some h else
  match h.mem a with
  | some c => (destroyCells c o n).map (fun c' => h.put a (some c'))
  | none => none

/-- Reading the object at `a + o`, `StableVector.h:96`. -/
def read (h : Heap T) (a o : Nat) : Option T :=
  match h.mem a with
  | some c => match c[o]? with
    | some (some x) => some x
    | _ => none
  | none => none

/-- `StableVector`, `StableVector.h:550-556`. -/
structure SV where
  blocks : List Nat
  start : Option Nat
  pos : Nat
  fin : Nat
  size : Nat
  idx : Nat
deriving DecidableEq

/-- The default constructor, `StableVector.h:155-156`. -/
def null : SV := ⟨[], none, 0, 0, 0, 0⟩

/-- `InitialCapacity`, `StableVector.h:42-43`. -/
def initialCapacity : Nat := 32

/-- `growAndEmplace`, `StableVector.h:498-530`. -/
def grow (v : SV) (h : Heap T) (x : T) : Option (SV × Heap T) :=
  let r : SV × Heap T :=
    if v.blocks = [] then
      let (h1, b) := alloc h initialCapacity
      ({ v with blocks := [b], fin := initialCapacity }, h1)
    else if v.idx < v.blocks.length - 1 then
      ({ v with idx := v.idx + 1, fin := v.size }, h)
    else
      let (h1, b) := alloc h v.size
      ({ v with idx := v.idx + 1, blocks := v.blocks ++ [b], fin := v.size }, h1)
  match r.1.blocks[r.1.idx]? with
  | some ret => (construct r.2 ret 0 x).map (fun h' =>
      ({ r.1 with start := some ret, pos := 1, size := v.size + 1 }, h'))
  | none => none

/-- `emplace_back`, `StableVector.h:266-278`. -/
def emplaceBack (v : SV) (h : Heap T) (x : T) : Option (SV × Heap T) :=
  if v.pos = v.fin then grow v h x else
  match v.start with
  | some s => (construct h s v.pos x).map (fun h' => ({ v with pos := v.pos + 1, size := v.size + 1 }, h'))
  | none => none

/-- `subscriptHelper`, `StableVector.h:532-540`: the address of the element. -/
def addr (v : SV) (i : Nat) : Option (Nat × Nat) :=
  if i < initialCapacity then (v.blocks[0]?).map (fun b => (b, i))
  else (v.blocks[Nat.log2 i - 4]?).map (fun b => (b, i - 2 ^ Nat.log2 i))

/-- `operator[]`, `StableVector.h:283-289`. -/
def get (v : SV) (h : Heap T) (i : Nat) : Option T := (addr v i).bind (fun p => read h p.1 p.2)

/-- `front`, `StableVector.h:328-336`. -/
def front (v : SV) (h : Heap T) : Option T := (v.blocks[0]?).bind (fun b => read h b 0)

/-- `back`, `StableVector.h:338-346`. -/
def back (v : SV) (h : Heap T) : Option T :=
  if v.pos = 0 then none else v.start.bind (fun s => read h s (v.pos - 1))

/-- Going back to the previous block, `StableVector.h:359-371` and `421-431`. -/
def prevBlock (v : SV) : Option SV :=
  if v.idx ≠ 0 then
    let i := v.idx - 1
    if i ≠ 0 then (v.blocks[i]?).map (fun b => { v with idx := i, start := some b, pos := v.fin / 2, fin := v.fin / 2 })
    else (v.blocks[0]?).map (fun b => { v with idx := 0, start := some b, pos := initialCapacity, fin := initialCapacity })
  else some v

/-- `pop_back`, `StableVector.h:348-372`. -/
def popBack (v : SV) (h : Heap T) : Option (SV × Heap T) :=
  if v.size = 0 ∨ v.pos = 0 then none else
  match v.start with
  | none => none
  | some s => (destroyN h s (v.pos - 1) 1).bind (fun h' =>
      let v1 := { v with pos := v.pos - 1, size := v.size - 1 }
      if v1.pos ≠ 0 then some (v1, h') else (prevBlock v1).map (fun v2 => (v2, h')))

/-- The loop of `pop_back_n`, `StableVector.h:407-435`; the first argument bounds the number of rounds. -/
def popLoop : Nat → SV → Heap T → Nat → Option (SV × Heap T)
  | _, v, h, 0 => some (v, h)
  | 0, _, _, _ + 1 => none
  | f + 1, v, h, n + 1 =>
    match v.start with
    | none => none
    | some s =>
      if v.pos > n + 1 then
        (destroyN h s (v.pos - (n + 1)) (n + 1)).map (fun h' =>
          ({ v with pos := v.pos - (n + 1), size := v.size - (n + 1) }, h'))
      else
        (destroyN h s 0 v.pos).bind (fun h' =>
          let v1 := { v with size := v.size - v.pos }
          (if v.idx ≠ 0 then prevBlock v1
           else (v.blocks[0]?).map (fun b => { v1 with start := some b, pos := 0, fin := initialCapacity })).bind
            (fun v2 => popLoop f v2 h' (n + 1 - v.pos)))

/-- `pop_back_n`, `StableVector.h:401-436`. -/
def popBackN (v : SV) (h : Heap T) (n : Nat) : Option (SV × Heap T) :=
  if v.size < n then none else popLoop n v h n

/-- Destroying the full blocks from block `i` on, `k` of them: the loops at `StableVector.h:384-389`; `cap` and
`total` are the loop's `Cap` and `TotalSize`. -/
def destroyFull (blocks : List Nat) : Nat → Nat → Nat → Nat → Heap T → Option (Heap T)
  | 0, _, _, _, h => some h
  | k + 1, i, cap, total, h =>
    match blocks[i]? with
    | some b => (destroyN h b 0 cap).bind (fun h' => destroyFull blocks k (i + 1) total (total + total) h')
    | none => none

/-- Destroying the objects in the last block, `[Start, Pos)`, `StableVector.h:391`, `249`. -/
def destroyTail (v : SV) (h : Heap T) : Option (Heap T) :=
  match v.start with
  | some s => destroyN h s 0 v.pos
  | none => if v.pos = 0 then some h else none

/-- `clear`, `StableVector.h:380-399`. -/
def clear (v : SV) (h : Heap T) : Option (SV × Heap T) :=
  (destroyFull v.blocks v.idx 0 initialCapacity initialCapacity h).bind (fun h1 =>
    (destroyTail v h1).map (fun h2 =>
      match v.blocks with
      | [] => ({ v with idx := 0, size := 0 }, h2)
      | b :: _ => ({ v with idx := 0, size := 0, start := some b, pos := 0, fin := initialCapacity }, h2)))

/-- Freeing the blocks from block `i` on, `k` of them, with capacities `cap, 2·cap, …`,
`StableVector.h:452-457`. -/
def freeFrom (blocks : List Nat) : Nat → Nat → Nat → Heap T → Option (Heap T)
  | 0, _, _, h => some h
  | k + 1, i, cap, h =>
    match blocks[i]? with
    | some b => (dealloc h b cap).bind (fun h' => freeFrom blocks k (i + 1) (2 * cap) h')
    | none => none

/-- `shrink_to_fit`, `StableVector.h:438-460`. -/
def shrink (v : SV) (h : Heap T) : Option (SV × Heap T) :=
  if v.blocks = [] ∨ v.idx = v.blocks.length - 1 then some (v, h) else
  (if v.size = 0 then (v.blocks[0]?).bind (fun b => dealloc h b initialCapacity) else some h).bind (fun h1 =>
    (freeFrom v.blocks (v.blocks.length - (v.idx + 1)) (v.idx + 1) (2 ^ (v.idx + 5)) h1).map (fun h2 =>
      ({ v with blocks := v.blocks.take (v.idx + if v.size ≠ 0 then 1 else 0) }, h2)))

/-- The first `n` cells of a block, which must all hold objects: the source of `std::uninitialized_copy_n`,
`StableVector.h:187`, `196`. -/
def source (h : Heap T) (a n : Nat) : Option (List (Option T)) :=
  match h.mem a with
  | some c => if n ≤ c.length ∧ (c.take n).all Option.isSome = true then some (c.take n) else none
  | none => none

/-- Allocating a block of `cap` cells and copying `n` objects into it, `StableVector.h:184-188`, `194-197`. -/
def copyBlock (h : Heap T) (a n cap : Nat) : Option (Heap T × Nat) :=
  match source h a n with
  | some c => if n ≤ cap then
      let (h1, b) := alloc h cap
      some (h1.put b (some (c ++ List.replicate (cap - n) none)), b)
    else none
  | none => none

/-- The loop of the copy constructor, `StableVector.h:183-192`: `k` full blocks from block `i` on, giving the new
blocks and the final `Cap`. -/
def copyFull (blocks : List Nat) : Nat → Nat → Nat → Nat → Heap T → Option (List Nat × Nat × Heap T)
  | 0, _, cap, _, h => some ([], cap, h)
  | k + 1, i, cap, total, h =>
    match blocks[i]? with
    | some a => (copyBlock h a cap cap).bind (fun r =>
        (copyFull blocks k (i + 1) total (2 * total) r.1).map (fun q => (r.2 :: q.1, q.2)))
    | none => none

/-- The copy constructor (also `clone`), `StableVector.h:173-205`, `264`: the new vector. -/
def copy (o : SV) (h : Heap T) : Option (SV × Heap T) :=
  if o.size = 0 then some ({ null with size := o.size, idx := o.idx }, h) else
  (copyFull o.blocks o.idx 0 initialCapacity initialCapacity h).bind (fun r =>
    o.start.bind (fun s =>
      (copyBlock r.2.2 s o.pos r.2.1).map (fun q =>
        ({ blocks := r.1 ++ [q.2], start := some q.2, pos := o.pos, fin := r.2.1, size := o.size, idx := o.idx }, q.1))))

/-- The move constructor, `StableVector.h:164-171`: the new vector and what is left of the old one. -/
def move (o : SV) : SV × SV := (o, null)

/-- Destroying and freeing the full blocks in the destructor, `StableVector.h:240-247`; gives `Cap` and
`TotalSize` too. -/
def dtorFull (blocks : List Nat) : Nat → Nat → Nat → Nat → Heap T → Option (Heap T × Nat × Nat)
  | 0, _, cap, total, h => some (h, cap, total)
  | k + 1, i, cap, total, h =>
    match blocks[i]? with
    | some b => (destroyN h b 0 cap).bind (fun h1 => (dealloc h1 b cap).bind (fun h2 =>
        dtorFull blocks k (i + 1) total (2 * total) h2))
    | none => none

/-- Freeing the remaining blocks in the destructor, `StableVector.h:251-258`. -/
def dtorRest (blocks : List Nat) : Nat → Nat → Nat → Nat → Heap T → Option (Heap T)
  | 0, _, _, _, h => some h
  | k + 1, i, cap, total, h =>
    match blocks[i]? with
    | some b => (dealloc h b cap).bind (fun h' => dtorRest blocks k (i + 1) total (2 * total) h')
    | none => none

/-- The destructor, `StableVector.h:236-261`. -/
def dtor (v : SV) (h : Heap T) : Option (Heap T) :=
  (dtorFull v.blocks v.idx 0 initialCapacity initialCapacity h).bind (fun r =>
    (destroyTail v r.1).bind (fun h1 =>
      dtorRest v.blocks (v.blocks.length - v.idx) v.idx r.2.1 r.2.2 h1))

/-- `Iterator`, `StableVector.h:143-148`; `it = none` is the null pointer. -/
structure Iter where
  it : Option Nat
  off : Nat
  itEnd : Nat
  outer : Nat
  outerEnd : Nat
  total : Nat
  pos : Nat

/-- `begin()`, `StableVector.h:291-296` with the constructor `StableVector.h:127-141`; the end iterator has the
null pointer. -/
def begin' (v : SV) : Option Iter :=
  if v.size = 0 then some ⟨none, 0, 0, v.idx + 1, v.idx + 1, initialCapacity, 0⟩ else
  (v.blocks[0]?).map (fun b =>
    ⟨some b, 0, if v.idx + 1 - 1 = 0 then v.pos else initialCapacity, 0, v.idx + 1, initialCapacity, v.pos⟩)

/-- `operator++`, `StableVector.h:55-86`. -/
def next (v : SV) (i : Iter) : Option Iter :=
  if i.off + 1 ≠ i.itEnd then some { i with off := i.off + 1 } else
  if i.outer = i.outerEnd - 1 then some { i with it := none, off := 0 } else
  (v.blocks[i.outer + 1]?).map (fun b =>
    if i.outer + 1 = i.outerEnd - 1 then { i with it := some b, off := 0, outer := i.outer + 1, itEnd := i.pos }
    else { i with it := some b, off := 0, outer := i.outer + 1, itEnd := i.total, total := 2 * i.total })

/-- `for (auto &E : V)`: the objects visited; `none` on undefined behaviour or if the bound does not suffice. -/
def iterate (v : SV) (h : Heap T) : Nat → Iter → Option (List T)
  | 0, i => if i.it = none then some [] else none
  | k + 1, i =>
    match i.it with
    | none => some []
    | some b => (read h b i.off).bind (fun x => (next v i).bind (fun j => (iterate v h k j).map (x :: ·)))

/-- Iterating over a vector. -/
def toList (v : SV) (h : Heap T) : Option (List T) := (begin' v).bind (fun i => iterate v h v.size i)

/-! ## Many vectors, histories -/

/-- All vectors, by name, and the heap. -/
structure World (T : Type) where
  heap : Heap T
  vecs : Nat → Option SV

/-- An operation; the first name is the vector modified or made. -/
inductive Op (T : Type) where
  | create (k : Nat)
  | emplace (k : Nat) (x : T)
  | pop (k : Nat)
  | popN (k n : Nat)
  | clear (k : Nat)
  | shrink (k : Nat)
  | clone (k j : Nat)
  | move (k j : Nat)
  | swap (k j : Nat)
  | destroy (k : Nat)
deriving DecidableEq

/-- Setting a vector. -/
def setV (w : World T) (k : Nat) (v : Option SV) (h : Heap T) : World T :=
  ⟨h, fun j => if j = k then v else w.vecs j⟩

/-- One operation. -/
def step (w : World T) : Op T → Option (World T)
  | .create k => if w.vecs k = none then some (setV w k (some null) w.heap) else none
  | .emplace k x => (w.vecs k).bind (fun v => (emplaceBack v w.heap x).map (fun r => setV w k (some r.1) r.2))
  | .pop k => (w.vecs k).bind (fun v => (popBack v w.heap).map (fun r => setV w k (some r.1) r.2))
  | .popN k n => (w.vecs k).bind (fun v => (popBackN v w.heap n).map (fun r => setV w k (some r.1) r.2))
  | .clear k => (w.vecs k).bind (fun v => (clear v w.heap).map (fun r => setV w k (some r.1) r.2))
  | .shrink k => (w.vecs k).bind (fun v => (shrink v w.heap).map (fun r => setV w k (some r.1) r.2))
  | .clone k j => if w.vecs k = none then
      (w.vecs j).bind (fun v => (copy v w.heap).map (fun r => setV w k (some r.1) r.2)) else none
  | .move k j => if w.vecs k = none then
      (w.vecs j).map (fun v => setV (setV w k (some (move v).1) w.heap) j (some (move v).2) w.heap) else none
  | .swap k j => (w.vecs k).bind (fun v => (w.vecs j).map (fun u =>
      setV (setV w k (some u) w.heap) j (some v) w.heap))
  | .destroy k => (w.vecs k).bind (fun v => (dtor v w.heap).map (fun h => setV w k none h))

/-- A history. -/
def run (w : World T) : List (Op T) → Option (World T)
  | [] => some w
  | o :: os => (step w o).bind (fun w' => run w' os)

/-- No vectors, an empty heap. -/
def init : World T := ⟨⟨fun _ => none, 0⟩, fun _ => none⟩

/-! ## Specification: lists -/

/-- Specification: setting a list. -/
def setL (S : Nat → Option (List T)) (k : Nat) (l : Option (List T)) : Nat → Option (List T) :=
  fun j => if j = k then l else S j

/-- Specification: what an operation does to the lists; `none` if its precondition fails. -/
def spec (S : Nat → Option (List T)) : Op T → Option (Nat → Option (List T))
  | .create k => if (S k).isNone then some (setL S k (some [])) else none
  | .emplace k x => (S k).map (fun l => setL S k (some (l ++ [x])))
  | .pop k => (S k).bind (fun l => if l = [] then none else some (setL S k (some l.dropLast))) 
  | .popN k n => (S k).bind (fun l => if l.length < n then none else some (setL S k (some (l.take (l.length - n)))))
  | .clear k => (S k).map (fun _ => setL S k (some []))
  | .shrink k => (S k).map (fun _ => S)
  | .clone k j => if (S k).isNone then (S j).map (fun l => setL S k (some l)) else none
  | .move k j => if (S k).isNone then (S j).map (fun l => setL (setL S k (some l)) j (some [])) else none
  | .swap k j => (S k).bind (fun l => (S j).map (fun m => setL (setL S k (some m)) j (some l)))
  | .destroy k => (S k).map (fun _ => setL S k none)

/-- Specification: what a history does to the lists. -/
def specRun (S : Nat → Option (List T)) : List (Op T) → Option (Nat → Option (List T))
  | [] => some S
  | o :: os => (spec S o).bind (fun S' => specRun S' os)

/-- Specification: no `shrink_to_fit` on an empty vector in the history. -/
def NoEmptyShrink (S : Nat → Option (List T)) : List (Op T) → Prop
  | [] => True
  | o :: os => (∀ k, o = .shrink k → S k ≠ some []) ∧ ∀ S', spec S o = some S' → NoEmptyShrink S' os

/-- Specification: the vector, before the operation, that owned the elements now owned by `k`. -/
def origin : Op T → Nat → Nat
  | .move k j, n => if n = k then j else n
  | .swap k j, n => if n = k then j else if n = j then k else n
  | _, n => n

end Phasar.SVec
