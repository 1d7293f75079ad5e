import Verif.Alias.CFLAnders

/-!
# Model of the stratified sets

Models `lib/PhasarLLVM/Pointer/external/llvm/StratifiedSets.h` (the copy PhASAR ships): the builder of the sets on which
the unification-based CFL alias analysis works (`CFLSteensAliasAnalysis.cpp`).

A failed assertion, an access out of bounds and a loop that does not end all give `none`.
-/
namespace Phasar.Stratified
open CFLAnders (Attr Node)

/-- `BuilderLink`, `StratifiedSets.h:177-265`, with the `StratifiedLink` it contains, `:40-64`. `none` is `SetSentinel`.
The member `Number` is the index. -/
structure Link where
  above : Option Nat := none
  below : Option Nat := none
  attrs : Attr := {}
  remap : Option Nat := none

/-- `StratifiedSetsBuilder`, `StratifiedSets.h:395-396`: the map of values and the vector of links with its length. -/
structure Builder where
  values : Node → Option Nat := fun _ => none
  links : Nat → Link := fun _ => {}
  n : Nat := 0

/-- The walk along the remaps in `linksAt`, `StratifiedSets.h:418-427`, with a bound for its length.  `linksAt` also
shortens the way for the next time: see `Builder.compress`. -/
def Builder.findN (b : Builder) : Nat → Nat → Option Nat
  | k, i =>
    if i < b.n then
      match (b.links i).remap, k with
      | none, _ => some i
      | some _, 0 => none
      | some j, k + 1 => b.findN k j
    else none

/-- `linksAt`, `StratifiedSets.h:418-439`: the index of the link found. -/
def Builder.linksAt (b : Builder) (i : Nat) : Option Nat := b.findN b.n i

/-- The guard of the accessors of `BuilderLink`, `assert(!isRemapped())`, `:183-258`. -/
def Builder.link (b : Builder) (i : Nat) : Option Link :=
  if i < b.n && (b.links i).remap.isNone then some (b.links i) else none

/-- Assignment to the members of a link. -/
def Builder.set (b : Builder) (i : Nat) (l : Link) : Builder :=
  { b with links := fun j => if j = i then l else b.links j }

/-- The second loop of `linksAt`, `:431-436`: everything on the way is remapped to the end.  The model of the other
functions leaves this out: it does not change what `linksAt` finds (`C78_compress`). -/
def Builder.compress (b : Builder) (r : Nat) : Nat → Nat → Builder
  | 0, _ => b
  | k + 1, i =>
    match (b.links i).remap with
    | none => b
    | some j => (b.set i { b.links i with remap := some r }).compress r k j

/-- `setAttrs`, `:233-236`. -/
def Builder.setAttrs (b : Builder) (i : Nat) (a : Attr) : Option Builder := do
  let l ← b.link i
  some (b.set i { l with attrs := l.attrs.or a })

/-- `setAbove`, `:201-204`. -/
def Builder.setAbove (b : Builder) (i j : Nat) : Option Builder := do
  let l ← b.link i
  some (b.set i { l with above := some j })

/-- `setBelow` and `clearBelow`, `:196-199, :206-209`. -/
def Builder.setBelow (b : Builder) (i : Nat) (j : Option Nat) : Option Builder := do
  let l ← b.link i
  some (b.set i { l with below := j })

/-- `remapTo`, `:241-244`. -/
def Builder.remapTo (b : Builder) (i j : Nat) : Option Builder := do
  let l ← b.link i
  some (b.set i { l with remap := some j })

/-- `addLinks`, `:588-592`. -/
def Builder.addLinks (b : Builder) : Builder × Nat :=
  ({ b with links := fun j => if j = b.n then {} else b.links j, n := b.n + 1 }, b.n)

/-- `addLinkBelow`, `:572-577`. -/
def Builder.addLinkBelow (b : Builder) (i : Nat) : Option Builder := do
  let (b, t) := b.addLinks
  let b ← b.setBelow i (some t)
  b.setAbove t i

/-- `addLinkAbove`, `:579-584`. -/
def Builder.addLinkAbove (b : Builder) (i : Nat) : Option Builder := do
  let (b, t) := b.addLinks
  let b ← b.setBelow t (some i)
  b.setAbove i t

/-! ## Merging -/

/-- The loop of `tryMergeUpwards`, `:520-527`: where the way up from `cur` ends, the links passed, their attributes. -/
def Builder.collect (b : Builder) (upper : Nat) : Nat → Nat → List Nat → Attr → Option (Nat × List Nat × Attr)
  | 0, _, _, _ => none
  | k + 1, cur, found, a => do
    let l ← b.link cur
    match l.above with
    | none => some (cur, found, a)
    | some j =>
      if cur = upper then some (cur, found, a)
      else
        let c ← b.linksAt j
        b.collect upper k c (found ++ [cur]) (a.or l.attrs)

/-- `tryMergeUpwards`, `:513-547`. -/
def Builder.tryMergeUpwards (b : Builder) (lo hi : Nat) : Option (Bool × Builder) := do
  let lower ← b.linksAt lo
  let upper ← b.linksAt hi
  if lower = upper then some (true, b)
  else
    let l ← b.link lower
    let (cur, found, a) ← b.collect upper (b.n + 1) lower [] l.attrs
    if cur ≠ upper then some (false, b)
    else
      let b ← b.setAttrs upper a
      let b ← match l.below with
        | some nb => do
          let b ← b.setBelow upper (some nb)
          let t ← b.linksAt nb
          b.setAbove t hi
        | none => b.setBelow upper none
      let b ← found.foldlM (fun b i => b.remapTo i upper) b
      some (true, b)

/-- The first loop of `mergeDirect`, `:471-474`. -/
def Builder.climb (b : Builder) : Nat → Nat → Nat → Option (Nat × Nat)
  | 0, _, _ => none
  | k + 1, x, y => do
    let lx ← b.link x
    let ly ← b.link y
    match lx.above, ly.above with
    | some x', some y' => do
      let x'' ← b.linksAt x'
      let y'' ← b.linksAt y'
      b.climb k x'' y''
    | _, _ => some (x, y)

/-- `mergeDirect`, `:476-480`: what is above the one is put above the other. -/
def Builder.joinTop (b : Builder) (x y : Nat) : Option Builder := do
  let ly ← b.link y
  match ly.above with
  | none => some b
  | some a => do
    let b ← b.setAbove x a
    let t ← b.linksAt a
    b.setBelow t (some x)

/-- The end of `mergeDirect`, `:506-507`. -/
def Builder.finish (b : Builder) (x y : Nat) : Option Builder := do
  let ly ← b.link y
  let b ← b.setAttrs x ly.attrs
  b.remapTo y x

/-- The second loop of `mergeDirect`, `:488-504`. -/
def Builder.descend : Nat → Builder → Nat → Nat → Option Builder
  | 0, _, _, _ => none
  | k + 1, b, x, y => do
    let lx ← b.link x
    let ly ← b.link y
    match lx.below, ly.below with
    | some x', some y' => do
      let b ← b.setAttrs x ly.attrs
      let y'' ← b.linksAt y'
      let b ← b.remapTo y x
      let x'' ← b.linksAt x'
      descend k b x'' y''
    | none, some y' => do
      let b ← b.setBelow x (some y')
      let t ← b.linksAt y'
      let b ← b.setAbove t x
      b.finish x y
    | _, none => b.finish x y

/-- `mergeDirect`, `:464-508`. -/
def Builder.mergeDirect (b : Builder) (i j : Nat) : Option Builder := do
  let x ← b.linksAt i
  let y ← b.linksAt j
  let (x, y) ← b.climb (b.n + 1) x y
  let b ← b.joinTop x y
  descend (b.n + 1) b x y

/-- `merge`, `:443-460`. -/
def Builder.merge (b : Builder) (i j : Nat) : Option Builder := do
  let x ← b.linksAt i
  let y ← b.linksAt j
  if x = y then none
  else
    let (done, b) ← b.tryMergeUpwards i j
    if done then some b
    else
      let (done, b) ← b.tryMergeUpwards j i
      if done then some b else b.mergeDirect i j

/-! ## The interface -/

/-- `addAtMerging`, `:399-414`. -/
def Builder.addAtMerging (b : Builder) (v : Node) (i : Nat) : Option Builder :=
  match b.values v with
  | none => some { b with values := fun w => if w = v then some i else b.values w }
  | some k => do
    let s ← b.linksAt k
    let r ← b.linksAt i
    if s ≠ r then b.merge s r else some b

/-- `indexOf`, `:563-570`; no value if the assertion `has(Main)` fails. -/
def Builder.indexOf (b : Builder) (v : Node) : Option Nat := do
  let k ← b.values v
  b.linksAt k

/-- What can be asked of a builder. -/
inductive Op where
  | add (v : Node)
  /-- `addAbove(Main, ToAdd)` -/
  | above (m t : Node)
  /-- `addBelow(Main, ToAdd)` -/
  | below (m t : Node)
  /-- `addWith(Main, ToAdd)` -/
  | with_ (m t : Node)
  | note (m : Node) (a : Attr)

/-- `add`, `:347-353`. -/
def Builder.add (b : Builder) (v : Node) : Option Builder :=
  if (b.values v).isSome then some b
  else
    let (b, i) := b.addLinks
    b.addAtMerging v i

/-- `addAbove`, `:358-366`. -/
def Builder.addAbove (b : Builder) (m t : Node) : Option Builder := do
  let i ← b.indexOf m
  let l ← b.link i
  let b ← if l.above.isNone then b.addLinkAbove i else some b
  let l ← b.link i
  let a ← l.above
  b.addAtMerging t a

/-- `addBelow`, `:371-379`. -/
def Builder.addBelow (b : Builder) (m t : Node) : Option Builder := do
  let i ← b.indexOf m
  let l ← b.link i
  let b ← if l.below.isNone then b.addLinkBelow i else some b
  let l ← b.link i
  let a ← l.below
  b.addAtMerging t a

/-- `addWith`, `:381-385`. -/
def Builder.addWith (b : Builder) (m t : Node) : Option Builder := do
  let i ← b.indexOf m
  b.addAtMerging t i

/-- `noteAttributes`, `:387-392`. -/
def Builder.note (b : Builder) (m : Node) (a : Attr) : Option Builder := do
  let i ← b.indexOf m
  b.setAttrs i a

/-- One request. -/
def Builder.exec (b : Builder) : Op → Option Builder
  | .add v => b.add v
  | .above m t => b.addAbove m t
  | .below m t => b.addBelow m t
  | .with_ m t => b.addWith m t
  | .note m a => b.note m a

/-- A history of requests. -/
def run (ops : List Op) : Option Builder := ops.foldlM Builder.exec {}

/-! ## The result -/

/-- `StratifiedSets`, `:86-113`.  `finalizeSets`, `:270-303`, numbers the sets that are not remapped consecutively; the
model keeps their numbers (`n` bounds them), as only equality of numbers is used. -/
structure Sets where
  values : Node → Option Nat
  links : Nat → Link
  n : Nat

/-- `getHighestParentAbove`, `:309-316`. -/
def top (links : Nat → Link) : Nat → Nat → Option Nat
  | k, i =>
    match (links i).above, k with
    | none, _ => some i
    | some _, 0 => none
    | some j, k + 1 => top links k j

/-- The inner loop of `propagateAttrs`, `:324-330`. -/
def pushDown : Nat → (Nat → Link) → Nat → Option (Nat → Link)
  | 0, _, _ => none
  | k + 1, links, i =>
    match (links i).below with
    | none => some links
    | some j =>
      pushDown k (fun m => if m = j then { links j with attrs := (links j).attrs.or (links i).attrs } else links m) j

/-- One round of the outer loop of `propagateAttrs`, `:318-331`. -/
def propagateOne (n : Nat) (s : (Nat → Link) × List Nat) (i : Nat) : Option ((Nat → Link) × List Nat) := do
  let t ← top s.1 n i
  if t ∈ s.2 then some s
  else
    let links ← pushDown (n + 1) s.1 t
    some (links, s.2 ++ [t])

/-- The sets that are not remapped, in the order of their numbers. -/
def Builder.live (b : Builder) : List Nat := (List.range b.n).filter fun i => (b.links i).remap.isNone

/-- The second loop of `finalizeSets`, `:281-295`, on one link: the links above and below are looked up. -/
def Builder.relink (b : Builder) (i : Nat) : Link :=
  if i < b.n && (b.links i).remap.isNone then
    { b.links i with above := (b.links i).above.bind b.linksAt, below := (b.links i).below.bind b.linksAt }
  else b.links i

/-- Whether the look-ups of `finalizeSets`, `:281-295`, succeed. -/
def Builder.linked (b : Builder) : Bool :=
  b.live.all fun i => (b.links i).above.all (fun a => (b.linksAt a).isSome) && (b.links i).below.all fun a => (b.linksAt a).isSome

/-- `build`, `:337-343`, with `finalizeSets`, `:270-303`, and `propagateAttrs`, `:308-332`. -/
def Builder.build (b : Builder) : Option Sets :=
  if b.linked then do
    let (links, _) ← b.live.foldlM (propagateOne b.n) (b.relink, [])
    some { values := fun v => (b.values v).bind b.linksAt, links := links, n := b.n }
  else none

/-- A history of requests and the result, as in `buildSetsFrom`, `CFLSteensAliasAnalysis.cpp:188-231`. -/
def result (ops : List Op) : Option Sets := (run ops).bind (·.build)

end Phasar.Stratified
