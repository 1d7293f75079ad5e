/-!
# The performance measurement

Model of `lib/Utils/PAMM.cpp`: timers, counters and histograms.  Names are numbers; a `llvm::StringMap` is a function, because no result
depends on the order of its entries.  The clock's readings, in nanoseconds, are inputs of the operations.
-/
namespace Phasar.Pamm

/-- The members of `PAMM`, `PAMM.h:201-206`. -/
structure St where
  running : Nat → Option Nat
  stopped : Nat → Option (Nat × Nat)
  rep : Nat → Option (List (Nat × Nat))
  ctr : Nat → Option Nat
  hist : Nat → Option (Nat → Option Nat)

/-- A new object, and `reset()`, `PAMM.cpp:401-407`. -/
def St.init : St := ⟨fun _ => none, fun _ => none, fun _ => none, fun _ => none, fun _ => none⟩

/-- Assignment to an entry of a map. -/
def set {α : Type} (f : Nat → α) (i : Nat) (x : α) : Nat → α := fun j => if j = i then x else f j

/-- The operations.  `t` is what the clock shows. -/
inductive Op where
  | start (id t : Nat)
  | stop (id t : Nat) (pause : Bool)
  | resetTimer (id : Nat)
  /-- `t id` is what the clock shows when the timer is stopped. -/
  | stopAll (t : Nat → Nat)
  | regCounter (id v : Nat)
  | incCounter (id v : Nat)
  | decCounter (id v : Nat)
  | regHist (id : Nat)
  | addHist (id d v : Nat)
  | reset

/-- The values of `unsigned` and `uint64_t`. -/
def U32 : Nat := 2 ^ 32
def U64 : Nat := 2 ^ 64

/-- `startTimer`, `PAMM.cpp:50-62`; `none`: fatal error. -/
def St.start (s : St) (id t : Nat) : Option St :=
  if (s.stopped id).isSome then none
  else if (s.running id).isSome then none
  else some { s with running := set s.running id (some t) }

/-- `stopTimer`, `PAMM.cpp:73-94`; `none`: an assertion fails (without assertions: the end iterator is dereferenced if the timer was
stopped before, and nothing happens if it does not exist). -/
def St.stop (s : St) (id t : Nat) (pause : Bool) : Option St :=
  match s.running id with
  | none => none
  | some b =>
    let s := { s with running := set s.running id none }
    if pause then some { s with rep := set s.rep id (some ((s.rep id).getD [] ++ [(b, t)])) }
    else some { s with stopped := set s.stopped id (some (b, t)) }

/-- `resetTimer`, `PAMM.cpp:64-71`; `none`: the assertion fails. -/
def St.resetTimer (s : St) (id : Nat) : Option St :=
  if (s.running id).isSome != (s.stopped id).isSome then
    some { s with running := set s.running id none, stopped := set s.stopped id none }
  else none

/-- `stopAllTimers`, `PAMM.cpp:237-243`.  Simplified: the loop, which stops one running timer after the other, is one assignment to all of
them. -/
def St.stopAll (s : St) (t : Nat → Nat) : St :=
  { s with
    running := fun _ => none
    stopped := fun id => match s.running id with | some b => some (b, t id) | none => s.stopped id }

/-- An operation; `none`: the program is aborted.  Counters, `PAMM.cpp:151-172`; histograms, `:216-235`. -/
def St.step (s : St) : Op → Option St
  | .start id t => s.start id t
  | .stop id t pause => s.stop id t pause
  | .resetTimer id => s.resetTimer id
  | .stopAll t => some (s.stopAll t)
  | .regCounter id v => if (s.ctr id).isSome then none else some { s with ctr := set s.ctr id (some (v % U32)) }
  | .incCounter id v =>
    match s.ctr id with
    | none => none
    | some x => some { s with ctr := set s.ctr id (some ((x + v) % U32)) }
  | .decCounter id v =>
    match s.ctr id with
    | none => none
    | some x => some { s with ctr := set s.ctr id (some ((x + (U32 - v % U32)) % U32)) }
  | .regHist id => if (s.hist id).isSome then none else some { s with hist := set s.hist id (some fun _ => none) }
  | .addHist id d v =>
    match s.hist id with
    | none => none
    | some h => some { s with hist := set s.hist id (some (set h d (some (match h d with
        | none => v % U64
        | some x => (x + v) % U64)))) }
  | .reset => some .init

/-- `duration_cast<milliseconds>(End - Start)`.  Simplified: the clock does not run backwards. -/
def ms (x : Nat × Nat) : Nat := (x.2 - x.1) / 1000000

/-- `elapsedTime`, `PAMM.cpp:96-114`; `none`: the assertion fails. -/
def St.elapsed (s : St) (id t : Nat) : Option Nat :=
  match s.running id with
  | some b => some (ms (b, t))
  | none => (s.stopped id).map ms

/-- `elapsedTimeOfRepeatingTimer`, `PAMM.cpp:116-145`. -/
def St.elapsedRep (s : St) (id : Nat) : Option (List Nat) := (s.rep id).map (List.map ms)

/-- The sum in `getSumCountInternal`, `PAMM.cpp:184-199`; `none`: `nullopt`, or the assertion in `getCounter` fails. -/
def St.sum (s : St) : List Nat → Option Nat
  | ids => ids.foldl (fun acc id => acc.bind fun a => (s.ctr id).map fun x => (a + x) % U64) (some 0)

/-- An entry of `JTimer`. -/
inductive JVal where
  | single (ms : Nat)
  | many (ms : List Nat)
  deriving DecidableEq, Repr

/-- What `exportMeasuredData` writes as `Timer`, `PAMM.cpp:328-345`, of a state in which all timers have been stopped (`:328`): first the
single timers, then the repeating ones. -/
def St.exportTimers (s : St) (id : Nat) : Option JVal :=
  let j := (s.stopped id).map fun x => JVal.single (ms x)
  match s.elapsedRep id with
  | some l => some (.many l)
  | none => j

end Phasar.Pamm
