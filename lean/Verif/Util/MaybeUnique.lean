/-!
# Pointers that may own

Model of `include/phasar/Utils/MaybeUniquePtr.h`: the smart pointers of a program, the `std::unique_ptr`s they take objects from, and
the raw pointers whose objects the client has to delete itself.  The low bit of the pointer that tells whether it owns is a Boolean
beside it (both representations of `MaybeUniquePtrBase`, :22-52, behave like this pair).  Objects have no destructors that use the
pointers.
-/
namespace Phasar.MaybeUnique

/-- The pointer and the flag of a `MaybeUniquePtr`, `MaybeUniquePtr.h:34-36`; `none` is a null pointer. -/
abbrev Data := Option Nat × Bool

/-- A program's heap and pointers.  Objects are numbered as they are allocated. -/
structure St where
  next : Nat
  live : List Nat
  /-- Deleted objects. -/
  dead : List Nat
  /-- The `MaybeUniquePtr`s that are in scope. -/
  ptr : Nat → Option Data
  /-- The `std::unique_ptr`s. -/
  uq : Nat → Option Nat
  /-- Objects the client owns by a raw pointer. -/
  raw : List Nat

/-- The beginning of a program. -/
def St.init : St := ⟨0, [], [], fun _ => none, fun _ => none, []⟩

/-- Assignment to a variable. -/
def set {α : Type} (f : Nat → α) (i : Nat) (x : α) : Nat → α := fun j => if j = i then x else f j

/-- `delete`; `none`: the object does not exist (any more), undefined behaviour. -/
def St.del (s : St) (o : Nat) : Option St := if o ∈ s.live then some { s with live := s.live.erase o, dead := o :: s.dead } else none

/-- `if (owns()) delete Data.getPointer()`, `MaybeUniquePtr.h:100-102, :127-128, :148-150, :164-167`; `none` also if the assertion in
`owns` fails. -/
def St.drop (s : St) (d : Data) : Option St :=
  match d with
  | (some o, true) => s.del o
  | (none, true) => none
  | (_, false) => some s

/-- What a program does. -/
inductive Op where
  /-- `new T` -/
  | alloc
  /-- `delete` of a raw pointer by the client -/
  | free (o : Nat)
  /-- `std::unique_ptr<T> u(o)`, of an object the client owns -/
  | unique (u o : Nat)
  /-- `~unique_ptr` or `u.reset()` -/
  | uniqueReset (u : Nat)
  /-- `MaybeUniquePtr()` -/
  | mkNull (p : Nat)
  /-- `MaybeUniquePtr(T *, bool)` -/
  | mk (p : Nat) (o : Option Nat) (owns : Bool)
  /-- `MaybeUniquePtr(std::unique_ptr<T> &&)` -/
  | mkUnique (p u : Nat)
  /-- `MaybeUniquePtr(MaybeUniquePtr &&)` -/
  | mkMove (p q : Nat)
  /-- `swap` -/
  | swap (p q : Nat)
  /-- `operator=(MaybeUniquePtr &&)` -/
  | assign (p q : Nat)
  /-- `operator=(std::unique_ptr<T> &&)`, `reset(std::unique_ptr<TT> &&)` -/
  | assignUnique (p u : Nat)
  /-- `~MaybeUniquePtr` -/
  | destroy (p : Nat)
  /-- `release()` -/
  | release (p : Nat)
  /-- `reset()` -/
  | reset (p : Nat)

/-- The constructor from a raw pointer, `MaybeUniquePtr.h:68-70`: `Owns && Pointer`. -/
def ofRaw (o : Option Nat) (owns : Bool) : Data := (o, owns && o.isSome)

/-- Swapping the data of two pointers, `MaybeUniquePtr.h:85-87`. -/
def St.swap (s : St) (p q : Nat) : Option St :=
  match s.ptr p, s.ptr q with
  | some a, some b => some { s with ptr := set (set s.ptr p (some b)) q (some a) }
  | _, _ => none

/-- The effect of an operation.  `none`: undefined behaviour, or a variable that is not in scope. -/
def St.step (s : St) : Op → Option St
  | .alloc => some { s with next := s.next + 1, live := s.next :: s.live, raw := s.next :: s.raw }
  | .free o => { s with raw := s.raw.erase o }.del o
  | .unique u o => some { s with uq := set s.uq u (some o), raw := s.raw.erase o }
  | .uniqueReset u =>
    match s.uq u with
    | none => some s
    | some o => { s with uq := set s.uq u none }.del o
  -- :66
  | .mkNull p => some { s with ptr := set s.ptr p (some (none, false)) }
  -- :68-70; if it owns, the client does no longer
  | .mk p o owns => some { s with
      ptr := set s.ptr p (some (ofRaw o owns))
      raw := match ofRaw o owns with | (some o, true) => s.raw.erase o | _ => s.raw }
  -- :72-79
  | .mkUnique p u => some { s with ptr := set s.ptr p (some (ofRaw (s.uq u) true)), uq := set s.uq u none }
  -- :81-83
  | .mkMove p q =>
    match s.ptr q with
    | some d => some { s with ptr := set (set s.ptr q (some (none, false))) p (some d) }
    | none => none
  -- :85-87
  | .swap p q => s.swap p q
  -- :94-97, :154-157
  | .assign p q => s.swap p q
  -- :99-118, :159-162
  | .assignUnique p u =>
    match s.ptr p with
    | some d => (s.drop d).map fun s => { s with ptr := set s.ptr p (some (s.uq u, (s.uq u).isSome)), uq := set s.uq u none }
    | none => none
  -- :126-131
  | .destroy p =>
    match s.ptr p with
    | some d => (s.drop d).map fun s => { s with ptr := set s.ptr p none }
    | none => none
  -- :142-145; if it owned the object, the client does now
  | .release p =>
    match s.ptr p with
    | some (some o, true) => some { s with ptr := set s.ptr p (some (some o, false)), raw := o :: s.raw }
    | some (o, _) => some { s with ptr := set s.ptr p (some (o, false)) }
    | none => none
  -- :147-152
  | .reset p =>
    match s.ptr p with
    | some d => (s.drop d).map fun s => { s with ptr := set s.ptr p (some (none, false)) }
    | none => none

/-- What the client has to obey: variables are constructed once and used only in scope, and ownership is handed over only by who has
it. -/
def St.Pre (s : St) : Op → Prop
  | .alloc => True
  | .free o => o ∈ s.raw
  | .unique u o => o ∈ s.raw ∧ s.uq u = none
  | .uniqueReset _ => True
  | .mkNull p => s.ptr p = none
  | .mk p o owns => s.ptr p = none ∧ (owns = true → ∀ x, o = some x → x ∈ s.raw)
  | .mkUnique p _ => s.ptr p = none
  | .mkMove p q => s.ptr p = none ∧ (s.ptr q).isSome
  | .swap p q => (s.ptr p).isSome ∧ (s.ptr q).isSome
  | .assign p q => (s.ptr p).isSome ∧ (s.ptr q).isSome
  | .assignUnique p _ => (s.ptr p).isSome
  | .destroy p => (s.ptr p).isSome
  | .release p => (s.ptr p).isSome
  | .reset p => (s.ptr p).isSome

end Phasar.MaybeUnique
