/-!
# `StringIDLess`

Model of `StringIDLess::operator()` (`lib/Utils/Utilities.cpp:98-115`) and of the comparisons built on it in
`lib/Utils/DOTGraph.cpp:202-227`.
-/
namespace Phasar.StringID

/-- `std::string`: a sequence of bytes. -/
abbrev Str := List Nat

/-- `isspace` in the C locale: tab, newline, vertical tab, form feed, carriage return, space (used by `strtol`). -/
def isSpace (c : Nat) : Bool := (9 ≤ c && c ≤ 13) || c == 32

/-- A decimal digit. -/
def isDigit (c : Nat) : Bool := 48 ≤ c && c ≤ 57

/-- The maximal prefix of digits. -/
def digits : Str → Str
  | [] => []
  | c :: cs => if isDigit c then c :: digits cs else []

/-- Skip white space. -/
def skipSpace : Str → Str
  | [] => []
  | c :: cs => if isSpace c then skipSpace cs else c :: cs

/-- The sign and what follows it. -/
def sign : Str → Bool × Str
  | 45 :: cs => (true, cs)
  | 43 :: cs => (false, cs)
  | cs => (false, cs)

/-- The number denoted by a sequence of digits. -/
def value (acc : Nat) (s : Str) : Nat := s.foldl (fun a c => a * 10 + (c - 48)) acc

/-- Saturation to the range of `long` (64 bits). -/
def clamp (i : Int) : Int :=
  if i < -9223372036854775808 then -9223372036854775808 else if 9223372036854775807 < i then 9223372036854775807 else i

/-- `strtol(S.c_str(), &End, 10)` (C standard 7.22.1.4; called in `Utilities.cpp:104-105`): `none` if no conversion could be
performed, in which case `End` is the start of the string and the returned value 0.  A null byte in the string ends it for
`strtol`; it is neither a digit nor white space, so it needs no special treatment. -/
def strtol (s : Str) : Option Int :=
  let r := sign (skipSpace s)
  match digits r.2 with
  | [] => none
  | ds => some (clamp (if r.1 then - (value 0 ds : Int) else value 0 ds))

/-- The returned value of `strtol`: 0 if no conversion could be performed. -/
def strtolVal (s : Str) : Int := match strtol s with
  | some v => v
  | none => 0

/-- `operator<` of `std::string`: lexicographic order of the bytes. -/
def strLess : Str → Str → Bool
  | _, [] => false
  | [], _ :: _ => true
  | a :: as, b :: bs => decide (a < b) || (decide (a = b) && strLess as bs)

/-- `StringIDLess::operator()` (`Utilities.cpp:98-115`).  The first condition of the code compares `Endptr2`, which points
into the right string, with the start of the left string: it is false for any two different strings in memory
(`sameObject = false`), and true only if both arguments are the same object. -/
def idLess (sameObject : Bool) (l r : Str) : Bool :=
  let lNone := (strtol l).isNone
  let rNone := (strtol r).isNone
  let endptr2IsLhs := sameObject && rNone
  if lNone && endptr2IsLhs then strLess l r
  else if lNone && !rNone then false
  else if !lNone && rNone then true
  else decide (strtolVal l < strtolVal r)

/-- `struct DOTNode` (`include/phasar/Utils/DOTGraph.h:86-106`), the fields that are compared. -/
structure DOTNode where
  stmtId : Str
  factId : Nat
deriving DecidableEq, Repr

/-- `operator<(const DOTNode &, const DOTNode &)` (`DOTGraph.cpp:202-212`). -/
def nodeLess (l r : DOTNode) : Bool :=
  if l.factId = 0 ∧ r.factId = 0 then idLess false l.stmtId r.stmtId
  else if l.factId = r.factId then idLess false l.stmtId r.stmtId
  else decide (l.factId < r.factId)

/-- `operator==(const DOTNode &, const DOTNode &)` (`DOTGraph.cpp:214-216`). -/
def nodeEq (l r : DOTNode) : Bool := !nodeLess l r && !nodeLess r l

/-- `operator<(const DOTEdge &, const DOTEdge &)` (`DOTGraph.cpp:222-227`); an edge is its source and target. -/
def edgeLess (l r : DOTNode × DOTNode) : Bool :=
  if nodeEq l.1 r.1 then nodeLess l.2 r.2 else nodeLess l.1 r.1

/-! ### Specification -/

/-- Strict weak order, as `std::map`, `std::set` and `std::sort` require: irreflexive, transitive, and not being comparable is
transitive. -/
structure StrictWeakOrder {α : Type} (lt : α → α → Bool) : Prop where
  irrefl : ∀ a, lt a a = false
  trans : ∀ a b c, lt a b = true → lt b c = true → lt a c = true
  incomp : ∀ a b c, lt a b = false → lt b a = false → lt b c = false → lt c b = false → lt a c = false ∧ lt c a = false

/-- The bytes of a string literal in ASCII. -/
def ascii (s : String) : Str := s.toList.map Char.toNat

end Phasar.StringID
