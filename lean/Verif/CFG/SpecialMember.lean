/-!
# `getSpecialMemberFunctionType`

Model of `LLVMBasedCFGImpl::getSpecialMemberFunctionTypeImpl` (`lib/PhasarLLVM/ControlFlow/LLVMBasedCFG.cpp:227-287`).
-/
namespace Phasar.SpecialMember

/-- A function name: its bytes. -/
abbrev Name := List Nat

/-- `enum class SpecialMemberFunctionType` (`include/phasar/ControlFlow/SpecialMemberFunctionType.h`), without `None`. -/
inductive Kind where
  | Constructor | Destructor | CopyAssignment | MoveAssignment
deriving DecidableEq, Repr

/-- The bytes of a string literal in ASCII. -/
def ascii (s : String) : Name := s.toList.map Char.toNat

/-- `Codes` (`LLVMBasedCFG.cpp:236-244`), in ASCII: C1, C2, C3, D0, D1, D2, aSERKS_, aSEOS_. -/
def codes : List (Name × Kind) :=
  [([67, 49], .Constructor), ([67, 50], .Constructor), ([67, 51], .Constructor),
   ([68, 48], .Destructor), ([68, 49], .Destructor), ([68, 50], .Destructor),
   ([97, 83, 69, 82, 75, 83, 95], .CopyAssignment), ([97, 83, 69, 79, 83, 95], .MoveAssignment)]

/-- `s` starts with `pat`. -/
def startsWith : Name → Name → Bool
  | [], _ => true
  | _ :: _, [] => false
  | p :: pat, c :: s => p == c && startsWith pat s

/-- The first position from which `s` starts with `pat`, counted from `i`. -/
def findFrom (pat : Name) (i : Nat) : Name → Option Nat
  | [] => if startsWith pat [] then some i else none
  | c :: s => if startsWith pat (c :: s) then some i else findFrom pat (i + 1) s

/-- `llvm::StringRef::find(Str, From)` (called in `LLVMBasedCFG.cpp:249`); `none` is `npos`. -/
def find (name pat : Name) (from_ : Nat) : Option Nat :=
  if from_ ≤ name.length then findFrom pat from_ (name.drop from_) else none

/-- The variables of the first loop (`LLVMBasedCFG.cpp:245-247`): the codes from `It` on, `Blacklist`, `Found`. -/
structure St where
  it : List (Name × Kind)
  bl : Nat
  found : List (Nat × Kind)
deriving DecidableEq, Repr

/-- The body of the first loop (`LLVMBasedCFG.cpp:249-257`).  Nothing happens if the code is found at index 0. -/
def step (name : Name) (s : St) : St :=
  match s.it with
  | [] => s
  | (code, k) :: rest => match find name code s.bl with
    | some 0 => s
    | some (i + 1) => { s with found := s.found ++ [(i + 1, k)], bl := i + 2 }
    | none => { s with it := rest, bl := 0 }

/-- `n` iterations of the first loop (`LLVMBasedCFG.cpp:248-258`) from its start. -/
def loop (name : Name) : Nat → St
  | 0 => ⟨codes, 0, []⟩
  | n + 1 => step name (loop name n)

/-- `isdigit` (used in `LLVMBasedCFG.cpp:268, 270`). -/
def isDigit (c : Nat) : Bool := 48 ≤ c && c ≤ 57

/-- The digits from the start of `s` (`LLVMBasedCFG.cpp:269-273`).  Simplification: the counter is a `short` in the code,
so that names with more than 32767 digits in a row are not covered. -/
def digitsOf : Name → Name
  | [] => []
  | c :: s => if isDigit c then c :: digitsOf s else []

/-- `stoul` on a sequence of digits (`LLVMBasedCFG.cpp:274`); `none`: `std::out_of_range` is thrown. -/
def stoul (ds : Name) : Option Nat :=
  let v := ds.foldl (fun a c => a * 10 + (c - 48)) 0
  if v < 2 ^ 64 then some v else none

/-- The inner loop (`LLVMBasedCFG.cpp:266-280`) from position `c` on: whether `NoName` is still true at the end; `none` is an
exception.  `fuel` bounds the number of iterations; every iteration increases `c`, so `idx` iterations suffice. -/
def noName (name : Name) (idx : Nat) : Nat → Nat → Option Bool
  | 0, _ => some true
  | fuel + 1, c =>
    if c < idx then
      match name[c]? with
      | none => some true
      | some d =>
        if isDigit d then
          match stoul (digitsOf (name.drop c)) with
          | none => none
          | some v => if idx ≤ c + v then some false else noName name idx fuel (c + d + 1)
        else noName name idx fuel (c + 1)
    else some true

/-- The second loop (`LLVMBasedCFG.cpp:265-286`): the outer `none` is an exception, the inner one `None`. -/
def classify (name : Name) : List (Nat × Kind) → Option (Option Kind)
  | [] => some none
  | (i, k) :: rest => match noName name i i 0 with
    | none => none
    | some true => some (some k)
    | some false => classify name rest

/-- The result of the function if the first loop ends after `n` iterations: `none` if it has not ended or an exception is
thrown. -/
def run (name : Name) (n : Nat) : Option (Option Kind) :=
  if (loop name n).it = [] then classify name (loop name n).found else none

/-! ### Specification -/

/-- The function returns: the first loop ends after some number of iterations, and the second one without an exception. -/
def Returns (name : Name) : Prop := ∃ n r, run name n = some r

/-- `code` occurs in `name` at position `i`. -/
def OccursAt (name code : Name) (i : Nat) : Prop := ∃ p q, name = p ++ code ++ q ∧ p.length = i

end Phasar.SpecialMember
