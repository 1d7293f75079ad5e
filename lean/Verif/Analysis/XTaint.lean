/-!
# The sanitizer lattice of the extended taint analysis

Model of `lib/PhasarLLVM/DataFlow/IfdsIde/Problems/ExtendedTaintAnalysis/EdgeDomain.cpp`, the edge functions beside it and
the decision in `IDEExtendedTaintAnalysis::doPostProcessing`.
-/
namespace Phasar.XTaint

/-- What the lattice asks about LLVM instructions: `Instruction::getFunction`, the first instructions of the successors of
the instruction's block in order (`llvm::successors(I->getParent())`, then `front()`; a block occurs as often as there are
edges to it), and `BasicBlockOrdering::mustComeBefore` (`lib/PhasarLLVM/Utils/BasicBlockOrdering.cpp:22-40`), which answers
false across functions and otherwise uses the order in the block or the dominator tree.  Simplified: dominance is any
relation `before`. -/
structure Prog (I : Type) where
  fn : I → Nat
  succ : I → List I
  before : I → I → Bool

/-- `EdgeDomain` (`include/phasar/PhasarLLVM/DataFlow/IfdsIde/Problems/ExtendedTaintAnalysis/EdgeDomain.h:28-113`):
`PointerIntPair` of an instruction and a kind.  The constructors only build the pointer together with the kind
`WithSanitizer`; `unsani` is `WithSanitizer` with the null pointer (`isNotSanitized`). -/
inductive Dom (I : Type) where
  | bot | top | sanitized | unsani
  | sani (i : I)
deriving DecidableEq, Repr

variable {I : Type} [DecidableEq I]

/-- `EdgeDomain::getSanitizer` (`EdgeDomain.h:67-69`). -/
def Dom.sanitizer : Dom I → Option I
  | .sani i => some i
  | _ => none

/-- Conversion of a possibly null instruction pointer to `EdgeDomain` (`EdgeDomain.h:43-57`). -/
def ofPtr : Option I → Dom I
  | none => .unsani
  | some i => .sani i

/-- The part of `EdgeDomain::join` for two sanitizers (`EdgeDomain.cpp:73-126`).  `bbo` says whether a block ordering was
passed.  The two loops return early if one sanitizer is the first instruction of a successor of the other's block; both
early exits return the second sanitizer. -/
def joinSani (G : Prog I) (bbo : Bool) (s t : I) : Dom I :=
  if G.fn s ≠ G.fn t then .unsani
  else if bbo = true ∧ G.before s t = true then .sani s
  else if bbo = true ∧ G.before t s = true then .sani t
  else if t ∈ G.succ s then .sani t
  else if s ∈ G.succ t then .sani t
  else
    match (G.succ t).filter (fun m => decide (m ∈ G.succ s)) with
    | [m] => .sani m
    | _ => .unsani

/-- `EdgeDomain::join` (`EdgeDomain.cpp:48-126`).  The solver calls it without block ordering through
`JoinLatticeTraits<EdgeDomain>::join` (`EdgeDomain.h:107-110`). -/
def join (G : Prog I) (bbo : Bool) (a b : Dom I) : Dom I :=
  if a = b then a
  else if a = .top then b
  else if b = .top then a
  else if a = .bot ∨ b = .bot then .bot
  else if a = .sanitized then b
  else if b = .sanitized then a
  else
    match a, b with
    | .sani s, .sani t => joinSani G bbo s t
    | _, _ => .unsani

/-- `KillIfSanitizedEdgeFunction::computeTarget` (`KillIfSanitizedEdgeFunction.cpp:21-39`). -/
def kill (G : Prog I) (load : Option I) (src : Dom I) : Dom I :=
  match src.sanitizer with
  | some s =>
    match load with
    | none => .sanitized
    | some l => if G.fn s = G.fn l ∧ G.before s l = true then .sanitized else .unsani
  | none => src

/-- `TransferEdgeFunction::computeTarget` (`TransferEdgeFunction.cpp:20-33`). -/
def transfer (G : Prog I) (load to : Option I) (src : Dom I) : Dom I :=
  match src.sanitizer with
  | some s =>
    match load with
    | none => ofPtr to
    | some l => if G.before s l = true then ofPtr to else .unsani
  | none => if src = .sanitized then ofPtr to else .unsani

/-- `operator==` of `KillIfSanitizedEdgeFunction` (`KillIfSanitizedEdgeFunction.cpp:46-51`). -/
def killEq (l l' : Option I) : Bool := decide (l = l')

/-- `operator==` of `TransferEdgeFunction` (`TransferEdgeFunction.cpp:35-38`), which compares the target only. -/
def transferEq (_l to _l' to' : Option I) : Bool := decide (to = to')

/-- The decision in `IDEExtendedTaintAnalysis::doPostProcessing` whether a potential leak is dropped, given the value found
for it (`IDEExtendedTaintAnalysis.cpp:848-880`; `none`: no result was found, the leak stays). -/
def suppressed (G : Prog I) (res : Option (Dom I)) (load : Option I) : Bool :=
  match res with
  | none => false
  | some .sanitized => true
  | some (.sani s) =>
    match load with
    | none => true
    | some l => G.before s l
  | some _ => false

/-- The functions `AllSanitized::compose` distinguishes (`AllSanitized.cpp:10-37`): identity, all-bottom, all-top, another
constant function, any other function. -/
inductive Fn (I : Type) where
  | id | allBottom | allTop | allSanitized
  | const (v : Dom I)
  | other (f : Dom I → Dom I)

/-- `computeTarget` of these. -/
def Fn.app : Fn I → Dom I → Dom I
  | .id, x => x
  | .allBottom, _ => .bot
  | .allTop, _ => .top
  | .allSanitized, _ => .sanitized
  | .const v, _ => v
  | .other f, x => f x

/-- `AllSanitized::compose` (`AllSanitized.cpp:10-37`). -/
def composeAllSanitized : Fn I → Fn I
  | .id => .allSanitized
  | .allBottom => .allBottom
  | .allTop => .allSanitized
  | .allSanitized => .allSanitized
  | .const v => .const v
  | .other f =>
    match f .sanitized with
    | .bot => .allBottom
    | .top => .allTop
    | .sanitized => .allSanitized
    | _ => .other f

end Phasar.XTaint
