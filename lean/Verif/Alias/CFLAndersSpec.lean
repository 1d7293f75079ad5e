import Verif.Alias.CFLAnders

/-!
# What the CFL-based alias analysis is to compute

The grammar of the paper the analysis implements (Zheng and Rugina, named in `CFLAndersAliasAnalysis.cpp:9-46`), and a
semantics of the instructions for the meaning of an answer.  Nothing here is taken from the work-list algorithm.
-/
namespace Phasar.CFLAnders

/-! ## The grammar

`V ::= (M? a⁻)* M? (a M?)*` and `M ::= d⁻ V d`: against assignments first, along assignments afterwards; between two steps
at most one pair of memory cells reached through value aliases. -/

/-- Where one is in the word: before the first step along an assignment (`fr`), the same just after a memory alias
(`frM`), afterwards (`to`, `toM`). -/
inductive Ph where
  | fr | frM | to | toM
  deriving DecidableEq

/-- `VA g x y p`: a word of the grammar leads from `x` to `y`. -/
inductive VA (g : Graph) : Node → Node → Ph → Prop
  | refl (x) : VA g x x .fr
  | back {x y z p} : VA g x y p → p = .fr ∨ p = .frM → (z, y) ∈ g.edges → VA g x z .fr
  | fwd {x y z p} : VA g x y p → (y, z) ∈ g.edges → VA g x z .to
  | memF {x u v q} : VA g x u.below .fr → VA g u v q → g.has u.below = true → g.has v.below = true → VA g x v.below .frM
  | memT {x u v q} : VA g x u.below .to → VA g u v q → g.has u.below = true → g.has v.below = true → VA g x v.below .toM

/-- The same with two flags: whether the word has a step against an assignment, and one along an assignment (steps
within the words that make memory aliases do not count). -/
inductive VAF (g : Graph) : Node → Node → Ph → Bool → Bool → Prop
  | refl (x) : VAF g x x .fr false false
  | back {x y z p r w} : VAF g x y p r w → p = .fr ∨ p = .frM → (z, y) ∈ g.edges → VAF g x z .fr true w
  | fwd {x y z p r w} : VAF g x y p r w → (y, z) ∈ g.edges → VAF g x z .to r true
  | memF {x u v q r w} : VAF g x u.below .fr r w → VA g u v q → g.has u.below = true → g.has v.below = true →
      VAF g x v.below .frM r w
  | memT {x u v q r w} : VAF g x u.below .to r w → VA g u v q → g.has u.below = true → g.has v.below = true →
      VAF g x v.below .toM r w

/-- The attributes: the least map that contains those of the graph, gives value aliases the same attributes, and hands
them on to the level below. -/
structure AttrSol (g : Graph) (B : Node → Attr) : Prop where
  init : ∀ n, (g.attrFor n).or (B n) = B n
  alias : ∀ x y p, VA g x y p → B x = B y
  below : ∀ n, g.has n.below = true → (B n).or (B n.below) = B n.below

/-! ## Executions

A pointer is an object (offsets are ignored: pointers to different parts of an object count as aliases) or null; an
object has one cell.  The order of instructions is arbitrary, which covers every control flow. -/

/-- Objects: those the function allocates, by the instruction that allocates them and a number, and all others. -/
inductive Obj where
  | loc (site : Nat) (k : Nat)
  | ext (n : Nat)
  deriving DecidableEq

/-- A state: values, memory, and the objects code outside the function may know. -/
structure Conf where
  reg : Nat → Option Obj
  mem : Obj → Option Obj
  known : Obj → Prop

/-- The objects that can be reached from others in memory; objects from outside are always included. -/
inductive Clo (mem : Obj → Option Obj) (K : Obj → Prop) : Obj → Prop
  | base {o} : K o → Clo mem K o
  | ext (n) : Clo mem K (.ext n)
  | step {o o'} : Clo mem K o → mem o = some o' → Clo mem K o'

/-- Setting a value. -/
def Conf.set (c : Conf) (x : Nat) (o : Option Obj) : Conf := { c with reg := fun y => if y = x then o else c.reg y }

/-- Writing to memory. -/
def Conf.write (c : Conf) (p : Obj) (o : Option Obj) : Conf := { c with mem := fun q => if q = p then o else c.mem q }

/-- The result of a call. -/
def Conf.setRet (c : Conf) : Option Nat → Option Obj → Conf
  | some x, r => c.set x r
  | none, _ => c

/-- The objects an opaque call can get hold of. -/
def Conf.passed (c : Conf) (args : List Nat) : Obj → Prop :=
  Clo c.mem fun o => c.known o ∨ ∃ v ∈ args, c.reg v = some o

/-- One instruction. -/
inductive Step (c : Conf) : Instr → Conf → Prop
  | alloca (x k) : Step c (.alloca x) (c.set x (some (.loc x k)))
  | malloc (x k) : Step c (.malloc x) (c.set x (some (.loc x k)))
  | mallocNull (x) : Step c (.malloc x) (c.set x none)
  | assign {froms x y} : y ∈ froms → Step c (.assign froms x) (c.set x (c.reg y))
  | load {p x o} : c.reg p = some o → Step c (.load p x) (c.set x (c.mem o))
  | store {v p o} : c.reg p = some o → Step c (.store v p) (c.write o (c.reg v))
  /-- the address becomes known -/
  | ptrToInt (p) : Step c (.ptrToInt p) { c with known := Clo c.mem fun o => c.known o ∨ c.reg p = some o }
  /-- any known address -/
  | intToPtr {x r} : (∀ o, r = some o → c.known o) → Step c (.intToPtr x) (c.set x r)
  /-- an opaque call changes memory it can reach and keeps what it has seen; it returns something it can reach -/
  | call {args ret r} {m : Obj → Option Obj} :
      (∀ o, m o = c.mem o ∨ (c.passed args o ∧ ∀ o', m o = some o' → c.passed args o')) →
      (∀ o, r = some o → c.passed args o) →
      Step c (.call args ret false false) ((Conf.mk c.reg m (c.passed args)).setRet ret r)
  /-- a call that only reads memory returns something it can reach -/
  | callRO {args ret r} : (∀ o, r = some o → c.passed args o) → Step c (.call args ret true false) (c.setRet ret r)
  /-- the result of a call marked `noalias` is a new object, with anything in it the call can reach -/
  | callNA {args x k} {m : Obj → Option Obj} : (∀ y, c.reg y ≠ some (.loc x k)) → (∀ o, c.mem o ≠ some (.loc x k)) →
      (∀ o, m o = c.mem o ∨ ((o = .loc x k ∨ c.passed args o) ∧ ∀ o', m o = some o' → c.passed args o')) →
      Step c (.call args (some x) false true) ((Conf.mk c.reg m (c.passed args)).set x (some (.loc x k)))
  /-- reads the old value and replaces it or not -/
  | cmpXchgNo {p v x o} : c.reg p = some o → Step c (.cmpXchg p v x) (c.set x (c.mem o))
  | cmpXchgYes {p v x o} : c.reg p = some o → Step c (.cmpXchg p v x) ((c.write o (c.reg v)).set x (c.mem o))
  | ret (v) : Step c (.ret v) c

/-- At the start: arguments, globals and constant expressions point to objects from outside, other values to nothing;
nothing outside points to an object of the function. -/
structure Init (f : Fn) (c : Conf) : Prop where
  reg : ∀ x o, c.reg x = some o → (∃ n, o = .ext n) ∧ (x ∈ f.args ∨ f.isGlobal x = true ∨ f.isIntExpr x = true)
  mem : ∀ o o', c.mem o = some o' → (∃ n, o = .ext n) ∧ ∃ n, o' = .ext n
  known : ∀ o, c.known o → ∃ n, o = .ext n

/-- Executions: instructions of the function in any order. -/
inductive Run (f : Fn) : Conf → Prop
  | init {c} : Init f c → Run f c
  | step {c c' i} : Run f c → i ∈ f.body → Step c i c' → Run f c'

end Phasar.CFLAnders
