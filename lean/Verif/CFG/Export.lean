import Verif.CFG.Lemmas
/-!
# The export of the inter-procedural control-flow graph

Model of `lib/PhasarLLVM/ControlFlow/LLVMBasedICFGExportsImpl.cpp`: the nodes and edges that are written, as instructions; the text
that stands for an instruction is left out.
-/
namespace Phasar.CFG

/-- Call instructions: `llvm::CallInst`, `InvokeInst`, `CallBrInst`. -/
inductive CallKind where
  | call
  | invoke
  | callbr
deriving DecidableEq

/-- What the export needs of an `LLVMBasedICFG`: the functions, `getAllVertexFunctions`, which instructions are `llvm::CallBase`,
`getCalleesOfCallAt`, and whether an instruction has no source code information. -/
structure Mod where
  fns : Nat → Fn
  verts : List Nat
  call : Nat → Node → Option CallKind
  callees : Nat → Node → List Nat
  noInfo : Nat → Node → Bool

/-- An instruction with its function. -/
abbrev GNode := Nat × Node

/-- The labels of edges. -/
inductive Label where
  | none
  | normal
  | unwind
  | true_
  | false_
deriving DecidableEq

/-- The first instruction of a function, without debug instructions if they are ignored,
`LLVMBasedICFGExportsImpl.cpp:73-80`; `none`: a null pointer. -/
def dotStart (ign : Bool) (m : Mod) (g : Nat) : Option GNode :=
  ((m.fns g)[0]?).bind fun B => (front ign B).map fun i => (g, 0, i)

/-- `GetIR::getFirstNonEmpty`, `LLVMBasedICFGExportsImpl.cpp:237-251` (pseudo probes are left out). -/
def irStart (m : Mod) (g : Nat) : Option GNode :=
  ((m.fns g)[0]?).bind fun B => (if dbgAt B 0 then nextNonDbg B 0 else some 0).map fun i => (g, 0, i)

/-- `GetSCI::getFirstNonEmpty`, `LLVMBasedICFGExportsImpl.cpp:181-202`: the first instruction of the first block that has source
code information and is no debug instruction, or the last one. -/
def sciStart (m : Mod) (g : Nat) : Option GNode :=
  ((m.fns g)[0]?).map fun B =>
    (g, 0, ((List.range B.ins.length).find? fun i => !(m.noInfo g (0, i) || dbgAt B i)).getD B.ins.length)

/-- An edge with its label. -/
abbrev LEdge := GNode × GNode × Label

/-- `createInterEdges`, `LLVMBasedICFGExportsImpl.cpp:61-94, :282-305`; the JSON export has no labels. -/
def interEdges (start : Nat → Option GNode) (m : Mod) (f : Nat) (n to : Node) (l : Label) : Option (List LEdge) :=
  ((m.callees f n).mapM fun g =>
    if m.fns g = [] then some []
    else (start g).map fun s => ((f, n), s, Label.none) :: (exitPoints (m.fns g)).map fun x => ((g, x), (f, to), l)).map fun es =>
  es.flatten ++ if (m.callees f n).any (fun g => m.fns g = []) || (m.callees f n).isEmpty then [((f, n), (f, to), l)] else []

/-- The edges of one instruction in the dot export, `LLVMBasedICFGExportsImpl.cpp:97-134`.  (An `unreachable` has no
successors.) -/
def dotInst (ign : Bool) (m : Mod) (f : Nat) (n : Node) : Option (List LEdge) :=
  if ign && isDbg (m.fns f) n then some []
  else (succs ign (m.fns f) n).bind fun ss =>
    match ss with
    | [a, b] =>
      if m.call f n = some .invoke then
        (interEdges (dotStart ign m) m f n a .normal).bind fun x => (interEdges (dotStart ign m) m f n b .unwind).map fun y => x ++ y
      else some [((f, n), (f, a), .true_), ((f, n), (f, b), .false_)]
    | ss => (ss.mapM fun s => if (m.call f n).isSome then interEdges (dotStart ign m) m f n s .none
        else some [((f, n), (f, s), Label.none)]).map List.flatten

/-- The edges of `exportICFGAsDot`, `LLVMBasedICFGExportsImpl.cpp:96-135`. -/
def dotEdges (ign : Bool) (m : Mod) : Option (List LEdge) :=
  (m.verts.mapM fun f => ((instructions (m.fns f)).mapM (dotInst ign m f)).map List.flatten).map List.flatten

/-- The nodes of `exportICFGAsDot`, `LLVMBasedICFGExportsImpl.cpp:96-104`. -/
def dotNodes (ign : Bool) (m : Mod) : List GNode :=
  m.verts.flatMap fun f => ((instructions (m.fns f)).filter fun n => !(ign && isDbg (m.fns f) n)).map fun n => (f, n)

/-- The edges of one instruction in the JSON export, `LLVMBasedICFGExportsImpl.cpp:308-328`. -/
def jsonInst (start : Nat → Option GNode) (ign : Bool) (m : Mod) (f : Nat) (n : Node) : Option (List LEdge) :=
  if ign && isDbg (m.fns f) n then some []
  else (succs ign (m.fns f) n).bind fun ss =>
    (ss.mapM fun s => if (m.call f n).isSome then interEdges start m f n s .none
      else some [((f, n), (f, s), Label.none)]).map List.flatten

/-- `exportICFGAsSourceCodeImpl`, `LLVMBasedICFGExportsImpl.cpp:254-330`. -/
def jsonEdges (start : Nat → Option GNode) (ign : Bool) (m : Mod) : Option (List (GNode × GNode)) :=
  (m.verts.mapM fun f => ((instructions (m.fns f)).mapM (jsonInst start ign m f)).map List.flatten).map fun es =>
    es.flatten.map fun e => (e.1, e.2.1)

/-- `exportICFGAsJson(false)`, `LLVMBasedICFGExportsImpl.cpp:332-352`. -/
def jsonIR (ign : Bool) (m : Mod) : Option (List (GNode × GNode)) := jsonEdges (irStart m) ign m

/-- `exportICFGAsJson(true)`, `LLVMBasedICFGExportsImpl.cpp:332-352`. -/
def jsonSCI (ign : Bool) (m : Mod) : Option (List (GNode × GNode)) := jsonEdges (sciStart m) ign m

end Phasar.CFG
