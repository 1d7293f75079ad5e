/-
From LLVM values to the source code, lib/PhasarLLVM/Utils/LLVMIRToSrc.cpp and include/phasar/PhasarLLVM/Utils/LLVMIRToSrc.h.

Strings are lists of characters.  Of the values and of the debug information, what the functions ask for is given.
-/
namespace Phasar.IRToSrc

/-- `std::string`, `llvm::StringRef`. -/
abbrev Str := List Char

/-- `llvm::DIFile`: `getFilename`, `getDirectory`; used at LLVMIRToSrc.cpp:148-166. -/
structure DIFile where
  filename : Str
  dir : Str
deriving DecidableEq, Repr

/-- `llvm::DILocation`: `getLine`, `getColumn`, `getFile` (may be null); used at LLVMIRToSrc.cpp:90-102, 194-242, 336-350. -/
structure DILoc where
  line : Nat
  col : Nat
  file : Option DIFile
deriving DecidableEq, Repr

/-- `llvm::DILocalVariable`: `getName`, `getFile`; used at LLVMIRToSrc.cpp:104-107, 178-186. -/
structure DIVar where
  name : Str
  file : Option DIFile
deriving DecidableEq, Repr

/-- The classes derived from `llvm::DbgVariableIntrinsic`; LLVMIRToSrc.cpp:59-69 looks at the first two. -/
inductive DbgKind where
  | declare
  | value
  | addr
deriving DecidableEq, Repr

/-- `llvm::DbgVariableIntrinsic`: its class, variable and `!dbg` location; used at LLVMIRToSrc.cpp:33-69, 92-95. -/
structure DbgIntr where
  kind : DbgKind
  var : DIVar
  loc : Option DILoc
deriving DecidableEq, Repr

/-- `llvm::DISubprogram`: `getLine`, `getFile`; used at LLVMIRToSrc.cpp:83-88, 170-173. -/
structure DISub where
  line : Nat
  file : Option DIFile
deriving DecidableEq, Repr

/-- `llvm::DIGlobalVariable`: `getName`, `getLine`, `getFile`; used at LLVMIRToSrc.cpp:71-81, 174-176. -/
structure DIGlobal where
  name : Str
  line : Nat
  file : Option DIFile
deriving DecidableEq, Repr

/-- `llvm::Module`: `getSourceFileName`, `getModuleIdentifier`; used at LLVMIRToSrc.cpp:135-143, 264-275. -/
structure Mod where
  sourceFile : Str
  ident : Str
deriving DecidableEq, Repr

/-- `llvm::Function`: name, module, subprogram (its `!dbg` attachment); used at LLVMIRToSrc.cpp:83-88, 114-146. -/
structure Fn where
  name : Str
  mod : Mod
  sub : Option DISub
deriving DecidableEq, Repr

/-- The `ValueAsMetadata` of a value, LLVMIRToSrc.cpp:34-42: `none` if there is none (then `isUsedByMetadata` is false); otherwise the users
of its `MetadataAsValue` (none, if there is no such), of each whether it is a `DbgVariableIntrinsic`. -/
abbrev Md := Option (List (Option DbgIntr))

/-- A user of an argument, LLVMIRToSrc.cpp:47-53: a store, whether the argument is the stored value, and the metadata of the pointer
operand if that is an `alloca`; or another user. -/
inductive ArgUser where
  | store (valueIsArg : Bool) (alloca : Option Md)
  | other
deriving DecidableEq, Repr

/-- `llvm::Value`: functions, global variables (with their `!dbg` variable), arguments, instructions (with their `!dbg` location), others. -/
inductive Value where
  | fn (f : Fn) (md : Md)
  | gvar (dbg : Option DIGlobal) (mod : Mod) (md : Md)
  | arg (parent : Fn) (md : Md) (users : List ArgUser)
  | inst (parent : Fn) (md : Md) (loc : Option DILoc)
  | other (md : Md)
deriving DecidableEq, Repr

/-- The metadata of a value. -/
def Value.md : Value → Md
  | .fn _ md => md
  | .gvar _ _ md => md
  | .arg _ md _ => md
  | .inst _ md _ => md
  | .other md => md

/-- The loop over the users of the metadata, LLVMIRToSrc.cpp:36-41. -/
def firstDbg (us : List (Option DbgIntr)) : Option DbgIntr := us.findSome? id

/-- The loop over the users of an argument without metadata, LLVMIRToSrc.cpp:47-54; the recursive call is for an `alloca`, which is no
argument. -/
def firstStore : List ArgUser → Option DbgIntr
  | [] => none
  | .store true (some md) :: _ => md.bind firstDbg
  | _ :: us => firstStore us

/-- `getDbgVarIntrinsic`, LLVMIRToSrc.cpp:33-57. -/
def getDbgVarIntrinsic (v : Value) : Option DbgIntr :=
  match v.md with
  | some us => firstDbg us
  | none =>
    match v with
    | .arg _ _ users => firstStore users
    | _ => none

/-- `getDILocalVariable`, LLVMIRToSrc.cpp:59-69. -/
def getDILocalVariable (v : Value) : Option DIVar :=
  match getDbgVarIntrinsic v with
  | some d => match d.kind with
    | .declare => some d.var
    | .value => some d.var
    | .addr => none
  | none => none

/-- `getDIGlobalVariable`, LLVMIRToSrc.cpp:71-81. -/
def getDIGlobalVariable : Value → Option DIGlobal
  | .gvar dbg _ _ => dbg
  | _ => none

/-- `getDISubprogram`, LLVMIRToSrc.cpp:83-88. -/
def getDISubprogram : Value → Option DISub
  | .fn f _ => f.sub
  | _ => none

/-- `getDILocation`, LLVMIRToSrc.cpp:90-102. -/
def getDILocation (v : Value) : Option DILoc :=
  match getDbgVarIntrinsic v with
  | some d => d.loc
  | none =>
    match v with
    | .inst _ _ loc => loc
    | _ => none

/-- `getVarNameFromIR`, LLVMIRToSrc.cpp:104-112. -/
def getVarName (v : Value) : Str :=
  match getDILocalVariable v with
  | some x => x.name
  | none => match getDIGlobalVariable v with
    | some x => x.name
    | none => []

/-- `getFunctionNameFromIR`, LLVMIRToSrc.cpp:114-126. -/
def getFunctionName : Value → Str
  | .fn f _ => f.name
  | .arg f _ _ => f.name
  | .inst f _ _ => f.name
  | _ => []

/-- `llvm::sys::path::has_root_directory` of POSIX paths, used at LLVMIRToSrc.cpp:158.  Simplified: paths that begin with exactly two
separators (network names) are left out. -/
def isAbsolute (p : Str) : Bool := p.head? = some '/'

/-- `llvm::sys::path::append` of two non-empty parts to the empty path (LLVM, Path.cpp), used at LLVMIRToSrc.cpp:160. -/
def append (d f : Str) : Str :=
  if d.getLast? = some '/' then d ++ f.dropWhile (· = '/')
  else if f.head? = some '/' then d ++ f
  else d ++ '/' :: f

/-- `getFilePathFromIR(const llvm::DIFile *)`, LLVMIRToSrc.cpp:148-166. -/
def filePath (d : DIFile) : Str :=
  if d.filename.isEmpty then []
  else if !d.dir.isEmpty && !isAbsolute d.filename then append d.dir d.filename
  else d.filename

/-- `getDIFileFromIR`, LLVMIRToSrc.cpp:168-192. -/
def getDIFile (v : Value) : Option DIFile :=
  match v with
  | .fn f _ => f.sub.bind (·.file)
  | .gvar dbg _ _ => dbg.bind (·.file)
  | .arg .. => (getDILocalVariable v).bind (·.file)
  | .inst _ md loc =>
    if md.isSome then (getDILocalVariable v).bind (·.file)
    else loc.bind (·.file)
  | .other _ => none

/-- `getFilePathFromIR(const llvm::Value *)`, LLVMIRToSrc.cpp:128-146. -/
def getFilePath (v : Value) : Str :=
  match getDIFile v with
  | some d => filePath d
  | none =>
    match v with
    | .fn f _ => f.mod.sourceFile
    | .arg f _ _ => f.mod.sourceFile
    | .inst f _ _ => f.mod.sourceFile
    | _ => []

/-- The directory of a file that may be null: `getDirectory` of the debug information. -/
def dirOf (f : Option DIFile) : Str := match f with | some d => d.dir | none => []

/-- `getDirectoryFromIR`, LLVMIRToSrc.cpp:194-206. -/
def getDirectory (v : Value) : Str :=
  match getDILocation v with
  | some l => dirOf l.file
  | none => match getDISubprogram v with
    | some s => dirOf s.file
    | none => match getDIGlobalVariable v with
      | some g => dirOf g.file
      | none => []

/-- `getLineFromIR`, LLVMIRToSrc.cpp:208-220. -/
def getLine (v : Value) : Nat :=
  match getDILocation v with
  | some l => l.line
  | none => match getDISubprogram v with
    | some s => s.line
    | none => match getDIGlobalVariable v with
      | some g => g.line
      | none => 0

/-- `getColumnFromIR`, LLVMIRToSrc.cpp:222-228. -/
def getColumn (v : Value) : Nat :=
  match getDILocation v with
  | some l => l.col
  | none => 0

/-- `getLineAndColFromIR`, LLVMIRToSrc.cpp:230-242. -/
def getLineAndCol (v : Value) : Nat × Nat :=
  match getDILocation v with
  | some l => (l.line, l.col)
  | none => match getDISubprogram v with
    | some s => (s.line, 0)
    | none => match getDIGlobalVariable v with
      | some g => (g.line, 0)
      | none => (0, 0)

/-- `Ifs.ignore(max, '\n')`, LLVMIRToSrc.cpp:253. -/
def ignoreLine : Str → Str
  | [] => []
  | c :: s => if c = '\n' then s else ignoreLine s

/-- `std::getline`, LLVMIRToSrc.cpp:255. -/
def takeLine : Str → Str
  | [] => []
  | c :: s => if c = '\n' then [] else c :: takeLine s

/-- The loop of `getSrcCodeFromIR`, LLVMIRToSrc.cpp:252-254. -/
def ignoreLines : Nat → Str → Str
  | 0, s => s
  | n + 1, s => ignoreLines n (ignoreLine s)

/-- The characters that `StringRef::trim` removes. -/
def isSpace (c : Char) : Bool := c = ' ' || c = '\t' || c = '\n' || c = '\x0b' || c = '\x0c' || c = '\r'

/-- `StringRef::trim`, used at LLVMIRToSrc.cpp:256. -/
def trim (s : Str) : Str := ((s.dropWhile isSpace).reverse.dropWhile isSpace).reverse

/-- `getSrcCodeFromIR`, LLVMIRToSrc.cpp:244-262; `fs` gives the content of the regular files that can be opened. -/
def getSrcCode (fs : Str → Option Str) (v : Value) (trimmed : Bool) : Str :=
  let line := getLine v
  if line > 0 then
    match fs (getFilePath v) with
    | some content =>
      let l := takeLine (ignoreLines (line - 1) content)
      if trimmed then trim l else l
    | none => []
  else []

/-- `getModuleIDFromIR`, LLVMIRToSrc.cpp:264-275. -/
def getModuleID : Value → Str
  | .fn f _ => f.mod.ident
  | .gvar _ m _ => m.ident
  | .arg f _ _ => f.mod.ident
  | .inst f _ _ => f.mod.ident
  | .other _ => []

/-- `struct SourceCodeInfo`, LLVMIRToSrc.h:60-80. -/
structure Info where
  line : Str := []
  file : Str := []
  function : Str := []
  lineNo : Nat := 0
  column : Nat := 0
deriving DecidableEq, Repr

/-- `SourceCodeInfo::operator==`, LLVMIRToSrc.cpp:279-285. -/
def Info.eq (a b : Info) : Bool :=
  a.lineNo == b.lineNo && a.column == b.column && a.line == b.line && a.file == b.file

/-- `std::string::find_last_of(c)`, used at LLVMIRToSrc.cpp:296: the greatest index at which `c` is. -/
def findLastOf (c : Char) : Str → Option Nat
  | [] => none
  | x :: s =>
    match findLastOf c s with
    | some n => some (n + 1)
    | none => if x = c then some 0 else none

/-- `SourceCodeInfo::equivalentWith`, LLVMIRToSrc.cpp:287-305. -/
def Info.equivalentWith (a b : Info) : Bool :=
  if a.lineNo != b.lineNo || a.column != b.column || a.line != b.line || a.function != b.function then false
  else
    let pos := (findLastOf '/' a.file).getD 0
    (a.file.drop (pos + 1)).isSuffixOf b.file

/-- The JSON values written and read here. -/
inductive JVal where
  | str (s : Str)
  | num (n : Nat)
deriving DecidableEq, Repr

/-- `to_json`, LLVMIRToSrc.cpp:316-324. -/
def toJson (i : Info) : List (String × JVal) :=
  [("sourceCodeLine", .str i.line), ("sourceCodeFileName", .str i.file), ("sourceCodeFunctionName", .str i.function),
   ("line", .num i.lineNo), ("column", .num i.column)]

/-- `get_to` of a string; `none`: exception. -/
def JVal.toStr : JVal → Option Str
  | .str s => some s
  | .num _ => none

/-- `get_to` of an `unsigned`; `none`: exception. -/
def JVal.toNum : JVal → Option Nat
  | .str _ => none
  | .num n => some (n % 2 ^ 32)

/-- `from_json`, LLVMIRToSrc.cpp:307-315, into a fresh `SourceCodeInfo`; `none`: exception. -/
def fromJson (j : List (String × JVal)) : Option Info := do
  let line ← (← j.lookup "sourceCodeLine").toStr
  let file ← (← j.lookup "sourceCodeFileName").toStr
  let function ← match j.lookup "sourceCode" with
    | some v => v.toStr
    | none => some []
  let lineNo ← (← j.lookup "line").toNum
  let column ← (← j.lookup "column").toNum
  return { line, file, function, lineNo, column }

/-- `getSrcCodeInfoFromIR`, LLVMIRToSrc.cpp:326-334; `demangle` is `llvm::demangle`. -/
def getSrcCodeInfo (fs : Str → Option Str) (demangle : Str → Str) (v : Value) : Info where
  line := getSrcCode fs v true
  file := getFilePath v
  function := demangle (getFunctionName v)
  lineNo := getLine v
  column := getColumn v

/-- `struct DebugLocation` and `getDebugLocation`, LLVMIRToSrc.h:91-98, LLVMIRToSrc.cpp:336-350. -/
def getDebugLocation (v : Value) : Option DILoc :=
  match getDILocation v with
  | some l => some ⟨l.line, l.col, l.file⟩
  | none => match getDISubprogram v with
    | some s => some ⟨s.line, 0, s.file⟩
    | none => match getDIGlobalVariable v with
      | some g => some ⟨g.line, 0, g.file⟩
      | none => none

end Phasar.IRToSrc
