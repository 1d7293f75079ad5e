/-!
# The configuration files

Model of the reading of special function names in `lib/Config/Configuration.cpp`.  Texts are lists of characters.
-/
namespace Phasar.Config

/-- The white space of `StringRef::trim`, used in `Configuration.cpp:144`. -/
def isSpace (c : Char) : Bool :=
  c == ' ' || c == '\t' || c == '\n' || c == '\x0b' || c == '\x0c' || c == '\r'

/-- `llvm::getToken` with the delimiter `"\n"`, as called by `llvm::SplitString` in `Configuration.cpp:137`: the token and the rest. -/
def getToken (s : List Char) : List Char × List Char :=
  ((s.dropWhile (· == '\n')).takeWhile (· != '\n'), (s.dropWhile (· == '\n')).dropWhile (· != '\n'))

theorem getToken_lt (s : List Char) (h : (getToken s).1 ≠ []) : (getToken s).2.length < s.length := by
  unfold getToken at *
  have h1 : (s.dropWhile (· == '\n')).length ≤ s.length := (List.dropWhile_sublist _).length_le
  have h2 := congrArg List.length (List.takeWhile_append_dropWhile (p := (· != '\n')) (l := s.dropWhile (· == '\n')))
  rw [List.length_append] at h2
  have h3 := List.length_pos_iff.2 h
  simp only at *
  omega

/-- `llvm::SplitString(Text, Lines, "\n")`, `Configuration.cpp:136-137`: tokens until an empty one. -/
def splitString (s : List Char) : List (List Char) :=
  if h : (getToken s).1 = [] then [] else (getToken s).1 :: splitString (getToken s).2
termination_by s.length
decreasing_by exact getToken_lt s h

/-- The text before the first `"//"`, `Configuration.cpp:141-143`. -/
def cutComment : List Char → List Char
  | [] => []
  | [c] => [c]
  | c :: d :: cs => if c = '/' ∧ d = '/' then [] else c :: cutComment (d :: cs)

/-- `StringRef::trim`, `Configuration.cpp:144`. -/
def trim (s : List Char) : List Char := ((s.dropWhile isSpace).reverse.dropWhile isSpace).reverse

/-- `loadConfigFileInto` for a file that was read, `Configuration.cpp:136-146`: the names that are inserted. -/
def parse (text : List Char) : List (List Char) := (splitString text).map fun l => trim (cutComment l)

/-- The file system: which files exist, and what reading a file gives (`none`: an error). -/
structure FS where
  exist : String → Bool
  read : String → Option (List Char)

/-- `readConfigFileOrErr`, `Configuration.cpp:92-104`; `localDir` is `LocalConfigurationDirectory` (`:66-80`). -/
def readConfigFile (fs : FS) (localDir : Option String) (globalDir name : String) : Option (List Char) :=
  match localDir with
  | some d => if fs.exist (d ++ name) then fs.read (d ++ name) else fs.read (globalDir ++ name)
  | none => fs.read (globalDir ++ name)

/-- `GLIBCFunctionListFileName`, `Configuration.h:154-155`. -/
def glibcFile : String := "glibc_function_list_v1-04.05.17.conf"

/-- `LLVMIntrinsicFunctionListFileName`, `Configuration.h:158-159`. -/
def llvmFile : String := "llvm_intrinsics_function_list_v1-04.05.17.conf"

/-- `loadGlibcSpecialFunctionNames` and `loadLLVMSpecialFunctionNames`, `Configuration.cpp:149-162`: the names of a file, or a default
if it cannot be read. -/
def load (fs : FS) (localDir : Option String) (globalDir name : String) (dflt : List Char) : List (List Char) :=
  match readConfigFile fs localDir globalDir name with
  | some t => parse t
  | none => [dflt]

/-- The constructor, `Configuration.cpp:58-64`.  (A `std::set`; here a list, only membership matters.) -/
def specialNames (fs : FS) (localDir : Option String) (globalDir : String) : List (List Char) :=
  load fs localDir globalDir glibcFile "_exit".toList ++ load fs localDir globalDir llvmFile "llvm.va_start".toList ++
    ["_Znwm".toList, "_Znam".toList, "_ZdlPv".toList, "_ZdaPv".toList]

end Phasar.Config
