/-!
# The typestate analysis

Model of `include/phasar/PhasarLLVM/DataFlow/IfdsIde/Problems/IDETypeStateAnalysis.h` (edge functions and join) and of the
type state descriptions in `lib/PhasarLLVM/DataFlow/IfdsIde/Problems/TypeStateDescriptions/`.
-/
namespace Phasar.TypeState

/-- `TypeStateDescription<State>` (`TypeStateDescriptions/TypeStateDescription.h:22-87`), the part the edge functions use.
`next Tok S CallSite` is the three-argument `getNextState`; `none` is an index outside of the table.  Call sites are
identified by numbers. -/
structure Desc (S : Type) where
  isFactory : String → Bool
  isConsuming : String → Bool
  consumerParamIdx : String → List Nat
  next : String → S → Nat → Option S
  bottom : S
  top : S
  uninit : S

variable {S : Type} [DecidableEq S]

/-- `IDETypeStateAnalysis::join` (`IDETypeStateAnalysis.h:484-495`). -/
def Desc.join (D : Desc S) (l r : S) : S :=
  if l = r then l else if l = D.top then r else if r = D.top then l else D.bottom

/-- The edge functions of the analysis: `EdgeIdentity`, `AllBottom`, `AllTop`, `TSConstant` (`IDETypeStateAnalysis.h:270`),
`TSEdgeFunction` (`:220`) and `TSEdgeFunctionComposer` (`:194`). -/
inductive EF (S : Type) where
  | id
  | allBottom
  | allTop
  | const (v : S)
  | ts (tok : String) (cs : Nat)
  | comp (f g : EF S)
deriving DecidableEq, Repr

/-- `computeTarget` (`EdgeFunctionUtils.h:26-31, 51-60, 91-100, 157-161, 246-248`, `IDETypeStateAnalysis.h:228-239`). -/
def EF.ap (D : Desc S) : EF S → S → Option S
  | .id, x => some x
  | .allBottom, _ => some D.bottom
  | .allTop, _ => some D.top
  | .const v, _ => some v
  | .ts tok cs, x => D.next tok (if x = D.top then D.uninit else x) cs
  | .comp f g, x => (f.ap D x).bind (g.ap D)

/-- `isConstant` (`EdgeFunctionUtils.h:73, 113, 211`; default false, `EdgeFunction.h:555-559`). -/
def EF.isConstant : EF S → Bool
  | .allBottom | .allTop | .const _ => true
  | _ => false

/-- `isa<EdgeIdentity>`. -/
def EF.isId : EF S → Bool
  | .id => true
  | _ => false

/-- `defaultComposeOrNull` (`EdgeFunctionUtils.h:122-133`). -/
def EF.defaultCompose (this second : EF S) : Option (EF S) :=
  if second.isId then some this else if second.isConstant then some second else none

/-- `composeWith` (`EdgeFunction.h:348-350`) with the `compose` of the types: `EdgeIdentity` (`EdgeFunctionUtils.h:33-37`),
`AllBottom` (`:61-65`), `AllTop` (`:101-105`), `TSConstant` (`IDETypeStateAnalysis.h:293-310`), `TSEdgeFunction`
(`:241-248`), the composer (`EdgeFunctionUtils.h:257-267`).  `none`: undefined behaviour in `computeTarget` while composing a
constant.  Simplification: `TSEdgeFunctionComposer` and the `EdgeFunctionComposer` created by composing one are identified,
the composer inherits its `compose` and the state machine has only one bottom state. -/
def EF.compose (D : Desc S) : EF S → EF S → Option (EF S)
  | .id, g => some g
  | .allBottom, g => some (if g.isConstant then g else .allBottom)
  | .allTop, g => some (if g.isId then .allTop else g)
  | .const v, g => match EF.defaultCompose (.const v) g with
    | some r => some r
    | none => match g.ap D v with
      | none => none
      | some ret => if ret = v then some (.const v) else if ret = D.bottom then some .allBottom else some (.const ret)
  | .ts t c, g => match EF.defaultCompose (.ts t c) g with
    | some r => some r
    | none => some (.comp (.ts t c) g)
  | .comp a b, g => match EF.defaultCompose (.comp a b) g with
    | some r => some r
    | none => (b.compose D g).bind (a.compose D)

/-- `defaultJoinOrNull<L, 0>` (`EdgeFunctionUtils.h:410-427`).  `operator==` (`EdgeFunction.h:426-436`) compares dynamic
types and values (`IDETypeStateAnalysis.h:259-261, 337-339`, `EdgeFunctionUtils.h:280-284`), which is equality here.  For
states without `JoinLatticeTraits` the identity is not handled, the callers then return `AllBottom` as well. -/
def EF.defaultJoin (this other : EF S) : Option (EF S) :=
  if other = .allBottom then some other
  else if other = .allTop ∨ other = this then some this
  else if other = .id then some .allBottom
  else none

/-- `TSEdgeFunction::join` (`IDETypeStateAnalysis.h:250-257`) and `TSEdgeFunctionComposer::join` (`:207-217`). -/
def EF.joinTS (this other : EF S) : EF S :=
  match EF.defaultJoin this other with
  | some r => r
  | none => .allBottom

/-- `TSConstant::join` (`IDETypeStateAnalysis.h:312-335`). -/
def EF.joinConst (D : Desc S) (v : S) (other : EF S) : EF S :=
  match EF.defaultJoin (.const v) other with
  | some r => r
  | none => match other with
    | .const c => if c = v ∨ c = D.top then .const v else if v = D.top then .const c else .allBottom
    | _ => .allBottom

/-- `joinWith` (`EdgeFunction.h:381-387`) with the `join` of the types: `EdgeIdentity` (`EdgeFunctionUtils.h:449-462`),
`AllBottom` (`:67-71`), `AllTop` (`:107-111`), and the above. -/
def EF.joinWith (D : Desc S) : EF S → EF S → EF S
  | .id, g => match g with
    | .id => .id
    | .allTop => .id
    | .allBottom => .allBottom
    | .const v => EF.joinConst D v .id
    | g => EF.joinTS g .id
  | .allBottom, _ => .allBottom
  | .allTop, g => g
  | .const v, g => EF.joinConst D v g
  | f, g => EF.joinTS f g

/-- `getNormalEdgeFunction` (`IDETypeStateAnalysis.h:404-415`); `fromZeroToAlloca`: the instruction is an `alloca` of
matching type, the source fact is zero and the target fact the `alloca`. -/
def normalEdge (D : Desc S) (fromZeroToAlloca : Bool) : EF S :=
  if fromZeroToAlloca then .const D.uninit else .id

/-- `getCallToRetEdgeFunction` (`IDETypeStateAnalysis.h:431-464`) at call site `cs` for the callees with the given names;
`fromZeroToCall`: the source fact is zero and the target fact the call; `sameAndAliasOf i`: source and target fact are the
same and among the aliases and allocas of argument `i`.  `none`: index outside of the table. -/
def callToRetEdge (D : Desc S) (cs : Nat) (fromZeroToCall : Bool) (sameAndAliasOf : Nat → Bool) : List String → Option (EF S)
  | [] => some .id
  | callee :: rest =>
    if D.isFactory callee && fromZeroToCall then (D.next callee D.uninit cs).map .const
    else if D.isConsuming callee && (D.consumerParamIdx callee).any sameAndAliasOf then some (.ts callee cs)
    else callToRetEdge D cs fromZeroToCall sameAndAliasOf rest

/-- The edge function of a whole path: repeated `composeWith` (`IDESolver.h`, see `Verif/IDE`). -/
def composeAll (D : Desc S) (f : EF S) : List (EF S) → Option (EF S)
  | [] => some f
  | g :: gs => (f.compose D g).bind fun h => composeAll D h gs

/-! ### C standard I/O -/

/-- `enum class CSTDFILEIOState` (`CSTDFILEIOTypeStateDescription.h:22-29`). -/
inductive FileState where
  | TOP | UNINIT | OPENED | CLOSED | ERROR | BOT
deriving DecidableEq, Repr

/-- `enum class CSTDFILEIOToken` (`CSTDFILEIOTypeStateDescription.cpp:44`). -/
inductive FileTok where
  | FOPEN | FCLOSE | STAR
deriving DecidableEq, Repr

/-- `JoinLatticeTraits<CSTDFILEIOState>::join` (`CSTDFILEIOTypeStateDescription.h:38-47`). -/
def fileTraitsJoin (l r : FileState) : FileState :=
  if l = .TOP ∨ r = .BOT then r else if l = .BOT ∨ r = .TOP then l else .BOT

/-- `Delta` (`CSTDFILEIOTypeStateDescription.cpp:46-56`); `TOP = 42` lies outside of the table. -/
def fileDelta : FileTok → FileState → Option FileState
  | _, .TOP => none
  | .FOPEN, .UNINIT => some .OPENED
  | .FOPEN, .OPENED => some .OPENED
  | .FOPEN, .CLOSED => some .OPENED
  | .FOPEN, .ERROR => some .ERROR
  | .FOPEN, .BOT => some .OPENED
  | .FCLOSE, .UNINIT => some .ERROR
  | .FCLOSE, .OPENED => some .CLOSED
  | .FCLOSE, .CLOSED => some .ERROR
  | .FCLOSE, .ERROR => some .ERROR
  | .FCLOSE, .BOT => some .BOT
  | .STAR, .UNINIT => some .ERROR
  | .STAR, .OPENED => some .OPENED
  | .STAR, .CLOSED => some .ERROR
  | .STAR, .ERROR => some .ERROR
  | .STAR, .BOT => some .BOT

/-- `getStdFileIOFuncs` (`CSTDFILEIOTypeStateDescription.cpp:58-74`); the return value is -1. -/
def fileFuncs : List (String × List Int) :=
  [("fopen", [-1]), ("fdopen", [-1]), ("fclose", [0]), ("fread", [3]), ("fwrite", [3]), ("fgetc", [0]), ("fgetwc", [0]),
   ("fgets", [2]), ("getc", [0]), ("getwc", [0]), ("_IO_getc", [0]), ("ungetc", [1]), ("ungetwc", [1]), ("fputc", [1]),
   ("fputwc", [1]), ("fputs", [1]), ("putc", [1]), ("putwc", [1]), ("_IO_putc", [1]), ("fprintf", [0]), ("fwprintf", [0]),
   ("vfprintf", [0]), ("vfwprintf", [0]), ("__isoc99_fscanf", [0]), ("fscanf", [0]), ("fwscanf", [0]), ("vfscanf", [0]),
   ("vfwscanf", [0]), ("fflush", [0]), ("fseek", [0]), ("ftell", [0]), ("rewind", [0]), ("fgetpos", [0]), ("fsetpos", [0]),
   ("fileno", [0])]

/-- `funcNameToToken` (`CSTDFILEIOTypeStateDescription.cpp:76-84`). -/
def fileTok (f : String) : FileTok :=
  if f = "fopen" ∨ f = "fdopen" then .FOPEN else if f = "fclose" then .FCLOSE else .STAR

/-- `isAPIFunction` (`CSTDFILEIOTypeStateDescription.cpp:108-110`). -/
def fileIsAPI (f : String) : Bool := (fileFuncs.lookup f).isSome

/-- `isFactoryFunction` (`CSTDFILEIOTypeStateDescription.cpp:92-98`). -/
def fileIsFactory (f : String) : Bool := match fileFuncs.lookup f with
  | some l => l.contains (-1)
  | none => false

/-- `isConsumingFunction` (`CSTDFILEIOTypeStateDescription.cpp:100-106`). -/
def fileIsConsuming (f : String) : Bool := match fileFuncs.lookup f with
  | some l => !l.contains (-1)
  | none => false

/-- `getConsumerParamIdx` (`CSTDFILEIOTypeStateDescription.cpp:133-139`). -/
def fileConsumerIdx (f : String) : List Nat :=
  if fileIsConsuming f then match fileFuncs.lookup f with
    | some l => l.map Int.toNat
    | none => []
  else []

/-- `CSTDFILEIOTypeStateDescription` (`CSTDFILEIOTypeStateDescription.cpp:88-193`): `getNextState` (`:112-127`), `bottom`,
`top`, `uninit` (`:175-185`). -/
def fileDesc : Desc FileState where
  isFactory := fileIsFactory
  isConsuming := fileIsConsuming
  consumerParamIdx := fileConsumerIdx
  next tok s _ := if fileIsAPI tok then fileDelta (fileTok tok) s else some .BOT
  bottom := .BOT
  top := .TOP
  uninit := .UNINIT

/-! ### OpenSSL -/

/-- `enum class OpenSSLEVPKDFCTXState` (`OpenSSLEVPKDFCTXDescription.h:37-46`). -/
inductive KdfState where
  | TOP | UNINIT | CTX_ATTACHED | PARAM_INIT | DERIVED | ERROR | BOT
deriving DecidableEq, Repr

/-- The rows of the table for the API functions (`OpenSSLEVPKDFCTXDescription.cpp:41-64`, `funcNameToToken` `:203-217`);
`TOP = 42` lies outside of the table. -/
def kdfDelta (f : String) (s : KdfState) : Option KdfState :=
  match s with
  | .TOP => none
  | s =>
    if f = "EVP_KDF_CTX_new" then some (if s = .ERROR then .ERROR else .CTX_ATTACHED)
    else if f = "EVP_KDF_CTX_set_params" then
      some (if s = .CTX_ATTACHED ∨ s = .PARAM_INIT ∨ s = .DERIVED then .PARAM_INIT else .ERROR)
    else if f = "EVP_KDF_derive" then some (if s = .PARAM_INIT ∨ s = .DERIVED then .DERIVED else .ERROR)
    else if f = "EVP_KDF_CTX_free" then
      some (if s = .CTX_ATTACHED ∨ s = .PARAM_INIT ∨ s = .DERIVED then .UNINIT else .ERROR)
    else some .BOT

/-- `OpenSSLEVPKDFCTXDescription` (`OpenSSLEVPKDFCTXDescription.cpp:66-187`); `fetched cs`: the key derivation function passed
to the call is in state `KDF_FETCHED` according to the other analysis (`:114-118`). -/
def kdfDesc (fetched : Nat → Bool) : Desc KdfState where
  isFactory f := f = "EVP_KDF_CTX_new"
  isConsuming f := f = "EVP_KDF_CTX_set_params" ∨ f = "EVP_KDF_derive" ∨ f = "EVP_KDF_CTX_free"
  consumerParamIdx f := if f = "EVP_KDF_CTX_set_params" ∨ f = "EVP_KDF_derive" ∨ f = "EVP_KDF_CTX_free" then [0] else []
  next tok s cs := if tok = "EVP_KDF_CTX_new" ∧ fetched cs = false then (kdfDelta tok s).map fun _ => .ERROR
    else kdfDelta tok s
  bottom := .BOT
  top := .TOP
  uninit := .UNINIT

/-- `enum class OpenSSLEVPKDFState` (`OpenSSLEVPKDFDescription.h:24-30`). -/
inductive FetchState where
  | TOP | UNINIT | KDF_FETCHED | ERROR | BOT
deriving DecidableEq, Repr

/-- `Delta` for the two API functions (`OpenSSLEVPKDFDescription.cpp:25-43`, `funcNameToToken` `:136-146`); `TOP = 42` lies
outside of the table. -/
def fetchDelta (f : String) (s : FetchState) : Option FetchState :=
  if s = .TOP then (if f = "EVP_KDF_fetch" ∨ f = "EVP_KDF_free" then none else some .BOT)
  else if f = "EVP_KDF_fetch" then some (if s = .UNINIT ∨ s = .BOT then .KDF_FETCHED else .ERROR)
  else if f = "EVP_KDF_free" then some (if s = .KDF_FETCHED then .UNINIT else if s = .BOT then .BOT else .ERROR)
  else some .BOT

/-- `OpenSSLEVPKDFDescription` (`OpenSSLEVPKDFDescription.cpp:45-128`). -/
def fetchDesc : Desc FetchState where
  isFactory f := f = "EVP_KDF_fetch"
  isConsuming f := f = "EVP_KDF_free"
  consumerParamIdx f := if f = "EVP_KDF_free" then [0] else []
  next tok s _ := fetchDelta tok s
  bottom := .BOT
  top := .TOP
  uninit := .UNINIT

/-- `enum class OpenSSLSecureHeapState` (`OpenSSLSecureHeapDescription.h:21-29`). -/
inductive HeapState where
  | TOP | BOT | UNINIT | ALLOCATED | ZEROED | FREED | ERROR
deriving DecidableEq, Repr

/-- `Delta` for the four API functions (`OpenSSLSecureHeapDescription.cpp:26-54`, `funcNameToToken` `:174-185`); `TOP = 42`
lies outside of the table. -/
def heapDelta (f : String) (s : HeapState) : Option HeapState :=
  match s with
  | .TOP => none
  | s =>
    if f = "CRYPTO_secure_malloc" then some .ALLOCATED
    else if f = "CRYPTO_secure_zalloc" then some .ZEROED
    else if f = "CRYPTO_secure_free" then some (if s = .ZEROED then .FREED else .ERROR)
    else if f = "CRYPTO_secure_clear_free" then some (if s = .ALLOCATED ∨ s = .ZEROED then .FREED else .ERROR)
    else some s

/-- The functions of the secure heap (`OpenSSLSecureHeapDescription.cpp:20-24`). -/
def heapApi : List String :=
  ["CRYPTO_secure_malloc", "CRYPTO_secure_zalloc", "CRYPTO_secure_free", "CRYPTO_secure_clear_free"]

/-- `OpenSSLSecureHeapDescription` (`OpenSSLSecureHeapDescription.cpp:60-167`); `init cs`: the heap is initialized at the call
site according to the other analysis; the version of `getNextState` with a call site (`:94-110`). -/
def heapDesc (init : Nat → Bool) : Desc HeapState where
  isFactory f := f = "CRYPTO_secure_malloc" ∨ f = "CRYPTO_secure_zalloc"
  isConsuming f := f = "CRYPTO_secure_free" ∨ f = "CRYPTO_secure_clear_free"
  consumerParamIdx f := if f = "CRYPTO_secure_free" ∨ f = "CRYPTO_secure_clear_free" then [0] else []
  next tok s cs := if tok ∈ heapApi ∧ init cs = true then heapDelta tok s else some .ERROR
  bottom := .BOT
  top := .TOP
  uninit := .UNINIT

/-- `enum class OpenSSLSecureMemoryState` (`OpenSSLSecureMemoryDescription.cpp:23-30`). -/
inductive MemState where
  | TOP | BOT | ZEROED | FREED | ERROR | ALLOCATED
deriving DecidableEq, Repr

/-- The API functions (`OpenSSLSecureMemoryDescription.cpp:42-46, 77-84`). -/
def memApi : List String := ["CRYPTO_malloc", "CRYPTO_zalloc", "CRYPTO_free", "OPENSSL_cleanse"]

/-- `Delta` for the four API functions (`OpenSSLSecureMemoryDescription.cpp:53-75`, `funcNameToToken` `:77-84`), and the bottom
state for all others (`getNextState`, `:105-113`), so that the last row of the table is never used; `TOP = 42` lies outside of
the table. -/
def memDelta (f : String) (s : MemState) : Option MemState :=
  if s = .TOP then (if f ∈ memApi then none else some .BOT)
  else if f = "CRYPTO_malloc" then some (if s = .ERROR then .ERROR else .ALLOCATED)
  else if f = "CRYPTO_zalloc" then some (if s = .ERROR then .ERROR else .ZEROED)
  else if f = "CRYPTO_free" then some (if s = .ZEROED then .FREED else .ERROR)
  else if f = "OPENSSL_cleanse" then
    some (if s = .ZEROED ∨ s = .ALLOCATED then .ZEROED else if s = .BOT then .BOT else .ERROR)
  else some .BOT

/-- `OpenSSLSecureMemoryDescription` (`OpenSSLSecureMemoryDescription.cpp:88-176`); the uninitialized state is the bottom state
(`:165-167`). -/
def memDesc : Desc MemState where
  isFactory f := f = "CRYPTO_malloc" ∨ f = "CRYPTO_zalloc"
  isConsuming f := f = "CRYPTO_free" ∨ f = "OPENSSL_cleanse"
  consumerParamIdx f := if f = "CRYPTO_free" ∨ f = "OPENSSL_cleanse" then [0] else []
  next tok s _ := memDelta tok s
  bottom := .BOT
  top := .TOP
  uninit := .BOT

/-! ### Specification -/

/-- The automaton: start in `s` and do the calls (function name and call site) one after the other. -/
def run (D : Desc S) (s : S) : List (String × Nat) → Option S
  | [] => some s
  | (tok, cs) :: rest => (D.next tok s cs).bind fun s' => run D s' rest

/-- The order of the one-level lattice. -/
def Desc.le (D : Desc S) (a b : S) : Prop := a = D.top ∨ a = b ∨ b = D.bottom

end Phasar.TypeState
