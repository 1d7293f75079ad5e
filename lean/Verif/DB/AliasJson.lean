import Verif.DB.IRDB
import Verif.Alias.AliasSet
/-!
# Saving and loading alias sets

Models `getAsJson` and the constructor from JSON of `lib/PhasarLLVM/Pointer/LLVMAliasSet.cpp`, on top of the model of the alias
sets (`Verif/Alias/AliasSet.lean`) and of the ids (`Verif/DB/IRDB.lean`).  A JSON document is the tree built by `nlohmann::json`;
its printing and parsing are not modelled.
-/
namespace Phasar.DB

open Phasar.StringID (Str)
open Phasar.Alias (St acquire ins)

/-- The JSON document (`LLVMAliasSet.cpp:699-723`): the arrays `AliasSets` and `AnalyzedFunctions`; `none` is `null`. -/
structure Json where
  sets : Option (List (List Str))
  fns : Option (List Str)
deriving DecidableEq, Repr

/-- `json::push_back`: `null` becomes an array (`LLVMAliasSet.cpp:714`, `721`). -/
def push {α : Type} (j : Option (List α)) (x : α) : Option (List α) := some (j.getD [] ++ [x])

/-- The ids of a set, without `-1`, `LLVMAliasSet.cpp:706-712`. -/
def idsOf (db : IRDB) (S : List Val) : List Str := (S.map (getMetaDataID db)).filter (fun s => s ≠ [45, 49])

/-- The loop over the sets of the owner, in some order, `LLVMAliasSet.cpp:705-716`; `none`: a released set is read. -/
def setsJson (db : IRDB) (s : St Val) (owned : List Nat) : Option (Option (List (List Str))) :=
  owned.foldlM (fun j a => (s.sets a).map (fun S => if idsOf db S = [] then j else push j (idsOf db S))) none

/-- `getAsJson`, `LLVMAliasSet.cpp:699-723`, for the owned sets and the analysed functions in some order. -/
def getAsJson (db : IRDB) (s : St Val) (owned : List Nat) (done : List Fun) : Option Json :=
  (setsJson db s owned).map (fun sets => ⟨sets, done.foldl (fun j f => push j f.name) none⟩)

/-- `AliasSets[Inst] = PTS; PTS->insert(Inst)`, `LLVMAliasSet.cpp:127-128`. -/
def assign (s : St Val) (b : Nat) (v : Val) : Option (St Val) :=
  (s.boxes[b]?).bind (fun a => (s.sets a).map (fun S => (s.setAl v b).put a (some (ins S v))))

/-- The body of the loop over the ids of a set, `LLVMAliasSet.cpp:119-129`. -/
def loadOne (db : IRDB) (b : Nat) (s : St Val) (str : Str) : Option (St Val) :=
  match fromMetaDataId db str with
  | none => some s
  | some v => assign s b v

/-- The body of the loop over the sets, `LLVMAliasSet.cpp:116-130`. -/
def loadSet (db : IRDB) (fresh : St Val → Nat) (s : St Val) (strs : List Str) : Option (St Val) :=
  (acquire s (fresh s)).bind (fun r => strs.foldlM (loadOne db r.2) r.1)

/-- The constructor from JSON, `LLVMAliasSet.cpp:98-151`: the state and the analysed functions; `none`: an assertion fails.  The
analysed functions are a set in the code. -/
def load (db : IRDB) (fresh : St Val → Nat) (j : Json) : Option (St Val × List Fun) :=
  match j.sets, j.fns with
  | some sets, some fns => (sets.foldlM (loadSet db fresh) Phasar.Alias.empty).map (fun s => (s, fns.filterMap (getFunction db)))
  | _, _ => none

end Phasar.DB
