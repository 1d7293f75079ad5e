import Verif.Base.FSet
/-!
# Flow-function factories and wrappers (`include/phasar/DataFlow/IfdsIde/FlowFunctions.h`)

A flow function is modelled by its `computeTargets`; containers are lists without duplicates
(`Verif/Base/FSet.lean`). The class `FlowFunctions` (the problem's interface) is part of the solver
model.
-/
set_option linter.unusedSectionVars false
namespace Phasar.FlowFn
open Phasar

/-- `FlowFunction::computeTargets` (`FlowFunctions.h:66`). -/
abbrev FF (D : Type) := D → List D

variable {D : Type} [DecidableEq D]

/-- `ZeroedFlowFunction::computeTargets` (`FlowFunctions.h:112-119`). -/
def zeroed (f : FF D) (zero : D) : FF D := fun s =>
  if s = zero then FSet.insert (f s) zero else f s

/-- `detail::makeContainer` (`FlowFunctions.h:126-138`); the convertible case is the identity on sets. -/
def makeContainer (xs : List D) : List D := FSet.ofList xs

/-- `identityFlow` (`FlowFunctions.h:163-172`); legacy `Identity` (`:889`). -/
def identityFlow : FF D := fun s => FSet.ofList [s]

/-- `lambdaFlow` (`FlowFunctions.h:189-200`); legacy `LambdaFlow` (`:911`). -/
def lambdaFlow (f : D → List D) : FF D := fun s => f s

/-- `generateFlow` (`FlowFunctions.h:227-245`); legacy `Gen` (`:979-984`). -/
def generateFlow (gen src : D) : FF D := fun s =>
  if s = src then FSet.ofList [s, gen] else FSet.ofList [s]

/-- `generateFlowIf` (`FlowFunctions.h:258-277`). -/
def generateFlowIf (gen : D) (p : D → Bool) : FF D := fun s =>
  if p s then FSet.ofList [s, gen] else FSet.ofList [s]

/-- `generateManyFlows` (`FlowFunctions.h:296-318`). -/
def generateManyFlows (gens : List D) (src : D) : FF D := fun s =>
  if s = src then FSet.insert (makeContainer gens) s else FSet.ofList [s]

/-- `killFlow` (`FlowFunctions.h:338-351`); legacy `Kill` (`:1051-1056`). -/
def killFlow (kill : D) : FF D := fun s => if s = kill then [] else FSet.ofList [s]

/-- `killFlowIf` (`FlowFunctions.h:361-378`); legacy `KillIf` (`:1072-1077`). -/
def killFlowIf (p : D → Bool) : FF D := fun s => if p s then [] else FSet.ofList [s]

/-- `killManyFlows` (`FlowFunctions.h:399-417`); legacy `KillMultiple` (`:1091-1096`). -/
def killManyFlows (kills : List D) : FF D := fun s =>
  if s ∈ makeContainer kills then [] else FSet.ofList [s]

/-- `killAllFlows` (`FlowFunctions.h:424-431`); legacy `KillAll` (`:1111-1113`). -/
def killAllFlows : FF D := fun _ => []

/-- `generateFlowAndKillAllOthers` (`FlowFunctions.h:457-476`); legacy `GenAndKillAllOthers`
(`:1137-1142`). -/
def generateFlowAndKillAllOthers (gen src : D) : FF D := fun s =>
  if s = src then FSet.ofList [s, gen] else []

/-- `generateManyFlowsAndKillAllOthers` (`FlowFunctions.h:495-521`). -/
def generateManyFlowsAndKillAllOthers (gens : List D) (src : D) : FF D := fun s =>
  if s = src then FSet.insert (makeContainer gens) s else []

/-- `transferFlow` (`FlowFunctions.h:549-570`); legacy `Transfer` (`:1185-1193`). -/
def transferFlow (gen src : D) : FF D := fun s =>
  if s = src then FSet.ofList [s, gen] else if s = gen then [] else FSet.ofList [s]

/-- `unionFlows` (`FlowFunctions.h:580-610`): the larger result receives the elements of the other. -/
def unionFlows (f g : FF D) : FF D := fun s =>
  if (f s).length < (g s).length then FSet.insertAll (g s) (f s) else FSet.insertAll (f s) (g s)

/-! ## Legacy classes that differ from the factories -/

/-- `GenIf` (`FlowFunctions.h:1000-1016`), with the set of generated facts. -/
def genIf (gens : List D) (p : D → Bool) : FF D := fun s =>
  if p s then FSet.insertAll (FSet.insert [] s) gens else FSet.ofList [s]

/-- `GenAll::computeTargets` (`FlowFunctions.h:1028-1034`): changes its member `GenValues`; returns the
result and the new member. -/
def genAll (gens : List D) (zero s : D) : List D × List D :=
  if s = zero then (FSet.insert gens s, FSet.insert gens s) else (FSet.ofList [s], gens)

/-- `GenAllAndKillAllOthers::computeTargets` (`FlowFunctions.h:1159-1165`). -/
def genAllAndKillAllOthers (gens : List D) (zero s : D) : List D × List D :=
  if s = zero then (FSet.insert gens s, FSet.insert gens s) else ([], gens)

/-- Results of calling a stateful flow function on a sequence of facts. -/
def callSeq (f : List D → D → List D × List D) : List D → List D → List (List D)
  | _, [] => []
  | st, s :: ss => (f st s).1 :: callSeq f (f st s).2 ss

/-- Body of the outer loop of `Compose::computeTargets` (`FlowFunctions.h:937-942`). -/
def composeStep (cur : List D) (f : FF D) : List D :=
  cur.foldl (fun next fact => FSet.insertAll next (f fact)) []

/-- `Compose::computeTargets` (`FlowFunctions.h:935-945`). -/
def composeTargets (fs : List (FF D)) : FF D := fun s => fs.foldl composeStep (FSet.ofList [s])

/-- A flow-function pointer as `Compose::compose` sees it: the shared `Identity` instance or another
object. -/
inductive Ptr (D : Type)
  | idInst
  | obj (f : FF D)

/-- The pointee's `computeTargets`. -/
def Ptr.fn : Ptr D → FF D
  | .idInst => identityFlow
  | .obj f => f

/-- The test `Func != Identity::getInstance()` (`FlowFunctions.h:951`). -/
def Ptr.notId : Ptr D → Bool
  | .idInst => false
  | .obj _ => true

/-- `Compose::compose` (`FlowFunctions.h:947-962`). -/
def compose (fs : List (Ptr D)) : Ptr D :=
  match fs.filter Ptr.notId with
  | [f] => f
  | [] => .idInst
  | v => .obj (composeTargets (v.map Ptr.fn))

/-- `Union` (`FlowFunctions.h:1209-1227`): constructor and `computeTargets`. -/
def union (fs : List (FF D)) : FF D := fun s =>
  (if fs.isEmpty then [identityFlow] else fs).foldl (fun r f => FSet.insertAll r (f s)) []

/-! ## Specification -/

/-- `t` is reached from `s` by applying the flow functions one after the other. -/
inductive Chain : List (FF D) → D → D → Prop
  | nil (s : D) : Chain [] s s
  | cons {f : FF D} {fs : List (FF D)} {s m t : D} : m ∈ f s → Chain fs m t → Chain (f :: fs) s t

/-! ## Lemmas -/

theorem mem_foldl_insertAll {A : Type} (l : List A) (f : A → List D) (acc : List D) (x : D) :
    x ∈ l.foldl (fun r a => FSet.insertAll r (f a)) acc ↔ x ∈ acc ∨ ∃ a ∈ l, x ∈ f a := by
  induction l generalizing acc with
  | nil => simp
  | cons a l ih =>
    rw [List.foldl_cons, ih, FSet.mem_insertAll]
    simp only [List.mem_cons]
    constructor
    · rintro ((h | h) | ⟨b, hb, hx⟩)
      · exact .inr ⟨a, .inl rfl, h⟩
      · exact .inl h
      · exact .inr ⟨b, .inr hb, hx⟩
    · rintro (h | ⟨b, rfl | hb, hx⟩)
      · exact .inl (.inr h)
      · exact .inl (.inl hx)
      · exact .inr ⟨b, hb, hx⟩

theorem nodup_foldl_insertAll {A : Type} (l : List A) (f : A → List D) {acc : List D} (h : acc.Nodup) :
    (l.foldl (fun r a => FSet.insertAll r (f a)) acc).Nodup := by
  induction l generalizing acc with
  | nil => exact h
  | cons a l ih => exact ih (FSet.nodup_insertAll h _)

theorem mem_composeFold (fs : List (FF D)) (cur : List D) (x : D) :
    x ∈ fs.foldl composeStep cur ↔ ∃ s ∈ cur, Chain fs s x := by
  induction fs generalizing cur with
  | nil =>
    simp only [List.foldl_nil]
    constructor
    · intro h; exact ⟨x, h, .nil x⟩
    · rintro ⟨s, hs, hc⟩; cases hc; exact hs
  | cons f fs ih =>
    rw [List.foldl_cons, ih]
    unfold composeStep
    constructor
    · rintro ⟨m, hm, hc⟩
      rw [mem_foldl_insertAll] at hm
      rcases hm with hm | ⟨s, hs, hm⟩
      · cases hm
      · exact ⟨s, hs, .cons hm hc⟩
    · rintro ⟨s, hs, hc⟩
      cases hc with
      | cons hm hc =>
        exact ⟨_, by rw [mem_foldl_insertAll]; exact .inr ⟨s, hs, hm⟩, hc⟩

theorem mem_composeTargets (fs : List (FF D)) (s x : D) : x ∈ composeTargets fs s ↔ Chain fs s x := by
  unfold composeTargets
  rw [mem_composeFold]
  simp [FSet.mem_ofList]

theorem chain_filter (fs : List (Ptr D)) (s x : D) :
    Chain ((fs.filter Ptr.notId).map Ptr.fn) s x ↔ Chain (fs.map Ptr.fn) s x := by
  induction fs generalizing s with
  | nil => exact Iff.rfl
  | cons p fs ih =>
    cases p with
    | idInst =>
      simp only [List.filter_cons, Ptr.notId, Bool.false_eq_true, if_false, List.map_cons]
      rw [ih]
      constructor
      · intro h; exact .cons (by simp [Ptr.fn, identityFlow, FSet.mem_ofList]) h
      · intro h
        cases h with
        | cons hm hc =>
          simp [Ptr.fn, identityFlow, FSet.mem_ofList] at hm
          subst hm; exact hc
    | obj f =>
      simp only [List.filter_cons, Ptr.notId, if_true, List.map_cons]
      constructor
      · intro h
        cases h with
        | cons hm hc => exact .cons hm ((ih _).1 hc)
      · intro h
        cases h with
        | cons hm hc => exact .cons hm ((ih _).2 hc)

theorem chain_single (f : FF D) (s x : D) : Chain [f] s x ↔ x ∈ f s := by
  constructor
  · intro h; cases h with | cons hm hc => cases hc; exact hm
  · intro h; exact .cons h (.nil _)

theorem callSeq_spec (f : List D → D → List D × List D) (ok : List D → Prop) (R : D → List D → Prop)
    (hf : ∀ st s, ok st → ok (f st s).2 ∧ R s (f st s).1) (st : List D) (h : ok st) (ss : List D) :
    ∀ (i : Nat) s r, ss[i]? = some s → (callSeq f st ss)[i]? = some r → R s r := by
  induction ss generalizing st with
  | nil => intro i s r hs; simp at hs
  | cons a ss ih =>
    intro i s r hs hr
    cases i with
    | zero =>
      simp only [callSeq, List.getElem?_cons_zero, Option.some.injEq] at hs hr
      subst hs; subst hr
      exact (hf st _ h).2
    | succ i =>
      simp only [callSeq, List.getElem?_cons_succ] at hs hr
      exact ih _ (hf st a h).1 i s r hs hr

end Phasar.FlowFn
