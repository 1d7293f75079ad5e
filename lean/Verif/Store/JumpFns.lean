import Verif.Store.Table
/-!
# `JumpFunctions` (`include/phasar/DataFlow/IfdsIde/Solver/JumpFunctions.h`)

Three redundant stores of the same jump functions, each for one way of looking them up.
-/
set_option linter.unusedSectionVars false
namespace Phasar.JF
open Phasar

variable {N D E : Type} [DecidableEq N] [DecidableEq D]

/-- `find_if` on the key followed by overwriting the found entry or `emplace_back`
(`JumpFunctions.h:91-102`, `104-116`): the `llvm::SmallVector<std::pair<d_t, EdgeFunction>>` is used as a
small map. -/
def vecSet : List (D × E) → D → E → List (D × E)
  | [], d, e => [(d, e)]
  | (d', e') :: l, d, e => if d = d' then (d', e) :: l else (d', e') :: vecSet l d e

/-- `find_if` on the key followed by `erase` of the found entry (`JumpFunctions.h:181-188`, `190-197`). -/
def vecErase : List (D × E) → D → List (D × E)
  | [], _ => []
  | (d', e') :: l, d => if d = d' then l else (d', e') :: vecErase l d

/-- The members of `JumpFunctions` (`JumpFunctions.h:48-64`). -/
structure Store (N D E : Type) where
  rev : Table N D (List (D × E))
  fwd : Table D N (List (D × E))
  byTgt : AMap N (Table D D E)

/-- A fresh store. -/
def Store.empty : Store N D E := ⟨[], [], []⟩

/-- `JumpFunctions::addFunction` (`JumpFunctions.h:77-121`); `isTop` is `llvm::isa<AllTop>`. -/
def addFunction (isTop : E → Bool) (s : Store N D E) (d1 : D) (n : N) (d2 : D) (e : E) : Store N D E :=
  if isTop e then s
  else
    { rev := s.rev.modify [] n d2 (fun l => vecSet l d1 e)
      fwd := s.fwd.modify [] d1 n (fun l => vecSet l d2 e)
      byTgt := s.byTgt.set n (Table.insert (match s.byTgt.get n with | some t => t | none => []) d1 d2 e) }

/-- `JumpFunctions::removeFunction` (`JumpFunctions.h:179-199`). -/
def removeFunction (s : Store N D E) (d1 : D) (n : N) (d2 : D) : Bool × Store N D E :=
  ((s.byTgt.get n).isSome,
    { rev := s.rev.modify [] n d2 (fun l => vecErase l d1)
      fwd := s.fwd.modify [] d1 n (fun l => vecErase l d2)
      byTgt := s.byTgt.erase n })

/-- `JumpFunctions::reverseLookup` (`JumpFunctions.h:130-137`). -/
def reverseLookup (s : Store N D E) (n : N) (d2 : D) : Option (List (D × E)) :=
  if s.rev.contains n d2 then some (s.rev.getC [] n d2) else none

/-- `JumpFunctions::forwardLookup` (`JumpFunctions.h:144-151`). -/
def forwardLookup (s : Store N D E) (d1 : D) (n : N) : Option (List (D × E)) :=
  if s.fwd.contains d1 n then some (s.fwd.getC [] d1 n) else none

/-- `JumpFunctions::lookupByTarget` (`JumpFunctions.h:157-160`); creates the row if missing. -/
def lookupByTarget (s : Store N D E) (n : N) : Table D D E × Store N D E :=
  match s.byTgt.get n with
  | some t => (t, s)
  | none => ([], { s with byTgt := s.byTgt.set n [] })

/-- `JumpFunctions::foreachEdgeFunction` (`JumpFunctions.h:162-172`): the visited edge functions. -/
def foreachEdgeFunction (s : Store N D E) : List E :=
  s.fwd.cellVec.flatMap fun c => c.2.2.map Prod.snd

/-- Calls that change the store. -/
inductive Op (N D E : Type)
  | add (d1 : D) (n : N) (d2 : D) (e : E)
  | remove (d1 : D) (n : N) (d2 : D)
  | byTarget (n : N)
  | clear

/-- One call (`JumpFunctions::clear` is `JumpFunctions.h:204-208`). -/
def Op.run (isTop : E → Bool) (s : Store N D E) : Op N D E → Store N D E
  | .add d1 n d2 e => addFunction isTop s d1 n d2 e
  | .remove d1 n d2 => (removeFunction s d1 n d2).2
  | .byTarget n => (lookupByTarget s n).2
  | .clear => .empty

/-- A history on a fresh store. -/
def runOps (isTop : E → Bool) (ops : List (Op N D E)) : Store N D E := ops.foldl (Op.run isTop) .empty

/-! ## Specification -/

/-- What the store is documented to be: one edge function per (source fact, target, target fact), the
all-top function not being stored. -/
def specStep (isTop : E → Bool) (m : D → N → D → Option E) : Op N D E → D → N → D → Option E
  | .add d1 n d2 e => fun a x b =>
    if isTop e = false ∧ a = d1 ∧ x = n ∧ b = d2 then some e else m a x b
  | .remove d1 n d2 => fun a x b => if a = d1 ∧ x = n ∧ b = d2 then none else m a x b
  | .byTarget _ => m
  | .clear => fun _ _ _ => none

/-- The map denoted by a history. -/
def specRun (isTop : E → Bool) (ops : List (Op N D E)) : D → N → D → Option E :=
  ops.foldl (specStep isTop) fun _ _ _ => none

/-! ## Proofs -/

theorem vecSet_eq (l : List (D × E)) (d : D) (e : E) : vecSet l d e = AMap.set l d e := by
  induction l with
  | nil => rfl
  | cons p l ih =>
    obtain ⟨a, b⟩ := p
    simp only [vecSet, AMap.set, ih]
    by_cases h : d = a
    · subst h; simp
    · simp [h, Ne.symm h]

theorem vecErase_eq {l : List (D × E)} (hn : AMap.NodupKeys l) (d : D) : vecErase l d = AMap.erase l d := by
  induction l with
  | nil => rfl
  | cons p l ih =>
    obtain ⟨a, b⟩ := p
    have hn' := List.nodup_cons.1 hn
    simp only [vecErase, AMap.erase, List.filter_cons]
    by_cases h : d = a
    · subst h
      simp only [if_true, ne_eq, not_true_eq_false, decide_false, Bool.false_eq_true, if_false]
      symm
      apply List.filter_eq_self.2
      intro q hq
      have : q.1 ≠ d := fun hh => hn'.1 (List.mem_map.2 ⟨q, hq, hh⟩)
      simpa using this
    · have h' : a ≠ d := Ne.symm h
      simp only [h, if_false, ih hn'.2, AMap.erase, ne_eq, h', not_false_eq_true, decide_true, if_true]

/-- Reverse and forward stores hold the specification map; the by-target store holds the part `keep`. -/
structure Rel (s : Store N D E) (m : D → N → D → Option E) (keep : N → Bool) : Prop where
  rev : ∃ t, Table.Rel s.rev t ∧ ∀ n d2, match t.cell n d2 with
    | some l => AMap.NodupKeys l ∧ ∀ d1, AMap.get l d1 = m d1 n d2
    | none => ∀ d1, m d1 n d2 = none
  fwd : ∃ t, Table.Rel s.fwd t ∧ ∀ d1 n, match t.cell d1 n with
    | some l => AMap.NodupKeys l ∧ ∀ d2, AMap.get l d2 = m d1 n d2
    | none => ∀ d2, m d1 n d2 = none
  nodupT : AMap.NodupKeys s.byTgt
  byTgt : ∀ n, ∃ t, Table.Rel (match s.byTgt.get n with | some t => t | none => []) t ∧
    (∀ d1 d2 e, t.cell d1 d2 = some e → m d1 n d2 = some e) ∧
    (keep n = true → ∀ d1 d2, t.cell d1 d2 = m d1 n d2)

theorem Rel.init : Rel (Store.empty : Store N D E) (fun _ _ _ => none) (fun _ => true) := by
  refine ⟨⟨_, .empty, ?_⟩, ⟨_, .empty, ?_⟩, AMap.nodupKeys_nil, fun n => ⟨_, .empty, ?_, ?_⟩⟩
  · intro n d2; simp [Table.Spec.empty]
  · intro n d2; simp [Table.Spec.empty]
  · intro d1 d2 e; simp [Table.Spec.empty]
  · intro _ d1 d2; simp [Table.Spec.empty]

theorem Rel.add {s : Store N D E} {m : D → N → D → Option E} {keep : N → Bool} (h : Rel s m keep)
    (isTop : E → Bool) (d1 : D) (n : N) (d2 : D) (e : E) :
    Rel (addFunction isTop s d1 n d2 e) (specStep isTop m (.add d1 n d2 e)) keep := by
  unfold addFunction specStep
  cases ht : isTop e with
  | true => simpa [ht] using h
  | false =>
  simp only [Bool.false_eq_true, if_false]
  have hm : (fun a x b => if isTop e = false ∧ a = d1 ∧ x = n ∧ b = d2 then some e else m a x b)
      = fun a x b => if a = d1 ∧ x = n ∧ b = d2 then some e else m a x b := by simp [ht]
  rw [hm]
  obtain ⟨tr, hr, hr'⟩ := h.rev
  obtain ⟨tf, hf, hf'⟩ := h.fwd
  refine ⟨⟨_, hr.modify [] n d2 (fun l => vecSet l d1 e), ?_⟩, ⟨_, hf.modify [] d1 n (fun l => vecSet l d2 e), ?_⟩,
    AMap.nodupKeys_set h.nodupT _ _, ?_⟩
  · intro x b
    have hx := hr' x b
    simp only [Table.Spec.step]
    by_cases hk : x = n ∧ b = d2
    · obtain ⟨rfl, rfl⟩ := hk
      simp only [and_self, if_true, vecSet_eq]
      cases hc : tr.cell x b with
      | some l =>
        rw [hc] at hx
        refine ⟨AMap.nodupKeys_set hx.1 _ _, fun a => ?_⟩
        simp only [Option.getD_some, AMap.get_set, hx.2]
        by_cases ha : a = d1
        · simp [ha]
        · simp [ha, Ne.symm ha]
      | none =>
        rw [hc] at hx
        refine ⟨by simp [AMap.set, AMap.NodupKeys], fun a => ?_⟩
        simp only [Option.getD_none, AMap.get_set, AMap.get_nil, hx]
        by_cases ha : a = d1
        · simp [ha]
        · simp [ha, Ne.symm ha]
    · simp only [hk, if_false, and_false]
      exact hx
  · intro a x
    have hx := hf' a x
    simp only [Table.Spec.step]
    by_cases hk : a = d1 ∧ x = n
    · obtain ⟨rfl, rfl⟩ := hk
      simp only [and_self, if_true, vecSet_eq, true_and]
      cases hc : tf.cell a x with
      | some l =>
        rw [hc] at hx
        refine ⟨AMap.nodupKeys_set hx.1 _ _, fun b => ?_⟩
        simp only [Option.getD_some, AMap.get_set, hx.2]
        by_cases hb : b = d2
        · simp [hb]
        · simp [hb, Ne.symm hb]
      | none =>
        rw [hc] at hx
        refine ⟨by simp [AMap.set, AMap.NodupKeys], fun b => ?_⟩
        simp only [Option.getD_none, AMap.get_set, AMap.get_nil, hx]
        by_cases hb : b = d2
        · simp [hb]
        · simp [hb, Ne.symm hb]
    · have hk' : ∀ b, ¬ (a = d1 ∧ x = n ∧ b = d2) := fun b hh => hk ⟨hh.1, hh.2.1⟩
      simp only [hk, hk', if_false]
      exact hx
  · intro x
    simp only [AMap.get_set]
    obtain ⟨t, h1, h2, h3⟩ := h.byTgt x
    by_cases hx : n = x
    · subst hx
      simp only [if_true]
      refine ⟨_, h1.insert e d1 d2 e, ?_, ?_⟩
      · intro a b e'
        simp only [Table.Spec.step, true_and]
        split
        · exact id
        · exact h2 a b e'
      · intro hk a b
        simp only [Table.Spec.step, true_and]
        split
        · rfl
        · exact h3 hk a b
    · simp only [hx, if_false]
      refine ⟨t, h1, ?_, ?_⟩
      · intro a b e' hh
        simp only [Ne.symm hx, false_and, and_false, if_false]
        exact h2 a b e' hh
      · intro hk a b
        simp only [Ne.symm hx, false_and, and_false, if_false]
        exact h3 hk a b

theorem Rel.remove {s : Store N D E} {m : D → N → D → Option E} {keep : N → Bool} (h : Rel s m keep)
    (isTop : E → Bool) (d1 : D) (n : N) (d2 : D) :
    Rel (removeFunction s d1 n d2).2 (specStep isTop m (.remove d1 n d2)) (fun x => x ≠ n && keep x) := by
  unfold removeFunction specStep
  obtain ⟨tr, hr, hr'⟩ := h.rev
  obtain ⟨tf, hf, hf'⟩ := h.fwd
  refine ⟨⟨_, hr.modify [] n d2 (fun l => vecErase l d1), ?_⟩, ⟨_, hf.modify [] d1 n (fun l => vecErase l d2), ?_⟩,
    AMap.nodupKeys_erase h.nodupT _, ?_⟩
  · intro x b
    have hx := hr' x b
    simp only [Table.Spec.step]
    by_cases hk : x = n ∧ b = d2
    · obtain ⟨rfl, rfl⟩ := hk
      simp only [and_self, if_true]
      cases hc : tr.cell x b with
      | some l =>
        rw [hc] at hx
        simp only [Option.getD_some, vecErase_eq hx.1]
        refine ⟨AMap.nodupKeys_erase hx.1 _, fun a => ?_⟩
        simp only [AMap.get_erase, hx.2]
        by_cases ha : a = d1
        · simp [ha]
        · simp [ha, Ne.symm ha]
      | none =>
        rw [hc] at hx
        refine ⟨AMap.nodupKeys_nil, fun a => ?_⟩
        simp [vecErase, hx]
    · simp only [hk, if_false, and_false]
      exact hx
  · intro a x
    have hx := hf' a x
    simp only [Table.Spec.step]
    by_cases hk : a = d1 ∧ x = n
    · obtain ⟨rfl, rfl⟩ := hk
      simp only [and_self, if_true, true_and]
      cases hc : tf.cell a x with
      | some l =>
        rw [hc] at hx
        simp only [Option.getD_some, vecErase_eq hx.1]
        refine ⟨AMap.nodupKeys_erase hx.1 _, fun b => ?_⟩
        simp only [AMap.get_erase, hx.2]
        by_cases hb : b = d2
        · simp [hb]
        · simp [hb, Ne.symm hb]
      | none =>
        rw [hc] at hx
        refine ⟨AMap.nodupKeys_nil, fun b => ?_⟩
        simp [vecErase, hx]
    · have hk' : ∀ b, ¬ (a = d1 ∧ x = n ∧ b = d2) := fun b hh => hk ⟨hh.1, hh.2.1⟩
      simp only [hk, hk', if_false]
      exact hx
  · intro x
    simp only [AMap.get_erase]
    by_cases hx : n = x
    · subst hx
      simp only [if_true]
      exact ⟨_, .empty, by simp [Table.Spec.empty], by simp⟩
    · simp only [hx, if_false]
      obtain ⟨t, h1, h2, h3⟩ := h.byTgt x
      refine ⟨t, h1, ?_, ?_⟩
      · intro a b e' hh
        simp only [Ne.symm hx, false_and, and_false, if_false]
        exact h2 a b e' hh
      · intro hk a b
        simp only [Ne.symm hx, false_and, and_false, if_false]
        simp only [Bool.and_eq_true] at hk
        exact h3 hk.2 a b

theorem Rel.byTarget {s : Store N D E} {m : D → N → D → Option E} {keep : N → Bool} (h : Rel s m keep)
    (n : N) : Rel (lookupByTarget s n).2 m keep := by
  unfold lookupByTarget
  cases hg : s.byTgt.get n with
  | some t => exact h
  | none =>
    refine ⟨h.rev, h.fwd, AMap.nodupKeys_set h.nodupT _ _, fun x => ?_⟩
    have := h.byTgt x
    simp only [AMap.get_set]
    by_cases hx : n = x
    · subst hx
      simp only [hg, if_true] at this ⊢
      exact this
    · simp only [hx, if_false]
      exact this

/-- The statements whose by-target row has never been thrown away by `removeFunction` since the last
`clear`. -/
def keepStep (k : N → Bool) : Op N D E → N → Bool
  | .remove _ n _ => fun x => x ≠ n && k x
  | .clear => fun _ => true
  | _ => k

theorem rel_run (isTop : E → Bool) (ops : List (Op N D E)) :
    Rel (runOps isTop ops) (specRun isTop ops) (ops.foldl keepStep fun _ => true) := by
  unfold runOps specRun
  have : ∀ (ops : List (Op N D E)) s m k, Rel s m k →
      Rel (ops.foldl (Op.run isTop) s) (ops.foldl (specStep isTop) m) (ops.foldl keepStep k) := by
    intro ops
    induction ops with
    | nil => intro s m k h; exact h
    | cons op ops ih =>
      intro s m k h
      apply ih
      cases op with
      | add d1 n d2 e => exact h.add isTop d1 n d2 e
      | remove d1 n d2 => exact h.remove isTop d1 n d2
      | byTarget n => exact h.byTarget n
      | clear => exact .init
  exact this ops _ _ _ .init

theorem keep_of_no_remove (ops : List (Op N D E)) (h : ∀ op ∈ ops, ∀ d1 n d2, op ≠ .remove d1 n d2) (n : N) :
    (ops.foldl keepStep fun _ => true) n = true := by
  have : ∀ (ops : List (Op N D E)) (k : N → Bool), (∀ op ∈ ops, ∀ d1 n d2, op ≠ .remove d1 n d2) →
      k n = true → (ops.foldl keepStep k) n = true := by
    intro ops
    induction ops with
    | nil => intro k _ h; exact h
    | cons op ops ih =>
      intro k h hk
      apply ih _ fun o ho => h o (List.mem_cons_of_mem _ ho)
      cases op with
      | add => exact hk
      | remove d1 n d2 => exact absurd rfl (h _ List.mem_cons_self d1 n d2)
      | byTarget => exact hk
      | clear => rfl
  exact this ops _ h rfl

/-- Lookup results in terms of the denoted map. -/
theorem Rel.reverse {s : Store N D E} {m : D → N → D → Option E} {keep : N → Bool} (h : Rel s m keep)
    (n : N) (d2 : D) :
    (∀ l, reverseLookup s n d2 = some l → AMap.NodupKeys l ∧ ∀ d1 e, (d1, e) ∈ l ↔ m d1 n d2 = some e) ∧
    (reverseLookup s n d2 = none → ∀ d1, m d1 n d2 = none) := by
  obtain ⟨t, h1, h2⟩ := h.rev
  have h3 := h2 n d2
  unfold reverseLookup
  rw [h1.contains, h1.getC]
  cases hc : t.cell n d2 with
  | some l =>
    rw [hc] at h3
    refine ⟨?_, by simp⟩
    intro l' hl'
    simp only [Option.isSome_some, if_true, Option.getD_some, Option.some.injEq] at hl'
    subst hl'
    refine ⟨h3.1, fun d1 e => ?_⟩
    rw [← h3.2]
    exact ⟨AMap.get_of_mem h3.1, AMap.mem_of_get⟩
  | none =>
    rw [hc] at h3
    exact ⟨by simp, fun _ => h3⟩

theorem Rel.forward {s : Store N D E} {m : D → N → D → Option E} {keep : N → Bool} (h : Rel s m keep)
    (d1 : D) (n : N) :
    (∀ l, forwardLookup s d1 n = some l → AMap.NodupKeys l ∧ ∀ d2 e, (d2, e) ∈ l ↔ m d1 n d2 = some e) ∧
    (forwardLookup s d1 n = none → ∀ d2, m d1 n d2 = none) := by
  obtain ⟨t, h1, h2⟩ := h.fwd
  have h3 := h2 d1 n
  unfold forwardLookup
  rw [h1.contains, h1.getC]
  cases hc : t.cell d1 n with
  | some l =>
    rw [hc] at h3
    refine ⟨?_, by simp⟩
    intro l' hl'
    simp only [Option.isSome_some, if_true, Option.getD_some, Option.some.injEq] at hl'
    subst hl'
    refine ⟨h3.1, fun d2 e => ?_⟩
    rw [← h3.2]
    exact ⟨AMap.get_of_mem h3.1, AMap.mem_of_get⟩
  | none =>
    rw [hc] at h3
    exact ⟨by simp, fun _ => h3⟩

theorem Rel.target {s : Store N D E} {m : D → N → D → Option E} {keep : N → Bool} (h : Rel s m keep)
    (n : N) (d1 d2 : D) (e : E) :
    ((d1, d2, e) ∈ (lookupByTarget s n).1.cellVec → m d1 n d2 = some e) ∧
    (keep n = true → ((d1, d2, e) ∈ (lookupByTarget s n).1.cellVec ↔ m d1 n d2 = some e)) := by
  obtain ⟨t, h1, h2, h3⟩ := h.byTgt n
  have he : (lookupByTarget s n).1 = (match s.byTgt.get n with | some t => t | none => []) := by
    unfold lookupByTarget
    cases s.byTgt.get n <;> rfl
  rw [he, h1.cellVec]
  exact ⟨h2 _ _ _, fun hk => by rw [h3 hk]⟩

theorem Rel.foreach {s : Store N D E} {m : D → N → D → Option E} {keep : N → Bool} (h : Rel s m keep)
    (e : E) : e ∈ foreachEdgeFunction s ↔ ∃ d1 n d2, m d1 n d2 = some e := by
  obtain ⟨t, h1, h2⟩ := h.fwd
  unfold foreachEdgeFunction
  simp only [List.mem_flatMap, List.mem_map]
  constructor
  · rintro ⟨⟨d1, n, l⟩, hc, ⟨d2, e'⟩, hm, rfl⟩
    rw [h1.cellVec] at hc
    have h3 := h2 d1 n
    rw [hc] at h3
    exact ⟨d1, n, d2, by rw [← h3.2]; exact AMap.get_of_mem h3.1 hm⟩
  · rintro ⟨d1, n, d2, hm⟩
    have h3 := h2 d1 n
    cases hc : t.cell d1 n with
    | none => rw [hc] at h3; rw [h3] at hm; cases hm
    | some l =>
      rw [hc] at h3
      rw [← h3.2] at hm
      exact ⟨(d1, n, l), (h1.cellVec _ _ _).2 hc, (d2, e), AMap.mem_of_get hm, rfl⟩

end Phasar.JF
