import Verif.Base.AMap
/-!
# `InitialSeeds` (`include/phasar/DataFlow/IfdsIde/InitialSeeds.h`)

`std::map<N, std::map<D, L>>`. `dump` is not modelled.
-/
set_option linter.unusedSectionVars false
namespace Phasar.Seeds
open Phasar

/-- `InitialSeeds::GeneralizedSeeds` (`InitialSeeds.h:26`). -/
abbrev Seeds (N D L : Type) := AMap N (AMap D L)

variable {N D L : Type} [DecidableEq N] [DecidableEq D]

/-- `Seeds[Node]`, read side: the mapped map, or the empty one `operator[]` creates. -/
def rowOf (s : Seeds N D L) (n : N) : AMap D L :=
  match s.get n with
  | some m => m
  | none => []

/-- `InitialSeeds::addSeed(N, D, L)` (`InitialSeeds.h:48-50`); the two-argument overload (`:42-46`) passes
`BinaryDomain::BOTTOM`. -/
def addSeed (s : Seeds N D L) (n : N) (d : D) (v : L) : Seeds N D L := s.set n ((rowOf s n).set d v)

/-- Constructor from `std::map<N, std::set<D>>` (`InitialSeeds.h:30-38`), `bot` being
`BinaryDomain::BOTTOM`. -/
def ofSets (bot : L) (m : List (N × List D)) : Seeds N D L :=
  m.foldl (fun s p => p.2.foldl (fun s d => addSeed s p.1 d bot) s) []

/-- `countInitialSeeds()` (`InitialSeeds.h:52-58`). -/
def countAll (s : Seeds N D L) : Nat := s.foldl (fun acc p => acc + p.2.length) 0

/-- `countInitialSeeds(N)` (`InitialSeeds.h:60-66`). -/
def countAt (s : Seeds N D L) (n : N) : Nat :=
  match s.get n with
  | some m => m.length
  | none => 0

/-- `containsInitialSeedsFor` (`InitialSeeds.h:68-70`). -/
def containsFor (s : Seeds N D L) (n : N) : Bool := (s.get n).isSome

/-- `InitialSeeds::empty` (`InitialSeeds.h:72`). -/
def isEmpty (s : Seeds N D L) : Bool := s.length == 0

/-- A history of `addSeed` calls. -/
def runAdd (ops : List (N × D × L)) : Seeds N D L := ops.foldl (fun s o => addSeed s o.1 o.2.1 o.2.2) []

/-- First loop of `submitInitialSeeds` (`IDESolver.h:842-850`): it iterates over the outer map, which
`addSeed` at an existing statement does not change. -/
def addZeroLoop (zero : D) (bot : L) (s : Seeds N D L) : Seeds N D L :=
  s.foldl (fun acc p => if (p.2.get zero).isNone then addSeed acc p.1 zero bot else acc) s

/-! ## Specification -/

/-- The value last added for a statement and fact. -/
def lastAdded (ops : List (N × D × L)) (n : N) (d : D) : Option L :=
  (ops.reverse.find? fun o => o.1 = n ∧ o.2.1 = d).map (·.2.2)

/-! ## Lemmas -/

theorem get_addSeed (s : Seeds N D L) (n : N) (d : D) (v : L) (n' : N) :
    (addSeed s n d v).get n' = if n = n' then some ((rowOf s n).set d v) else s.get n' := by
  unfold addSeed
  rw [AMap.get_set]

theorem rowOf_addSeed (s : Seeds N D L) (n : N) (d : D) (v : L) (n' : N) (d' : D) :
    (rowOf (addSeed s n d v) n').get d' = if n = n' ∧ d = d' then some v else (rowOf s n').get d' := by
  unfold rowOf
  rw [get_addSeed]
  by_cases h : n = n'
  · subst h
    simp only [if_true, true_and, AMap.get_set]
    rfl
  · simp [h]

/-- Well-formed: both levels are maps, no empty inner map. -/
structure Ok (s : Seeds N D L) : Prop where
  nodup : AMap.NodupKeys s
  row : ∀ n m, s.get n = some m → AMap.NodupKeys m ∧ m ≠ []

theorem set_ne_nil {A B : Type} [DecidableEq A] (m : AMap A B) (k : A) (v : B) : m.set k v ≠ [] := by
  cases m with
  | nil => simp [AMap.set]
  | cons p m => obtain ⟨a, b⟩ := p; simp only [AMap.set]; split <;> simp

theorem nodup_rowOf {s : Seeds N D L} (h : Ok s) (n : N) : AMap.NodupKeys (rowOf s n) := by
  unfold rowOf
  split
  · rename_i m hm; exact (h.row n m hm).1
  · exact AMap.nodupKeys_nil

theorem Ok.add {s : Seeds N D L} (h : Ok s) (n : N) (d : D) (v : L) : Ok (addSeed s n d v) := by
  refine ⟨AMap.nodupKeys_set h.nodup _ _, ?_⟩
  intro n' m hm
  rw [get_addSeed] at hm
  split at hm
  · cases hm
    exact ⟨AMap.nodupKeys_set (nodup_rowOf h n) _ _, set_ne_nil _ _ _⟩
  · exact h.row _ _ hm

theorem ok_nil : Ok ([] : Seeds N D L) := ⟨AMap.nodupKeys_nil, by simp⟩

theorem ok_run (ops : List (N × D × L)) : Ok (runAdd ops) := by
  have : ∀ (ops : List (N × D × L)) (s : Seeds N D L), Ok s →
      Ok (ops.foldl (fun s o => addSeed s o.1 o.2.1 o.2.2) s) := by
    intro ops
    induction ops with
    | nil => intro s h; exact h
    | cons o ops ih => intro s h; exact ih _ (h.add _ _ _)
  exact this ops _ ok_nil

theorem runAdd_append (ops : List (N × D × L)) (o : N × D × L) :
    runAdd (ops ++ [o]) = addSeed (runAdd ops) o.1 o.2.1 o.2.2 := by
  unfold runAdd; rw [List.foldl_append]; rfl

theorem rowOf_run (ops : List (N × D × L)) (n : N) (d : D) :
    (rowOf (runAdd ops) n).get d = lastAdded ops n d := by
  induction h : ops.length generalizing ops with
  | zero =>
    have : ops = [] := List.length_eq_zero_iff.1 h
    subst this; rfl
  | succ k ih =>
    obtain ⟨ops', o, rfl⟩ : ∃ ops' o, ops = ops' ++ [o] :=
      ⟨ops.dropLast, ops.getLast (by intro hh; simp [hh] at h), (List.dropLast_concat_getLast _).symm⟩
    rw [runAdd_append, rowOf_addSeed, ih ops' (by simpa using h)]
    unfold lastAdded
    simp only [List.reverse_append, List.reverse_cons, List.reverse_nil, List.nil_append, List.singleton_append,
      List.find?_cons]
    by_cases hk : o.1 = n ∧ o.2.1 = d
    · simp [hk]
    · simp [hk]

theorem containsFor_run (ops : List (N × D × L)) (n : N) :
    containsFor (runAdd ops) n = true ↔ ∃ o ∈ ops, o.1 = n := by
  have : ∀ (ops : List (N × D × L)) (s : Seeds N D L),
      (AMap.get (ops.foldl (fun s o => addSeed s o.1 o.2.1 o.2.2) s) n).isSome = true ↔
        (s.get n).isSome = true ∨ ∃ o ∈ ops, o.1 = n := by
    intro ops
    induction ops with
    | nil => intro s; simp
    | cons o ops ih =>
      intro s
      rw [List.foldl_cons, ih, get_addSeed]
      by_cases h : o.1 = n
      · simp [h]
      · simp [h]
  unfold containsFor runAdd
  rw [this]
  simp

theorem countAll_eq (s : Seeds N D L) :
    countAll s = (s.flatMap fun p => p.2.map fun q => (p.1, q.1)).length := by
  have : ∀ (s : Seeds N D L) acc, s.foldl (fun acc p => acc + p.2.length) acc =
      acc + (s.flatMap fun p => p.2.map fun q => (p.1, q.1)).length := by
    intro s
    induction s with
    | nil => intro acc; simp
    | cons p s ih => intro acc; rw [List.foldl_cons, ih]; simp; omega
  unfold countAll
  rw [this]; simp

theorem pairs_nodup {s : Seeds N D L} (h : Ok s) :
    (s.flatMap fun p => p.2.map fun q => (p.1, q.1)).Nodup := by
  have hr : ∀ p ∈ s, AMap.NodupKeys p.2 := fun p hp => (h.row p.1 p.2 (AMap.get_of_mem h.nodup hp)).1
  have hn := h.nodup
  clear h
  induction s with
  | nil => simp
  | cons p s ih =>
    have hn' := List.nodup_cons.1 hn
    rw [List.flatMap_cons, List.nodup_append]
    refine ⟨?_, ih (fun q hq => hr q (List.mem_cons_of_mem _ hq)) hn'.2, ?_⟩
    · have := hr p List.mem_cons_self
      unfold AMap.NodupKeys at this
      have h2 : (p.2.map fun q => (p.1, q.1)) = (p.2.map Prod.fst).map fun d => (p.1, d) := by simp
      rw [h2]
      exact List.Pairwise.map _ (fun a b hab hh => hab (Prod.mk.inj hh).2) this
    · intro a ha b hb hab
      subst hab
      obtain ⟨q, hq, rfl⟩ := List.mem_map.1 ha
      obtain ⟨r, hr', hm⟩ := List.mem_flatMap.1 hb
      obtain ⟨q', hq', he⟩ := List.mem_map.1 hm
      have := (Prod.mk.inj he).1
      exact hn'.1 (List.mem_map.2 ⟨r, hr', this⟩)

theorem mem_pairs {s : Seeds N D L} (h : Ok s) (n : N) (d : D) :
    (n, d) ∈ (s.flatMap fun p => p.2.map fun q => (p.1, q.1)) ↔ ∃ v, (rowOf s n).get d = some v := by
  simp only [List.mem_flatMap, List.mem_map, Prod.mk.injEq]
  constructor
  · rintro ⟨p, hp, q, hq, rfl, rfl⟩
    have hg := AMap.get_of_mem h.nodup (k := p.1) (v := p.2) hp
    have : rowOf s p.1 = p.2 := by simp [rowOf, hg]
    rw [this]
    exact AMap.get_isSome_of_mem (v := q.2) hq
  · rintro ⟨v, hv⟩
    unfold rowOf at hv
    cases hg : s.get n with
    | none => rw [hg] at hv; simp at hv
    | some m =>
      rw [hg] at hv
      exact ⟨(n, m), AMap.mem_of_get hg, (d, v), AMap.mem_of_get hv, rfl, rfl⟩

theorem addZeroLoop_aux (zero : D) (bot : L) (n : N) : ∀ (l : List (N × AMap D L)) (acc : Seeds N D L),
    (l.map Prod.fst).Nodup → (∀ p ∈ l, acc.get p.1 = some p.2) →
    (∀ d, (rowOf (l.foldl (fun acc p => if (p.2.get zero).isNone then addSeed acc p.1 zero bot else acc) acc)
        n).get d =
      if d = zero ∧ (rowOf acc n).get zero = none ∧ n ∈ l.map Prod.fst then some bot
      else (rowOf acc n).get d) ∧
    ((AMap.get (l.foldl (fun acc p => if (p.2.get zero).isNone then addSeed acc p.1 zero bot else acc) acc)
        n).isSome = (acc.get n).isSome) := by
  intro l
  induction l with
  | nil => intro acc _ _; simp
  | cons p l ih =>
    intro acc hn hl
    have hn' := List.nodup_cons.1 hn
    have hp := hl p List.mem_cons_self
    have hrow : rowOf acc p.1 = p.2 := by simp [rowOf, hp]
    rw [List.foldl_cons]
    have hl' : ∀ q ∈ l, (if (p.2.get zero).isNone then addSeed acc p.1 zero bot else acc).get q.1 = some q.2 := by
      intro q hq
      have hne : p.1 ≠ q.1 := fun hh => hn'.1 (hh ▸ List.mem_map.2 ⟨q, hq, rfl⟩)
      split
      · rw [get_addSeed]; simp [hne]; exact hl q (List.mem_cons_of_mem _ hq)
      · exact hl q (List.mem_cons_of_mem _ hq)
    obtain ⟨i1, i2⟩ := ih _ hn'.2 hl'
    refine ⟨fun d => ?_, ?_⟩
    · rw [i1]
      by_cases hz : (p.2.get zero).isNone
      · simp only [hz, if_true]
        by_cases hpn : p.1 = n
        · subst hpn
          simp only [rowOf_addSeed]
          have hz' : p.2.get zero = none := by simpa using hz
          have : p.1 ∉ List.map Prod.fst l := hn'.1
          by_cases hd : d = zero
          · subst hd; simp [hrow, hz']
          · simp [hd, Ne.symm hd]
        · have : n ≠ p.1 := Ne.symm hpn
          have hm : (n ∈ List.map Prod.fst (p :: l)) = (n ∈ List.map Prod.fst l) := by
            rw [List.map_cons, List.mem_cons, eq_iff_iff]; simp only [this, false_or]
          simp only [hm]
          have hA : rowOf (addSeed acc p.1 zero bot) n = rowOf acc n := by
            unfold rowOf; rw [get_addSeed]; simp [hpn]
          rw [hA]
      · simp only [hz]
        by_cases hpn : p.1 = n
        · subst hpn
          have hz' : p.2.get zero ≠ none := by simpa using hz
          simp [hrow, hz']
        · have : n ≠ p.1 := Ne.symm hpn
          have hm : (n ∈ List.map Prod.fst (p :: l)) = (n ∈ List.map Prod.fst l) := by
            rw [List.map_cons, List.mem_cons, eq_iff_iff]; simp only [this, false_or]
          simp only [hm]
          simp
    · rw [i2]
      split
      · rw [get_addSeed]
        by_cases hpn : p.1 = n
        · subst hpn; simp [hp]
        · simp [hpn]
      · rfl

theorem addZeroLoop_spec {s : Seeds N D L} (h : Ok s) (zero : D) (bot : L) (n : N) :
    (∀ d, (rowOf (addZeroLoop zero bot s) n).get d =
      if d = zero ∧ (rowOf s n).get zero = none ∧ containsFor s n = true then some bot
      else (rowOf s n).get d) ∧
    containsFor (addZeroLoop zero bot s) n = containsFor s n := by
  obtain ⟨h1, h2⟩ := addZeroLoop_aux zero bot n s s h.nodup fun p hp => AMap.get_of_mem h.nodup hp
  refine ⟨fun d => ?_, h2⟩
  unfold addZeroLoop
  rw [h1]
  have : n ∈ List.map Prod.fst s ↔ containsFor s n = true := by
    unfold containsFor
    rw [Option.isSome_iff_exists, AMap.get_isSome_iff]
    simp
  simp only [this]

theorem ok_addZeroLoop {s : Seeds N D L} (h : Ok s) (zero : D) (bot : L) : Ok (addZeroLoop zero bot s) := by
  unfold addZeroLoop
  have : ∀ (l : List (N × AMap D L)) (acc : Seeds N D L), Ok acc →
      Ok (l.foldl (fun acc p => if (p.2.get zero).isNone then addSeed acc p.1 zero bot else acc) acc) := by
    intro l
    induction l with
    | nil => intro acc h; exact h
    | cons p l ih =>
      intro acc h
      rw [List.foldl_cons]
      apply ih
      split
      · exact h.add _ _ _
      · exact h
  exact this s s h

end Phasar.Seeds
