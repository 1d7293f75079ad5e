import Verif.Base.FSet
/-!
# `EquivalenceClassMap` (`include/phasar/Utils/EquivalenceClassMap.h`)
-/
namespace Phasar

/-- `EquivalenceClassMap::StoredData` (`EquivalenceClassMap.h:168`): a vector of (set of keys, value). -/
abbrev ECM (K V : Type) := List (List K × V)

namespace ECM
variable {K V : Type} [DecidableEq K]

/-- `EquivalenceClassMap::try_emplace` (`EquivalenceClassMap.h:103-115`, `119-131`; both overloads and all
`insert` overloads, 67-97, end up here). `eqV` is `ValueT::operator==`. The Boolean is
`insert_return_type::second`; the iterator part is not modelled. -/
def tryEmplace (eqV : V → V → Bool) : ECM K V → K → V → Bool × ECM K V
  | [], k, v => (true, [([k], v)])
  | (ks, v') :: m, k, v =>
    if eqV v' v then (decide (k ∉ ks), (FSet.insert ks k, v') :: m)
    else
      let p := tryEmplace eqV m k v
      (p.1, (ks, v') :: p.2)

/-- `EquivalenceClassMap::count` (`EquivalenceClassMap.h:134-141`). -/
def count : ECM K V → K → Nat
  | [], _ => 0
  | (ks, _) :: m, k => if k ∈ ks then 1 else count m k

/-- `EquivalenceClassMap::find` (`EquivalenceClassMap.h:152-157`): the first bucket holding the key. -/
def find : ECM K V → K → Option (List K × V)
  | [], _ => none
  | b :: m, k => if k ∈ b.1 then some b else find m k

/-- `EquivalenceClassMap::findValue` (`EquivalenceClassMap.h:159-165`). -/
def findValue (m : ECM K V) (k : K) : Option V :=
  match find m k with
  | some b => some b.2
  | none => none

/-- `EquivalenceClassMap::numEquivalenceClasses` / `size` (`EquivalenceClassMap.h:143-150`). -/
def numEquivalenceClasses (m : ECM K V) : Nat := m.length

/-- A history of insertions into an empty map; `clear` (`EquivalenceClassMap.h:167`) restarts it. -/
def runIns (eqV : V → V → Bool) (h : List (K × V)) : ECM K V :=
  h.foldl (fun m p => (tryEmplace eqV m p.1 p.2).2) []

/-! ## Lemmas -/

/-- `operator==` of the values is an equivalence relation. -/
structure IsEquiv (eqV : V → V → Bool) : Prop where
  refl : ∀ v, eqV v v = true
  symm : ∀ v w, eqV v w = true → eqV w v = true
  trans : ∀ u v w, eqV u v = true → eqV v w = true → eqV u w = true

/-- A bucket `(ks, c)` is correct for history `h`: `ks` are the keys inserted with a value equal to `c`. -/
def BucketOk (eqV : V → V → Bool) (h : List (K × V)) (b : List K × V) : Prop :=
  (∀ k, k ∈ b.1 ↔ ∃ v, (k, v) ∈ h ∧ eqV b.2 v = true) ∧ b.1.Nodup

/-- Invariant of the stored vector. -/
structure Inv (eqV : V → V → Bool) (h : List (K × V)) (m : ECM K V) : Prop where
  distinct : m.Pairwise fun a b => eqV a.2 b.2 = false
  bucket : ∀ b ∈ m, BucketOk eqV h b
  from' : ∀ b ∈ m, ∃ k, (k, b.2) ∈ h
  cover : ∀ k v, (k, v) ∈ h → ∃ b ∈ m, eqV b.2 v = true

theorem tryEmplace_spec {eqV : V → V → Bool} (k : K) (v : V) :
    ∀ m : ECM K V, (∃ m1 b m2, m = m1 ++ b :: m2 ∧ (∀ a ∈ m1, eqV a.2 v = false) ∧ eqV b.2 v = true ∧
        tryEmplace eqV m k v = (decide (k ∉ b.1), m1 ++ (FSet.insert b.1 k, b.2) :: m2)) ∨
      ((∀ a ∈ m, eqV a.2 v = false) ∧ tryEmplace eqV m k v = (true, m ++ [([k], v)])) := by
  intro m
  induction m with
  | nil => exact .inr ⟨by simp, rfl⟩
  | cons b m ih =>
    obtain ⟨ks, v'⟩ := b
    by_cases h : eqV v' v = true
    · exact .inl ⟨[], (ks, v'), m, rfl, by simp, h, by simp [tryEmplace, h]⟩
    · have h' : eqV v' v = false := by simpa using h
      rcases ih with ⟨m1, b, m2, rfl, h1, h2, h3⟩ | ⟨h1, h2⟩
      · refine .inl ⟨(ks, v') :: m1, b, m2, rfl, ?_, h2, ?_⟩
        · intro a ha
          rcases List.mem_cons.1 ha with rfl | ha
          · exact h'
          · exact h1 a ha
        · simp [tryEmplace, h', h3]
      · refine .inr ⟨?_, ?_⟩
        · intro a ha
          rcases List.mem_cons.1 ha with rfl | ha
          · exact h'
          · exact h1 a ha
        · simp [tryEmplace, h', h2]

theorem Inv.insert {eqV : V → V → Bool} (he : IsEquiv eqV) {h : List (K × V)} {m : ECM K V}
    (hi : Inv eqV h m) (k : K) (v : V) : Inv eqV (h ++ [(k, v)]) (tryEmplace eqV m k v).2 := by
  rcases tryEmplace_spec (eqV := eqV) k v m with ⟨m1, b, m2, rfl, h1, h2, h3⟩ | ⟨h1, h2⟩
  · rw [h3]
    have hd := hi.distinct
    rw [List.pairwise_append, List.pairwise_cons] at hd
    have hother : ∀ a ∈ m1 ++ m2, eqV a.2 v = false := by
      intro a ha
      rcases List.mem_append.1 ha with ha | ha
      · exact h1 a ha
      · cases hh : eqV a.2 v with
        | false => rfl
        | true =>
          have := hd.2.1.1 a ha
          rw [he.trans _ _ _ h2 (he.symm _ _ hh)] at this
          cases this
    have hbo : BucketOk eqV (h ++ [(k, v)]) (FSet.insert b.1 k, b.2) := by
      have hb := hi.bucket b (by simp)
      refine ⟨fun k' => ?_, FSet.nodup_insert hb.2 k⟩
      simp only [FSet.mem_insert, hb.1 k', List.mem_append, List.mem_singleton, Prod.mk.injEq]
      constructor
      · rintro (rfl | ⟨v', h1, h2⟩)
        · exact ⟨v, .inr ⟨rfl, rfl⟩, h2⟩
        · exact ⟨v', .inl h1, h2⟩
      · rintro ⟨v', h1 | ⟨rfl, rfl⟩, h2⟩
        · exact .inr ⟨v', h1, h2⟩
        · exact .inl rfl
    have hoth : ∀ a ∈ m1 ++ m2, BucketOk eqV (h ++ [(k, v)]) a := by
      intro a ha
      have hb := hi.bucket a (by simp only [List.mem_append, List.mem_cons] at ha ⊢; rcases ha with h | h <;> simp [h])
      refine ⟨fun k' => ?_, hb.2⟩
      rw [hb.1]
      constructor
      · rintro ⟨v', h1, h2⟩; exact ⟨v', List.mem_append_left _ h1, h2⟩
      · rintro ⟨v', h3, h4⟩
        rcases List.mem_append.1 h3 with h3 | h3
        · exact ⟨v', h3, h4⟩
        · simp only [List.mem_singleton, Prod.mk.injEq] at h3
          rw [h3.2, hother a ha] at h4; cases h4
    refine ⟨?_, ?_, ?_, ?_⟩
    · rw [List.pairwise_append, List.pairwise_cons]
      refine ⟨hd.1, ⟨hd.2.1.1, hd.2.1.2⟩, ?_⟩
      intro a ha c hc
      rcases List.mem_cons.1 hc with rfl | hc
      · exact hd.2.2 a ha b List.mem_cons_self
      · exact hd.2.2 a ha c (List.mem_cons_of_mem _ hc)
    · intro a ha
      simp only [List.mem_append, List.mem_cons] at ha
      rcases ha with ha | rfl | ha
      · exact hoth a (List.mem_append_left _ ha)
      · exact hbo
      · exact hoth a (List.mem_append_right _ ha)
    · intro a ha
      have : ∃ a' ∈ m1 ++ b :: m2, a'.2 = a.2 := by
        simp only [List.mem_append, List.mem_cons] at ha
        rcases ha with ha | rfl | ha
        · exact ⟨a, by simp [ha], rfl⟩
        · exact ⟨b, by simp, rfl⟩
        · exact ⟨a, by simp [ha], rfl⟩
      obtain ⟨a', ha', haa⟩ := this
      obtain ⟨k', hk'⟩ := hi.from' a' ha'
      exact ⟨k', List.mem_append_left _ (haa ▸ hk')⟩
    · intro k' v' hk'
      rcases List.mem_append.1 hk' with hk' | hk'
      · obtain ⟨a, ha, hav⟩ := hi.cover k' v' hk'
        simp only [List.mem_append, List.mem_cons] at ha
        rcases ha with ha | rfl | ha
        · exact ⟨a, by simp [ha], hav⟩
        · exact ⟨(FSet.insert a.1 k, a.2), by simp, hav⟩
        · exact ⟨a, by simp [ha], hav⟩
      · simp only [List.mem_singleton, Prod.mk.injEq] at hk'
        rw [hk'.2]
        exact ⟨(FSet.insert b.1 k, b.2), by simp, h2⟩
  · rw [h2]
    have hoth : ∀ a ∈ m, BucketOk eqV (h ++ [(k, v)]) a := by
      intro a ha
      have hb := hi.bucket a ha
      refine ⟨fun k' => ?_, hb.2⟩
      rw [hb.1]
      constructor
      · rintro ⟨v', h3, h4⟩; exact ⟨v', List.mem_append_left _ h3, h4⟩
      · rintro ⟨v', h3, h4⟩
        rcases List.mem_append.1 h3 with h3 | h3
        · exact ⟨v', h3, h4⟩
        · simp only [List.mem_singleton, Prod.mk.injEq] at h3
          rw [h3.2, h1 a ha] at h4; cases h4
    refine ⟨?_, ?_, ?_, ?_⟩
    · rw [List.pairwise_append]
      refine ⟨hi.distinct, by simp, ?_⟩
      intro a ha b hb
      rw [List.mem_singleton] at hb
      rw [hb]; exact h1 a ha
    · intro a ha
      rcases List.mem_append.1 ha with ha | ha
      · exact hoth a ha
      · rw [List.mem_singleton] at ha
        subst ha
        refine ⟨fun k' => ?_, by simp⟩
        simp only [List.mem_singleton, List.mem_append, Prod.mk.injEq]
        constructor
        · rintro rfl; exact ⟨v, .inr ⟨rfl, rfl⟩, he.refl v⟩
        · rintro ⟨v', h3 | h3, h4⟩
          · obtain ⟨b, hb, hbv⟩ := hi.cover k' v' h3
            have := h1 b hb
            rw [he.trans _ _ _ hbv (he.symm _ _ h4)] at this
            cases this
          · exact h3.1
    · intro a ha
      rcases List.mem_append.1 ha with ha | ha
      · obtain ⟨k', hk'⟩ := hi.from' a ha
        exact ⟨k', List.mem_append_left _ hk'⟩
      · rw [List.mem_singleton] at ha
        subst ha
        exact ⟨k, by simp⟩
    · intro k' v' hk'
      rcases List.mem_append.1 hk' with hk' | hk'
      · obtain ⟨a, ha, hav⟩ := hi.cover k' v' hk'
        exact ⟨a, List.mem_append_left _ ha, hav⟩
      · simp only [List.mem_singleton, Prod.mk.injEq] at hk'
        rw [hk'.2]
        exact ⟨([k], v), by simp, he.refl v⟩

theorem inv_run {eqV : V → V → Bool} (he : IsEquiv eqV) (h : List (K × V)) : Inv eqV h (runIns eqV h) := by
  unfold runIns
  have : ∀ (h2 h1 : List (K × V)) m, Inv eqV h1 m →
      Inv eqV (h1 ++ h2) (h2.foldl (fun m p => (tryEmplace eqV m p.1 p.2).2) m) := by
    intro h2
    induction h2 with
    | nil => intro h1 m hi; simpa using hi
    | cons p h2 ih =>
      intro h1 m hi
      have := ih _ _ (hi.insert he p.1 p.2)
      simpa using this
  have := this h [] [] ⟨by simp, by simp, by simp, by simp⟩
  simpa using this

theorem find_spec (m : ECM K V) (k : K) :
    (∃ m1 b m2, m = m1 ++ b :: m2 ∧ (∀ a ∈ m1, k ∉ a.1) ∧ k ∈ b.1 ∧ find m k = some b) ∨
    ((∀ a ∈ m, k ∉ a.1) ∧ find m k = none) := by
  induction m with
  | nil => exact .inr ⟨by simp, rfl⟩
  | cons b m ih =>
    by_cases h : k ∈ b.1
    · exact .inl ⟨[], b, m, rfl, by simp, h, by simp [find, h]⟩
    · rcases ih with ⟨m1, b', m2, rfl, h1, h2, h3⟩ | ⟨h1, h2⟩
      · refine .inl ⟨b :: m1, b', m2, rfl, ?_, h2, by simp [find, h, h3]⟩
        intro a ha
        rcases List.mem_cons.1 ha with rfl | ha
        · exact h
        · exact h1 a ha
      · refine .inr ⟨?_, by simp [find, h, h2]⟩
        intro a ha
        rcases List.mem_cons.1 ha with rfl | ha
        · exact h
        · exact h1 a ha

theorem count_eq (m : ECM K V) (k : K) : count m k = if (find m k).isSome then 1 else 0 := by
  induction m with
  | nil => rfl
  | cons b m ih =>
    by_cases h : k ∈ b.1
    · simp [count, find, h]
    · simp [count, find, h, ih]

end ECM
end Phasar
