/-!
# Association maps

Stand-in for `std::map` / `std::unordered_map` / `llvm::DenseMap`: a list of key/value pairs with
`insert_or_assign` semantics.  Iteration order is insertion order; no statement proved about the
model depends on it.
-/
namespace Phasar

/-- Stand-in for `std::unordered_map<K,V>` as used e.g. by `include/phasar/Utils/Table.h:252`. -/
abbrev AMap (K V : Type) := List (K × V)

namespace AMap
variable {K V : Type} [DecidableEq K]

/-- `find(k)`: the mapped value, or `none` for `end()`. -/
def get : AMap K V → K → Option V
  | [], _ => none
  | (k', v) :: m, k => if k' = k then some v else get m k

/-- `insert_or_assign(k, v)`. -/
def set : AMap K V → K → V → AMap K V
  | [], k, v => [(k, v)]
  | (k', v') :: m, k, v => if k' = k then (k, v) :: m else (k', v') :: set m k v

/-- `erase(k)`. -/
def erase (m : AMap K V) (k : K) : AMap K V := m.filter (fun p => p.1 ≠ k)

/-- No key occurs twice; holds for every map built from `[]` by `set`/`erase`. -/
def NodupKeys (m : AMap K V) : Prop := (m.map Prod.fst).Nodup

@[simp] theorem get_nil (k : K) : get ([] : AMap K V) k = none := rfl

@[simp] theorem get_set (m : AMap K V) (k : K) (v : V) (k' : K) :
    get (set m k v) k' = if k = k' then some v else get m k' := by
  induction m with
  | nil => simp [set, get]
  | cons p m ih =>
    obtain ⟨a, b⟩ := p
    simp only [set]
    by_cases h : a = k
    · subst h
      simp only [if_true, get]
      split <;> rfl
    · simp only [h, if_false, get, ih]
      by_cases h1 : a = k'
      · subst h1
        simp [Ne.symm h]
      · simp [h1]

theorem get_set_self (m : AMap K V) (k : K) (v : V) : get (set m k v) k = some v := by simp

theorem get_set_ne (m : AMap K V) {k k' : K} (v : V) (h : k ≠ k') :
    get (set m k v) k' = get m k' := by simp [h]

theorem get_erase (m : AMap K V) (k k' : K) :
    get (erase m k) k' = if k = k' then none else get m k' := by
  induction m with
  | nil => simp [erase]
  | cons p m ih =>
    obtain ⟨a, b⟩ := p
    unfold erase at *
    by_cases h : a = k
    · subst h
      simp only [List.filter_cons, ne_eq, not_true_eq_false, decide_false, Bool.false_eq_true,
        if_false, ih, get]
      by_cases h1 : a = k' <;> simp [h1]
    · simp only [List.filter_cons, ne_eq, h, not_false_eq_true, decide_true, if_true, get, ih]
      by_cases h1 : a = k'
      · subst h1; simp [Ne.symm h]
      · simp [h1]

theorem mem_of_get {m : AMap K V} {k : K} {v : V} (h : get m k = some v) : (k, v) ∈ m := by
  induction m with
  | nil => simp at h
  | cons p m ih =>
    obtain ⟨a, b⟩ := p
    simp only [get] at h
    by_cases h1 : a = k
    · simp_all
    · simp [h1] at h; exact List.mem_cons_of_mem _ (ih h)

theorem get_isSome_of_mem {m : AMap K V} {k : K} {v : V} (h : (k, v) ∈ m) :
    ∃ w, get m k = some w := by
  induction m with
  | nil => simp at h
  | cons p m ih =>
    obtain ⟨a, b⟩ := p
    simp only [get]
    by_cases h1 : a = k
    · exact ⟨b, by simp [h1]⟩
    · rcases List.mem_cons.1 h with h2 | h2
      · simp_all
      · simpa [h1] using ih h2

theorem get_of_mem {m : AMap K V} (hn : NodupKeys m) {k : K} {v : V} (h : (k, v) ∈ m) :
    get m k = some v := by
  induction m with
  | nil => simp at h
  | cons p m ih =>
    obtain ⟨a, b⟩ := p
    have hn' : NodupKeys m := (List.nodup_cons.1 hn).2
    have hna : a ∉ m.map Prod.fst := (List.nodup_cons.1 hn).1
    simp only [get]
    rcases List.mem_cons.1 h with h2 | h2
    · obtain ⟨rfl, rfl⟩ := Prod.mk.inj h2
      simp
    · have : a ≠ k := by
        rintro rfl
        exact hna (List.mem_map.2 ⟨_, h2, rfl⟩)
      simpa [this] using ih hn' h2

theorem mem_keys_set (m : AMap K V) (k : K) (v : V) (a : K) :
    a ∈ (set m k v).map Prod.fst ↔ a = k ∨ a ∈ m.map Prod.fst := by
  induction m with
  | nil => simp [set]
  | cons p m ih =>
    obtain ⟨b, c⟩ := p
    simp only [set]
    by_cases h : b = k
    · subst h
      simp
    · simp only [h, if_false, List.map_cons, List.mem_cons, ih]
      constructor
      · rintro (h | h | h) <;> simp [h]
      · rintro (h | h | h) <;> simp [h]

omit [DecidableEq K] in
theorem nodupKeys_nil : NodupKeys ([] : AMap K V) := by simp [NodupKeys]

theorem nodupKeys_set {m : AMap K V} (hn : NodupKeys m) (k : K) (v : V) :
    NodupKeys (set m k v) := by
  induction m with
  | nil => simp [set, NodupKeys]
  | cons p m ih =>
    obtain ⟨b, c⟩ := p
    have hn' : NodupKeys m := (List.nodup_cons.1 hn).2
    have hna : b ∉ m.map Prod.fst := (List.nodup_cons.1 hn).1
    simp only [set]
    by_cases h : b = k
    · subst h
      simp only [if_true]
      exact List.nodup_cons.2 ⟨hna, hn'⟩
    · simp only [h, if_false]
      refine List.nodup_cons.2 ⟨?_, ih hn'⟩
      intro hm
      rcases (mem_keys_set m k v b).1 hm with h1 | h1
      · exact h h1
      · exact hna h1

theorem nodupKeys_erase {m : AMap K V} (hn : NodupKeys m) (k : K) : NodupKeys (erase m k) := by
  unfold NodupKeys erase at *
  exact hn.sublist (List.Sublist.map _ List.filter_sublist)

theorem get_isSome_iff {m : AMap K V} {k : K} : (∃ v, get m k = some v) ↔ ∃ v, (k, v) ∈ m :=
  ⟨fun ⟨v, h⟩ => ⟨v, mem_of_get h⟩, fun ⟨_, h⟩ => get_isSome_of_mem h⟩

end AMap
end Phasar
