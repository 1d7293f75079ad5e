import Verif.DB.Hexastore
/-!
# Properties of the Hexastore

C75: what `get` returns after any sequence of calls of `put`.
-/
set_option linter.unusedSectionVars false
namespace Phasar.Hexa

/-! ## Tables -/

/-- The keys of an index are unique. -/
structure Keys (ix : Ix) : Prop where
  k1 : ix.t1.Pairwise fun r r' => r.name ≠ r'.name ∧ r.id ≠ r'.id
  k2 : ix.t2.Pairwise fun r r' => ¬ (r.name = r'.name ∧ r.a = r'.a) ∧ r.id ≠ r'.id
  k3 : ix.t3.Pairwise fun r r' => ¬ (r.name = r'.name ∧ r.a = r'.a ∧ r.b = r'.b)
  le1 : ∀ r ∈ ix.t1, r.id ≤ ix.n1
  le2 : ∀ r ∈ ix.t2, r.id ≤ ix.n2

theorem keys_ins1 {t : List R1} (h : t.Pairwise fun r r' => r.name ≠ r'.name ∧ r.id ≠ r'.id) (n : Nat) (hn : ∀ r ∈ t, r.id ≤ n) (x : String) :
    (ins1 t n x).Pairwise fun r r' => r.name ≠ r'.name ∧ r.id ≠ r'.id := by
  unfold ins1
  split
  · exact h
  · rename_i hc
    refine List.pairwise_append.2 ⟨h, by simp, fun r hr r' hr' => ?_⟩
    cases List.mem_singleton.1 hr'
    exact ⟨fun he => hc (List.any_eq_true.2 ⟨r, hr, by simpa using he⟩), fun he => by have h1 := hn r hr; rw [he] at h1; exact absurd h1 (Nat.not_succ_le_self n)⟩

theorem keys_ins2 {t : List R2} (h : t.Pairwise fun r r' => ¬ (r.name = r'.name ∧ r.a = r'.a) ∧ r.id ≠ r'.id) (n : Nat)
    (hn : ∀ r ∈ t, r.id ≤ n) (x : String) (a : Option Nat) : (ins2 t n x a).Pairwise fun r r' => ¬ (r.name = r'.name ∧ r.a = r'.a) ∧ r.id ≠ r'.id := by
  cases a with
  | none => exact h
  | some a =>
    unfold ins2
    dsimp only
    split
    · exact h
    · rename_i hc
      refine List.pairwise_append.2 ⟨h, by simp, fun r hr r' hr' => ?_⟩
      cases List.mem_singleton.1 hr'
      exact ⟨fun he => hc (List.any_eq_true.2 ⟨r, hr, by simpa using he⟩), fun he => by have h1 := hn r hr; rw [he] at h1; exact absurd h1 (Nat.not_succ_le_self n)⟩

theorem keys_ins3 {t : List R3} (h : t.Pairwise fun r r' => ¬ (r.name = r'.name ∧ r.a = r'.a ∧ r.b = r'.b)) (n : Nat) (x : String)
    (a b : Option Nat) : (ins3 t n x a b).Pairwise fun r r' => ¬ (r.name = r'.name ∧ r.a = r'.a ∧ r.b = r'.b) := by
  unfold ins3
  split
  · split
    · exact h
    · rename_i hc
      refine List.pairwise_append.2 ⟨h, by simp, fun r hr r' hr' => ?_⟩
      cases List.mem_singleton.1 hr'
      exact fun he => hc (List.any_eq_true.2 ⟨r, hr, by simpa [and_assoc] using he⟩)
  · exact h

theorem ins1_mono {t : List R1} {n : Nat} {x : String} {r : R1} (h : r ∈ t) : r ∈ ins1 t n x := by
  unfold ins1; split
  · exact h
  · exact List.mem_append_left _ h

theorem ins1_cases {t : List R1} {n : Nat} {x : String} {r : R1} (h : r ∈ ins1 t n x) : r ∈ t ∨ r.name = x ∧ r.id = n + 1 := by
  unfold ins1 at h; split at h
  · exact .inl h
  · rcases List.mem_append.1 h with h | h
    · exact .inl h
    · cases List.mem_singleton.1 h
      exact .inr ⟨rfl, rfl⟩

theorem ins2_mono {t : List R2} {n : Nat} {x : String} {a : Option Nat} {r : R2} (h : r ∈ t) : r ∈ ins2 t n x a := by
  cases a with
  | none => exact h
  | some a =>
    unfold ins2; dsimp only; split
    · exact h
    · exact List.mem_append_left _ h

theorem ins2_cases {t : List R2} {n : Nat} {x : String} {a : Option Nat} {r : R2} (h : r ∈ ins2 t n x a) :
    r ∈ t ∨ r.name = x ∧ a = some r.a ∧ r.id = n + 1 := by
  cases a with
  | none => exact .inl h
  | some a =>
    unfold ins2 at h; dsimp only at h; split at h
    · exact .inl h
    · rcases List.mem_append.1 h with h | h
      · exact .inl h
      · cases List.mem_singleton.1 h
        exact .inr ⟨rfl, rfl, rfl⟩

theorem ins3_mem {t : List R3} {n : Nat} {x : String} {a b : Nat} {m : String} {i j : Nat} :
    (∃ r ∈ ins3 t n x (some a) (some b), r.name = m ∧ r.a = i ∧ r.b = j) ↔
    (∃ r ∈ t, r.name = m ∧ r.a = i ∧ r.b = j) ∨ (m = x ∧ i = a ∧ j = b) := by
  unfold ins3
  dsimp only
  split
  · rename_i h
    refine ⟨.inl, ?_⟩
    rintro (h' | ⟨rfl, rfl, rfl⟩)
    · exact h'
    · obtain ⟨r, hr, he⟩ := List.any_eq_true.1 h
      exact ⟨r, hr, by simpa [and_assoc] using he⟩
  · constructor
    · rintro ⟨r, hr, h⟩
      rcases List.mem_append.1 hr with hr | hr
      · exact .inl ⟨r, hr, h⟩
      · cases List.mem_singleton.1 hr
        exact .inr ⟨h.1.symm, h.2.1.symm, h.2.2.symm⟩
    · rintro (⟨r, hr, h⟩ | ⟨rfl, rfl, rfl⟩)
      · exact ⟨r, List.mem_append_left _ hr, h⟩
      · exact ⟨_, List.mem_append_right _ (List.mem_singleton.2 rfl), rfl, rfl, rfl⟩

theorem le_ins1 {t : List R1} {n : Nat} {gap : Bool} (h : ∀ r ∈ t, r.id ≤ n) (x : String) :
    ∀ r ∈ ins1 t n x, r.id ≤ bump gap n t.length (ins1 t n x).length := by
  intro r hr
  unfold bump
  rcases ins1_cases hr with hr' | ⟨_, he⟩
  · have := h r hr'
    split <;> omega
  · have hne : t.length ≠ (ins1 t n x).length := by
      unfold ins1 at hr ⊢
      split
      · rename_i hc; rw [if_pos hc] at hr; have := h r hr; omega
      · simp
    simp [hne]; omega

theorem le_ins2 {t : List R2} {n : Nat} {gap : Bool} (h : ∀ r ∈ t, r.id ≤ n) (x : String) (a : Nat) :
    ∀ r ∈ ins2 t n x (some a), r.id ≤ bump gap n t.length (ins2 t n x (some a)).length := by
  intro r hr
  unfold bump
  rcases ins2_cases hr with hr' | ⟨_, _, he⟩
  · have := h r hr'
    split <;> omega
  · have hne : t.length ≠ (ins2 t n x (some a)).length := by
      unfold ins2 at hr ⊢
      dsimp only at hr ⊢
      split
      · rename_i hc; rw [if_pos hc] at hr; have := h r hr; omega
      · simp
    simp [hne]; omega

/-- After the insertion the name is found, and it is the only row with this name. -/
theorem sel1_ins1 {t : List R1} (h : t.Pairwise fun r r' => r.name ≠ r'.name ∧ r.id ≠ r'.id) (n : Nat)
    (hn : ∀ r ∈ t, r.id ≤ n) (x : String) :
    ∃ r ∈ ins1 t n x, r.name = x ∧ (ins1 t n x).find? (fun r => r.name == x) = some r ∧ ∀ r' ∈ ins1 t n x, r'.name = x → r' = r := by
  have hex : ∃ r ∈ ins1 t n x, r.name = x := by
    unfold ins1
    split
    · rename_i hc
      obtain ⟨r, hr, he⟩ := List.any_eq_true.1 hc
      exact ⟨r, hr, by simpa using he⟩
    · exact ⟨_, List.mem_append_right _ (List.mem_singleton.2 rfl), rfl⟩
  cases hf : (ins1 t n x).find? (fun r => r.name == x) with
  | none =>
    obtain ⟨r, hr, he⟩ := hex
    exact absurd he (by simpa using List.find?_eq_none.1 hf r hr)
  | some r =>
    have hm := List.mem_of_find?_eq_some hf
    have hx : r.name = x := by simpa using List.find?_some hf
    refine ⟨r, hm, hx, rfl, fun r' hr' hx' => ?_⟩
    refine Classical.byContradiction fun hne => ?_
    have hp := keys_ins1 h n hn x
    rcases List.pairwise_iff_getElem.1 hp with hp
    obtain ⟨i, hi, rfl⟩ := List.getElem_of_mem hm
    obtain ⟨j, hj, rfl⟩ := List.getElem_of_mem hr'
    rcases Nat.lt_trichotomy i j with hij | hij | hij
    · exact (hp i j hi hj hij).1 (hx.trans hx'.symm)
    · subst hij; exact hne rfl
    · exact (hp j i hj hi hij).1 (hx'.trans hx.symm)

theorem sel2_ins2 {t : List R2} (h : t.Pairwise fun r r' => ¬ (r.name = r'.name ∧ r.a = r'.a) ∧ r.id ≠ r'.id) (n : Nat)
    (hn : ∀ r ∈ t, r.id ≤ n) (x : String) (a : Nat) :
    ∃ r ∈ ins2 t n x (some a), r.name = x ∧ r.a = a ∧
      (ins2 t n x (some a)).find? (fun r => r.name == x && some r.a == some a) = some r ∧
      ∀ r' ∈ ins2 t n x (some a), r'.name = x → r'.a = a → r' = r := by
  have hex : ∃ r ∈ ins2 t n x (some a), r.name = x ∧ r.a = a := by
    unfold ins2
    dsimp only
    split
    · rename_i hc
      obtain ⟨r, hr, he⟩ := List.any_eq_true.1 hc
      exact ⟨r, hr, by simpa using he⟩
    · exact ⟨_, List.mem_append_right _ (List.mem_singleton.2 rfl), rfl, rfl⟩
  cases hf : (ins2 t n x (some a)).find? (fun r => r.name == x && some r.a == some a) with
  | none =>
    obtain ⟨r, hr, he⟩ := hex
    exact absurd he (by simpa using List.find?_eq_none.1 hf r hr)
  | some r =>
    have hm := List.mem_of_find?_eq_some hf
    have hx : r.name = x ∧ r.a = a := by simpa using List.find?_some hf
    refine ⟨r, hm, hx.1, hx.2, rfl, fun r' hr' hx' ha' => ?_⟩
    refine Classical.byContradiction fun hne => ?_
    have hp := keys_ins2 h n hn x (some a)
    rcases List.pairwise_iff_getElem.1 hp with hp
    obtain ⟨i, hi, rfl⟩ := List.getElem_of_mem hm
    obtain ⟨j, hj, rfl⟩ := List.getElem_of_mem hr'
    rcases Nat.lt_trichotomy i j with hij | hij | hij
    · exact (hp i j hi hj hij).1 ⟨hx.1.trans hx'.symm, hx.2.trans ha'.symm⟩
    · subst hij; exact hne rfl
    · exact (hp j i hj hi hij).1 ⟨hx'.trans hx.1.symm, ha'.trans hx.2.symm⟩

/-! ## One index -/

/-- The index holds the triples `L` (in the order of its components). -/
structure Holds (ix : Ix) (L : List (String × String × String)) : Prop extends Keys ix where
  ref2 : ∀ r ∈ ix.t2, ∃ r1 ∈ ix.t1, r1.id = r.a
  ref3 : ∀ r ∈ ix.t3, ∃ r1 ∈ ix.t1, ∃ r2 ∈ ix.t2, r1.id = r.a ∧ r2.id = r.b ∧ r2.a = r1.id
  all : ∀ x y z, (x, y, z) ∈ L ↔ ∃ r1 ∈ ix.t1, ∃ r2 ∈ ix.t2, r1.name = x ∧ r2.name = y ∧ r2.a = r1.id ∧
    ∃ r3 ∈ ix.t3, r3.name = z ∧ r3.a = r1.id ∧ r3.b = r2.id

theorem holds_new : Holds {} [] := ⟨⟨by simp, by simp, by simp, by simp, by simp⟩, by simp, by simp, by simp⟩

theorem holds_insert {ix : Ix} {L : List (String × String × String)} (h : Holds ix L) (gap : Bool) (x y z : String) :
    Holds (insertRegular gap ix x y z) ((x, y, z) :: L) := by
  obtain ⟨n1, hn1, hx1, hf1, hu1⟩ := sel1_ins1 h.k1 ix.n1 h.le1 x
  have hs1 : sel1 (ins1 ix.t1 ix.n1 x) x = some n1.id := by simp [sel1, hf1]
  obtain ⟨n2, hn2, hx2, ha2, hf2, hu2⟩ := sel2_ins2 h.k2 ix.n2 h.le2 y n1.id
  have hs2 : sel2 (ins2 ix.t2 ix.n2 y (some n1.id)) y (some n1.id) = some n2.id := by simp only [sel2, hf2, Option.map_some]
  have hk1 := keys_ins1 h.k1 ix.n1 h.le1 x
  have hk2 := keys_ins2 h.k2 ix.n2 h.le2 y (some n1.id)
  unfold insertRegular Ix.step
  simp only [hs1, hs2]
  have id1 : ∀ r ∈ ins1 ix.t1 ix.n1 x, ∀ r' ∈ ins1 ix.t1 ix.n1 x, r.id = r'.id → r = r' := by
    intro r hr r' hr' he
    refine Classical.byContradiction fun hne => ?_
    rcases List.pairwise_iff_getElem.1 hk1 with hp
    obtain ⟨i, hi, rfl⟩ := List.getElem_of_mem hr
    obtain ⟨j, hj, rfl⟩ := List.getElem_of_mem hr'
    rcases Nat.lt_trichotomy i j with hij | hij | hij
    · exact (hp i j hi hj hij).2 he
    · subst hij; exact hne rfl
    · exact (hp j i hj hi hij).2 he.symm
  have id2 : ∀ r ∈ ins2 ix.t2 ix.n2 y (some n1.id), ∀ r' ∈ ins2 ix.t2 ix.n2 y (some n1.id), r.id = r'.id → r = r' := by
    intro r hr r' hr' he
    refine Classical.byContradiction fun hne => ?_
    rcases List.pairwise_iff_getElem.1 hk2 with hp
    obtain ⟨i, hi, rfl⟩ := List.getElem_of_mem hr
    obtain ⟨j, hj, rfl⟩ := List.getElem_of_mem hr'
    rcases Nat.lt_trichotomy i j with hij | hij | hij
    · exact (hp i j hi hj hij).2 he
    · subst hij; exact hne rfl
    · exact (hp j i hj hi hij).2 he.symm
  refine ⟨⟨hk1, hk2, keys_ins3 h.k3 _ z (some n1.id) (some n2.id), le_ins1 h.le1 _, le_ins2 h.le2 _ _⟩, ?_, ?_, ?_⟩
  · dsimp only
    intro r hr
    rcases ins2_cases hr with hr | ⟨_, ha, _⟩
    · obtain ⟨r1, h1, he⟩ := h.ref2 r hr
      exact ⟨r1, ins1_mono h1, he⟩
    · exact ⟨n1, hn1, Option.some.inj ha⟩
  · dsimp only
    intro r hr
    rcases (ins3_mem (m := r.name) (i := r.a) (j := r.b)).1 ⟨r, hr, rfl, rfl, rfl⟩ with ⟨r', hr', h1, h2, h3⟩ | ⟨_, h2, h3⟩
    · obtain ⟨r1, m1, r2, m2, e1, e2, e3⟩ := h.ref3 r' hr'
      exact ⟨r1, ins1_mono m1, r2, ins2_mono m2, e1.trans h2, e2.trans h3, e3⟩
    · exact ⟨n1, hn1, n2, hn2, h2.symm, h3.symm, ha2⟩
  · dsimp only
    intro x' y' z'
    rw [List.mem_cons]
    constructor
    · rintro (he | hm)
      · cases he
        exact ⟨n1, hn1, n2, hn2, hx1, hx2, ha2, ins3_mem.2 (.inr ⟨rfl, rfl, rfl⟩)⟩
      · obtain ⟨r1, m1, r2, m2, e1, e2, e3, e4⟩ := (h.all _ _ _).1 hm
        exact ⟨r1, ins1_mono m1, r2, ins2_mono m2, e1, e2, e3, ins3_mem.2 (.inl e4)⟩
    · rintro ⟨r1, m1, r2, m2, e1, e2, e3, e4⟩
      rcases ins3_mem.1 e4 with ⟨r3, m3, f1, f2, f3⟩ | ⟨f1, f2, f3⟩
      · refine .inr ((h.all _ _ _).2 ?_)
        obtain ⟨s1, p1, s2, p2, g1, g2, g3⟩ := h.ref3 r3 m3
        have q1 : s1 = r1 := id1 _ (ins1_mono p1) _ m1 (g1.trans f2)
        have q2 : s2 = r2 := id2 _ (ins2_mono p2) _ m2 (g2.trans f3)
        subst q1; subst q2
        exact ⟨s1, p1, s2, p2, e1, e2, e3, r3, m3, f1, f2, f3⟩
      · left
        cases id1 _ m1 _ hn1 f2
        cases id2 _ m2 _ hn2 f3
        rw [← e1, ← e2, f1, hx1, hx2]

theorem insertPOS_eq {ix : Ix} (h : Keys ix) (gap : Bool) (p o s : String) : insertPOS gap ix p o s = insertRegular gap ix p o s := by
  obtain ⟨n1, hn1, hx1, hf1, hu1⟩ := sel1_ins1 h.k1 ix.n1 h.le1 p
  have hs1 : sel1 (ins1 ix.t1 ix.n1 p) p = some n1.id := by simp [sel1, hf1]
  obtain ⟨n2, hn2, hx2, ha2, hf2, hu2⟩ := sel2_ins2 h.k2 ix.n2 h.le2 o n1.id
  unfold insertPOS insertRegular Ix.step
  simp only [hs1, hf2, Option.map_some, ha2]

theorem insertOSP_eq {ix : Ix} (h : Keys ix) (gap : Bool) (o s p : String) : insertOSP gap ix o s p = insertRegular gap ix o s p := by
  obtain ⟨n1, hn1, hx1, hf1, hu1⟩ := sel1_ins1 h.k1 ix.n1 h.le1 o
  have hs1 : sel1 (ins1 ix.t1 ix.n1 o) o = some n1.id := by simp [sel1, hf1]
  have hf : (ins1 ix.t1 ix.n1 o).find? (fun r => r.name == o && some r.id == some n1.id) = some n1 := by
    cases hf : (ins1 ix.t1 ix.n1 o).find? (fun r => r.name == o && some r.id == some n1.id) with
    | none => exact absurd (List.find?_eq_none.1 hf n1 hn1) (by simp [hx1])
    | some r =>
      have hm := List.mem_of_find?_eq_some hf
      have hx : r.name = o ∧ r.id = n1.id := by simpa using List.find?_some hf
      rw [hu1 r hm hx.1]
  unfold insertOSP insertRegular Ix.step
  simp only [hs1, hf, Option.map_some]

/-! ## Searches -/

theorem mem_join {ix : Ix} {L : List (String × String × String)} (h : Holds ix L) {w1 w2 w3 : String → Bool} {x y z : String} :
    (x, y, z) ∈ joinRegular ix w1 w2 w3 ↔ (x, y, z) ∈ L ∧ w1 x = true ∧ w2 y = true ∧ w3 z = true := by
  rw [h.all]
  simp only [joinRegular, List.mem_flatMap, List.mem_map, List.mem_filter, Bool.and_eq_true, beq_iff_eq, Prod.mk.injEq]
  constructor
  · rintro ⟨r1, ⟨m1, c1⟩, r2, ⟨m2, e2, c2⟩, r3, ⟨m3, ⟨e3, e4⟩, c3⟩, rfl, rfl, rfl⟩
    exact ⟨⟨r1, m1, r2, m2, rfl, rfl, e2.symm, r3, m3, rfl, e4.symm, e3.symm⟩, c1, c2, c3⟩
  · rintro ⟨⟨r1, m1, r2, m2, rfl, rfl, e2, r3, m3, rfl, e4, e3⟩, c1, c2, c3⟩
    exact ⟨r1, ⟨m1, c1⟩, r2, ⟨m2, e2.symm, c2⟩, r3, ⟨m3, ⟨e3.symm, e4.symm⟩, c3⟩, rfl, rfl, rfl⟩

theorem nodup_join {ix : Ix} (h : Keys ix) (w1 w2 w3 : String → Bool) : (joinRegular ix w1 w2 w3).Nodup := by
  unfold joinRegular
  refine List.pairwise_flatMap.2 ⟨fun r1 _ => List.pairwise_flatMap.2 ⟨fun r2 _ => ?_, ?_⟩, ?_⟩
  · rw [List.pairwise_map]
    refine (List.Pairwise.filter _ h.k3).imp_of_mem fun {r r'} hr hr' hne he => ?_
    simp only [List.mem_filter, Bool.and_eq_true, beq_iff_eq] at hr hr'
    simp only [Prod.mk.injEq, true_and] at he
    exact hne ⟨he, hr.2.1.2.symm.trans hr'.2.1.2, hr.2.1.1.symm.trans hr'.2.1.1⟩
  · refine (List.Pairwise.filter _ h.k2).imp_of_mem fun {r r'} hr hr' hne t ht t' ht' he => ?_
    simp only [List.mem_filter, Bool.and_eq_true, beq_iff_eq] at hr hr'
    obtain ⟨_, _, rfl⟩ := List.mem_map.1 ht
    obtain ⟨_, _, rfl⟩ := List.mem_map.1 ht'
    simp only [Prod.mk.injEq, true_and] at he
    exact hne.1 ⟨he.1, hr.2.1.symm.trans hr'.2.1⟩
  · refine (List.Pairwise.filter _ h.k1).imp fun {r r'} hne t ht t' ht' he => ?_
    obtain ⟨_, _, ht⟩ := List.mem_flatMap.1 ht
    obtain ⟨_, _, ht'⟩ := List.mem_flatMap.1 ht'
    obtain ⟨_, _, rfl⟩ := List.mem_map.1 ht
    obtain ⟨_, _, rfl⟩ := List.mem_map.1 ht'
    simp only [Prod.mk.injEq] at he
    exact hne.1 he.1

/-! ## The store -/

/-- The store after a sequence of calls of `put`. -/
def DB.puts (gap : Bool) (db : DB) (L : List Triple) : DB := L.foldl (DB.put gap) db

/-- A component of a query matches: `?` matches everything. -/
def Matches (q x : String) : Prop := q = "?" ∨ x = q

/-- The five indexes that are searched hold the triples. -/
structure Stored (db : DB) (L : List Triple) : Prop where
  spo : Holds db.spo (L.map fun t => (t.s, t.p, t.o))
  sop : Holds db.sop (L.map fun t => (t.s, t.o, t.p))
  pso : Holds db.pso (L.map fun t => (t.p, t.s, t.o))
  pos : Holds db.pos (L.map fun t => (t.p, t.o, t.s))
  osp : Holds db.osp (L.map fun t => (t.o, t.s, t.p))

theorem stored_put {db : DB} {L : List Triple} (gap : Bool) (h : Stored db L) (t : Triple) : Stored (db.put gap t) (t :: L) where
  spo := holds_insert h.spo _ _ _ _
  sop := holds_insert h.sop _ _ _ _
  pso := holds_insert h.pso _ _ _ _
  pos := by
    show Holds (insertPOS gap db.pos t.p t.o t.s) _
    rw [insertPOS_eq h.pos.toKeys]; exact holds_insert h.pos _ _ _ _
  osp := by
    show Holds (insertOSP gap db.osp t.o t.s t.p) _
    rw [insertOSP_eq h.osp.toKeys]; exact holds_insert h.osp _ _ _ _

theorem stored_puts (gap : Bool) : ∀ (L : List Triple) {db : DB} {M : List Triple}, Stored db M → Stored (db.puts gap L) (L.reverse ++ M)
  | [], _, _, h => h
  | t :: L, db, M, h => by
    have := stored_puts gap L (stored_put gap h t)
    rw [List.reverse_cons, List.append_assoc]
    exact this

theorem stored_new (gap : Bool) (L : List Triple) : Stored (DB.new.puts gap L) L.reverse := by
  have := stored_puts gap L (db := DB.new) (M := []) ⟨holds_new, holds_new, holds_new, holds_new, holds_new⟩
  simpa using this

/-- C75: for every query except those that give subject and object but not the predicate, `get` returns exactly the triples that
have been put and match, each once. -/
theorem C75_get (gap : Bool) (L : List Triple) (q : Triple) (hq : ¬ (q.s ≠ "?" ∧ q.p = "?" ∧ q.o ≠ "?")) :
    (∀ t, t ∈ (DB.new.puts gap L).get q ↔ t ∈ L ∧ Matches q.s t.s ∧ Matches q.p t.p ∧ Matches q.o t.o) ∧
    ((DB.new.puts gap L).get q).Nodup := by
  have h := stored_new gap L
  obtain ⟨qs, qp, qo⟩ := q
  unfold DB.get
  dsimp only at hq ⊢
  have inj0 : ∀ (a b : String × String × String), a.1 = b.1 → a.2.1 = b.2.1 → a.2.2 = b.2.2 → a = b := fun a b h1 h2 h3 =>
    Prod.ext h1 (Prod.ext h2 h3)
  have nd : ∀ {ix : Ix} (hk : Keys ix) (w1 w2 w3 : String → Bool) (f : String × String × String → Triple),
      (∀ a b, f a = f b → a = b) → ((joinRegular ix w1 w2 w3).map f).Nodup := fun hk w1 w2 w3 f hf => by
    unfold List.Nodup
    rw [List.pairwise_map]
    exact (nodup_join hk w1 w2 w3).imp fun hne he => hne (hf _ _ he)
  have mm : ∀ {ix : Ix} {M : List (String × String × String)} (hk : Holds ix M) (w1 w2 w3 : String → Bool)
      (f : String × String × String → Triple) (g : Triple → String × String × String), (∀ a, g (f a) = a) → (∀ t, f (g t) = t) →
      M = L.reverse.map g → ∀ t, t ∈ (joinRegular ix w1 w2 w3).map f ↔
        t ∈ L ∧ w1 (g t).1 = true ∧ w2 (g t).2.1 = true ∧ w3 (g t).2.2 = true := by
    intro ix M hk w1 w2 w3 f g hgf hfg hM t
    rw [List.mem_map]
    have : t ∈ L ↔ g t ∈ M := by
      rw [hM, List.mem_map]
      constructor
      · intro ht; exact ⟨t, List.mem_reverse.2 ht, rfl⟩
      · rintro ⟨t', ht', he⟩
        have := congrArg f he
        rw [hfg, hfg] at this
        exact this ▸ List.mem_reverse.1 ht'
    rw [this]
    constructor
    · rintro ⟨a, ha, rfl⟩
      rw [hgf]
      exact (mem_join hk (x := a.1) (y := a.2.1) (z := a.2.2)).1 ha
    · intro ht
      exact ⟨g t, (mem_join hk (x := (g t).1) (y := (g t).2.1) (z := (g t).2.2)).2 ht, hfg t⟩
  split
  · rename_i e1
    split
    · rename_i e2
      split
      · rename_i e3
        refine ⟨fun t => ?_, nd h.spo.toKeys _ _ _ _ (fun a b he => by simp only [Triple.mk.injEq] at he; exact inj0 a b (by simp [he]) (by simp [he]) (by simp [he]))⟩
        rw [mm h.spo _ _ _ _ (fun t => (t.s, t.p, t.o)) (fun _ => rfl) (fun _ => rfl) rfl]
        simp [anyName, Matches, e1, e2, e3]
      · rename_i e3
        refine ⟨fun t => ?_, nd h.osp.toKeys _ _ _ _ (fun a b he => by simp only [Triple.mk.injEq] at he; exact inj0 a b (by simp [he]) (by simp [he]) (by simp [he]))⟩
        rw [mm h.osp _ _ _ _ (fun t => (t.o, t.s, t.p)) (fun _ => rfl) (fun _ => rfl) rfl]
        simp [anyName, isName, Matches, e1, e2, e3]
    · rename_i e2
      split
      · rename_i e3
        refine ⟨fun t => ?_, nd h.pso.toKeys _ _ _ _ (fun a b he => by simp only [Triple.mk.injEq] at he; exact inj0 a b (by simp [he]) (by simp [he]) (by simp [he]))⟩
        rw [mm h.pso _ _ _ _ (fun t => (t.p, t.s, t.o)) (fun _ => rfl) (fun _ => rfl) rfl]
        simp [anyName, isName, Matches, e1, e2, e3]
      · rename_i e3
        refine ⟨fun t => ?_, nd h.pos.toKeys _ _ _ _ (fun a b he => by simp only [Triple.mk.injEq] at he; exact inj0 a b (by simp [he]) (by simp [he]) (by simp [he]))⟩
        rw [mm h.pos _ _ _ _ (fun t => (t.p, t.o, t.s)) (fun _ => rfl) (fun _ => rfl) rfl]
        simp [anyName, isName, Matches, e1, e2, e3]
  · rename_i e1
    split
    · rename_i e2
      split
      · rename_i e3
        refine ⟨fun t => ?_, nd h.spo.toKeys _ _ _ _ (fun a b he => by simp only [Triple.mk.injEq] at he; exact inj0 a b (by simp [he]) (by simp [he]) (by simp [he]))⟩
        rw [mm h.spo _ _ _ _ (fun t => (t.s, t.p, t.o)) (fun _ => rfl) (fun _ => rfl) rfl]
        simp [anyName, isName, Matches, e1, e2, e3]
      · rename_i e3
        exact absurd ⟨e1, e2, e3⟩ hq
    · rename_i e2
      split
      · rename_i e3
        refine ⟨fun t => ?_, nd h.spo.toKeys _ _ _ _ (fun a b he => by simp only [Triple.mk.injEq] at he; exact inj0 a b (by simp [he]) (by simp [he]) (by simp [he]))⟩
        rw [mm h.spo _ _ _ _ (fun t => (t.s, t.p, t.o)) (fun _ => rfl) (fun _ => rfl) rfl]
        simp [anyName, isName, Matches, e1, e2, e3]
      · rename_i e3
        refine ⟨fun t => ?_, nd h.spo.toKeys _ _ _ _ (fun a b he => by simp only [Triple.mk.injEq] at he; exact inj0 a b (by simp [he]) (by simp [he]) (by simp [he]))⟩
        rw [mm h.spo _ _ _ _ (fun t => (t.s, t.p, t.o)) (fun _ => rfl) (fun _ => rfl) rfl]
        simp [isName, Matches, e1, e2, e3]

/-! ## The search for the predicates -/

/-- The third component of the first triple put with the given first and second (`L` has the last triple first). -/
def first (L : List (String × String × String)) (x y : String) : Option String :=
  (L.reverse.find? fun t => t.1 == x && t.2.1 == y).map (·.2.2)

theorem first_cons (L : List (String × String × String)) (x y z x' y' : String) :
    first ((x, y, z) :: L) x' y' = (first L x' y').or (if x = x' ∧ y = y' then some z else none) := by
  unfold first
  rw [List.reverse_cons, List.find?_append]
  cases h : L.reverse.find? fun t => t.1 == x' && t.2.1 == y' with
  | some t => rfl
  | none =>
    by_cases hx : x = x' ∧ y = y'
    · obtain ⟨rfl, rfl⟩ := hx
      simp
    · rw [if_neg hx]
      have : (x == x' && y == y') = false := by
        cases hb : (x == x' && y == y') with
        | false => rfl
        | true => exact absurd (by simpa using hb) hx
      simp [this]

theorem first_mem {L : List (String × String × String)} {x y z : String} (h : first L x y = some z) : (x, y, z) ∈ L := by
  unfold first at h
  obtain ⟨t, ht, rfl⟩ := Option.map_eq_some_iff.1 h
  have h1 := List.mem_reverse.1 (List.mem_of_find?_eq_some ht)
  have h2 := List.find?_some ht
  simp only [Bool.and_eq_true, beq_iff_eq] at h2
  rw [← h2.1, ← h2.2]
  exact h1

theorem first_none {L : List (String × String × String)} {x y z : String} (h : first L x y = none) : (x, y, z) ∉ L := by
  unfold first at h
  intro hm
  have := List.find?_eq_none.1 (Option.map_eq_none_iff.1 h) _ (List.mem_reverse.2 hm)
  simp at this

/-- Second and third table have been filled in step: the row of the third table with the id of a row of the second belongs to it. -/
structure Lock (ix : Ix) (L : List (String × String × String)) : Prop where
  eqn : ix.n2 = ix.n3
  le3 : ∀ r ∈ ix.t3, r.id ≤ ix.n3
  id3 : ix.t3.Pairwise fun r r' => r.id ≠ r'.id
  pair : ∀ r2 ∈ ix.t2, ∀ r3 ∈ ix.t3, r3.id = r2.id → r3.a = r2.a ∧ r3.b = r2.id
  fst : ∀ r1 ∈ ix.t1, ∀ r2 ∈ ix.t2, r2.a = r1.id → ∃ r3 ∈ ix.t3, r3.id = r2.id ∧ first L r1.name r2.name = some r3.name

theorem lock_new : Lock {} [] := ⟨rfl, by simp, by simp, by simp, by simp⟩

theorem id_eq1 {t : List R1} (h : t.Pairwise fun r r' => r.name ≠ r'.name ∧ r.id ≠ r'.id) {r r' : R1} (hr : r ∈ t) (hr' : r' ∈ t)
    (he : r.id = r'.id) : r = r' := by
  refine Classical.byContradiction fun hne => ?_
  rcases List.pairwise_iff_getElem.1 h with hp
  obtain ⟨i, hi, rfl⟩ := List.getElem_of_mem hr
  obtain ⟨j, hj, rfl⟩ := List.getElem_of_mem hr'
  rcases Nat.lt_trichotomy i j with hij | hij | hij
  · exact (hp i j hi hj hij).2 he
  · subst hij; exact hne rfl
  · exact (hp j i hj hi hij).2 he.symm

theorem id_eq3 {t : List R3} (h : t.Pairwise fun r r' => r.id ≠ r'.id) {r r' : R3} (hr : r ∈ t) (hr' : r' ∈ t)
    (he : r.id = r'.id) : r = r' := by
  refine Classical.byContradiction fun hne => ?_
  rcases List.pairwise_iff_getElem.1 h with hp
  obtain ⟨i, hi, rfl⟩ := List.getElem_of_mem hr
  obtain ⟨j, hj, rfl⟩ := List.getElem_of_mem hr'
  rcases Nat.lt_trichotomy i j with hij | hij | hij
  · exact hp i j hi hj hij he
  · subst hij; exact hne rfl
  · exact hp j i hj hi hij he.symm

theorem lock_insert {ix : Ix} {L : List (String × String × String)} (h : Holds ix L) (hl : Lock ix L) (gap : Bool) (x y z : String)
    (hg : gap = true ∨ ∀ z', (x, y, z') ∈ L → z' = z) : Lock (insertRegular gap ix x y z) ((x, y, z) :: L) := by
  obtain ⟨m1, hm1, hx1, hf1, hu1⟩ := sel1_ins1 h.k1 ix.n1 h.le1 x
  have hs1 : sel1 (ins1 ix.t1 ix.n1 x) x = some m1.id := by simp [sel1, hf1]
  obtain ⟨m2, hm2, hx2, ha2, hf2, hu2⟩ := sel2_ins2 h.k2 ix.n2 h.le2 y m1.id
  have hs2 : sel2 (ins2 ix.t2 ix.n2 y (some m1.id)) y (some m1.id) = some m2.id := by simp only [sel2, hf2, Option.map_some]
  have hk1 := keys_ins1 h.k1 ix.n1 h.le1 x
  unfold insertRegular Ix.step
  simp only [hs1, hs2]
  -- rows of the second table that were there refer to rows of the first that were there
  have old1 : ∀ r1 ∈ ins1 ix.t1 ix.n1 x, ∀ r2 ∈ ix.t2, r2.a = r1.id → r1 ∈ ix.t1 := by
    intro r1 h1 r2 h2 he
    obtain ⟨r1', h1', he'⟩ := h.ref2 r2 h2
    rw [id_eq1 hk1 h1 (ins1_mono h1') (he.symm.trans he'.symm)]
    exact h1'
  have keep : ∀ x' y' z', first L x' y' = some z' → first ((x, y, z) :: L) x' y' = some z' := by
    intro x' y' z' he
    rw [first_cons, he]; rfl
  by_cases hany : ix.t2.any (fun r => r.name == y && r.a == m1.id) = true
  · -- the pair was there
    have ht2 : ins2 ix.t2 ix.n2 y (some m1.id) = ix.t2 := by unfold ins2; simp only [hany, if_true]
    rw [ht2] at hm2
    have hm1' := old1 m1 hm1 m2 hm2 ha2
    obtain ⟨r3, hr3, he3, hfst⟩ := hl.fst m1 hm1' m2 hm2 ha2
    obtain ⟨pa, pb⟩ := hl.pair m2 hm2 r3 hr3 he3
    rw [hx1, hx2] at hfst
    have hfst' : ∀ r1 ∈ ins1 ix.t1 ix.n1 x, ∀ r2 ∈ ix.t2, r2.a = r1.id →
        ∃ r3 ∈ ix.t3, r3.id = r2.id ∧ first ((x, y, z) :: L) r1.name r2.name = some r3.name := by
      intro r1 h1 r2 h2 he
      obtain ⟨r3', a, b, c⟩ := hl.fst r1 (old1 r1 h1 r2 h2 he) r2 h2 he
      exact ⟨r3', a, b, keep _ _ _ c⟩
    rw [ht2]
    by_cases hany3 : ix.t3.any (fun r => r.name == z && r.a == m1.id && r.b == m2.id) = true
    · have ht3 : ins3 ix.t3 ix.n3 z (some m1.id) (some m2.id) = ix.t3 := by unfold ins3; simp only [hany3, if_true]
      rw [ht3]
      refine ⟨by simp [bump, hl.eqn], fun r hr => ?_, hl.id3, hl.pair, hfst'⟩
      have := hl.le3 r hr
      show r.id ≤ bump gap ix.n3 ix.t3.length ix.t3.length
      unfold bump; split <;> omega
    · have hgap : gap = true := by
        rcases hg with hg | hg
        · exact hg
        · refine absurd (List.any_eq_true.2 ⟨r3, hr3, ?_⟩) hany3
          rw [hg _ (first_mem hfst), pa, pb, ha2]
          simp
      have ht3 : ins3 ix.t3 ix.n3 z (some m1.id) (some m2.id) = ix.t3 ++ [⟨ix.n3 + 1, z, m1.id, m2.id⟩] := by
        unfold ins3; simp only [hany3]; rfl
      rw [ht3]
      refine ⟨by simp [bump, hgap, hl.eqn], fun r hr => ?_, ?_, fun r2 h2 r hr he => ?_, fun r1 h1 r2 h2 he => ?_⟩
      · show r.id ≤ bump gap _ _ _
        simp only [bump, hgap, Bool.true_or, if_true]
        rcases List.mem_append.1 hr with hr | hr
        · have := hl.le3 r hr; omega
        · cases List.mem_singleton.1 hr; exact Nat.le_refl _
      · refine List.pairwise_append.2 ⟨hl.id3, by simp, fun r hr r' hr' he => ?_⟩
        cases List.mem_singleton.1 hr'
        have := hl.le3 r hr
        rw [he] at this
        exact absurd this (Nat.not_succ_le_self _)
      · rcases List.mem_append.1 hr with hr | hr
        · exact hl.pair r2 h2 r hr he
        · cases List.mem_singleton.1 hr
          have h3 := h.le2 r2 h2
          have h4 := hl.eqn
          dsimp only at he
          omega
      · obtain ⟨r3', a, b⟩ := hfst' r1 h1 r2 h2 he
        exact ⟨r3', List.mem_append_left _ a, b⟩
  · -- the pair is new
    have ht2 : ins2 ix.t2 ix.n2 y (some m1.id) = ix.t2 ++ [⟨ix.n2 + 1, y, m1.id⟩] := by
      unfold ins2; simp only [hany]; rfl
    have hid2 : m2.id = ix.n2 + 1 := by
      rcases ins2_cases hm2 with hm | ⟨_, _, he⟩
      · exact absurd (List.any_eq_true.2 ⟨m2, hm, by simp [hx2, ha2]⟩) hany
      · exact he
    have hany3 : ¬ ix.t3.any (fun r => r.name == z && r.a == m1.id && r.b == m2.id) = true := by
      intro hc
      obtain ⟨r3, hr3, he⟩ := List.any_eq_true.1 hc
      simp only [Bool.and_eq_true, beq_iff_eq] at he
      obtain ⟨_, _, r2, p2, _, g2, _⟩ := h.ref3 r3 hr3
      have h3 := h.le2 r2 p2
      rw [g2, he.2, hid2] at h3
      exact absurd h3 (Nat.not_succ_le_self _)
    have ht3 : ins3 ix.t3 ix.n3 z (some m1.id) (some m2.id) = ix.t3 ++ [⟨ix.n3 + 1, z, m1.id, m2.id⟩] := by
      unfold ins3; simp only [hany3]; rfl
    have b2 : bump gap ix.n2 ix.t2.length (ins2 ix.t2 ix.n2 y (some m1.id)).length = ix.n2 + 1 := by
      rw [ht2]; simp [bump]
    have b3 : bump gap ix.n3 ix.t3.length (ins3 ix.t3 ix.n3 z (some m1.id) (some m2.id)).length = ix.n3 + 1 := by
      rw [ht3]; simp [bump]
    rw [b2, b3, ht2, ht3]
    refine ⟨by simp [hl.eqn], fun r hr => ?_, ?_, fun r2 h2 r hr he => ?_, fun r1 h1 r2 h2 he => ?_⟩
    · show r.id ≤ ix.n3 + 1
      rcases List.mem_append.1 hr with hr | hr
      · have := hl.le3 r hr; omega
      · cases List.mem_singleton.1 hr; exact Nat.le_refl _
    · refine List.pairwise_append.2 ⟨hl.id3, by simp, fun r hr r' hr' he => ?_⟩
      cases List.mem_singleton.1 hr'
      have := hl.le3 r hr
      rw [he] at this
      exact absurd this (Nat.not_succ_le_self _)
    · rcases List.mem_append.1 hr with hr | hr
      · rcases List.mem_append.1 h2 with h2 | h2
        · exact hl.pair r2 h2 r hr he
        · cases List.mem_singleton.1 h2
          have h3 := hl.le3 r hr
          have h4 := hl.eqn
          dsimp only at he
          omega
      · rcases List.mem_append.1 h2 with h2 | h2
        · cases List.mem_singleton.1 hr
          have h3 := h.le2 r2 h2
          have h4 := hl.eqn
          dsimp only at he
          omega
        · cases List.mem_singleton.1 hr
          cases List.mem_singleton.1 h2
          exact ⟨rfl, hid2⟩
    · rcases List.mem_append.1 h2 with h2 | h2
      · obtain ⟨r3', a, b, c⟩ := hl.fst r1 (old1 r1 h1 r2 h2 he) r2 h2 he
        exact ⟨r3', List.mem_append_left _ a, b, keep _ _ _ c⟩
      · cases List.mem_singleton.1 h2
        refine ⟨_, List.mem_append_right _ (List.mem_singleton.2 rfl), by simp [hl.eqn], ?_⟩
        cases id_eq1 hk1 h1 hm1 he.symm
        rw [first_cons, hx1]
        cases hfl : first L x y with
        | none => simp
        | some z' =>
          obtain ⟨r1, p1, r2, p2, e1, e2, e3, _⟩ := (h.all _ _ _).1 (first_mem hfl)
          cases hu1 r1 (ins1_mono p1) e1
          exact absurd (List.any_eq_true.2 ⟨r2, p2, by simp [e2, e3]⟩) hany

theorem mem_joinSXO {ix : Ix} {L : List (String × String × String)} (h : Holds ix L) (hl : Lock ix L) {w1 w2 w3 : String → Bool}
    {x y z : String} :
    (x, y, z) ∈ joinSXO ix w1 w2 w3 ↔ first L x y = some z ∧ w1 x = true ∧ w2 y = true ∧ w3 z = true := by
  simp only [joinSXO, List.mem_flatMap, List.mem_map, List.mem_filter, Bool.and_eq_true, beq_iff_eq, Prod.mk.injEq]
  constructor
  · rintro ⟨r1, ⟨m1, c1⟩, r2, ⟨m2, e2, c2⟩, r3, ⟨m3, ⟨e3, e4⟩, c3⟩, rfl, rfl, rfl⟩
    obtain ⟨r3', m3', e5, e6⟩ := hl.fst r1 m1 r2 m2 e2.symm
    cases id_eq3 hl.id3 m3 m3' (e3.symm.trans e5.symm)
    exact ⟨e6, c1, c2, c3⟩
  · rintro ⟨hf, c1, c2, c3⟩
    obtain ⟨r1, m1, r2, m2, rfl, rfl, e3, _⟩ := (h.all _ _ _).1 (first_mem hf)
    obtain ⟨r3, m3, e5, e6⟩ := hl.fst r1 m1 r2 m2 e3
    cases Option.some.inj (hf.symm.trans e6)
    exact ⟨r1, ⟨m1, c1⟩, r2, ⟨m2, e3.symm, c2⟩, r3, ⟨m3, ⟨e5.symm, by rw [(hl.pair r2 m2 r3 m3 e5).1, e3]⟩, c3⟩, rfl, rfl, rfl⟩

theorem nodup_joinSXO {ix : Ix} {L : List (String × String × String)} (h : Keys ix) (hl : Lock ix L) (w1 w2 w3 : String → Bool) :
    (joinSXO ix w1 w2 w3).Nodup := by
  unfold joinSXO
  refine List.pairwise_flatMap.2 ⟨fun r1 _ => List.pairwise_flatMap.2 ⟨fun r2 _ => ?_, ?_⟩, ?_⟩
  · rw [List.pairwise_map]
    refine (List.Pairwise.filter _ hl.id3).imp_of_mem fun {r r'} hr hr' hne he => ?_
    simp only [List.mem_filter, Bool.and_eq_true, beq_iff_eq] at hr hr'
    exact hne (hr.2.1.1.symm.trans hr'.2.1.1)
  · refine (List.Pairwise.filter _ h.k2).imp_of_mem fun {r r'} hr hr' hne t ht t' ht' he => ?_
    simp only [List.mem_filter, Bool.and_eq_true, beq_iff_eq] at hr hr'
    obtain ⟨_, _, rfl⟩ := List.mem_map.1 ht
    obtain ⟨_, _, rfl⟩ := List.mem_map.1 ht'
    simp only [Prod.mk.injEq, true_and] at he
    exact hne.1 ⟨he.1, hr.2.1.symm.trans hr'.2.1⟩
  · refine (List.Pairwise.filter _ h.k1).imp fun {r r'} hne t ht t' ht' he => ?_
    obtain ⟨_, _, ht⟩ := List.mem_flatMap.1 ht
    obtain ⟨_, _, ht'⟩ := List.mem_flatMap.1 ht'
    obtain ⟨_, _, rfl⟩ := List.mem_map.1 ht
    obtain ⟨_, _, rfl⟩ := List.mem_map.1 ht'
    simp only [Prod.mk.injEq] at he
    exact hne.1 he.1

/-- No subject and object are connected by two predicates. -/
def OnePredicate (L : List Triple) : Prop := ∀ t ∈ L, ∀ t' ∈ L, t.s = t'.s → t.o = t'.o → t.p = t'.p

theorem lock_puts (gap : Bool) : ∀ (L : List Triple) {db : DB} {M : List Triple}, Stored db M →
    Lock db.sop (M.map fun t => (t.s, t.o, t.p)) → (gap = true ∨ OnePredicate (L.reverse ++ M)) →
    Lock (db.puts gap L).sop ((L.reverse ++ M).map fun t => (t.s, t.o, t.p))
  | [], _, _, _, hl, _ => hl
  | t :: L, db, M, h, hl, hg => by
    rw [List.reverse_cons, List.append_assoc] at hg ⊢
    refine lock_puts gap L (stored_put gap h t) (lock_insert h.sop hl gap t.s t.o t.p (hg.imp id fun hg z' hz => ?_)) hg
    obtain ⟨t', ht', he⟩ := List.mem_map.1 hz
    simp only [Prod.mk.injEq] at he
    rw [← he.2.2]
    exact hg t' (by simp [ht']) t (by simp) he.1 he.2.1

theorem first_rev (L : List Triple) (t : Triple) :
    first (L.reverse.map fun t => (t.s, t.o, t.p)) t.s t.o = some t.p ↔ L.find? (fun t' => t'.s == t.s && t'.o == t.o) = some t := by
  unfold first
  rw [← List.map_reverse, List.reverse_reverse, List.find?_map]
  constructor
  · intro h
    obtain ⟨a, ha, he⟩ := Option.map_eq_some_iff.1 h
    obtain ⟨b, hb, rfl⟩ := Option.map_eq_some_iff.1 ha
    have h2 := List.find?_some hb
    simp only [Function.comp, Bool.and_eq_true, beq_iff_eq] at h2
    dsimp only at he
    have : b = t := by
      obtain ⟨bs, bp, bo⟩ := b
      obtain ⟨ts, tp, to⟩ := t
      simp only at h2 he ⊢
      rw [h2.1, h2.2, he]
    rw [← this] at hb ⊢
    exact hb
  · intro h
    have : L.find? ((fun t' => t'.1 == t.s && t'.2.1 == t.o) ∘ fun t => (t.s, t.o, t.p)) = some t := h
    rw [this]; rfl

theorem get_sxo (gap : Bool) (L : List Triple) (hg : gap = true ∨ OnePredicate L) {s o : String} (hs : s ≠ "?") (ho : o ≠ "?") :
    (∀ t, t ∈ (DB.new.puts gap L).get ⟨s, "?", o⟩ ↔
      t.s = s ∧ t.o = o ∧ L.find? (fun t' => t'.s == s && t'.o == o) = some t) ∧
    ((DB.new.puts gap L).get ⟨s, "?", o⟩).Nodup := by
  have h := stored_new gap L
  have hl : Lock (DB.new.puts gap L).sop (L.reverse.map fun t => (t.s, t.o, t.p)) := by
    have := lock_puts gap L (db := DB.new) (M := []) ⟨holds_new, holds_new, holds_new, holds_new, holds_new⟩ lock_new
      (hg.imp id fun hg => by intro t ht t' ht'; exact hg t (by simpa using ht) t' (by simpa using ht'))
    rwa [List.append_nil] at this
  have hget : (DB.new.puts gap L).get ⟨s, "?", o⟩ =
      (joinSXO (DB.new.puts gap L).sop (isName s) (isName o) anyName).map fun x => ⟨x.1, x.2.2, x.2.1⟩ := by
    simp [DB.get, hs, ho]
  rw [hget]
  refine ⟨fun t => ?_, ?_⟩
  · have hm : t ∈ (joinSXO (DB.new.puts gap L).sop (isName s) (isName o) anyName).map (fun x => (⟨x.1, x.2.2, x.2.1⟩ : Triple)) ↔
        (t.s, t.o, t.p) ∈ joinSXO (DB.new.puts gap L).sop (isName s) (isName o) anyName := by
      rw [List.mem_map]
      constructor
      · rintro ⟨a, ha, rfl⟩; exact ha
      · intro ha; exact ⟨_, ha, rfl⟩
    rw [hm, mem_joinSXO h.sop hl]
    simp only [isName, anyName, beq_iff_eq, and_true]
    constructor
    · rintro ⟨hf, rfl, rfl⟩
      exact ⟨rfl, rfl, (first_rev L t).1 hf⟩
    · rintro ⟨rfl, rfl, hf⟩
      exact ⟨(first_rev L t).2 hf, rfl, rfl⟩
  · unfold List.Nodup
    rw [List.pairwise_map]
    refine (nodup_joinSXO h.sop.toKeys hl _ _ _).imp fun {a b} hne he => hne ?_
    simp only [Triple.mk.injEq] at he
    exact Prod.ext he.1 (Prod.ext he.2.2 he.2.1)

/-- C75 (`_partial`: only for stores in which no subject and object are connected by two predicates; see `C75_sxo_false`): a query
for the predicates between a subject and an object returns exactly the triples that have been put and match, each once. -/
theorem C75_sxo_partial (gap : Bool) (L : List Triple) (hL : OnePredicate L) (s o : String) (hs : s ≠ "?") (ho : o ≠ "?") :
    (∀ t, t ∈ (DB.new.puts gap L).get ⟨s, "?", o⟩ ↔ t ∈ L ∧ t.s = s ∧ t.o = o) ∧
    ((DB.new.puts gap L).get ⟨s, "?", o⟩).Nodup := by
  obtain ⟨h1, h2⟩ := get_sxo gap L (.inr hL) hs ho
  refine ⟨fun t => ?_, h2⟩
  rw [h1]
  constructor
  · rintro ⟨rfl, rfl, hf⟩
    exact ⟨List.mem_of_find?_eq_some hf, rfl, rfl⟩
  · rintro ⟨hm, rfl, rfl⟩
    refine ⟨rfl, rfl, ?_⟩
    cases hf : L.find? (fun t' => t'.s == t.s && t'.o == t.o) with
    | none => exact absurd (List.find?_eq_none.1 hf t hm) (by simp)
    | some b =>
      have hb := List.find?_some hf
      simp only [Bool.and_eq_true, beq_iff_eq] at hb
      have := hL b (List.mem_of_find?_eq_some hf) t hm hb.1 hb.2
      obtain ⟨bs, bp, bo⟩ := b
      obtain ⟨ts, tp, to⟩ := t
      simp only at hb this ⊢
      rw [hb.1, hb.2, this]

/-- C75: if ignored insertions use up ids, a query for the predicates between a subject and an object returns just the first such
triple that was put. -/
theorem C75_sxo_first (L : List Triple) (s o : String) (hs : s ≠ "?") (ho : o ≠ "?") :
    (DB.new.puts true L).get ⟨s, "?", o⟩ = (L.find? fun t => t.s == s && t.o == o).toList := by
  obtain ⟨h1, h2⟩ := get_sxo true L (.inl rfl) hs ho
  revert h1 h2
  generalize (DB.new.puts true L).get ⟨s, "?", o⟩ = G
  intro h1 h2
  cases hf : L.find? (fun t => t.s == s && t.o == o) with
  | none =>
    rw [Option.toList_none]
    refine List.eq_nil_iff_forall_not_mem.2 fun t ht => ?_
    have := ((h1 t).1 ht).2.2
    rw [hf] at this; cases this
  | some b =>
    have hb := List.find?_some hf
    simp only [Bool.and_eq_true, beq_iff_eq] at hb
    have hbm : b ∈ G := (h1 b).2 ⟨hb.1, hb.2, hf⟩
    have hall : ∀ t ∈ G, t = b := fun t ht => by
      have := ((h1 t).1 ht).2.2
      rw [hf] at this; exact (Option.some.inj this).symm
    match G, hbm, hall, h2 with
    | [c], _, hall, _ => rw [hall c (by simp)]; rfl
    | c :: d :: _, _, hall, h2 =>
      have e1 := hall c (by simp)
      have e2 := hall d (by simp)
      rw [e1, e2] at h2
      simp at h2

/-- C75 fails for two predicates between a subject and an object: whether ignored insertions use up ids or not, the second one is not
found. -/
theorem C75_sxo_false : ∃ L : List Triple, ∃ t ∈ L, ∀ gap, t ∉ (DB.new.puts gap L).get ⟨t.s, "?", t.o⟩ :=
  ⟨[⟨"a", "p", "b"⟩, ⟨"a", "q", "b"⟩], ⟨"a", "q", "b"⟩, by decide +kernel⟩

/-- C75: if ignored insertions do not use up ids, the query can return a triple that has never been put. -/
theorem C75_sxo_spurious_false : ∃ L : List Triple, ∃ s o : String, ∃ t ∈ (DB.new.puts false L).get ⟨s, "?", o⟩, t ∉ L :=
  ⟨[⟨"a", "p", "b"⟩, ⟨"a", "q", "b"⟩, ⟨"a", "r", "c"⟩], "a", "c", ⟨"a", "q", "c"⟩, by decide +kernel⟩

/-- C75: the index OPS, which no query uses, does not hold all triples. -/
theorem C75_ops_false : ∃ L : List Triple, ∃ t ∈ L, ∀ gap,
    (t.o, t.p, t.s) ∉ joinRegular (DB.new.puts gap L).ops anyName anyName anyName :=
  ⟨[⟨"a", "p", "b"⟩, ⟨"a", "p", "c"⟩], ⟨"a", "p", "c"⟩, by decide +kernel⟩

/-! ## Duplicates -/

/-- The rows of an index. -/
def Ix.rows (ix : Ix) : List R1 × List R2 × List R3 := (ix.t1, ix.t2, ix.t3)

/-- The rows of the database. -/
def DB.rows (db : DB) : List (List R1 × List R2 × List R3) :=
  [db.spo.rows, db.sop.rows, db.pso.rows, db.pos.rows, db.osp.rows, db.ops.rows]

theorem ins1_ins1 (t : List R1) (n n' : Nat) (x : String) : ins1 (ins1 t n x) n' x = ins1 t n x := by
  have h : (ins1 t n x).any (fun r => r.name == x) = true := by
    unfold ins1; split
    · assumption
    · simp
  generalize ins1 t n x = u at h ⊢
  unfold ins1
  rw [if_pos h]

theorem ins2_ins2 (t : List R2) (n n' : Nat) (x : String) (a : Option Nat) : ins2 (ins2 t n x a) n' x a = ins2 t n x a := by
  cases a with
  | none => rfl
  | some a =>
    have h : (ins2 t n x (some a)).any (fun r => r.name == x && r.a == a) = true := by
      unfold ins2; dsimp only; split
      · assumption
      · simp
    generalize ins2 t n x (some a) = u at h ⊢
    unfold ins2
    dsimp only
    rw [if_pos h]

theorem ins3_ins3 (t : List R3) (n n' : Nat) (x : String) (a b : Option Nat) :
    ins3 (ins3 t n x a b) n' x a b = ins3 t n x a b := by
  cases a with
  | none => rfl
  | some a =>
    cases b with
    | none => rfl
    | some b =>
      have h : (ins3 t n x (some a) (some b)).any (fun r => r.name == x && r.a == a && r.b == b) = true := by
        unfold ins3; dsimp only; split
        · assumption
        · simp
      generalize ins3 t n x (some a) (some b) = u at h ⊢
      unfold ins3
      dsimp only
      rw [if_pos h]

theorem step_step (gap gap' : Bool) (ix : Ix) (x y z : String) (r a b) :
    ((ix.step gap x y z r a b).step gap' x y z r a b).rows = (ix.step gap x y z r a b).rows := by
  simp only [Ix.step, Ix.rows, ins1_ins1, ins2_ins2, ins3_ins3]

/-- C75: to put a triple again changes no row of any table. -/
theorem C75_put_twice (gap : Bool) (db : DB) (t : Triple) : ((db.put gap t).put gap t).rows = (db.put gap t).rows := by
  have hpos : (insertPOS gap (insertPOS gap db.pos t.p t.o t.s) t.p t.o t.s).rows = (insertPOS gap db.pos t.p t.o t.s).rows :=
    step_step ..
  have hosp : (insertOSP gap (insertOSP gap db.osp t.o t.s t.p) t.o t.s t.p).rows = (insertOSP gap db.osp t.o t.s t.p).rows :=
    step_step ..
  have hp2 : (insertPOS gap (insertPOS gap db.pos t.p t.o t.s) t.p t.o t.s).t2 = (insertPOS gap db.pos t.p t.o t.s).t2 :=
    congrArg (·.2.1) hpos
  have ho1 : (insertOSP gap (insertOSP gap db.osp t.o t.s t.p) t.o t.s t.p).t1 = (insertOSP gap db.osp t.o t.s t.p).t1 :=
    congrArg (·.1) hosp
  simp only [DB.rows, DB.put, List.cons.injEq, and_true]
  refine ⟨step_step .., step_step .., step_step .., hpos, hosp, ?_⟩
  unfold insertOPS
  simp only [hp2, ho1]
  exact step_step ..

/-! ## Examples -/

/-- Triples of the examples: two predicates between `a` and `b`, names in several roles, a duplicate. -/
def C75.triples : List Triple := [⟨"a", "p", "b"⟩, ⟨"b", "p", "a"⟩, ⟨"a", "p", "b"⟩, ⟨"a", "q", "b"⟩, ⟨"p", "a", "b"⟩, ⟨"a", "q", "c"⟩]

example : (DB.new.puts true C75.triples).get ⟨"a", "?", "?"⟩ = [⟨"a", "p", "b"⟩, ⟨"a", "q", "b"⟩, ⟨"a", "q", "c"⟩] := by decide +kernel
example : (DB.new.puts false C75.triples).get ⟨"?", "q", "?"⟩ = [⟨"a", "q", "b"⟩, ⟨"a", "q", "c"⟩] := by decide +kernel
example : (DB.new.puts false C75.triples).get ⟨"?", "p", "b"⟩ = [⟨"a", "p", "b"⟩] := by decide +kernel
example : (DB.new.puts true C75.triples).get ⟨"?", "?", "b"⟩ = [⟨"a", "p", "b"⟩, ⟨"a", "q", "b"⟩, ⟨"p", "a", "b"⟩] := by decide +kernel
example : (DB.new.puts true C75.triples).get ⟨"a", "q", "c"⟩ = [⟨"a", "q", "c"⟩] := by decide +kernel
example : (DB.new.puts true C75.triples).get ⟨"a", "p", "c"⟩ = [] := by decide +kernel
example : (DB.new.puts true C75.triples).get ⟨"a", "?", "b"⟩ = [⟨"a", "p", "b"⟩] := by decide +kernel
example : ((DB.new.puts true C75.triples).get ⟨"?", "?", "?"⟩).length = 5 := by decide +kernel

/-- `C75_get` applies to all queries above but one. -/
example (t : Triple) : t ∈ (DB.new.puts false C75.triples).get ⟨"?", "p", "?"⟩ ↔
    t ∈ C75.triples ∧ Matches "?" t.s ∧ Matches "p" t.p ∧ Matches "?" t.o :=
  (C75_get false C75.triples ⟨"?", "p", "?"⟩ (by decide)).1 t

/-- `OnePredicate` holds of a store with several triples for a subject and for an object. -/
example : OnePredicate [⟨"a", "p", "b"⟩, ⟨"a", "q", "c"⟩, ⟨"a", "p", "b"⟩, ⟨"b", "p", "c"⟩] := by
  unfold OnePredicate; decide

/-- The query for predicates then works, also after a duplicate. -/
example (gap : Bool) : (DB.new.puts gap [⟨"a", "p", "b"⟩, ⟨"a", "p", "b"⟩, ⟨"a", "q", "c"⟩]).get ⟨"a", "?", "c"⟩ =
    [⟨"a", "q", "c"⟩] := by cases gap <;> decide +kernel

end Phasar.Hexa
