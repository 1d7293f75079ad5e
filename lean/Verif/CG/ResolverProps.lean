import Verif.CG.ResolverLemmas

/-!
# Properties of the resolution of indirect calls (C57)

`Match`, `Fits`, `Denotes`, `Calls`, `Slot`, `VTableOf`, `VCall`, `AllocSite`, `PointsTo`, `Root`, `Inside` and `Holds` are the specification at
the end of `Resolver.lean`; `SBase`, `Star` and `Distinct` are those of C44, `Reach` and `Linked` those of C56.
-/

namespace Phasar.Resolver
open Phasar.TH (SMod SBase Star Distinct sSubTypes clearName)
open Phasar.TypeGraph (Reach Linked Op)

/-! ## Signatures and tables -/

/-- C57, signatures: which functions are considered for a call. -/
theorem C57_consistent (c : Call) (f : Fn) : isConsistentCall c f = true ↔ Fits c f := consistent_iff c f

theorem C57.virtualFunctions_eq (m : Mod) (t : Nat) :
    (∃ cs, VTableOf m t cs ∧ virtualFunctions m t = getVFVector cs) ∨ ((∀ cs, ¬ VTableOf m t cs) ∧ virtualFunctions m t = some []) := by
  unfold virtualFunctions
  have hv : ∀ v, tvByName m (clearName (m.th.name t)) = some v ↔ ∃ k : Nat, m.vts[k]? = some v ∧ v.clear = clearName (m.th.name t) ∧
      ∀ (k' : Nat) (v' : VGlobal), k' < k → m.vts[k']? = some v' → v'.clear ≠ v.clear := by
    intro v
    unfold tvByName
    rw [List.find?_eq_some_iff_getElem]
    constructor
    · rintro ⟨h1, k, hk, h2, h3⟩
      have h1 : v.clear = clearName (m.th.name t) := by simpa using h1
      refine ⟨k, by rw [List.getElem?_eq_getElem hk, h2], h1, fun k' v' hk' hv' => ?_⟩
      have := h3 k' hk'
      have hlt : k' < m.vts.length := by omega
      rw [List.getElem?_eq_getElem hlt] at hv'
      simp only [Option.some.injEq] at hv'
      subst hv'
      rw [h1]
      simpa using this
    · rintro ⟨k, hk, h1, h2⟩
      obtain ⟨hl, hk⟩ := List.getElem?_eq_some_iff.1 hk
      refine ⟨by simpa using h1, k, hl, hk, fun k' hk' => ?_⟩
      have := h2 k' m.vts[k'] hk' (List.getElem?_eq_getElem (by omega))
      rw [h1] at this
      simpa using this
  have hof : ∀ cs, VTableOf m t cs ↔ ∃ v, tvByName m (clearName (m.th.name t)) = some v ∧ v.init = some (.struct cs) := by
    intro cs
    constructor
    · rintro ⟨k, v, h1, h2, h3, h4⟩
      exact ⟨v, (hv v).2 ⟨k, h1, h2, h4⟩, h3⟩
    · rintro ⟨v, h1, h2⟩
      obtain ⟨k, h3, h4, h5⟩ := (hv v).1 h1
      exact ⟨k, v, h3, h4, h2, h5⟩
  cases hf : tvByName m (clearName (m.th.name t)) with
  | none =>
    refine .inr ⟨fun cs h => ?_, rfl⟩
    obtain ⟨v, h1, _⟩ := (hof cs).1 h
    rw [hf] at h1; cases h1
  | some v =>
    cases hi : v.init with
    | none =>
      refine .inr ⟨fun cs h => ?_, by simp [hi]⟩
      obtain ⟨v', h1, h2⟩ := (hof cs).1 h
      rw [hf] at h1; cases h1; rw [hi] at h2; cases h2
    | some x =>
      cases x with
      | other =>
        refine .inr ⟨fun cs h => ?_, by simp [hi]⟩
        obtain ⟨v', h1, h2⟩ := (hof cs).1 h
        rw [hf] at h1; cases h1; rw [hi] at h2; cases h2
      | struct cs => exact .inl ⟨cs, (hof cs).2 ⟨v, hf, hi⟩, by simp [hi]⟩

theorem C57.vtable_unique {m : Mod} {t : Nat} {a b : List Comp} (ha : VTableOf m t a) (hb : VTableOf m t b) : a = b := by
  obtain ⟨k, v, h1, h2, h3, h4⟩ := ha
  obtain ⟨k', v', h1', h2', h3', h4'⟩ := hb
  have : k = k' := by
    rcases Nat.lt_trichotomy k k' with h | h | h
    · exact absurd (by rw [h2, h2']) (h4' k v h h1)
    · exact h
    · exact absurd (by rw [h2, h2']) (h4 k' v' h h1')
  subst this
  rw [h1] at h1'; cases h1'
  rw [h3] at h3'; cases h3'
  rfl

/-- C57, tables: building them is undefined exactly if the virtual table of some identified struct type has an array with fewer than two
entries.  Otherwise every identified struct type has a table, whether or not it has virtual functions, and no other type. -/
theorem C57_tables (m : Mod) :
    (buildProvider m = none ↔ ∃ t ∈ m.th.structs, ∃ cs es, VTableOf m t cs ∧ Comp.array es ∈ cs ∧ es.length < 2) ∧
    ∀ v, buildProvider m = some v →
      (∀ t, hasVFTable v t = true ↔ t ∈ m.th.structs) ∧
      ∀ t vft, getVFTable v t = some vft → ∀ i f, vft[i]? = some (some f) ↔ ∃ cs, VTableOf m t cs ∧ Slot cs i f := by
  have hnone : ∀ t, virtualFunctions m t = none ↔ ∃ cs es, VTableOf m t cs ∧ Comp.array es ∈ cs ∧ es.length < 2 := by
    intro t
    rcases C57.virtualFunctions_eq m t with ⟨cs, h1, h2⟩ | ⟨h1, h2⟩
    · rw [h2, getVFVector_none]
      constructor
      · rintro ⟨es, h3, h4⟩; exact ⟨cs, es, h1, h3, h4⟩
      · rintro ⟨cs', es, h3, h4⟩
        have := C57.vtable_unique h1 h3
        subst this
        exact ⟨es, h4⟩
    · rw [h2]
      constructor
      · intro h; cases h
      · rintro ⟨cs, es, h3, _⟩; exact absurd h3 (h1 cs)
  refine ⟨?_, fun v hv => ⟨fun t => ?_, fun t vft h i f => ?_⟩⟩
  · constructor
    · intro h
      apply Classical.byContradiction
      intro hn
      obtain ⟨r, hr⟩ := mapM_exists (fun t => (virtualFunctions m t).map fun r => (t, r)) m.th.structs (fun t ht => by
        cases hc : virtualFunctions m t with
        | none => exact absurd ⟨t, ht, (hnone t).1 hc⟩ hn
        | some r => exact ⟨(t, r), rfl⟩)
      unfold buildProvider at h
      rw [hr] at h; cases h
    · rintro ⟨t, ht, h⟩
      cases hc : buildProvider m with
      | none => rfl
      | some v =>
        obtain ⟨b, hb⟩ := (mapM_some _ _ _ hc).1 t ht
        rw [(hnone t).2 h] at hb
        cases hb
  · have := provider_lookup hv t
    unfold getVFTable at this
    unfold hasVFTable
    rw [this]
    by_cases ht : t ∈ m.th.structs
    · rw [if_pos ht]
      obtain ⟨b, hb⟩ := (mapM_some _ _ _ hv).1 t ht
      cases hc : virtualFunctions m t with
      | none => rw [hc] at hb; cases hb
      | some r => simp [ht]
    · rw [if_neg ht]; simp [ht]
  · rw [provider_lookup hv t] at h
    split at h
    · rcases C57.virtualFunctions_eq m t with ⟨cs, h1, h2⟩ | ⟨h1, h2⟩
      · rw [h2] at h
        rw [getVFVector_iff h i f]
        constructor
        · intro h3; exact ⟨cs, h1, h3⟩
        · rintro ⟨cs', h3, h4⟩
          have := C57.vtable_unique h1 h3
          subst this
          exact h4
      · rw [h2] at h
        cases h
        constructor
        · intro h; simp at h
        · rintro ⟨cs, h3, _⟩; exact absurd h3 (h1 cs)
    · cases h

theorem C57.entry_iff {m : Mod} {v : Provider} (hv : buildProvider m = some v) (d i : Nat) (c : Call) (f : Fn) :
    nonPureEntry v d i c = some f ↔ d ∈ m.th.structs ∧ (∃ cs, VTableOf m d cs ∧ Slot cs i f) ∧ f.name ≠ "__cxa_pure_virtual" ∧ Fits c f := by
  obtain ⟨h1, h2⟩ := (C57_tables m).2 v hv
  rw [nonPure_iff]
  constructor
  · rintro ⟨vft, h3, h4, h5⟩
    refine ⟨(h1 d).1 ?_, (h2 d vft h3 i f).1 h4, h5⟩
    unfold getVFTable at h3
    unfold hasVFTable
    rw [h3]; rfl
  · rintro ⟨h3, h4, h5⟩
    have := (h1 d).2 h3
    unfold hasVFTable at this
    obtain ⟨vft, hl⟩ := Option.isSome_iff_exists.1 this
    exact ⟨vft, hl, (h2 d vft hl i f).2 h4, h5⟩

theorem C57.index_iff (c : Call) (i : Nat) : getVFTIndex c = some i ↔ ∃ n, c.called = .load (.gep (some n)) ∧ i = n % 2 ^ 32 := by
  unfold getVFTIndex
  split
  · rename_i n h
    rw [h]
    constructor
    · intro h; cases h; exact ⟨n, rfl, rfl⟩
    · rintro ⟨n', h1, h2⟩; cases h1; rw [h2]
  · rename_i hn
    constructor
    · intro h; cases h
    · rintro ⟨n, h1, _⟩; exact absurd h1 (hn n)

theorem C57.receiver_iff (c : Call) (s : Nat) : getReceiverType c = some s ↔ c.args[if c.sret then 1 else 0]? = some (.ptr (.struct s)) := by
  unfold getReceiverType
  have hb : c.sret.toNat = if c.sret then 1 else 0 := by cases c.sret <;> rfl
  rw [hb]
  by_cases h : c.args.length = 0 ∨ (c.sret = true ∧ c.args.length < 2)
  · rw [if_pos h]
    have : c.args[if c.sret then 1 else 0]? = none := by
      rw [List.getElem?_eq_none_iff]
      rcases h with h | ⟨h1, h2⟩
      · omega
      · rw [h1]; simp; omega
    rw [this]; simp
  · rw [if_neg h]
    split
    · rename_i t ht
      rw [ht]
      simp
    · rename_i hn
      constructor
      · intro h; cases h
      · intro h; exact absurd h (hn s)

/-- C57, dispatch: a call is taken for a virtual one exactly if the callee is loaded through a `getelementptr` with a constant first index, and
the receiver is a pointer to an identified struct type, with or without virtual functions. -/
theorem C57_virtual (m : Mod) (v : Provider) (hv : buildProvider m = some v) (c : Call) :
    isVirtualCall v c = true ↔ ∃ n s, VCall c n s ∧ s ∈ m.th.structs := by
  have h1 := ((C57_tables m).2 v hv).1
  unfold isVirtualCall
  cases hr : getReceiverType c with
  | none =>
    constructor
    · intro h; cases h
    · rintro ⟨n, s, ⟨_, h⟩, _⟩; rw [(C57.receiver_iff c s).2 h] at hr; cases hr
  | some t =>
    have ht := (C57.receiver_iff c t).1 hr
    simp only
    by_cases hh : hasVFTable v t = true
    · rw [hh]
      simp only [Bool.not_true, Bool.false_eq_true, if_false]
      constructor
      · intro h
        obtain ⟨i, hi⟩ := Option.isSome_iff_exists.1 h
        obtain ⟨n, hn, _⟩ := (C57.index_iff c i).1 hi
        exact ⟨n, t, ⟨hn, ht⟩, (h1 t).1 hh⟩
      · rintro ⟨n, s, ⟨h, _⟩, _⟩
        rw [(C57.index_iff c _).2 ⟨n, h, rfl⟩]; rfl
    · have hf : hasVFTable v t = false := by simpa using hh
      rw [hf]
      simp only [Bool.not_false, if_true]
      constructor
      · intro h; cases h
      · rintro ⟨n, s, ⟨_, h⟩, hs⟩
        rw [ht] at h; cases h
        exact absurd ((h1 t).2 hs) hh

/-! ## CHA -/

/-- C57, CHA: the callees are the functions at the index in the concatenated tables of the types derived from the receiver type, if they are
not the placeholder for pure virtual functions and fit the call. -/
theorem C57_cha (m : Mod) (hd : Distinct m.th) (v : Provider) (hv : buildProvider m = some v) (c : Call) (f : Fn) :
    f ∈ cha v (sSubTypes m.th) c ↔ ∃ n s d cs, VCall c n s ∧ s ∈ m.th.structs ∧ Star (SBase m.th) d s ∧ VTableOf m d cs ∧
      Slot cs (n % 2 ^ 32) f ∧ f.name ≠ "__cxa_pure_virtual" ∧ Fits c f := by
  rw [mem_cha]
  constructor
  · rintro ⟨i, s, h1, h2, d, h3, h4⟩
    obtain ⟨n, hn, rfl⟩ := (C57.index_iff c i).1 h1
    obtain ⟨_, ⟨cs, h5, h6⟩, h7⟩ := (C57.entry_iff hv d _ c f).1 h4
    obtain ⟨h8, h9⟩ := (TH.C44_struct_subtypes_partial m.th hd s d).1.1 h3
    exact ⟨n, s, d, cs, ⟨hn, (C57.receiver_iff c s).1 h2⟩, h8, h9, h5, h6, h7⟩
  · rintro ⟨n, s, d, cs, ⟨hn, hr⟩, h1, h2, h3, h4, h5⟩
    refine ⟨_, s, (C57.index_iff c _).2 ⟨n, hn, rfl⟩, (C57.receiver_iff c s).2 hr, d,
      (TH.C44_struct_subtypes_partial m.th hd s d).1.2 ⟨h1, h2⟩, (C57.entry_iff hv d _ c f).2 ⟨?_, ⟨cs, h3, h4⟩, h5⟩⟩
    cases h2 with
    | refl => exact h1
    | head h _ => exact h.1

theorem C57.primary {cs : List Comp} {es : List Entry} {n : Nat} {t : Target} {f : Fn} (hc : cs[0]? = some (.array es))
    (he : es[2 + n]? = some (.bitcast t)) (ht : Denotes t f) (hn : n < 2 ^ 32) : Slot cs (n % 2 ^ 32) f :=
  ⟨0, es, n, t, hc, by simp [width, Nat.mod_eq_of_lt hn], he, ht⟩

/-- C57, CHA is sound for primary virtual tables: if the receiver is an object of type `d` derived from its static type `s`, the pointer in the
object leads behind the first two entries of the first array of the table for `d`, and the function called is a cast there and fits the
call, then it is among the callees.  `_partial`: it is false for other arrays, other address points, entries without cast, functions that do
not fit, and tables that are not found by name: see the theorems `…_false` below. -/
theorem C57_cha_sound_partial (m : Mod) (hd : Distinct m.th) (v : Provider) (hv : buildProvider m = some v) (c : Call) (fptr : List Fn)
    {n s d : Nat} {cs : List Comp} {es : List Entry} {t : Target} {f : Fn} (hc : VCall c n s) (hs : s ∈ m.th.structs)
    (hds : Star (SBase m.th) d s) (ht : VTableOf m d cs) (ha : cs[0]? = some (.array es)) (he : es[2 + n]? = some (.bitcast t))
    (hf : Denotes t f) (hn : n < 2 ^ 32) (hp : f.name ≠ "__cxa_pure_virtual") (hfit : Fits c f) :
    Calls cs 0 2 n f ∧ f ∈ resolveIndirectCall v c (cha v (sSubTypes m.th) c) fptr := by
  refine ⟨⟨es, _, ha, he, t, .inl rfl, hf⟩, ?_⟩
  unfold resolveIndirectCall
  rw [if_pos ((C57_virtual m v hv c).2 ⟨n, s, hc, hs⟩)]
  exact (C57_cha m hd v hv c f).2 ⟨n, s, d, cs, hc, hs, hds, ht, C57.primary ha he hf hn, hp, hfit⟩

/-! ## RTA -/

/-- C57, allocated types: exactly the struct types of which there is an `alloca`, or an allocation on the heap that is cast and passed on. -/
theorem C57_allocated (is : List AInst) (al : List Nat) (h : allocated is = some al) (d : Nat) : d ∈ al ↔ ∃ i ∈ is, AllocSite d i :=
  allocated_iff h d

/-- C57, RTA: the callees of CHA that stem from allocated types; all callees of CHA if no allocated type contributes any. -/
theorem C57_rta (m : Mod) (hd : Distinct m.th) (v : Provider) (hv : buildProvider m = some v) (is : List AInst) (al : List Nat)
    (hal : allocated is = some al) (c : Call) (f : Fn) :
    f ∈ rta v (sSubTypes m.th) al c ↔ ∃ n s d cs, VCall c n s ∧ s ∈ m.th.structs ∧ Star (SBase m.th) d s ∧ VTableOf m d cs ∧
      Slot cs (n % 2 ^ 32) f ∧ f.name ≠ "__cxa_pure_virtual" ∧ Fits c f ∧
      ((∃ i ∈ is, AllocSite d i) ∨ ∀ e cs' g, Star (SBase m.th) e s → (∃ i ∈ is, AllocSite e i) → VTableOf m e cs' → Slot cs' (n % 2 ^ 32) g →
        g.name = "__cxa_pure_virtual" ∨ ¬ Fits c g) := by
  have hst : ∀ {d s}, s ∈ m.th.structs → Star (SBase m.th) d s → d ∈ m.th.structs := by
    intro d s h1 h2
    cases h2 with
    | refl => exact h1
    | head h _ => exact h.1
  rw [mem_rta]
  constructor
  · rintro ⟨i, s, h1, h2, d, h3, h4, h⟩
    obtain ⟨n, hn, rfl⟩ := (C57.index_iff c i).1 h1
    obtain ⟨_, ⟨cs, h5, h6⟩, h7, h7'⟩ := (C57.entry_iff hv d _ c f).1 h4
    obtain ⟨h8, h9⟩ := (TH.C44_struct_subtypes_partial m.th hd s d).1.1 h3
    refine ⟨n, s, d, cs, ⟨hn, (C57.receiver_iff c s).1 h2⟩, h8, h9, h5, h6, h7, h7', ?_⟩
    rcases h with h | h
    · exact .inl ((allocated_iff hal d).1 h)
    · refine .inr fun e cs' g he hea hvt hsl => ?_
      have := h e ((TH.C44_struct_subtypes_partial m.th hd s e).1.2 ⟨h8, he⟩) ((allocated_iff hal e).2 hea)
      apply Classical.byContradiction
      intro hc
      rw [not_or, Classical.not_not] at hc
      rw [(C57.entry_iff hv e _ c g).2 ⟨hst h8 he, ⟨cs', hvt, hsl⟩, hc.1, hc.2⟩] at this
      cases this
  · rintro ⟨n, s, d, cs, ⟨hn, hr⟩, h1, h2, h3, h4, h5, h5', h⟩
    refine ⟨_, s, (C57.index_iff c _).2 ⟨n, hn, rfl⟩, (C57.receiver_iff c s).2 hr, d,
      (TH.C44_struct_subtypes_partial m.th hd s d).1.2 ⟨h1, h2⟩, (C57.entry_iff hv d _ c f).2 ⟨hst h1 h2, ⟨cs, h3, h4⟩, h5, h5'⟩, ?_⟩
    rcases h with h | h
    · exact .inl ((allocated_iff hal d).2 h)
    · refine .inr fun e he hea => ?_
      cases hne : nonPureEntry v e (n % 2 ^ 32) c with
      | none => rfl
      | some g =>
        obtain ⟨_, ⟨cs', h6, h7⟩, h8, h9⟩ := (C57.entry_iff hv e _ c g).1 hne
        rcases h e cs' g ((TH.C44_struct_subtypes_partial m.th hd s e).1.1 he).2 ((allocated_iff hal e).1 hea) h6 h7 with h | h
        · exact absurd h h8
        · exact absurd h9 h

/-- C57, RTA is at least as precise as CHA. -/
theorem C57_rta_le_cha (v : Provider) (sub : Nat → List Nat) (al : List Nat) (c : Call) (f : Fn) (h : f ∈ rta v sub al c) : f ∈ cha v sub c := by
  rw [mem_rta] at h
  obtain ⟨i, t, h1, h2, d, h3, h4, _⟩ := h
  exact (mem_cha v sub c f).2 ⟨i, t, h1, h2, d, h3, h4⟩

/-- C57, RTA finds everything that CHA finds in allocated types. -/
theorem C57_rta_sound_partial (m : Mod) (hd : Distinct m.th) (v : Provider) (hv : buildProvider m = some v) (is : List AInst) (al : List Nat)
    (hal : allocated is = some al) (c : Call) (fptr : List Fn)
    {n s d : Nat} {cs : List Comp} {es : List Entry} {t : Target} {f : Fn} (hc : VCall c n s) (hs : s ∈ m.th.structs)
    (hds : Star (SBase m.th) d s) (ht : VTableOf m d cs) (ha : cs[0]? = some (.array es)) (he : es[2 + n]? = some (.bitcast t))
    (hf : Denotes t f) (hn : n < 2 ^ 32) (hp : f.name ≠ "__cxa_pure_virtual") (hfit : Fits c f) (hsite : ∃ i ∈ is, AllocSite d i) :
    f ∈ resolveIndirectCall v c (rta v (sSubTypes m.th) al c) fptr := by
  unfold resolveIndirectCall
  rw [if_pos ((C57_virtual m v hv c).2 ⟨n, s, hc, hs⟩)]
  exact (C57_rta m hd v hv is al hal c f).2 ⟨n, s, d, cs, hc, hs, hds, ht, C57.primary ha he hf hn, hp, hfit, .inl hsite⟩

/-! ## DTA -/

theorem C57.strip_iff (t : Ty) (s : Nat) : stripPointer t = some (.struct s) ↔ PointsTo t s := by
  constructor
  · intro h
    induction t with
    | struct x => cases h; exact .here s
    | ptr e ih => exact .ptr (ih h)
    | _ => cases h
  · intro h
    induction h with
    | here => rfl
    | ptr _ ih => exact ih

theorem C57.occurs_iff (pat : List Char) : ∀ n, occurs pat n = true ↔ Contains n pat := by
  intro n
  induction n with
  | nil =>
    unfold occurs Contains
    constructor
    · intro h; exact ⟨[], [], by simpa using h⟩
    · rintro ⟨p, s, h⟩
      have := congrArg List.length h
      simp only [List.length_append, List.length_nil] at this
      rw [List.isEmpty_iff]
      exact List.eq_nil_of_length_eq_zero (by omega)
  | cons c cs ih =>
    unfold occurs
    rw [Bool.or_eq_true, ih, List.isPrefixOf_iff_prefix]
    constructor
    · rintro (⟨s, h⟩ | ⟨p, s, h⟩)
      · exact ⟨[], s, by simpa using h.symm⟩
      · exact ⟨c :: p, s, by simp [h]⟩
    · rintro ⟨p, s, h⟩
      cases p with
      | nil => exact .inl ⟨s, by simpa using h.symm⟩
      | cons x p =>
        simp only [List.cons_append, List.cons.injEq] at h
        exact .inr ⟨p, s, h.2⟩

/-- C57, DTA: which casts add a link.  A cast between pointers to an identified struct `s` and a struct `d` adds the link from `d` to `s` unless
it casts `this` in a function whose name contains `C1E` or `C2E`. -/
theorem C57_dta_link (m : Mod) (v : Provider) (hv : buildProvider m = some v) (b : BitCast) (d s : Nat) (hs : s ∈ m.th.structs) :
    otherInst v b = some (some (d, s)) ↔ PointsTo b.src s ∧ PointsTo b.dest d ∧
      (¬ (Contains b.caller.toList "C1E".toList ∨ Contains b.caller.toList "C2E".toList) ∨ ∃ t ts, b.formals = t :: ts ∧ t ≠ b.src) := by
  have hctor : isConstructor b.caller = true ↔ (Contains b.caller.toList "C1E".toList ∨ Contains b.caller.toList "C2E".toList) := by
    unfold isConstructor
    rw [Bool.or_eq_true, Bool.or_eq_true, C57.occurs_iff, C57.occurs_iff]
    show ((Contains _ ['C', '2', 'E'] ∨ Contains _ ['C', '1', 'E']) ∨ Contains _ ['C', '2', 'E']) ↔
      Contains _ ['C', '1', 'E'] ∨ Contains _ ['C', '2', 'E']
    grind
  have hhas := (((C57_tables m).2 v hv).1 s).2 hs
  have hanti : PointsTo b.src s → (antiVtable v b = some true ↔ (¬ isConstructor b.caller = true ∨ ∃ t ts, b.formals = t :: ts ∧ t ≠ b.src)) := by
    intro hp
    have hstrip := (C57.strip_iff _ _).2 hp
    have hno : b.src ≠ .opq := by intro e; rw [e] at hstrip; cases hstrip
    unfold antiVtable antiThis
    by_cases hc : isConstructor b.caller = true
    · rw [if_pos hc]
      cases hfm : b.formals with
      | nil => simp [hc]
      | cons t ts =>
        simp only
        by_cases e : t = b.src
        · simp [e, hc, hno, hstrip, hhas]
        · simp [e]
    · simp [hc]
  rw [← hctor]
  unfold otherInst
  by_cases ho : b.dest = .opq
  · rw [if_pos ho]
    constructor
    · intro h; cases h
    · rintro ⟨_, h, _⟩; rw [ho] at h; cases h
  · rw [if_neg ho]
    rw [← C57.strip_iff, ← C57.strip_iff]
    split
    · rename_i s' d' h1 h2
      rw [h1, h2]
      constructor
      · intro h
        split at h
        · cases h
        · rename_i ha
          cases h
          exact ⟨rfl, rfl, (hanti ((C57.strip_iff _ _).1 h1)).1 ha⟩
        · cases h
      · rintro ⟨e1, e2, h⟩
        cases e1; cases e2
        rw [(hanti ((C57.strip_iff _ _).1 h1)).2 h]
    · rename_i x y hn h1 h2
      constructor
      · intro h; cases h
      · rintro ⟨e1, e2, _⟩
        rw [e1] at h1; rw [e2] at h2
        cases h1; cases h2
        exact (hn s d rfl rfl).elim
    · rename_i hn1 hn2
      constructor
      · intro h; cases h
      · rintro ⟨e1, e2, _⟩
        exact absurd e2 (hn2 _ _ e1)

/-- The function stems from a type that can be reached from the receiver type `s` along the links of the casts. -/
def C57.Hit (m : Mod) (v : Provider) (bs : List BitCast) (c : Call) (n s : Nat) (f : Fn) : Prop :=
  ∃ d, Reach (fun a b => ∃ bc ∈ bs, otherInst v bc = some (some (a, b))) s d ∧ d ∈ m.th.structs ∧
    (∃ cs, VTableOf m d cs ∧ Slot cs (n % 2 ^ 32) f) ∧ f.name ≠ "__cxa_pure_virtual" ∧ Fits c f

/-- C57, DTA: the callees that stem from the types reachable along the links of the casts seen so far; the callees of CHA if there are none.
The casts are between identified types with different names. -/
theorem C57_dta (m : Mod) (v : Provider) (hv : buildProvider m = some v) (as : Bool) (bs : List BitCast) (ops : List Op)
    (hops : ∀ a b, Op.link a b ∈ ops ↔ ∃ bc ∈ bs, ∃ d s, otherInst v bc = some (some (d, s)) ∧ a = stype m.th d ∧ b = stype m.th s)
    (hid : ∀ bc ∈ bs, ∀ d s, otherInst v bc = some (some (d, s)) → s ∈ m.th.structs)
    (c : Call) {n s : Nat} (hc : VCall c n s) (hdist : TypeGraph.Distinct TypeGraph.keyC (TypeGraph.mentions ops ++ [stype m.th s])) :
    ∃ g r, TypeGraph.runC as ops .empty = some g ∧ dta v m.th (sSubTypes m.th) g c = some r ∧
      ((∃ f, C57.Hit m v bs c n s f) → ∀ f, f ∈ r ↔ C57.Hit m v bs c n s f) ∧
      ((¬ ∃ f, C57.Hit m v bs c n s f) → r = cha v (sSubTypes m.th) c) := by
  obtain ⟨g, hg, ht⟩ := TypeGraph.C56_types as ops (fun a b h => by
    obtain ⟨bc, hb, d, s, h1, _, rfl⟩ := (hops a b).1 h
    have := hid bc hb d s h1
    simp [stype, this])
  have ht := ht (stype m.th s) hdist
  have hreach : ∀ x, x ∈ (TypeGraph.getTypesC g (stype m.th s)).2 ↔
      ∃ d, x = stype m.th d ∧ Reach (fun a b => ∃ bc ∈ bs, otherInst v bc = some (some (a, b))) s d := by
    intro x
    rw [ht x]
    constructor
    · intro h
      induction h with
      | refl => exact ⟨s, rfl, .refl⟩
      | step _ h2 ih =>
        obtain ⟨d, rfl, h3⟩ := ih
        have h2 : Op.link _ _ ∈ ops := TypeGraph.mem_links.1 h2
        obtain ⟨bc, hb, d', s', h4, h5, rfl⟩ := (hops _ _).1 h2
        have : d = d' := by injection h5
        subst this
        exact ⟨s', rfl, .step h3 ⟨bc, hb, h4⟩⟩
    · rintro ⟨d, rfl, h⟩
      induction h with
      | refl => exact .refl
      | step _ h2 ih =>
        obtain ⟨bc, hb, h3⟩ := h2
        exact .step ih (TypeGraph.mem_links.2 ((hops _ _).2 ⟨bc, hb, _, _, h3, rfl, rfl⟩))
  have hmem : ∀ f, f ∈ (TypeGraph.getTypesC g (stype m.th s)).2.filterMap (fun x => nonPureEntry v x.id (n % 2 ^ 32) c) ↔ C57.Hit m v bs c n s f := by
    intro f
    rw [List.mem_filterMap]
    constructor
    · rintro ⟨x, hx, h⟩
      obtain ⟨d, rfl, hr⟩ := (hreach x).1 hx
      exact ⟨d, hr, (C57.entry_iff hv d _ c f).1 h⟩
    · rintro ⟨d, hr, h⟩
      exact ⟨stype m.th d, (hreach _).2 ⟨d, rfl, hr⟩, (C57.entry_iff hv d _ c f).2 h⟩
  refine ⟨g, if ((TypeGraph.getTypesC g (stype m.th s)).2.filterMap (fun x => nonPureEntry v x.id (n % 2 ^ 32) c)).isEmpty then
    cha v (sSubTypes m.th) c else (TypeGraph.getTypesC g (stype m.th s)).2.filterMap (fun x => nonPureEntry v x.id (n % 2 ^ 32) c), hg, ?_, ?_, ?_⟩
  · unfold dta
    rw [(C57.index_iff c _).2 ⟨n, hc.1, rfl⟩, (C57.receiver_iff c s).2 hc.2]
  · rintro ⟨f0, h0⟩ f
    have : ((TypeGraph.getTypesC g (stype m.th s)).2.filterMap (fun x => nonPureEntry v x.id (n % 2 ^ 32) c)).isEmpty = false := by
      rw [List.isEmpty_eq_false_iff]
      exact List.ne_nil_of_mem ((hmem f0).2 h0)
    rw [this]
    exact hmem f
  · intro h0
    have : (TypeGraph.getTypesC g (stype m.th s)).2.filterMap (fun x => nonPureEntry v x.id (n % 2 ^ 32) c) = [] := by
      rw [List.eq_nil_iff_forall_not_mem]
      intro f hf
      exact h0 ⟨f, (hmem f).1 hf⟩
    rw [this]
    rfl

/-! ## Function pointers and OTF -/

/-- C57, function pointers: the functions of the module whose address is taken and that fit the call. -/
theorem C57_pointer (fns : List Fn) (c : Call) (f : Fn) : f ∈ resolveFunctionPointer fns c ↔ f ∈ fns ∧ f.taken = true ∧ Fits c f := by
  unfold resolveFunctionPointer
  rw [List.mem_filter, Bool.and_eq_true, consistent_iff]

/-- C57, OTF for virtual calls: the functions at the index in the concatenated tables that are in the alias set of the called operand. -/
theorem C57_otf_virtual (pts : List PVal) (c : Call) :
    ((∃ n, c.called = .load (.gep (some n))) → (otfVirtual pts c = none ↔ ∃ cs es, PVal.global true (some (.struct cs)) ∈ pts ∧
      Comp.array es ∈ cs ∧ es.length < 2)) ∧
    ∀ r, otfVirtual pts c = some r → ∀ f, f ∈ r ↔ ∃ n cs, c.called = .load (.gep (some n)) ∧ PVal.global true (some (.struct cs)) ∈ pts ∧
      Slot cs (n % 2 ^ 32) f ∧ f.name ≠ "" ∧ f.name ≠ "__cxa_pure_virtual" ∧ Fits c f := by
  have hent : ∀ i p, otfEntry i c p = none ↔ ∃ cs es, p = .global true (some (.struct cs)) ∧ Comp.array es ∈ cs ∧ es.length < 2 := by
    intro i p
    unfold otfEntry
    split
    · rename_i cs
      split
      · rename_i h
        obtain ⟨es, h1, h2⟩ := (getVFVector_none cs).1 h
        simp only [true_iff]
        exact ⟨cs, es, rfl, h1, h2⟩
      · rename_i vfs h
        constructor
        · intro h'
          split at h'
          · cases h'
          · split at h'
            · split at h' <;> cases h'
            · cases h'
        · rintro ⟨cs', es, h1, h2⟩
          cases h1
          rw [(getVFVector_none cs).2 ⟨es, h2⟩] at h
          cases h
    · rename_i hn
      constructor
      · intro h; cases h
      · rintro ⟨cs, es, h, _⟩; exact absurd h (hn cs)
  have hmem : ∀ i p l, otfEntry i c p = some l → ∀ f, f ∈ l ↔ ∃ cs, p = .global true (some (.struct cs)) ∧ Slot cs i f ∧ f.name ≠ "" ∧
      f.name ≠ "__cxa_pure_virtual" ∧ Fits c f := by
    intro i p l h f
    unfold otfEntry at h
    split at h
    · rename_i cs
      split at h
      · cases h
      · rename_i vfs hvf
        have hsl : (∃ cs', PVal.global true (some (.struct cs)) = .global true (some (.struct cs')) ∧ Slot cs' i f ∧ f.name ≠ "" ∧
            f.name ≠ "__cxa_pure_virtual" ∧ Fits c f) ↔ vfs[i]? = some (some f) ∧ f.name ≠ "" ∧ f.name ≠ "__cxa_pure_virtual" ∧ Fits c f := by
          rw [getVFVector_iff hvf i f]
          constructor
          · rintro ⟨cs', h1, h2⟩; cases h1; exact h2
          · intro h; exact ⟨cs, rfl, h⟩
        rw [hsl]
        split at h
        · rename_i hge
          cases h
          rw [List.getElem?_eq_none (by omega)]
          simp
        · split at h
          · rename_i g hg
            rw [hg]
            split at h
            · rename_i hbad
              cases h
              constructor
              · intro h; cases h
              · rintro ⟨h1, h2, h3, h4⟩
                cases h1
                rcases hbad with hb | hb | hb
                · exact absurd hb h2
                · exact absurd hb h3
                · rw [(consistent_iff c _).2 h4] at hb; cases hb
            · rename_i hok
              cases h
              rw [List.mem_singleton]
              constructor
              · rintro rfl
                refine ⟨rfl, fun h => hok (.inl h), fun h => hok (.inr (.inl h)), (consistent_iff c _).1 ?_⟩
                cases hcc : isConsistentCall c f with
                | true => rfl
                | false => exact absurd (.inr (.inr hcc)) hok
              · rintro ⟨h1, _⟩; cases h1; rfl
          · rename_i hn
            cases h
            constructor
            · intro h; cases h
            · rintro ⟨h1, _⟩; exact absurd h1 (hn f)
    · rename_i hn
      cases h
      constructor
      · intro h; cases h
      · rintro ⟨cs, h, _⟩; exact absurd h (hn cs)
  constructor
  · rintro ⟨n, hn⟩
    unfold otfVirtual
    rw [(C57.index_iff c _).2 ⟨n, hn, rfl⟩]
    simp only [Option.map_eq_none_iff]
    constructor
    · intro h
      apply Classical.byContradiction
      intro hne
      obtain ⟨r, hr⟩ := mapM_exists (otfEntry (n % 2 ^ 32) c) pts (fun p hp => by
        cases he : otfEntry (n % 2 ^ 32) c p with
        | none =>
          obtain ⟨cs, es, h1, h2⟩ := (hent _ p).1 he
          exact absurd ⟨cs, es, h1 ▸ hp, h2⟩ hne
        | some l => exact ⟨l, rfl⟩)
      rw [hr] at h; cases h
    · rintro ⟨cs, es, h1, h2⟩
      cases hm : pts.mapM (otfEntry (n % 2 ^ 32) c) with
      | none => rfl
      | some r =>
        obtain ⟨b, hb⟩ := (mapM_some _ _ _ hm).1 _ h1
        rw [(hent _ _).2 ⟨cs, es, rfl, h2⟩] at hb
        cases hb
  · intro r h f
    unfold otfVirtual at h
    cases hi : getVFTIndex c with
    | none =>
      rw [hi] at h
      cases h
      constructor
      · intro h; cases h
      · rintro ⟨n, cs, h1, _⟩
        rw [(C57.index_iff c _).2 ⟨n, h1, rfl⟩] at hi; cases hi
    | some i =>
      rw [hi] at h
      obtain ⟨n, hn, rfl⟩ := (C57.index_iff c i).1 hi
      simp only [Option.map_eq_some_iff] at h
      obtain ⟨ls, hls, rfl⟩ := h
      have h2 := (mapM_some _ _ _ hls).2
      rw [List.mem_flatten]
      constructor
      · rintro ⟨l, hl, hf⟩
        obtain ⟨p, hp, he⟩ := (h2 l).1 hl
        obtain ⟨cs, h3, h4⟩ := (hmem _ p l he f).1 hf
        exact ⟨n, cs, hn, h3 ▸ hp, h4⟩
      · rintro ⟨n', cs, h1, h3, h4⟩
        rw [hn] at h1; cases h1
        obtain ⟨l, hl⟩ := (mapM_some _ _ _ hls).1 _ h3
        exact ⟨l, (h2 l).2 ⟨_, h3, hl⟩, (hmem _ _ l hl f).2 ⟨cs, rfl, h4⟩⟩

/-- C57, OTF for function pointers: the search ends, and returns exactly the fitting functions that are in the alias set, or in an aggregate that
can be reached from the variables in the alias set.  There are finitely many aggregates. -/
theorem C57_otf_pointer (K : Nat → Val) (u : List Nat) (hd : u.Nodup) (hu : ∀ a ops, K a = .agg ops → a ∈ u) (c : Call) (pts : List Nat) :
    ∃ n0 r, (∀ n, n0 ≤ n → otfPointer K c n pts [] = some r) ∧
      ∀ f, f ∈ r ↔ Fits c f ∧ ((∃ p ∈ pts, K p = .fn f) ∨ ∃ a b, Root K pts a ∧ Reach (Inside K) a b ∧ Holds K b f) := by
  obtain ⟨n0, h0⟩ := otfPointer_some K c u hd (fun a ⟨ops, h⟩ => hu a ops h) pts
  obtain ⟨r, hr⟩ := h0 n0 (Nat.le_refl _) []
  refine ⟨n0, r, fun n hn => ?_, fun f => ?_⟩
  · have mono : ∀ (pts : List Nat) (acc r : List Fn), otfPointer K c n0 pts acc = some r → otfPointer K c n pts acc = some r := by
      intro pts
      induction pts with
      | nil => intro acc r h; exact h
      | cons p pts ih =>
        intro acc r h
        unfold otfPointer at h ⊢
        split at h
        · cases h
        · rename_i r1 h1
          rw [aggLoop_mono K c n0 n _ _ _ _ hn h1]
          exact ih _ _ h
    exact mono pts [] r hr
  · have := otfPointer_iff K c n0 pts [] r hr f
    simpa using this

/-- C57, pairs: exactly the pointers passed for pointer formals, and the further pointers paired with the `va_list` of the callee. -/
theorem C57_pairs (c : Call) (f : Fn) (hp : Bool) (k : Nat) (x : Formal) : (k, x) ∈ actualFormalPairs c f hp ↔
    (∃ a, c.args[k]? = some a ∧ isPtr a = true ∧
      ((x = .arg k ∧ ∃ b, f.params[k]? = some b ∧ isPtr b = true) ∨ (x = .pack ∧ f.vararg = true ∧ hp = true ∧ f.params.length ≤ k))) := by
  unfold actualFormalPairs
  rw [List.mem_append, mem_pairsArgs]
  constructor
  · rintro (⟨j, a, b, h1, h2, h3, h4, h5, h6⟩ | h)
    · have : k = j := by omega
      subst this
      exact ⟨a, h3, h5, .inl ⟨h2, b, h4, h6⟩⟩
    · split at h
      · rename_i hv
        rw [Bool.and_eq_true] at hv
        obtain ⟨j, a, h1, h2, h3, h4⟩ := (mem_pairsPack _ _ _ _).1 h
        rw [List.getElem?_drop] at h3
        refine ⟨a, by rw [h1]; exact h3, h4, .inr ⟨h2, hv.1, hv.2, ?_⟩⟩
        have := (List.getElem?_eq_some_iff.1 h3).1
        omega
      · cases h
  · rintro ⟨a, h1, h2, ⟨h3, b, h4, h5⟩ | ⟨h3, h4, h5, h6⟩⟩
    · exact .inl ⟨k, a, b, by omega, h3, h1, h4, h2, h5⟩
    · right
      rw [h4, h5]
      simp only [Bool.and_self, if_true]
      have := (List.getElem?_eq_some_iff.1 h1).1
      refine (mem_pairsPack _ _ _ _).2 ⟨k - min c.args.length f.params.length, a, by omega, h3, ?_, h2⟩
      rw [List.getElem?_drop]
      rw [show min c.args.length f.params.length + (k - min c.args.length f.params.length) = k by omega]
      exact h1

/-! ## Witnesses

`A` (0) has virtual functions `f` and `g`; `B` (1) derives from `A` and overrides `f`; `M` (2) has a virtual function `h`; `D` (3) derives from
`A` and `M` and overrides `f` and `h`; `S` (4) is a struct without virtual functions. -/

def C57.fn (id : Nat) (name : String) (this : Nat) (ret : Ty) : Fn :=
  { id := id, name := name, params := [.ptr (.struct this)], ret := ret, vararg := false, taken := true }
def C57.void : Ty := .other 0 0
def C57.Af : Fn := C57.fn 0 "_ZN1A1fEv" 0 C57.void
def C57.Ag : Fn := C57.fn 1 "_ZN1A1gEv" 0 C57.void
def C57.Bf : Fn := C57.fn 2 "_ZN1B1fEv" 1 C57.void
def C57.Mh : Fn := C57.fn 3 "_ZN1M1hEv" 2 C57.void
def C57.Df : Fn := C57.fn 4 "_ZN1D1fEv" 3 C57.void
def C57.Dh : Fn := C57.fn 5 "_ZN1D1hEv" 3 C57.void
def C57.Th : Fn := C57.fn 6 "_ZThn8_N1D1hEv" 3 C57.void
def C57.Ac : Fn := C57.fn 7 "_ZN1A5cloneEv" 0 (.ptr (.struct 0))
def C57.Bc : Fn := C57.fn 8 "_ZN1B5cloneEv" 1 (.ptr (.struct 1))

/-- An array with offset to top and type info first. -/
def C57.arr (fs : List Fn) : Comp := .array (.other :: .other :: fs.map fun f => .bitcast (.fn f))

def C57.th : SMod where
  structs := [0, 1, 2, 3, 4]
  name := fun t => match t with
    | 0 => "class.A".toList
    | 1 => "class.B".toList
    | 2 => "class.M".toList
    | 3 => "class.D".toList
    | _ => "struct.S".toList
  tis := [⟨['A'], some [.other, .other]⟩, ⟨['B'], some [.other, .other, .bitcast ['A']]⟩, ⟨['M'], some [.other]⟩,
    ⟨['D'], some [.other, .bitcast ['A'], .bitcast ['M']]⟩]

def C57.vB : List Comp := [.array [.other, .other, .bitcast (.fn C57.Bf), .bitcast (.alias (.fn C57.Ag))]]
def C57.vD : List Comp := [C57.arr [C57.Df, C57.Ag, C57.Dh], C57.arr [C57.Th]]

def C57.mod : Mod where
  th := C57.th
  vts := [⟨['A'], some (.struct [C57.arr [C57.Af, C57.Ag]])⟩, ⟨['B'], some (.struct C57.vB)⟩, ⟨['M'], some (.struct [C57.arr [C57.Mh]])⟩,
    ⟨['D'], some (.struct C57.vD)⟩]

/-- A call of entry `n` through a pointer to the struct. -/
def C57.vcall (this n : Nat) (ret : Ty) : Call :=
  { args := [.ptr (.struct this)], sret := false, params := [.ptr (.struct this)], ret := ret, called := .load (.gep (some n)) }

def C57.prov (m : Mod) : Provider := (buildProvider m).getD []

theorem C57.distinct : Distinct C57.th := ⟨by decide, by decide⟩
theorem C57.prov_eq : buildProvider C57.mod = some (C57.prov C57.mod) := by decide

-- the example meets the hypotheses of `C57_cha`, `C57_tables` and `C57_virtual`
example : (cha (C57.prov C57.mod) (sSubTypes C57.th) (C57.vcall 0 0 C57.void)).length = 3 ∧
    C57.Bf ∈ cha (C57.prov C57.mod) (sSubTypes C57.th) (C57.vcall 0 0 C57.void) ∧
    C57.Df ∈ cha (C57.prov C57.mod) (sSubTypes C57.th) (C57.vcall 0 0 C57.void) ∧
    cha (C57.prov C57.mod) (sSubTypes C57.th) (C57.vcall 1 1 C57.void) = [C57.Ag] := by decide

theorem C57.vtB : VTableOf C57.mod 1 C57.vB :=
  ⟨1, ⟨['B'], some (.struct C57.vB)⟩, rfl, by decide, rfl, by
    intro k' v' hk hv
    have : k' = 0 := by omega
    subst this
    cases hv
    decide⟩

theorem C57.derivB : SBase C57.th 1 0 := ⟨by decide, by decide, ⟨['B'], some [.other, .other, .bitcast ['A']]⟩, by decide, by decide, _, rfl, by decide⟩

-- the hypotheses of `C57_cha_sound_partial`: `g` of an object of type `B` through a pointer to `A`
example : C57.Ag ∈ resolveIndirectCall (C57.prov C57.mod) (C57.vcall 0 1 C57.void)
    (cha (C57.prov C57.mod) (sSubTypes C57.th) (C57.vcall 0 1 C57.void)) [] :=
  (C57_cha_sound_partial C57.mod C57.distinct _ C57.prov_eq (C57.vcall 0 1 C57.void) [] (n := 1) (s := 0) (d := 1) ⟨rfl, rfl⟩ (by decide)
    (.head C57.derivB (.refl 0)) C57.vtB rfl rfl (.alias (.fn _)) (by decide) (by decide) ((consistent_iff _ _).1 (by decide))).2

-- `C57_consistent`: pointers to structs and `i8*` match, different return types do not
example : Fits (C57.vcall 0 0 C57.void) C57.Df ∧ ¬ Fits (C57.vcall 0 0 C57.void) C57.Ac :=
  ⟨(consistent_iff _ _).1 (by decide), fun h => absurd ((consistent_iff _ _).2 h) (by decide)⟩

/-- An object of type `d` is called through a pointer to `s`, its base: the pointer in the object leads to position `ap` of array `j` of its
table, and the function called, which is not a placeholder, is `f`. -/
structure C57.Runs (m : Mod) (v : Provider) (c : Call) (n s d : Nat) (cs : List Comp) (j ap : Nat) (f : Fn) : Prop where
  prov : buildProvider m = some v
  distinct : Distinct m.th
  call : VCall c n s
  static : s ∈ m.th.structs
  derived : Star (SBase m.th) d s
  calls : Calls cs j ap n f
  notPure : f.name ≠ "__cxa_pure_virtual"

theorem C57.vtD : VTableOf C57.mod 3 C57.vD :=
  ⟨3, ⟨['D'], some (.struct C57.vD)⟩, rfl, by decide, rfl, by
    intro k' v' hk hv
    match k', hk with
    | 0, _ => cases hv; decide
    | 1, _ => cases hv; decide
    | 2, _ => cases hv; decide⟩

/-- C57 is false for second bases: the arrays of a table are concatenated, so the index is looked up in the first one.  `h` of a `D` through a
pointer to `M` is the thunk; it is missed, and `D::f` is returned instead. -/
theorem C57_secondary_false :
    C57.Runs C57.mod (C57.prov C57.mod) (C57.vcall 2 0 C57.void) 0 2 3 C57.vD 1 2 C57.Th ∧ VTableOf C57.mod 3 C57.vD ∧
    Fits (C57.vcall 2 0 C57.void) C57.Th ∧
    C57.Th ∉ cha (C57.prov C57.mod) (sSubTypes C57.th) (C57.vcall 2 0 C57.void) ∧
    C57.Df ∈ cha (C57.prov C57.mod) (sSubTypes C57.th) (C57.vcall 2 0 C57.void) :=
  ⟨⟨C57.prov_eq, C57.distinct, ⟨rfl, rfl⟩, by decide,
    .head ⟨by decide, by decide, ⟨['D'], some [.other, .bitcast ['A'], .bitcast ['M']]⟩, by decide, by decide, _, rfl, by decide⟩ (.refl 2),
    ⟨_, _, rfl, rfl, _, .inl rfl, .fn _⟩, by decide⟩, C57.vtD, (consistent_iff _ _).1 (by decide), by decide, by decide⟩

/-- The table of `B` with the offset of a virtual base in front. -/
def C57.vBv : List Comp := [.array [.other, .other, .other, .bitcast (.fn C57.Bf), .bitcast (.fn C57.Ag)]]
def C57.modV : Mod := { C57.mod with vts := [⟨['B'], some (.struct C57.vBv)⟩] }

/-- C57 is false for classes with virtual bases: the functions start behind the offsets of the virtual bases, not behind two entries. -/
theorem C57_vbase_false :
    C57.Runs C57.modV (C57.prov C57.modV) (C57.vcall 1 1 C57.void) 1 1 1 C57.vBv 0 3 C57.Ag ∧ VTableOf C57.modV 1 C57.vBv ∧
    Fits (C57.vcall 1 1 C57.void) C57.Ag ∧ cha (C57.prov C57.modV) (sSubTypes C57.th) (C57.vcall 1 1 C57.void) = [C57.Bf] :=
  ⟨⟨by decide, C57.distinct, ⟨rfl, rfl⟩, by decide, .refl 1, ⟨_, _, rfl, rfl, _, .inl rfl, .fn _⟩, by decide⟩,
    ⟨0, _, rfl, by decide, rfl, by intro k' v' h; omega⟩, (consistent_iff _ _).1 (by decide), by decide⟩

/-- A table whose entries are the functions themselves, as in modules with opaque pointers. -/
def C57.vBo : List Comp := [.array [.other, .other, .direct (.fn C57.Bf)]]
def C57.modO : Mod := { C57.mod with vts := [⟨['B'], some (.struct C57.vBo)⟩] }

/-- C57 is false for entries that are not casts: no callee is found. -/
theorem C57_direct_false :
    C57.Runs C57.modO (C57.prov C57.modO) (C57.vcall 1 0 C57.void) 0 1 1 C57.vBo 0 2 C57.Bf ∧ VTableOf C57.modO 1 C57.vBo ∧
    Fits (C57.vcall 1 0 C57.void) C57.Bf ∧ cha (C57.prov C57.modO) (sSubTypes C57.th) (C57.vcall 1 0 C57.void) = [] :=
  ⟨⟨by decide, C57.distinct, ⟨rfl, rfl⟩, by decide, .refl 1, ⟨_, _, rfl, rfl, _, .inr rfl, .fn _⟩, by decide⟩,
    ⟨0, _, rfl, by decide, rfl, by intro k' v' h; omega⟩, (consistent_iff _ _).1 (by decide), by decide⟩

def C57.vBc : List Comp := [C57.arr [C57.Bc]]
def C57.modC : Mod := { C57.mod with vts := [⟨['A'], some (.struct [C57.arr [C57.Ac]])⟩, ⟨['B'], some (.struct C57.vBc)⟩] }

/-- C57 is false for covariant return types: `B* B::clone()` overrides `A* A::clone()`, and a call through a pointer to `A` returns `A*`; the
return types have to be equal, so the overriding function is dropped. -/
theorem C57_covariant_false :
    C57.Runs C57.modC (C57.prov C57.modC) (C57.vcall 0 0 (.ptr (.struct 0))) 0 0 1 C57.vBc 0 2 C57.Bc ∧ VTableOf C57.modC 1 C57.vBc ∧
    cha (C57.prov C57.modC) (sSubTypes C57.th) (C57.vcall 0 0 (.ptr (.struct 0))) = [C57.Ac] :=
  ⟨⟨by decide, C57.distinct, ⟨rfl, rfl⟩, by decide, .head C57.derivB (.refl 0), ⟨_, _, rfl, rfl, _, .inl rfl, .fn _⟩, by decide⟩,
    ⟨1, _, rfl, by decide, rfl, by intro k' v' h hv; have : k' = 0 := by omega
                                   subst this; cases hv; decide⟩, by decide⟩

/-- `B` is an instance of a class template: the name of the struct type is `class.B`, the table is that for `B<int>`. -/
def C57.modT : Mod := { C57.mod with vts := [⟨"B<int>".toList, some (.struct C57.vB)⟩] }

/-- C57 is false for class templates: the name of the struct type lacks the arguments, so the table is not found. -/
theorem C57_template_false :
    C57.Runs C57.modT (C57.prov C57.modT) (C57.vcall 1 0 C57.void) 0 1 1 C57.vB 0 2 C57.Bf ∧ Fits (C57.vcall 1 0 C57.void) C57.Bf ∧
    cha (C57.prov C57.modT) (sSubTypes C57.th) (C57.vcall 1 0 C57.void) = [] :=
  ⟨⟨by decide, C57.distinct, ⟨rfl, rfl⟩, by decide, .refl 1, ⟨_, _, rfl, rfl, _, .inl rfl, .fn _⟩, by decide⟩,
    (consistent_iff _ _).1 (by decide), by decide⟩

/-- A function that is stored in a member of `S` and takes a pointer to `S`. -/
def C57.cb : Fn := C57.fn 9 "callback" 4 C57.void

/-- C57 is false for function pointers in structs: in `s->fn(s)` the function is loaded through a `getelementptr` with index 0, and the first
argument is a pointer to a struct; so the call is taken for a virtual one, though `S` has no virtual functions, and there are no callees,
whichever resolver is used.  As a function pointer the call would have been resolved. -/
theorem C57_struct_false :
    isVirtualCall (C57.prov C57.mod) (C57.vcall 4 0 C57.void) = true ∧ (∀ cs, ¬ VTableOf C57.mod 4 cs) ∧
    C57.cb ∈ resolveFunctionPointer [C57.cb] (C57.vcall 4 0 C57.void) ∧
    (∀ fptr, resolveIndirectCall (C57.prov C57.mod) (C57.vcall 4 0 C57.void)
      (cha (C57.prov C57.mod) (sSubTypes C57.th) (C57.vcall 4 0 C57.void)) fptr = []) ∧
    (∀ fptr, resolveIndirectCall (C57.prov C57.mod) (C57.vcall 4 0 C57.void)
      (rta (C57.prov C57.mod) (sSubTypes C57.th) [4] (C57.vcall 4 0 C57.void)) fptr = []) ∧
    dta (C57.prov C57.mod) C57.th (sSubTypes C57.th) .empty (C57.vcall 4 0 C57.void) = some [] ∧
    otfVirtual [.other, .global false none] (C57.vcall 4 0 C57.void) = some [] := by
  refine ⟨by decide, ?_, by decide, fun fptr => ?_, fun fptr => ?_, by decide, by decide⟩
  · rintro cs ⟨k, v, h1, h2, _⟩
    match k, h1 with
    | 0, h1 => cases h1; revert h2; decide
    | 1, h1 => cases h1; revert h2; decide
    | 2, h1 => cases h1; revert h2; decide
    | 3, h1 => cases h1; revert h2; decide
    | k + 4, h1 => simp [C57.mod] at h1
  · unfold resolveIndirectCall
    rw [if_pos (by decide)]
    decide
  · unfold resolveIndirectCall
    rw [if_pos (by decide)]
    decide

/-- Calls without prototype: `void (*p)(); … p(1)`; the type of the call has no parameters. -/
def C57.knr : Call := { args := [.int 32], sret := false, params := [], ret := C57.void, called := .other }
def C57.takesInt : Fn := { id := 10, name := "f", params := [.int 32], ret := C57.void, vararg := false, taken := true }

/-- C57 is false for calls without prototype: the function is called with as many arguments as it has, of the same types, but the type of the
call lists no parameters. -/
theorem C57_unprototyped_false : C57.knr.args = C57.takesInt.params ∧ C57.takesInt.ret = C57.knr.ret ∧
    resolveFunctionPointer [C57.takesInt] C57.knr = [] := by decide

-- the hypotheses of `C57_rta`, `C57_allocated` and `C57_rta_sound_partial`: a `B` on the heap
def C57.insts : List AInst := [.call (some "_Znwm") [.other, .bitcast (.ptr (.struct 1)) [none, some [.ptr (.struct 1)]]], .alloca (.struct 4),
  .alloca (.other 1 0), .call none []]
example : allocated C57.insts = some [1, 4] ∧ rta (C57.prov C57.mod) (sSubTypes C57.th) [1, 4] (C57.vcall 0 0 C57.void) = [C57.Bf] := by decide
example : ∃ i ∈ C57.insts, AllocSite 1 i :=
  ⟨_, List.mem_cons_self, .inr ⟨_, _, [none, some [.ptr (.struct 1)]], [], rfl, by decide, by decide, by decide⟩⟩

/-- C57, RTA is false for objects that are neither a local variable of exactly that type nor passed to a constructor behind an allocation: with a
`B` in a local variable and an `A` as a global variable, an array element or a member, only `B::f` is found; `A::f`, which CHA finds, is
dropped. -/
theorem C57_rta_false :
    allocated [.alloca (.struct 1), .alloca (.other 1 0)] = some [1] ∧ C57.Af ∈ cha (C57.prov C57.mod) (sSubTypes C57.th) (C57.vcall 0 0 C57.void) ∧
    rta (C57.prov C57.mod) (sSubTypes C57.th) [1] (C57.vcall 0 0 C57.void) = [C57.Bf] := by decide

/-- C57, RTA: a call that passes the new object to a function with variable arguments only is undefined. -/
theorem C57_alloc_undefined :
    allocated [.call (some "malloc") [.bitcast (.ptr (.struct 4)) [some []]]] = none := by decide

-- the hypotheses of `C57_dta` and `C57_dta_link`: a cast from `B*` to `A*`
def C57.up : BitCast := { src := .ptr (.struct 1), dest := .ptr (.struct 0), caller := "main", formals := [], late := false }
example : otherInst (C57.prov C57.mod) C57.up = some (some (0, 1)) := by decide
example : ∃ g r, TypeGraph.runC true [.link (stype C57.th 0) (stype C57.th 1)] .empty = some g ∧
    dta (C57.prov C57.mod) C57.th (sSubTypes C57.th) g (C57.vcall 0 0 C57.void) = some r ∧ C57.Bf ∈ r ∧ C57.Df ∉ r := by
  obtain ⟨g, r, h1, h2, h3, _⟩ := C57_dta C57.mod _ C57.prov_eq true [C57.up] [.link (stype C57.th 0) (stype C57.th 1)] (by
    intro a b
    constructor
    · intro h
      rcases List.mem_singleton.1 h with h
      cases h
      exact ⟨_, List.mem_singleton.2 rfl, 0, 1, by decide, rfl, rfl⟩
    · rintro ⟨bc, hb, d, s, h1, rfl, rfl⟩
      rw [List.mem_singleton.1 hb, show otherInst (C57.prov C57.mod) C57.up = some (some (0, 1)) by decide] at h1
      cases h1
      exact List.mem_singleton.2 rfl) (by
    intro bc hb d s h
    rw [List.mem_singleton.1 hb, show otherInst (C57.prov C57.mod) C57.up = some (some (0, 1)) by decide] at h
    cases h
    decide) (C57.vcall 0 0 C57.void) (n := 0) (s := 0) ⟨rfl, rfl⟩ (by unfold TypeGraph.Distinct; decide)
  have hB : C57.Hit C57.mod (C57.prov C57.mod) [C57.up] (C57.vcall 0 0 C57.void) 0 0 C57.Bf :=
    ⟨1, .step .refl ⟨_, List.mem_singleton.2 rfl, by decide⟩, by decide, ⟨C57.vB, C57.vtB, C57.primary (n := 0) rfl rfl (.fn _) (by decide)⟩,
      by decide, (consistent_iff _ _).1 (by decide)⟩
  have hspec := h3 ⟨C57.Bf, hB⟩
  refine ⟨g, r, h1, h2, (hspec _).2 hB, fun hD => ?_⟩
  have hg : TypeGraph.runC true [.link (stype C57.th 0) (stype C57.th 1)] .empty =
      some ((TypeGraph.runC true [.link (stype C57.th 0) (stype C57.th 1)] .empty).getD .empty) := by decide
  rw [hg] at h1
  cases h1
  have : C57.Df ∉ (dta (C57.prov C57.mod) C57.mod.th (sSubTypes C57.mod.th)
      ((TypeGraph.runC true [.link (stype C57.th 0) (stype C57.th 1)] .empty).getD .empty) (C57.vcall 0 0 C57.void)).getD [] := by decide
  rw [h2] at this
  exact this hD

/-- A constructor that stores a pointer to the new object as a pointer to its base, behind the store of the virtual table. -/
def C57.reg : BitCast := { src := .ptr (.struct 1), dest := .ptr (.struct 0), caller := "_ZN1BC2Ev", formals := [.ptr (.struct 1)], late := true }

/-- C57, DTA is false for objects that are cast in their constructor: the comment says that only casts in front of the store of the virtual
table are to be skipped, and casts in classes without virtual table; the test is inverted and all types have a table, so that every cast
of `this` is skipped.  With another cast elsewhere, the function of the class is missed. -/
theorem C57_dta_ctor_false :
    otherInst (C57.prov C57.mod) C57.reg = some none ∧
    otherInst (C57.prov C57.mod) { C57.up with src := .ptr (.struct 3) } = some (some (0, 3)) ∧
    C57.Bf ∈ cha (C57.prov C57.mod) (sSubTypes C57.th) (C57.vcall 0 0 C57.void) ∧
    C57.Bf ∉ (dta (C57.prov C57.mod) C57.th (sSubTypes C57.th)
      ((TypeGraph.runC true [.link (stype C57.th 0) (stype C57.th 3)] .empty).getD .empty) (C57.vcall 0 0 C57.void)).getD [C57.Bf] := by decide

/-- `isConstructor` goes by parts of the name: a function `ABC1` in a namespace passes for a constructor, a constructor template does not. -/
theorem C57_constructor_false : isConstructor "_ZN2ns4ABC1Ev" = true ∧ isConstructor "_ZN1AC2IiEET_" = false := by decide

-- the hypotheses of `C57_otf_virtual`: the table of `B` is in the alias set
example : otfVirtual [.other, .global true (some (.struct C57.vB))] (C57.vcall 0 1 C57.void) = some [C57.Ag] := by decide

/-- Values: 0 a variable `ops` with initializer 1; 1 an aggregate of `f` (2), a cast (3) of `g` (4), an aggregate 5 and a variable 6; 5 holds
`h` (7); 6 is a variable with initializer 8, which refers to 0 again; 9 is an expression with operand 0; 10 a variable with initializer `f`. -/
def C57.K : Nat → Val
  | 0 => .gvar (some 1)
  | 1 => .agg [2, 3, 5, 6, 11]
  | 2 => .fn C57.Af
  | 3 => .expr true true [4]
  | 4 => .fn C57.Bf
  | 5 => .agg [7]
  | 6 => .gvar (some 8)
  | 7 => .fn C57.Df
  | 8 => .agg [0, 5]
  | 9 => .expr false true [0]
  | 10 => .gvar (some 2)
  | 11 => .expr true true [12]
  | 12 => .gvar (some 13)
  | 13 => .agg [14]
  | 14 => .fn C57.Mh
  | _ => .nonConst

theorem C57.K_agg : ∀ a ops, C57.K a = .agg ops → a ∈ [1, 5, 8, 13] := by
  intro a ops h
  match a with
  | 0 | 1 | 2 | 3 | 4 | 5 | 6 | 7 | 8 | 9 | 10 | 11 | 12 | 13 | 14 => revert h; simp [C57.K]
  | a + 15 => simp [C57.K] at h

-- the hypotheses of `C57_otf_pointer`, and a run with a cycle through variables
example : [1, 5, 8, 13].Nodup ∧ otfPointer C57.K (C57.vcall 0 0 C57.void) 10 [15, 9] [] = some [C57.Af, C57.Bf, C57.Df] := by decide

/-- C57, OTF: a variable that is initialized with a function, rather than with an aggregate, is not looked into (the function has to be in the
alias set), nor is a cast of a variable inside an aggregate. -/
theorem C57_otf_false : otfPointer C57.K (C57.vcall 0 0 C57.void) 10 [10] [] = some [] ∧
    (∀ n r, otfPointer C57.K (C57.vcall 0 0 C57.void) n [0] [] = some r → C57.Mh ∉ r) ∧
    C57.K 1 = .agg [2, 3, 5, 6, 11] ∧ C57.K 11 = .expr true true [12] ∧ C57.K 12 = .gvar (some 13) ∧ C57.K 13 = .agg [14] ∧
    C57.K 14 = .fn C57.Mh ∧ Fits (C57.vcall 0 0 C57.void) C57.Mh := by
  refine ⟨by decide, fun n r h => ?_, rfl, rfl, rfl, rfl, rfl, (consistent_iff _ _).1 (by decide)⟩
  have h10 : otfPointer C57.K (C57.vcall 0 0 C57.void) 10 [0] [] = some [C57.Af, C57.Bf, C57.Df] := by decide
  have h1 := otfPointer_iff _ _ _ _ _ _ h C57.Mh
  have h2 := otfPointer_iff _ _ _ _ _ _ h10 C57.Mh
  rw [h1, ← h2]
  decide

-- `C57_pairs`: a function with variable arguments
example : actualFormalPairs ⟨[.ptr (.int 8), .int 32, .ptr (.int 32)], false, [.ptr (.int 8)], C57.void, .other⟩
    ⟨0, "printf", [.ptr (.int 8)], C57.void, true, false⟩ true = [(0, .arg 0), (2, .pack)] := by decide

end Phasar.Resolver
