import Verif.TH.DILemmas
/-!
# C44: type hierarchy answers are transitive closures (debug-information hierarchy)

Specification.  A type is known if the debug information lists it as class, struct or union.  `DirectBase d b` reads the
inheritance entries of `d`; a subtype of `t` is a known type from which a chain of direct bases leads to `t`.
-/
namespace Phasar.TH

/-- Spec: the type that a base entry names, through typedefs. -/
inductive Names : BaseTy → Nat → Prop
  | ty (a : Nat) : Names (.ty a) a
  | typedef {t : BaseTy} {a : Nat} (h : Names t a) : Names (.typedef t) a

/-- Spec: `d` inherits directly from `b`. -/
def DirectBase (d : DIF) (a b : Nat) : Prop :=
  ∃ c t, d.comp a = some c ∧ Elem.inheritance t ∈ c.elems ∧ Names t b

/-- Spec: the debug information lists `a` as class, struct or union. -/
def Known (d : DIF) (a : Nat) : Prop :=
  a ∈ d.types ∧ ∃ c, d.comp a = some c ∧ (c.tag = .class_ ∨ c.tag = .struct_ ∨ c.tag = .union_)

/-- What C++ and the debug information guarantee: the bases of a known type are known (`llvm::DebugInfoFinder` follows them)
and no type is its own ancestor. -/
structure Wf (d : DIF) : Prop where
  closed : ∀ a b, Known d a → DirectBase d a b → Known d b
  acyclic : ∀ a b, DirectBase d a b → ¬ Star (DirectBase d) b a

/-- Spec: the known types that derive from `t`, directly or not, and `t` itself. -/
def SubOf (d : DIF) (s t : Nat) : Prop := Known d s ∧ Star (DirectBase d) s t

theorem C44.names_iff (t : BaseTy) (a : Nat) : Names t a ↔ strip t = a := by
  induction t with
  | ty b =>
    constructor
    · intro h; cases h; rfl
    · rintro rfl; exact .ty _
  | typedef t ih =>
    constructor
    · intro h; cases h with | typedef h => exact ih.1 h
    · intro h; exact .typedef (ih.2 h)

theorem C44.base_iff (d : DIF) (a b : Nat) : HasBase d.comp a b ↔ DirectBase d a b := by
  unfold HasBase DirectBase
  simp only [C44.names_iff]

theorem C44.known_iff (d : DIF) (a : Nat) : a ∈ vertexTypes d ↔ Known d a := by
  rw [mem_vertexTypes]
  unfold Known
  constructor
  · rintro ⟨h, c, h1, h2⟩
    refine ⟨h, c, h1, ?_⟩
    cases hc : c.tag <;> simp_all
  · rintro ⟨h, c, h1, h2⟩
    refine ⟨h, c, h1, ?_⟩
    rcases h2 with h2 | h2 | h2 <;> rw [h2] <;> decide

theorem C44.star_known {d : DIF} (wf : Wf d) {a b : Nat} (h : Star (DirectBase d) a b) (ha : Known d a) : Known d b := by
  induction h with
  | refl => exact ha
  | head h _ ih => exact ih (wf.closed _ _ ha h)

theorem C44.build_mono {vs : List Nat} {g : Graph} {n m : Nat} {s : HS} (h : buildTypeHierarchy n vs g = some s)
    (hm : n ≤ m) : buildTypeHierarchy m vs g = some s := by
  unfold buildTypeHierarchy at h ⊢
  generalize ({ seen := _, index := _, hier := _ } : HS) = s0 at h ⊢
  generalize setBits g.roots = rs at h ⊢
  induction rs generalizing s0 with
  | nil => exact h
  | cons r rs ih =>
    rw [List.foldlM_cons] at h ⊢
    cases h1 : loop vs g.derived n [.visit r] s0 with
    | none => rw [h1] at h; cases h
    | some s1 =>
      rw [h1] at h
      rw [loop_mono _ _ _ _ _ h1 hm]
      exact ih s1 h

theorem C44.construct_mono {d : DIF} {n m : Nat} {th : TypeH} (h : construct n d = some th) (hm : n ≤ m) :
    construct m d = some th := by
  simp only [construct] at h ⊢
  cases hg : buildTypeGraph d.comp (vertexTypes d) with
  | none => rw [hg] at h; cases h
  | some g =>
    rw [hg] at h
    simp only [Option.bind_some] at h ⊢
    cases hs : buildTypeHierarchy n (vertexTypes d) g with
    | none => rw [hs] at h; cases h
    | some s => rw [C44.build_mono hs hm]; rw [hs] at h; exact h

/-- The construction terminates, and the range of every known type holds its subtypes. -/
theorem C44.main {d : DIF} (wf : Wf d) : ∃ fuel th, construct fuel d = some th ∧ th.verts = vertexTypes d ∧
    ∀ t ∈ vertexTypes d, ∃ l, subTypesOf th t = some l ∧ ∀ s, s ∈ l ↔ SubOf d s t := by
  have hn := nodup_vertexTypes d
  generalize hvs : vertexTypes d = vs at hn
  have hk : ∀ a, a ∈ vs ↔ Known d a := by intro a; rw [← hvs]; exact C44.known_iff d a
  obtain ⟨g, hg, hok⟩ := buildTypeGraph_ok (comp := d.comp) (vs := vs)
    (fun a ha => by obtain ⟨-, c, hc, -⟩ := (hk a).1 ha; exact ⟨c, hc⟩)
    (fun a ha b hb => (hk b).2 (wf.closed a b ((hk a).1 ha) ((C44.base_iff d a b).1 hb)))
  -- edges of the graph are direct bases
  have hedge : ∀ i j, E g.derived i j ↔ ∃ b a, vs[i]? = some b ∧ vs[j]? = some a ∧ DirectBase d a b := by
    intro i j
    rw [hok.edge]
    constructor
    · rintro ⟨a, b, ha, hb, rfl, rfl⟩
      have hb' := (C44.base_iff d a b).1 hb
      have hbm : b ∈ vs := (hk b).2 (wf.closed a b ((hk a).1 ha) hb')
      exact ⟨b, a, idxOf_get hbm, idxOf_get ha, hb'⟩
    · rintro ⟨b, a, h1, h2, h3⟩
      exact ⟨a, b, List.mem_of_getElem? h2, (C44.base_iff d a b).2 h3, (idxOf_of_get hn h1).symm, (idxOf_of_get hn h2).symm⟩
  have hstar : ∀ i j, Star (E g.derived) i j → ∀ b, vs[i]? = some b → ∃ a, vs[j]? = some a ∧ Star (DirectBase d) a b := by
    intro i j h
    induction h with
    | refl i => intro b hb; exact ⟨b, hb, .refl b⟩
    | head h _ ih =>
      intro b hb
      obtain ⟨b', a, h1, h2, h3⟩ := (hedge _ _).1 h
      rw [hb] at h1
      cases h1
      obtain ⟨a', h4, h5⟩ := ih a h2
      exact ⟨a', h4, h5.trans (.single h3)⟩
  have hstar' : ∀ a b, Star (DirectBase d) a b → Known d a → Star (E g.derived) (vs.idxOf b) (vs.idxOf a) := by
    intro a b h
    induction h with
    | refl a => intro _; exact .refl _
    | @head x y z h _ ih =>
      intro hka
      have hy := wf.closed x y hka h
      refine (ih hy).trans (.single ?_)
      exact (hedge _ _).2 ⟨y, x, idxOf_get ((hk y).2 hy), idxOf_get ((hk x).2 hka), h⟩
  have hcl : ∀ i j, E g.derived i j → j < vs.length := by
    intro i j h
    obtain ⟨b, a, -, h2, -⟩ := (hedge i j).1 h
    exact (List.getElem?_eq_some_iff.1 h2).1
  have hac : ∀ i j, E g.derived i j → ¬ Star (E g.derived) j i := by
    intro i j h h'
    obtain ⟨b, a, h1, h2, h3⟩ := (hedge i j).1 h
    obtain ⟨b', h4, h5⟩ := hstar j i h' a h2
    rw [h1] at h4
    cases h4
    exact wf.acyclic a b h3 h5
  obtain ⟨rank, hrank⟩ := exists_rank vs.length hcl hac
  have hrs : ∀ r ∈ setBits g.roots, r < vs.length := by
    intro r hr
    unfold setBits at hr
    have := List.mem_range.1 (List.mem_filter.1 hr).1
    rw [hok.lenR] at this
    exact this
  obtain ⟨fuel, s, hp, hr⟩ := roots_ok hok.lenD hcl rank hrank (setBits g.roots) hrs
    { seen := List.replicate vs.length false, index := List.replicate vs.length (0, 0), hier := [] }
    (by intro i h; simp only [List.getElem?_replicate] at h; split at h <;> cases h) (by simp)
  -- every vertex is reached from a root
  have hreach : ∀ i, i < vs.length → ∃ r ∈ setBits g.roots, Star (E g.derived) r i := by
    -- going up raises the rank, which is bounded
    obtain ⟨M, hM⟩ : ∃ M, ∀ i, i < vs.length → rank i ≤ M := by
      have : ∀ n, ∃ M, ∀ i, i < n → rank i ≤ M := by
        intro n
        induction n with
        | zero => exact ⟨0, fun i h => by omega⟩
        | succ n ih =>
          obtain ⟨M, h⟩ := ih
          refine ⟨M + rank n, fun i hi => ?_⟩
          by_cases hin : i = n
          · subst hin; omega
          · have := h i (by omega); omega
      exact this _
    have : ∀ k i, i < vs.length → M - rank i ≤ k → ∃ r ∈ setBits g.roots, Star (E g.derived) r i := by
      intro k
      induction k using Nat.strongRecOn with
      | ind k ih =>
        intro i hi hk'
        by_cases hb : ∃ p, E g.derived p i
        · obtain ⟨p, hpi⟩ := hb
          have hp' : p < vs.length := by
            obtain ⟨b, a, h1, -, -⟩ := (hedge p i).1 hpi
            exact (List.getElem?_eq_some_iff.1 h1).1
          have h1 := hrank _ _ hpi
          have h2 := hM p hp'
          obtain ⟨r, hr1, hr2⟩ := ih (M - rank p) (by omega) p hp' (Nat.le_refl _)
          exact ⟨r, hr1, hr2.trans (.single hpi)⟩
        · refine ⟨i, ?_, .refl i⟩
          unfold setBits
          rw [List.mem_filter]
          refine ⟨List.mem_range.2 (by rw [hok.lenR]; exact hi), ?_⟩
          rw [decide_eq_true_eq, hok.root i hi]
          rintro ⟨p, hp⟩
          exact hb ⟨p, (hok.edge p i).2 hp⟩
    exact fun i hi => this _ i hi (Nat.le_refl _)
  refine ⟨fuel, { verts := vs, index := s.index, hier := s.hier }, ?_, rfl, fun t ht => ?_⟩
  · have hb : buildTypeHierarchy fuel vs g = some s := by
      have := hr 0
      rw [Nat.add_zero] at this
      exact this
    simp only [construct, hvs, hg, Option.bind_some, hb, Option.map_some]
  · obtain ⟨a, b, h1, h2, h3, h4⟩ := hp.good _ (hreach _ (List.idxOf_lt_length_of_mem ht))
    refine ⟨(s.hier.drop a).take (b - a), ?_, fun x => ?_⟩
    · simp only [subTypesOf, if_pos ht, subTypesOfIdx, h1, if_pos (And.intro h2 h3)]
    · rw [h4]
      constructor
      · rintro ⟨j, h5, h6⟩
        obtain ⟨x', h7, h8⟩ := hstar _ _ h5 t (idxOf_get ht)
        rw [h6] at h7
        cases h7
        exact ⟨(hk x).1 (List.mem_of_getElem? h6), h8⟩
      · rintro ⟨h5, h6⟩
        exact ⟨vs.idxOf x, hstar' _ _ h6 h5, idxOf_get ((hk x).2 h5)⟩

theorem C44.any {d : DIF} (wf : Wf d) {fuel : Nat} {th : TypeH} (h : construct fuel d = some th) :
    th.verts = vertexTypes d ∧ ∀ t ∈ vertexTypes d, ∃ l, subTypesOf th t = some l ∧ ∀ s, s ∈ l ↔ SubOf d s t := by
  obtain ⟨f, th', h', hv, hs⟩ := C44.main wf
  have h1 := C44.construct_mono h (Nat.le_max_left fuel f)
  have h2 := C44.construct_mono h' (Nat.le_max_right fuel f)
  rw [h1] at h2
  cases h2
  exact ⟨hv, hs⟩

/-! ## The property -/

/-- The construction terminates without a failed assertion or an index out of range on every inheritance graph. -/
theorem C44_terminates (d : DIF) (wf : Wf d) : ∃ fuel th, construct fuel d = some th := by
  obtain ⟨f, th, h, -⟩ := C44.main wf
  exact ⟨f, th, h⟩

/-- `getSubTypes(t)` is exactly the set of known types that derive from `t`, including `t`; unknown types have no subtypes. -/
theorem C44_subtypes (d : DIF) (wf : Wf d) (fuel : Nat) (th : TypeH) (h : construct fuel d = some th) (t : Nat) :
    ∃ l, subTypesOf th t = some l ∧ ∀ s, s ∈ l ↔ SubOf d s t ∧ Known d t := by
  obtain ⟨hv, hs⟩ := C44.any wf h
  by_cases ht : t ∈ vertexTypes d
  · obtain ⟨l, h1, h2⟩ := hs t ht
    exact ⟨l, h1, fun s => by rw [h2]; exact ⟨fun h => ⟨h, (C44.known_iff d t).1 ht⟩, fun h => h.1⟩⟩
  · refine ⟨[], by simp [subTypesOf, hv, ht], fun s => ?_⟩
    constructor
    · intro h; cases h
    · rintro ⟨-, h⟩; exact absurd ((C44.known_iff d t).2 h) ht

/-- `isSubType` agrees with `getSubTypes`, and `hasType` with the known types. -/
theorem C44_isSubType (d : DIF) (wf : Wf d) (fuel : Nat) (th : TypeH) (h : construct fuel d = some th) (t s : Nat) :
    (isSubType th t s = some true ↔ SubOf d s t) ∧ (isSubType th t s = some false ↔ ¬ SubOf d s t) ∧
    (hasType th t = true ↔ Known d t) := by
  obtain ⟨l, h1, h2⟩ := C44_subtypes d wf fuel th h t
  have h3 : SubOf d s t ↔ SubOf d s t ∧ Known d t :=
    ⟨fun hs => ⟨hs, C44.star_known wf hs.2 hs.1⟩, fun hs => hs.1⟩
  have h4 := h2 s
  rw [← h3] at h4
  refine ⟨?_, ?_, ?_⟩
  · simp only [isSubType, h1, Option.map_some, Option.some.injEq, List.contains_iff_mem, h4]
  · simp only [isSubType, h1, Option.map_some, Option.some.injEq]
    rw [← h4, ← List.contains_iff_mem, Bool.not_eq_true]
  · simp only [hasType, (C44.any wf h).1, decide_eq_true_eq, C44.known_iff]

/-- Super types are the inverse relation: the types that have `s` as a subtype are exactly those found by going from `s` to
direct bases again and again; likewise `s` is found from `t` by going to types that list it as a direct base. -/
theorem C44_super (d : DIF) (wf : Wf d) (fuel : Nat) (th : TypeH) (h : construct fuel d = some th) (t s : Nat)
    (hs : Known d s) :
    (isSubType th t s = some true ↔ Star (DirectBase d) s t) ∧
    (isSubType th t s = some true ↔ Star (fun b a => DirectBase d a b) t s) := by
  have h1 := (C44_isSubType d wf fuel th h t s).1
  rw [h1]
  exact ⟨⟨fun h => h.2, fun h => ⟨hs, h⟩⟩, ⟨fun h => h.2.reverse, fun h => ⟨hs, h.reverse⟩⟩⟩

/-- On the known types `isSubType` is a partial order. -/
theorem C44_order (d : DIF) (wf : Wf d) (fuel : Nat) (th : TypeH) (h : construct fuel d = some th) :
    (∀ a, Known d a → isSubType th a a = some true) ∧
    (∀ a b c, isSubType th a b = some true → isSubType th b c = some true → isSubType th a c = some true) ∧
    (∀ a b, isSubType th a b = some true → isSubType th b a = some true → a = b) := by
  simp only [(C44_isSubType d wf fuel th h _ _).1]
  refine ⟨fun a ha => ⟨ha, .refl a⟩, fun a b c h1 h2 => ⟨h2.1, h2.2.trans h1.2⟩, fun a b h1 h2 => ?_⟩
  cases h1.2 with
  | refl => rfl
  | head h3 h4 => exact absurd (h4.trans h2.2) (wf.acyclic _ _ h3)

/-! ### Virtual tables -/

/-- Spec: the last declared virtual function of `t` with index `k`. -/
def lastFn (ps : List Sub) (t k : Nat) : Option Nat :=
  ((ps.filter fun p => p.parent = t ∧ p.vidx = k).filterMap (·.fn)).getLast?

theorem C44.putEntry (t : List (Option Nat)) (i f k : Nat) :
    ((TH.putEntry t i f)[k]?).join = if k = i then some f else (t[k]?).join := by
  unfold TH.putEntry
  by_cases h : t.length = i
  · rw [if_pos h]
    subst h
    by_cases hk : k = t.length
    · subst hk; simp
    · rw [if_neg hk]
      by_cases hlt : k < t.length
      · rw [List.getElem?_append_left hlt]
      · rw [List.getElem?_eq_none (l := t ++ [some f]) (by simp; omega), List.getElem?_eq_none (l := t) (by omega)]
  · rw [if_neg h]
    by_cases hlt : t.length < i
    · simp only [if_pos hlt]
      rw [List.getElem?_set]
      by_cases hk : i = k
      · subst hk
        rw [if_pos rfl, if_pos rfl, if_pos (by simp; omega)]
        rfl
      · rw [if_neg hk, if_neg (fun h => hk h.symm)]
        by_cases hkt : k < t.length
        · rw [List.getElem?_append_left hkt]
        · rw [List.getElem?_append_right (by omega), List.getElem?_replicate, List.getElem?_eq_none (l := t) (by omega)]
          split <;> rfl
    · simp only [if_neg hlt]
      rw [List.getElem?_set]
      by_cases hk : i = k
      · subst hk
        rw [if_pos rfl, if_pos rfl, if_pos (by omega)]
        rfl
      · rw [if_neg hk, if_neg (fun h => hk h.symm)]

/-- The virtual table of each known type holds at each index the virtual function that the type declares there, and nothing
else. -/
theorem C44_vtables (vs : List Nat) (ps : List Sub) (t : Nat) (ht : t ∈ vs) :
    ∃ tab, (buildVTables vs ps)[vs.idxOf t]? = some tab ∧ ∀ k, (tab[k]?).join = lastFn ps t k := by
  unfold buildVTables
  have : ∀ (ps : List Sub) (pre : List Sub) (vt : List (List (Option Nat))),
      (∃ tab, vt[vs.idxOf t]? = some tab ∧ ∀ k, (tab[k]?).join = lastFn pre t k) →
      ∃ tab, (ps.foldl (addSub vs) vt)[vs.idxOf t]? = some tab ∧ ∀ k, (tab[k]?).join = lastFn (pre ++ ps) t k := by
    intro ps
    induction ps with
    | nil => intro pre vt h; simpa using h
    | cons p ps ih =>
      intro pre vt ⟨tab, h1, h2⟩
      rw [List.foldl_cons, show pre ++ p :: ps = (pre ++ [p]) ++ ps by simp]
      apply ih
      have skip : (p.parent ≠ t ∨ p.fn = none) → ∀ k, lastFn (pre ++ [p]) t k = lastFn pre t k := by
        intro h k
        unfold lastFn
        rw [List.filter_append, List.filterMap_append]
        rcases h with h | h
        · simp [h]
        · by_cases hq : p.parent = t ∧ p.vidx = k <;> simp [h, hq]
      unfold addSub
      by_cases hp : p.parent ∈ vs
      · rw [if_pos hp]
        cases hf : p.fn with
        | none => exact ⟨tab, h1, fun k => by rw [skip (Or.inr hf)]; exact h2 k⟩
        | some f =>
          simp only
          by_cases hpt : p.parent = t
          · refine ⟨TH.putEntry tab p.vidx f, ?_, fun k => ?_⟩
            · rw [hpt, List.getElem?_modify, h1]; simp
            · rw [C44.putEntry]
              unfold lastFn
              rw [List.filter_append, List.filterMap_append]
              by_cases hk : k = p.vidx
              · simp [hk, hpt, hf]
              · have hk' : ¬ p.vidx = k := fun h => hk h.symm
                rw [if_neg hk, h2 k]
                simp [hk', lastFn]
          · refine ⟨tab, ?_, fun k => by rw [skip (Or.inl hpt)]; exact h2 k⟩
            have : ¬ vs.idxOf p.parent = vs.idxOf t := by
              intro h
              have h3 := idxOf_get hp
              rw [h, idxOf_get ht] at h3
              exact hpt (Option.some.inj h3).symm
            rw [List.getElem?_modify]
            simp [this, h1]
      · rw [if_neg hp]
        refine ⟨tab, h1, fun k => ?_⟩
        rw [skip (Or.inl (fun h => hp (h ▸ ht)))]
        exact h2 k
  have h0 := this ps [] (List.replicate vs.length [])
    ⟨[], by simp [List.idxOf_lt_length_of_mem ht], fun k => by simp [lastFn]⟩
  simpa using h0

/-! ## Non-vacuity -/

/-- A diamond `3 : 1, 2`, `1 : 0`, `2 : 0` (one base through a typedef), a type `4 : 3`, an unrelated union `5`, an enum `6`. -/
def C44.diamond : DIF where
  types := [4, 0, 6, 1, 2, 0, 3, 5]
  comp a := match a with
    | 0 => some ⟨.class_, [.other]⟩
    | 1 => some ⟨.class_, [.inheritance (.ty 0)]⟩
    | 2 => some ⟨.struct_, [.other, .inheritance (.typedef (.ty 0))]⟩
    | 3 => some ⟨.class_, [.inheritance (.ty 1), .inheritance (.ty 2)]⟩
    | 4 => some ⟨.class_, [.inheritance (.ty 3)]⟩
    | 5 => some ⟨.union_, []⟩
    | 6 => some ⟨.other, []⟩
    | _ => none

theorem C44.diamond_base {a b : Nat} (h : DirectBase C44.diamond a b) :
    (a, b) ∈ [(1, 0), (2, 0), (3, 1), (3, 2), (4, 3)] := by
  obtain ⟨c, t, h1, h2, h3⟩ := h
  rw [C44.names_iff] at h3
  subst h3
  match a with
  | 0 | 1 | 2 | 3 | 4 | 5 | 6 =>
    simp only [C44.diamond, Option.some.injEq] at h1
    subst h1
    simp at h2
    try (rcases h2 with rfl | rfl <;> simp [strip])
    try (subst h2; simp [strip])
  | n + 7 => simp [C44.diamond] at h1

example : Wf C44.diamond := by
  constructor
  · intro a b _ h
    have := C44.diamond_base h
    simp at this
    rcases this with ⟨-, rfl⟩ | ⟨-, rfl⟩ | ⟨-, rfl⟩ | ⟨-, rfl⟩ | ⟨-, rfl⟩ <;>
      exact ⟨by decide, _, rfl, by simp⟩
  · intro a b h h'
    have up : ∀ x y, Star (DirectBase C44.diamond) x y → y ≤ x := by
      intro x y h
      induction h with
      | refl => exact Nat.le_refl _
      | head h _ ih =>
        have := C44.diamond_base h
        simp at this
        omega
    have h1 := up _ _ h'
    have := C44.diamond_base h
    simp at this
    omega

/-- The common base is listed with the lower half of the diamond twice; `getSubTypes` removes the duplicates. -/
example : (construct 30 C44.diamond).map (fun th => [subTypesOf th 0, subTypesOf th 2, subTypesOf th 4, subTypesOf th 6]) =
    some [some [0, 2, 3, 4, 1, 3, 4], some [2, 3, 4], some [4], some []] := by decide +kernel
example : (construct 30 C44.diamond).bind (fun th => isSubType th 1 4) = some true := by decide +kernel
example : (construct 30 C44.diamond).bind (fun th => isSubType th 4 1) = some false := by decide +kernel
example : buildVTables [10, 20] [⟨20, 2, some 7⟩, ⟨20, 0, some 8⟩, ⟨10, 0, none⟩, ⟨20, 3, some 9⟩, ⟨20, 2, some 6⟩] =
    [[], [some 8, none, some 6, some 9]] := by decide

end Phasar.TH
