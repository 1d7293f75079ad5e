import Verif.TH.DI
/-!
# Lemmas about the construction of the type hierarchy
-/
namespace Phasar.TH

/-- Reflexive-transitive closure. -/
inductive Star {α : Type} (R : α → α → Prop) : α → α → Prop
  | refl (a : α) : Star R a a
  | head {a b c : α} (h : R a b) (t : Star R b c) : Star R a c

theorem Star.trans {α : Type} {R : α → α → Prop} {a b c : α} (h : Star R a b) (h' : Star R b c) : Star R a c := by
  induction h with
  | refl => exact h'
  | head h _ ih => exact .head h (ih h')

theorem Star.single {α : Type} {R : α → α → Prop} {a b : α} (h : R a b) : Star R a b := .head h (.refl b)

theorem Star.tail_cases {α : Type} {R : α → α → Prop} {a c : α} (h : Star R a c) : a = c ∨ ∃ b, Star R a b ∧ R b c := by
  induction h with
  | refl a => exact Or.inl rfl
  | head h t ih =>
    rcases ih with rfl | ⟨b, hb, hc⟩
    · exact Or.inr ⟨_, .refl _, h⟩
    · exact Or.inr ⟨b, .head h hb, hc⟩

theorem Star.reverse {α : Type} {R : α → α → Prop} {a c : α} (h : Star R a c) : Star (fun x y => R y x) c a := by
  induction h with
  | refl a => exact .refl a
  | head h _ ih => exact ih.trans (.single h)

/-- Edges of the graph. -/
def E (derived : List (List Nat)) (i j : Nat) : Prop := ∃ ds, derived[i]? = some ds ∧ j ∈ ds

section
variable (vs : List Nat) (derived : List (List Nat))

/-- The range of `t` holds exactly what is reachable from `t`. -/
def Good (hier : List Nat) (index : List (Nat × Nat)) (t : Nat) : Prop :=
  ∃ a b, index[t]? = some (a, b) ∧ a ≤ b ∧ b ≤ hier.length ∧
    ∀ x, x ∈ (hier.drop a).take (b - a) ↔ ∃ j, Star (E derived) t j ∧ vs[j]? = some x

variable {vs derived}

theorem Good.append {hier : List Nat} {index : List (Nat × Nat)} {t : Nat} (h : Good vs derived hier index t) (u : List Nat) :
    Good vs derived (hier ++ u) index t := by
  obtain ⟨a, b, h1, h2, h3, h4⟩ := h
  refine ⟨a, b, h1, h2, by rw [List.length_append]; omega, fun x => ?_⟩
  rw [← h4 x, List.drop_append_of_le_length (by omega), List.take_append_of_le_length]
  rw [List.length_drop]
  omega

theorem Good.congr {hier : List Nat} {index index' : List (Nat × Nat)} {t : Nat} (h : Good vs derived hier index t)
    (he : index'[t]? = index[t]?) : Good vs derived hier index' t := by
  obtain ⟨a, b, h1, h2⟩ := h
  exact ⟨a, b, by rw [he, h1], h2⟩

variable (vs derived)

/-- What a part of the loop that visits the vertices in `R` does. -/
structure Post (R : Nat → Prop) (s s' : HS) : Prop where
  seen : s'.seen = s.seen
  len : s'.index.length = s.index.length
  hier : ∃ u, s'.hier = s.hier ++ u ∧ ∀ x, x ∈ u ↔ ∃ j, R j ∧ vs[j]? = some x
  good : ∀ t, R t → Good vs derived s'.hier s'.index t
  same : ∀ t, ¬ R t → s'.index[t]? = s.index[t]?

variable {vs derived}

theorem Post.nil (s : HS) : Post vs derived (fun _ => False) s s :=
  ⟨rfl, rfl, ⟨[], by simp, by simp⟩, fun _ h => h.elim, fun _ _ => rfl⟩

theorem Post.comp {R R' : Nat → Prop} {s s' s'' : HS} (h : Post vs derived R s s') (h' : Post vs derived R' s' s'') :
    Post vs derived (fun t => R t ∨ R' t) s s'' := by
  obtain ⟨u, hu, hu'⟩ := h.hier
  obtain ⟨v, hv, hv'⟩ := h'.hier
  refine ⟨by rw [h'.seen, h.seen], by rw [h'.len, h.len], ⟨u ++ v, by rw [hv, hu, List.append_assoc], fun x => ?_⟩, ?_, ?_⟩
  · rw [List.mem_append, hu', hv']
    constructor
    · rintro (⟨j, h1, h2⟩ | ⟨j, h1, h2⟩)
      · exact ⟨j, Or.inl h1, h2⟩
      · exact ⟨j, Or.inr h1, h2⟩
    · rintro ⟨j, h1 | h1, h2⟩
      · exact Or.inl ⟨j, h1, h2⟩
      · exact Or.inr ⟨j, h1, h2⟩
  · intro t ht
    by_cases h2 : R' t
    · exact h'.good t h2
    · have hg := h.good t (ht.resolve_right h2)
      rw [hv]
      exact (hg.append v).congr (h'.same t h2)
  · intro t ht
    rw [h'.same t (fun h => ht (Or.inr h)), h.same t (fun h => ht (Or.inl h))]

theorem Post.of_iff {R R' : Nat → Prop} {s s' : HS} (h : Post vs derived R s s') (hi : ∀ t, R t ↔ R' t) :
    Post vs derived R' s s' := by
  have : R = R' := funext fun t => propext (hi t)
  exact this ▸ h

/-- A run of the loop over `items` that leaves the rest of the worklist alone. -/
def Runs (vs : List Nat) (derived : List (List Nat)) (items : List Item) (R : Nat → Prop) (s : HS) : Prop :=
  ∃ c s', Post vs derived R s s' ∧ ∀ m w, loop vs derived (c + m) (items ++ w) s = loop vs derived m w s'

theorem runs_list (cs : List Nat)
    (h : ∀ c ∈ cs, ∀ s : HS, (∀ i : Nat, s.seen[i]? ≠ some true) → s.index.length = vs.length →
      Runs vs derived [.visit c] (Star (E derived) c) s) :
    ∀ s : HS, (∀ i : Nat, s.seen[i]? ≠ some true) → s.index.length = vs.length →
      Runs vs derived (cs.map .visit) (fun j => ∃ c ∈ cs, Star (E derived) c j) s := by
  induction cs with
  | nil =>
    intro s _ _
    exact ⟨0, s, (Post.nil s).of_iff (by simp), fun m w => by simp⟩
  | cons c cs ih =>
    intro s hs hl
    obtain ⟨c1, s1, hp1, hr1⟩ := h c (by simp) s hs hl
    obtain ⟨c2, s2, hp2, hr2⟩ := ih (fun c' hc' => h c' (by simp [hc'])) s1 (by rw [hp1.seen]; exact hs) (by rw [hp1.len, hl])
    refine ⟨c1 + c2, s2, (hp1.comp hp2).of_iff (by simp), fun m w => ?_⟩
    rw [Nat.add_assoc, List.map_cons, List.cons_append]
    have := hr1 (c2 + m) (cs.map .visit ++ w)
    rw [List.cons_append, List.nil_append] at this
    rw [this, hr2]

theorem runs_visit (hlen : derived.length = vs.length) (hcl : ∀ i j, E derived i j → j < vs.length)
    (rank : Nat → Nat) (hrank : ∀ i j, E derived i j → rank j < rank i) :
    ∀ k i, rank i ≤ k → i < vs.length → ∀ s : HS, (∀ i : Nat, s.seen[i]? ≠ some true) → s.index.length = vs.length →
      Runs vs derived [.visit i] (Star (E derived) i) s := by
  intro k
  induction k using Nat.strongRecOn with
  | ind k ih =>
    intro i hk hi s hs hl
    have hv : vs[i]? = some vs[i] := List.getElem?_eq_getElem hi
    have hd : derived[i]? = some (derived[i]'(by omega)) := List.getElem?_eq_getElem (by omega)
    generalize hds : (derived[i]'(by omega)) = ds at hd
    generalize hvi : vs[i] = v at hv
    have hchild : ∀ c ∈ ds.reverse, E derived i c := fun c hc => ⟨ds, hd, by simpa using hc⟩
    -- the rank decreases along every path
    have hrs : ∀ a b, Star (E derived) a b → rank b ≤ rank a := by
      intro a b h
      induction h with
      | refl => exact Nat.le_refl _
      | head h _ ih => have := hrank _ _ h; omega
    let s0 : HS := { seen := s.seen, index := s.index.modify i fun p => (s.hier.length, p.2), hier := s.hier ++ [v] }
    obtain ⟨c, s1, hp, hr⟩ := runs_list (vs := vs) (derived := derived) ds.reverse
      (fun c hc s hs hl => ih (rank c) (by have := hrank _ _ (hchild c hc); omega) c (Nat.le_refl _) (hcl _ _ (hchild c hc))
        s hs hl)
      s0 hs (by simp [s0, hl])
    have hni : ¬ ∃ c ∈ ds.reverse, Star (E derived) c i := by
      rintro ⟨c, hc, hs⟩
      have := hrs _ _ hs
      have := hrank _ _ (hchild c hc)
      omega
    let s2 : HS := { s1 with index := s1.index.modify i fun p => (p.1, s1.hier.length) }
    have hstar : ∀ j, Star (E derived) i j ↔ i = j ∨ ∃ c ∈ ds.reverse, Star (E derived) c j := by
      intro j
      constructor
      · intro h
        cases h with
        | refl => exact Or.inl rfl
        | head h t =>
          obtain ⟨ds', h1, h2⟩ := h
          rw [hd] at h1
          cases h1
          exact Or.inr ⟨_, by simpa using h2, t⟩
      · rintro (rfl | ⟨c, hc, t⟩)
        · exact .refl _
        · exact .head (hchild c hc) t
    obtain ⟨u, hu, hu'⟩ := hp.hier
    have hhier : s1.hier = s.hier ++ (v :: u) := by rw [hu]; simp [s0]
    have hmem : ∀ x, x ∈ v :: u ↔ ∃ j, Star (E derived) i j ∧ vs[j]? = some x := by
      intro x
      rw [List.mem_cons, hu']
      constructor
      · rintro (rfl | ⟨j, h1, h2⟩)
        · exact ⟨i, .refl i, hv⟩
        · exact ⟨j, (hstar j).2 (Or.inr h1), h2⟩
      · rintro ⟨j, h1, h2⟩
        rcases (hstar j).1 h1 with rfl | h
        · rw [hv] at h2; cases h2; exact Or.inl rfl
        · exact Or.inr ⟨j, h, h2⟩
    have hsame1 : ∀ t, ¬ (∃ c ∈ ds.reverse, Star (E derived) c t) → t ≠ i → s1.index[t]? = s.index[t]? := by
      intro t ht hne
      rw [hp.same t ht]
      show (s.index.modify i _)[t]? = _
      rw [List.getElem?_modify]
      have : ¬ i = t := fun h => hne h.symm
      simp [this]
    have hidx1 : ∃ q, s1.index[i]? = some (s.hier.length, q) := by
      rw [hp.same i hni]
      show ∃ q, (s.index.modify i _)[i]? = _
      rw [List.getElem?_modify, List.getElem?_eq_getElem (by omega : i < s.index.length)]
      exact ⟨_, by simp; rfl⟩
    obtain ⟨q, hq⟩ := hidx1
    have hidx2 : s2.index[i]? = some (s.hier.length, s1.hier.length) := by
      show (s1.index.modify i _)[i]? = _
      rw [List.getElem?_modify, hq]
      simp
    have hidx2' : ∀ t, t ≠ i → s2.index[t]? = s1.index[t]? := by
      intro t hne
      show (s1.index.modify i _)[t]? = _
      rw [List.getElem?_modify]
      have : ¬ i = t := fun h => hne h.symm
      simp [this]
    refine ⟨c + 2, s2, ⟨hp.seen, ?_, ⟨v :: u, hhier, hmem⟩, ?_, ?_⟩, ?_⟩
    · show (s1.index.modify i _).length = _
      rw [List.length_modify, hp.len]
      simp [s0]
    · intro t ht
      by_cases hti : t = i
      · subst hti
        refine ⟨_, _, hidx2, by rw [hhier]; simp, Nat.le_refl _, fun x => ?_⟩
        rw [← hmem x]
        show x ∈ (s1.hier.drop _).take _ ↔ _
        rw [hhier, List.drop_left, List.take_of_length_le (by simp)]
      · rcases (hstar t).1 ht with h | h
        · exact absurd h.symm hti
        · exact (hp.good t h).congr (hidx2' t hti)
    · intro t ht
      have h1 : t ≠ i := fun h => by subst h; exact ht (.refl t)
      have h2 := fun h => ht ((hstar t).2 (Or.inr h))
      rw [hidx2' t h1, hsame1 t h2 h1]
    · intro m w
      rw [List.cons_append, List.nil_append, show c + 2 + m = (c + (m + 1)) + 1 by omega]
      rw [loop]
      simp only [hv, hd, if_neg (hs i)]
      show loop vs derived (c + (m + 1)) (List.map Item.visit ds.reverse ++ Item.close i :: w) s0 = _
      rw [hr, loop]

/-- More steps do not change the result. -/
theorem loop_mono : ∀ (n m : Nat) (w : List Item) (s r : HS), loop vs derived n w s = some r → n ≤ m →
    loop vs derived m w s = some r := by
  intro n
  induction n with
  | zero =>
    intro m w s r h _
    cases w with
    | nil => cases m <;> simpa [loop] using h
    | cons => simp [loop] at h
  | succ n ih =>
    intro m w s r h hm
    obtain ⟨m, rfl⟩ : ∃ k, m = k + 1 := ⟨m - 1, by omega⟩
    cases w with
    | nil => simpa [loop] using h
    | cons a w =>
      cases a with
      | close i => rw [loop] at h ⊢; exact ih m _ _ _ h (by omega)
      | visit i =>
        rw [loop] at h ⊢
        split at h
        · rename_i v ds h1 h2
          simp only at h ⊢
          exact ih m _ _ _ h (by omega)
        · cases h

/-- A finite graph without cycles can be ranked. -/
theorem exists_rank (n : Nat) (hcl : ∀ i j, E derived i j → j < n)
    (hac : ∀ i j, E derived i j → ¬ Star (E derived) j i) : ∃ rank : Nat → Nat, ∀ i j, E derived i j → rank j < rank i := by
  classical
  let P (i j : Nat) : Prop := ∃ k, E derived i k ∧ Star (E derived) k j
  refine ⟨fun i => (List.range n).countP fun j => decide (P i j), fun i j hij => ?_⟩
  have hsub : ∀ x, P j x → P i x := by
    rintro x ⟨k, h1, h2⟩
    exact ⟨j, hij, .head h1 h2⟩
  have hj : P i j := ⟨j, hij, .refl j⟩
  have hj' : ¬ P j j := by
    rintro ⟨k, h1, h2⟩
    exact hac j k h1 h2
  have key : ∀ l : List Nat, j ∈ l → (l.countP fun x => decide (P j x)) < l.countP fun x => decide (P i x) := by
    intro l
    have hle : ∀ l : List Nat, (l.countP fun x => decide (P j x)) ≤ l.countP fun x => decide (P i x) := by
      intro l
      apply List.countP_mono_left
      intro x _ hx
      simp only [decide_eq_true_eq] at hx ⊢
      exact hsub x hx
    induction l with
    | nil => simp
    | cons a l ih =>
      intro hm
      rw [List.countP_cons, List.countP_cons]
      by_cases ha : a = j
      · subst ha
        have := hle l
        simp only [hj, hj', decide_true, decide_false, if_true, Bool.false_eq_true, if_false]
        omega
      · have := ih ((List.mem_cons.1 hm).resolve_left (fun h => ha h.symm))
        by_cases h1 : P j a
        · simp only [h1, hsub a h1, decide_true, if_true]; omega
        · simp only [h1, decide_false, Bool.false_eq_true, if_false]
          split <;> omega
  exact key _ (List.mem_range.2 (hcl i j hij))

end

/-! ## The vertices -/

theorem mem_addType {comp : Nat → Option Comp} {vs : List Nat} {a x : Nat} :
    x ∈ addType comp vs a ↔ x ∈ vs ∨ (x = a ∧ ∃ c, comp a = some c ∧ c.tag ≠ .other) := by
  unfold addType
  cases h : comp a with
  | none => simp
  | some c =>
    by_cases h1 : c.tag = .other
    · simp [h1]
    · by_cases h2 : a ∈ vs
      · simp only [if_neg h1, if_pos h2]
        constructor
        · exact Or.inl
        · rintro (h | ⟨rfl, -⟩)
          · exact h
          · exact h2
      · simp [h1, h2]

theorem mem_vertexTypes {d : DIF} {x : Nat} :
    x ∈ vertexTypes d ↔ x ∈ d.types ∧ ∃ c, d.comp x = some c ∧ c.tag ≠ .other := by
  unfold vertexTypes
  have : ∀ (l vs : List Nat), x ∈ l.foldl (addType d.comp) vs ↔ x ∈ vs ∨ (x ∈ l ∧ ∃ c, d.comp x = some c ∧ c.tag ≠ .other) := by
    intro l
    induction l with
    | nil => simp
    | cons a l ih =>
      intro vs
      rw [List.foldl_cons, ih, mem_addType, List.mem_cons]
      constructor
      · rintro ((h | ⟨rfl, h⟩) | ⟨h1, h2⟩)
        · exact Or.inl h
        · exact Or.inr ⟨Or.inl rfl, h⟩
        · exact Or.inr ⟨Or.inr h1, h2⟩
      · rintro (h | ⟨rfl | h1, h2⟩)
        · exact Or.inl (Or.inl h)
        · exact Or.inl (Or.inr ⟨rfl, h2⟩)
        · exact Or.inr ⟨h1, h2⟩
  rw [this]
  simp

theorem nodup_vertexTypes (d : DIF) : (vertexTypes d).Nodup := by
  unfold vertexTypes
  have : ∀ (l vs : List Nat), List.Nodup vs → (l.foldl (addType d.comp) vs).Nodup := by
    intro l
    induction l with
    | nil => intro vs h; exact h
    | cons a l ih =>
      intro vs h
      rw [List.foldl_cons]
      apply ih
      unfold addType
      cases d.comp a with
      | none => exact h
      | some c =>
        simp only
        split
        · exact h
        · split
          · exact h
          · rename_i h2
            rw [List.nodup_append]
            exact ⟨h, by simp, by intro x hx y hy; simp at hy; subst hy; intro he; subst he; exact h2 hx⟩
  exact this _ _ List.nodup_nil

theorem idxOf_get {vs : List Nat} {a : Nat} (h : a ∈ vs) : vs[vs.idxOf a]? = some a := by
  have := List.idxOf_lt_length_of_mem h
  rw [List.getElem?_eq_getElem this, List.getElem_idxOf]

theorem idxOf_of_get {vs : List Nat} (hn : vs.Nodup) {a i : Nat} (h : vs[i]? = some a) : vs.idxOf a = i := by
  obtain ⟨hi, rfl⟩ := List.getElem?_eq_some_iff.1 h
  exact List.Nodup.idxOf_getElem hn i hi

/-! ## The graph -/

/-- What the graph looks like after the pairs `(base, derived)` of indices in `es` were added. -/
structure GOk (n : Nat) (es : Nat → Nat → Prop) (g : Graph) : Prop where
  lenR : g.roots.length = n
  lenD : g.derived.length = n
  edge : ∀ i j, E g.derived i j ↔ es i j
  root : ∀ j, j < n → (g.roots[j]? = some true ↔ ¬ ∃ i, es i j)

theorem GOk.init (n : Nat) : GOk n (fun _ _ => False) { roots := List.replicate n true, derived := List.replicate n [] } := by
  refine ⟨by simp, by simp, fun i j => ?_, fun j hj => ?_⟩
  · constructor
    · rintro ⟨ds, h1, h2⟩
      rw [List.getElem?_replicate] at h1
      split at h1
      · cases h1; cases h2
      · cases h1
    · exact False.elim
  · rw [List.getElem?_replicate, if_pos hj]
    simp

theorem GOk.add {n : Nat} {es : Nat → Nat → Prop} {g : Graph} (h : GOk n es g) {b d : Nat} (hb : b < n) (hd : d < n) :
    GOk n (fun i j => es i j ∨ (i = b ∧ j = d))
      { derived := g.derived.modify b (· ++ [d]), roots := g.roots.set d false } := by
  refine ⟨by simp [h.lenR], by simp [h.lenD], fun i j => ?_, fun j hj => ?_⟩
  · rw [← h.edge]
    unfold E
    simp only [List.getElem?_modify]
    by_cases hib : b = i
    · subst hib
      simp only [if_true]
      have : g.derived[b]? = some (g.derived[b]'(by rw [h.lenD]; exact hb)) := List.getElem?_eq_getElem _
      rw [this]
      simp
    · simp only [if_neg hib]
      have : ¬ i = b := fun h => hib h.symm
      simp [this]
  · rw [List.getElem?_set]
    by_cases hjd : d = j
    · subst hjd
      simp only [if_true]
      split
      · simp
      · rename_i h'; exact absurd (by rw [h.lenR]; exact hd) h'
    · rw [if_neg hjd, h.root j hj]
      constructor
      · rintro h' ⟨i, hi | ⟨-, rfl⟩⟩
        · exact h' ⟨i, hi⟩
        · exact hjd rfl
      · rintro h' ⟨i, hi⟩
        exact h' ⟨i, Or.inl hi⟩

theorem GOk.of_iff {n : Nat} {es es' : Nat → Nat → Prop} {g : Graph} (h : GOk n es g) (hi : ∀ i j, es i j ↔ es' i j) :
    GOk n es' g := by
  have : es = es' := funext fun i => funext fun j => propext (hi i j)
  exact this ▸ h

theorem addElems_ok {vs : List Nat} {d : Nat} (hd : d < vs.length) : ∀ (el : List Elem) {es : Nat → Nat → Prop} {g : Graph},
    GOk vs.length es g → (∀ b, Elem.inheritance b ∈ el → strip b ∈ vs) →
    ∃ g', el.foldlM (addElem vs d) g = some g' ∧
      GOk vs.length (fun i j => es i j ∨ (j = d ∧ ∃ b, Elem.inheritance b ∈ el ∧ i = vs.idxOf (strip b))) g' := by
  intro el
  induction el with
  | nil =>
    intro es g h _
    exact ⟨g, rfl, h.of_iff (by simp)⟩
  | cons e el ih =>
    intro es g h hm
    cases e with
    | other =>
      obtain ⟨g', h1, h2⟩ := ih h (fun b hb => hm b (by simp [hb]))
      refine ⟨g', by simpa [List.foldlM_cons, addElem] using h1, h2.of_iff (by simp)⟩
    | inheritance b =>
      have hb : strip b ∈ vs := hm b (by simp)
      have hlt := List.idxOf_lt_length_of_mem hb
      obtain ⟨g', h1, h2⟩ := ih (h.add hlt hd) (fun b hb => hm b (by simp [hb]))
      refine ⟨g', ?_, h2.of_iff ?_⟩
      · rw [List.foldlM_cons]
        have hc : vertexOf vs (strip b) ≠ 0 ∨ vs[0]? = some (strip b) := by
          unfold vertexOf
          rw [if_pos hb]
          by_cases h0 : vs.idxOf (strip b) = 0
          · right
            rw [← h0]
            exact idxOf_get hb
          · exact Or.inl h0
        simp only [addElem, if_pos hc]
        simp only [vertexOf, if_pos hb]
        exact h1
      · intro i j
        constructor
        · rintro ((h | ⟨rfl, rfl⟩) | ⟨rfl, b', hb', rfl⟩)
          · exact Or.inl h
          · exact Or.inr ⟨rfl, b, by simp, rfl⟩
          · exact Or.inr ⟨rfl, b', by simp [hb'], rfl⟩
        · rintro (h | ⟨rfl, b', hb', rfl⟩)
          · exact Or.inl (Or.inl h)
          · rcases List.mem_cons.1 hb' with h | h
            · cases h; exact Or.inl (Or.inr ⟨rfl, rfl⟩)
            · exact Or.inr ⟨rfl, b', h, rfl⟩

/-- `d` lists `b` among its bases. -/
def HasBase (comp : Nat → Option Comp) (d b : Nat) : Prop :=
  ∃ c t, comp d = some c ∧ Elem.inheritance t ∈ c.elems ∧ strip t = b

theorem buildTypeGraph_ok {comp : Nat → Option Comp} {vs : List Nat}
    (hc : ∀ a ∈ vs, ∃ c, comp a = some c) (hb : ∀ a ∈ vs, ∀ b, HasBase comp a b → b ∈ vs) :
    ∃ g, buildTypeGraph comp vs = some g ∧
      GOk vs.length (fun i j => ∃ d b, d ∈ vs ∧ HasBase comp d b ∧ i = vs.idxOf b ∧ j = vs.idxOf d) g := by
  unfold buildTypeGraph
  have : ∀ (l : List Nat) (es : Nat → Nat → Prop) (g : Graph), (∀ a ∈ l, a ∈ vs) → GOk vs.length es g →
      ∃ g', l.foldlM (addComposite comp vs) g = some g' ∧
        GOk vs.length (fun i j => es i j ∨ ∃ d b, d ∈ l ∧ HasBase comp d b ∧ i = vs.idxOf b ∧ j = vs.idxOf d) g' := by
    intro l
    induction l with
    | nil => intro es g _ h; exact ⟨g, rfl, h.of_iff (by simp)⟩
    | cons a l ih =>
      intro es g hl h
      have ha := hl a (by simp)
      obtain ⟨c, hca⟩ := hc a ha
      obtain ⟨g1, h1, h2⟩ := addElems_ok (vs := vs) (d := vs.idxOf a) (List.idxOf_lt_length_of_mem ha) c.elems h
        (fun b hb' => hb a ha _ ⟨c, b, hca, hb', rfl⟩)
      obtain ⟨g2, h3, h4⟩ := ih _ g1 (fun x hx => hl x (by simp [hx])) h2
      refine ⟨g2, ?_, h4.of_iff ?_⟩
      · rw [List.foldlM_cons]
        simp only [addComposite, hca, vertexOf, if_pos ha]
        rw [h1]
        exact h3
      · intro i j
        constructor
        · rintro ((h | ⟨rfl, b, hb', rfl⟩) | ⟨d, b, hd, hbase, rfl, rfl⟩)
          · exact Or.inl h
          · exact Or.inr ⟨a, strip b, by simp, ⟨c, b, hca, hb', rfl⟩, rfl, rfl⟩
          · exact Or.inr ⟨d, b, by simp [hd], hbase, rfl, rfl⟩
        · rintro (h | ⟨d, b, hd, hbase, rfl, rfl⟩)
          · exact Or.inl (Or.inl h)
          · rcases List.mem_cons.1 hd with h | h
            · subst h
              obtain ⟨c', t, h5, h6, rfl⟩ := hbase
              rw [hca] at h5
              cases h5
              exact Or.inl (Or.inr ⟨rfl, t, h6, rfl⟩)
            · exact Or.inr ⟨d, b, h, hbase, rfl, rfl⟩
  obtain ⟨g, h1, h2⟩ := this vs _ _ (fun _ h => h) (GOk.init vs.length)
  exact ⟨g, h1, h2.of_iff (by simp)⟩

/-! ## The whole construction -/

theorem roots_ok {vs : List Nat} {derived : List (List Nat)} (hlen : derived.length = vs.length)
    (hcl : ∀ i j, E derived i j → j < vs.length)
    (rank : Nat → Nat) (hrank : ∀ i j, E derived i j → rank j < rank i) :
    ∀ (rs : List Nat), (∀ r ∈ rs, r < vs.length) → ∀ s : HS, (∀ i : Nat, s.seen[i]? ≠ some true) → s.index.length = vs.length →
      ∃ fuel s', Post vs derived (fun t => ∃ r ∈ rs, Star (E derived) r t) s s' ∧
        ∀ m, rs.foldlM (fun s r => loop vs derived (fuel + m) [.visit r] s) s = some s' := by
  intro rs
  induction rs with
  | nil => intro _ s _ _; exact ⟨0, s, (Post.nil s).of_iff (by simp), fun m => rfl⟩
  | cons r rs ih =>
    intro hr s hs hl
    obtain ⟨c, s1, hp1, hr1⟩ := runs_visit hlen hcl rank hrank (rank r) r (Nat.le_refl _) (hr r (by simp)) s hs hl
    obtain ⟨f, s2, hp2, hr2⟩ := ih (fun r' h => hr r' (by simp [h])) s1 (by rw [hp1.seen]; exact hs) (by rw [hp1.len, hl])
    refine ⟨c + f, s2, (hp1.comp hp2).of_iff (by simp), fun m => ?_⟩
    rw [List.foldlM_cons]
    have h1 := hr1 (f + m) []
    rw [List.append_nil, loop] at h1
    rw [Nat.add_assoc, h1]
    have h2 := hr2 (c + m)
    rw [show f + (c + m) = c + (f + m) by omega] at h2
    exact h2

end Phasar.TH
