import Verif.Analysis.AMLSem

/-
Lemmas about abstract memory locations and their factory
(lib/PhasarLLVM/DataFlow/IfdsIde/Problems/ExtendedTaintAnalysis/AbstractMemoryLocationFactory.cpp).
-/

namespace Phasar.AML

/-! ### Sequences -/

theorem addLast_concat (xs : List Int) (x k : Int) :
    addLast (xs ++ [x]) k = xs ++ [x + k] := by
  induction xs with
  | nil => rfl
  | cons y ys ih =>
    cases ys with
    | nil => rfl
    | cons z zs =>
      show y :: addLast (z :: zs ++ [x]) k = _
      rw [ih]; rfl

theorem addBack_concat (xs : List Int) (x k : Int) :
    addBack (xs ++ [x]) k = some (xs ++ [x + k]) := by
  simp [addBack]

theorem split_last {l : List Int} (h : l ≠ []) : ∃ xs x, l = xs ++ [x] :=
  ⟨l.dropLast, l.getLast h, (List.dropLast_concat_getLast h).symm⟩

theorem addBack_eq {l : List Int} (h : l ≠ []) (k : Int) :
    addBack l k = some (addLast l k) := by
  obtain ⟨xs, x, rfl⟩ := split_last h
  rw [addBack_concat, addLast_concat]

theorem addLast_ne {l : List Int} (h : l ≠ []) (k : Int) : addLast l k ≠ [] := by
  obtain ⟨xs, x, rfl⟩ := split_last h
  rw [addLast_concat]; simp

theorem addLast_length (l : List Int) (k : Int) : (addLast l k).length = l.length := by
  by_cases h : l = []
  · subst h; rfl
  · obtain ⟨xs, x, rfl⟩ := split_last h
    rw [addLast_concat]; simp

theorem addLast_dropLast (l : List Int) (k : Int) :
    (addLast l k).dropLast = l.dropLast := by
  by_cases h : l = []
  · subst h; rfl
  · obtain ⟨xs, x, rfl⟩ := split_last h
    rw [addLast_concat]; simp

theorem addLast_zero (l : List Int) : addLast l 0 = l := by
  by_cases h : l = []
  · subst h; rfl
  · obtain ⟨xs, x, rfl⟩ := split_last h
    rw [addLast_concat]; simp

theorem addLast_add (l : List Int) (a b : Int) :
    addLast (addLast l a) b = addLast l (a + b) := by
  by_cases h : l = []
  · subst h; rfl
  · obtain ⟨xs, x, rfl⟩ := split_last h
    rw [addLast_concat, addLast_concat, addLast_concat, Int.add_assoc]

theorem zeroBack_concat (xs : List Int) (x : Int) : zeroBack (xs ++ [x]) = xs ++ [0] := by
  simp [zeroBack]

theorem zeroBack_length (l : List Int) : (zeroBack l).length = l.length := by
  by_cases h : l = []
  · subst h; rfl
  · obtain ⟨xs, x, rfl⟩ := split_last h
    rw [zeroBack_concat]; simp

theorem zeroBack_dropLast (l : List Int) : (zeroBack l).dropLast = l.dropLast := by
  by_cases h : l = []
  · subst h; rfl
  · obtain ⟨xs, x, rfl⟩ := split_last h
    rw [zeroBack_concat]; simp

theorem dropLast_prefix {a b : List Int} (h : a <+: b) : a.dropLast <+: b.dropLast := by
  obtain ⟨r, rfl⟩ := h
  by_cases hr : r = []
  · subst hr; simp
  · rw [List.dropLast_append_of_ne_nil hr]
    exact (List.dropLast_prefix a).trans (List.prefix_append _ _)

theorem prefix_dropLast_append (a : List Int) {r : List Int} (hr : r ≠ []) :
    a <+: (a ++ r).dropLast := by
  rw [List.dropLast_append_of_ne_nil hr]
  exact List.prefix_append _ _

/-! ### Values of paths -/

theorem walk_append (m : Int → Int) (v : Int) (xs ys : List Int) :
    walk m v (xs ++ ys) = walk m (walk m v xs) ys := by
  induction xs generalizing v with
  | nil => rfl
  | cons x xs ih => exact ih _

theorem den_concat (ρ : Nat → Int) (m : Int → Int) (b : Nat) {xs : List Int} (h : xs ≠ [])
    (o : Int) (r : List Int) :
    den ρ m ⟨b, xs ++ o :: r⟩ = walk m (m (den ρ m ⟨b, xs⟩) + o) r := by
  cases xs with
  | nil => exact (h rfl).elim
  | cons x xs =>
    show walk m (ρ b + x) (xs ++ o :: r) = _
    rw [walk_append]; rfl

theorem den_addLast (ρ : Nat → Int) (m : Int → Int) (b : Nat) {xs : List Int} (h : xs ≠ [])
    (k : Int) : den ρ m ⟨b, addLast xs k⟩ = den ρ m ⟨b, xs⟩ + k := by
  obtain ⟨ys, y, rfl⟩ := split_last h
  rw [addLast_concat]
  cases ys with
  | nil => show ρ b + (y + k) = ρ b + y + k; omega
  | cons z zs =>
    rw [den_concat ρ m b (by simp) _ [], den_concat ρ m b (by simp) _ []]
    show m _ + (y + k) = m _ + y + k
    omega

theorem path_ne (dyn : Nat → Int) (v : IR) : (v.path dyn).offs ≠ [] := by
  induction v with
  | self i => simp [IR.path]
  | other i => simp [IR.path]
  | load i p ih => simp [IR.path]
  | cast i p ih => exact ih
  | gep i p off ih => exact addLast_ne ih _

theorem den_path (ρ : Nat → Int) (m : Int → Int) (dyn : Nat → Int) (v : IR) :
    den ρ m (v.path dyn) = v.val ρ m dyn := by
  induction v with
  | self i => show ρ i + 0 = ρ i; omega
  | other i => show ρ i + 0 = ρ i; omega
  | load i p ih =>
    show den ρ m ⟨(p.path dyn).base, (p.path dyn).offs ++ [0]⟩ = m (p.val ρ m dyn)
    rw [den_concat ρ m _ (path_ne dyn p) 0 [], ← ih]
    show m (den ρ m (p.path dyn)) + 0 = _
    omega
  | cast i p ih => exact ih
  | gep i p off ih =>
    show den ρ m ⟨(p.path dyn).base, addLast (p.path dyn).offs _⟩ = p.val ρ m dyn + _
    rw [den_addLast ρ m _ (path_ne dyn p), ← ih]

/-! ### The profile and the pool -/

/-- Same base, same offsets, both over-approximations or neither. -/
def Same (a b : Loc) : Prop :=
  a.base = b.base ∧ a.offs = b.offs ∧ (a.life = 0 ↔ b.life = 0)

theorem profile_inj {b b' : Nat} {o o' : List Int} {l l' : Nat} {p : List Int}
    (h : profile b o l = some p) :
    profile b' o' l' = some p ↔ (b = b' ∧ o = o' ∧ (l = 0 ↔ l' = 0)) := by
  unfold profile at h ⊢
  split at h
  · cases h
  · rename_i hn
    have h' : (b : Int) :: (o ++ [if l ≠ 0 then 1 else 0]) = p := Option.some.inj h
    subst h'
    constructor
    · intro h2
      split at h2
      · cases h2
      · rename_i hn2
        have h3 := Option.some.inj h2
        have h4 := List.cons.inj h3
        have h5 := List.append_inj' h4.2 rfl
        have h6 := h5.2
        refine ⟨by omega, h5.1.symm, ?_⟩
        by_cases a : l = 0 <;> by_cases c : l' = 0 <;> simp_all
    · rintro ⟨rfl, rfl, hl⟩
      rw [if_neg]
      · by_cases a : l = 0
        · have c := hl.1 a; simp [a, c]
        · have c : l' ≠ 0 := fun c => a (hl.2 c)
          simp [a, c]
      · rintro ⟨h1, h2⟩
        exact hn ⟨fun c => h1 (hl.1 c), h2⟩

/-- What `getOrCreate` returns. -/
theorem getOrCreate_spec (F : Fac) (b : Nat) (o : List Int) (life : Nat)
    (h : life ≠ 0 → o ≠ []) :
    ∃ l F', getOrCreate F b o life = some (l, F') ∧ Same l ⟨b, o, life⟩ ∧
      F'.cache = F.cache ∧
      ((l ∈ F.pool ∧ F' = F) ∨
       (l = ⟨b, o, life⟩ ∧ F'.pool = F.pool ++ [l] ∧ ∀ n ∈ F.pool, ¬ Same n l)) := by
  have hp : ∃ p, profile b o life = some p := by
    unfold profile
    rw [if_neg (fun hc => h hc.1 hc.2)]
    exact ⟨_, rfl⟩
  obtain ⟨p, hp⟩ := hp
  unfold getOrCreate
  rw [hp]
  show ∃ l F', (match F.pool.find? (fun n => profile n.base n.offs n.life == some p) with
    | some n => some (n, F)
    | none => some (_, _)) = some (l, F') ∧ _
  cases hf : F.pool.find? (fun n => profile n.base n.offs n.life == some p) with
  | some n =>
    have h1 := List.find?_some hf
    have h2 : profile n.base n.offs n.life = some p := eq_of_beq h1
    have h3 := (profile_inj hp).1 h2
    exact ⟨n, F, rfl, ⟨h3.1.symm, h3.2.1.symm, h3.2.2.symm⟩, rfl,
      .inl ⟨List.mem_of_find?_eq_some hf, rfl⟩⟩
  | none =>
    refine ⟨_, _, rfl, ⟨rfl, rfl, Iff.rfl⟩, rfl, .inr ⟨rfl, rfl, ?_⟩⟩
    intro n hn
    have h1 := List.find?_eq_none.1 hf n hn
    intro hs
    apply h1
    have h2 : profile n.base n.offs n.life = some p :=
      (profile_inj hp).2 ⟨hs.1.symm, hs.2.1.symm, hs.2.2.symm⟩
    simp [h2]

/-- A later factory keeps the nodes and the cache. -/
structure Ext (F F' : Fac) : Prop where
  pool : F.pool <+: F'.pool
  cache : ∀ i l, F.cache.lookup i = some l → F'.cache.lookup i = some l

theorem Ext.refl (F : Fac) : Ext F F := ⟨List.prefix_refl _, fun _ _ h => h⟩

theorem Ext.trans {F G H : Fac} (a : Ext F G) (b : Ext G H) : Ext F H :=
  ⟨a.pool.trans b.pool, fun i l h => b.cache i l (a.cache i l h)⟩

theorem getOrCreate_ext {F F' : Fac} {b o life l} (h : getOrCreate F b o life = some (l, F')) :
    Ext F F' := by
  by_cases hw : life ≠ 0 → o ≠ []
  · obtain ⟨l1, F1, h1, _, hc, h2⟩ := getOrCreate_spec F b o life hw
    rw [h] at h1
    cases h1
    rcases h2 with h2 | h2
    · rw [h2.2]; exact .refl F
    · exact ⟨by rw [h2.2.1]; exact List.prefix_append _ _, fun i l h => by rw [hc]; exact h⟩
  · exfalso
    have : life ≠ 0 ∧ o = [] := by
      constructor
      · intro hl; exact hw (fun c => (c hl).elim)
      · apply Classical.byContradiction; intro ho; exact hw (fun _ => ho)
    unfold getOrCreate profile at h
    rw [if_pos this] at h
    cases h

/-- A request is answered by the same node ever after. -/
theorem getOrCreate_again {F F1 F2 : Fac} {b o life l}
    (h : getOrCreate F b o life = some (l, F1)) (he : Ext F1 F2) :
    getOrCreate F2 b o life = some (l, F2) := by
  obtain ⟨more, hmore⟩ := he.pool
  unfold getOrCreate at h ⊢
  cases hp : profile b o life with
  | none => rw [hp] at h; cases h
  | some p =>
    rw [hp] at h
    show (match F2.pool.find? (fun n => profile n.base n.offs n.life == some p) with
      | some n => some (n, F2)
      | none => some (_, _)) = _
    have h' : (match F.pool.find? (fun n => profile n.base n.offs n.life == some p) with
      | some n => some (n, F)
      | none => some ((⟨b, o, life⟩ : Loc), { F with pool := F.pool ++ [⟨b, o, life⟩] })) = some (l, F1) := h
    cases hf : F.pool.find? (fun n => profile n.base n.offs n.life == some p) with
    | some n =>
      rw [hf] at h'
      have h2 : n = l ∧ F = F1 := by cases h'; exact ⟨rfl, rfl⟩
      rw [← h2.2] at hmore
      rw [← hmore, List.find?_append, hf, ← h2.1]
      rfl
    | none =>
      rw [hf] at h'
      have h2 : (⟨b, o, life⟩ : Loc) = l ∧ F.pool ++ [⟨b, o, life⟩] = F1.pool := by
        cases h'; exact ⟨rfl, rfl⟩
      obtain ⟨rfl, h3⟩ := h2
      rw [← hmore, ← h3, List.find?_append, List.find?_append, hf]
      simp [hp]

/-! ### The loop of `create` -/

/-- A path followed by what was collected after it. -/
def combine (ps : List Int) : List Int → List Int
  | [] => ps
  | k :: r => addLast ps k ++ r

theorem createLoop_spec (B : Nat) (dyn : Nat → Int) (v : IR) (offs : List Int) (ver : Nat)
    (h : offs ≠ []) :
    ∃ offs' ver', createLoop B v offs ver = some ((v.path dyn).base, offs', ver') ∧
      offs' ≠ [] ∧
      (v.known = true → offs'.reverse = combine (v.path dyn).offs offs.reverse ∧
        ver' + 1 = ver + (v.path dyn).offs.length) ∧
      (v.known = false → B ≤ ver' ∧
        offs'.reverse.dropLast <+: (v.path dyn).offs.dropLast) := by
  induction v generalizing offs ver with
  | self i =>
    refine ⟨offs, ver, rfl, h, fun _ => ⟨?_, by simp [IR.path]⟩, fun hk => by simp [IR.known] at hk⟩
    cases hr : offs.reverse with
    | nil => simp at hr; exact (h hr).elim
    | cons k r => simp [combine, IR.path, addLast]
  | other i =>
    refine ⟨offs, ver, rfl, h, fun _ => ⟨?_, by simp [IR.path]⟩, fun hk => by simp [IR.known] at hk⟩
    cases hr : offs.reverse with
    | nil => simp at hr; exact (h hr).elim
    | cons k r => simp [combine, IR.path, addLast]
  | load i p ih =>
    obtain ⟨o', v', h1, h2, h3, h4⟩ := ih (offs ++ [0]) (ver + 1) (by simp)
    refine ⟨o', v', h1, h2, fun hk => ?_, fun hk => ?_⟩
    · obtain ⟨h5, h6⟩ := h3 hk
      refine ⟨?_, by simp [IR.path]; omega⟩
      rw [h5]
      cases hr : offs.reverse with
      | nil => simp at hr; exact (h hr).elim
      | cons k r => simp [combine, IR.path, addLast_concat, addLast_zero, hr]
    · obtain ⟨h5, h6⟩ := h4 hk
      refine ⟨h5, h6.trans ?_⟩
      simp only [IR.path]
      exact (List.dropLast_prefix _).trans (prefix_dropLast_append _ (by simp))
  | cast i p ih => exact ih offs ver h
  | gep i p off ih =>
    cases off with
    | some k =>
      show ∃ offs' ver', (match addBack offs k with
        | none => none
        | some o => createLoop B p o ver) = _ ∧ _
      rw [addBack_eq h]
      obtain ⟨o', v', h1, h2, h3, h4⟩ := ih (addLast offs k) ver (addLast_ne h k)
      refine ⟨o', v', h1, h2, fun hk => ?_, fun hk => ?_⟩
      · have hk' : p.known = true := by simpa [IR.known] using hk
        obtain ⟨h5, h6⟩ := h3 hk'
        refine ⟨?_, by simp only [IR.path, addLast_length]; exact h6⟩
        rw [h5]
        obtain ⟨xs, x, rfl⟩ := split_last h
        simp only [addLast_concat, List.reverse_append, List.reverse_cons, List.reverse_nil,
          List.nil_append, List.cons_append, combine, IR.path, Option.getD_some, addLast_add]
        rw [Int.add_comm]
      · have hk' : p.known = false := by simpa [IR.known] using hk
        obtain ⟨h5, h6⟩ := h4 hk'
        refine ⟨h5, ?_⟩
        simp only [IR.path, addLast_dropLast]
        exact h6
    | none =>
      obtain ⟨o', v', h1, h2, h3, h4⟩ := ih [0] B (by simp)
      refine ⟨o', v', h1, h2, fun hk => by simp [IR.known] at hk, fun _ => ?_⟩
      simp only [IR.path, addLast_dropLast]
      cases hk : p.known with
      | true =>
        obtain ⟨h5, h6⟩ := h3 hk
        have hne := List.length_pos_iff.2 (path_ne dyn p)
        refine ⟨by omega, ?_⟩
        rw [h5]
        simp [combine, addLast_zero]
      | false => exact h4 hk

/-- What `create` asks the pool for. -/
theorem createNew_spec (B : Nat) (v : IR) :
    ∃ b o life, (∀ F, createNew F B v = getOrCreate F b o life) ∧
      o.length + life ≤ max B 1 ∧ (life ≠ 0 → o ≠ []) ∧
      (∀ dyn, covers ⟨b, o, life⟩ (v.path dyn)) ∧
      (∀ dyn, v.known = true → 0 < B →
        o = (v.path dyn).offs.take B ∧ life = B - (v.path dyn).offs.length) := by
  by_cases hself : ∃ i, v = .self i
  · obtain ⟨i, rfl⟩ := hself
    refine ⟨i, [0], if B = 0 then 0 else B - 1, fun F => rfl, ?_, fun _ => by simp, ?_, ?_⟩
    · by_cases hB : B = 0
      · simp [hB]
      · simp only [if_neg hB, List.length_cons, List.length_nil]; omega
    · intro dyn
      exact ⟨⟨rfl, by simp [IR.path]⟩, fun _ => rfl⟩
    · intro dyn _ hB
      have e : B = B - 1 + 1 := by omega
      refine ⟨?_, by rw [if_neg (by omega)]; rfl⟩
      rw [e]; simp [IR.path]
  · obtain ⟨o', v', h1, h2, h3, h4⟩ := createLoop_spec B (fun _ => 0) v [0] 1 (by simp)
    have hb : ∀ dyn : Nat → Int, (v.path dyn).base = (v.path fun _ => 0).base := by
      intro dyn
      obtain ⟨o'', v'', h1', _⟩ := createLoop_spec B dyn v [0] 1 (by simp)
      rw [h1] at h1'
      exact (congrArg Prod.fst (Option.some.inj h1')).symm
    have hnew : ∀ F, createNew F B v =
        if o'.reverse.length > B then
          if B - min v' B = 0 then
            getOrCreate F (v.path fun _ => 0).base (o'.reverse.take B) (B - min v' B)
          else none
        else getOrCreate F (v.path fun _ => 0).base o'.reverse (B - min v' B) := by
      intro F
      unfold createNew
      split
      · rename_i i; exact (hself ⟨i, rfl⟩).elim
      · rw [h1]
    have hall : ∀ dyn, (v.known = true → o'.reverse = (v.path dyn).offs ∧
          v' = (v.path dyn).offs.length) ∧
        (v.known = false → B ≤ v' ∧ o'.reverse.dropLast <+: (v.path dyn).offs.dropLast) := by
      intro dyn
      obtain ⟨o'', v'', h1', _, h3', h4'⟩ := createLoop_spec B dyn v [0] 1 (by simp)
      rw [h1] at h1'
      have e : o' = o'' ∧ v' = v'' := by
        have := Option.some.inj h1'
        exact ⟨congrArg (fun x => x.2.1) this, congrArg (fun x => x.2.2) this⟩
      rw [e.1, e.2]
      refine ⟨fun hk => ?_, h4'⟩
      obtain ⟨h5, h6⟩ := h3' hk
      refine ⟨?_, by omega⟩
      rw [h5]; simp [combine, addLast_zero]
    cases hk : v.known with
    | true =>
      have hlen : v' = o'.reverse.length := by
        have := (hall (fun _ => 0)).1 hk
        rw [this.1]; exact this.2
      by_cases hl : o'.reverse.length > B
      · have hz : B - min v' B = 0 := by omega
        refine ⟨_, _, 0, fun F => by rw [hnew F, if_pos hl, if_pos hz, hz], ?_, (nomatch · rfl), ?_, ?_⟩
        · simp only [List.length_take]; omega
        · intro dyn
          refine ⟨⟨(hb dyn).symm, ?_⟩, fun h => (h rfl).elim⟩
          show (o'.reverse.take B).dropLast <+: _
          rw [((hall dyn).1 hk).1]
          exact dropLast_prefix (List.take_prefix _ _)
        · intro dyn _ _
          have e := ((hall dyn).1 hk).1
          exact ⟨by rw [e], by rw [← e]; omega⟩
      · refine ⟨_, _, _, fun F => by rw [hnew F, if_neg hl], by omega, fun _ => by simpa using h2, ?_, ?_⟩
        · intro dyn
          have e := ((hall dyn).1 hk).1
          refine ⟨⟨(hb dyn).symm, ?_⟩, fun _ => e⟩
          show o'.reverse.dropLast <+: _
          rw [e]
          exact List.prefix_refl _
        · intro dyn _ _
          have e := ((hall dyn).1 hk).1
          exact ⟨by rw [← e, List.take_of_length_le (by omega)], by rw [← e]; omega⟩
    | false =>
      have hz : B - min v' B = 0 := by
        have := ((hall fun _ => 0).2 hk).1; omega
      by_cases hl : o'.reverse.length > B
      · refine ⟨_, _, 0, fun F => by rw [hnew F, if_pos hl, if_pos hz, hz], ?_, (nomatch · rfl), ?_, fun _ h => (nomatch h)⟩
        · simp only [List.length_take]; omega
        · intro dyn
          refine ⟨⟨(hb dyn).symm, ?_⟩, fun h => (h rfl).elim⟩
          exact (dropLast_prefix (List.take_prefix _ _)).trans ((hall dyn).2 hk).2
      · refine ⟨_, _, 0, fun F => by rw [hnew F, if_neg hl, hz], by omega, (nomatch · rfl), ?_, fun _ h => (nomatch h)⟩
        intro dyn
        exact ⟨⟨(hb dyn).symm, ((hall dyn).2 hk).2⟩, fun h => (h rfl).elim⟩

/-! ### What a call asks the pool for -/

/-- No longer than the bound, and an exact location has an offset. -/
def WF (B : Nat) (l : Loc) : Prop :=
  l.offs.length + l.life ≤ max B 1 ∧ (l.life ≠ 0 → l.offs ≠ [])

theorem Same.wf_offs {a b : Loc} (h : Same a b) (hb : b.life ≠ 0 → b.offs ≠ []) :
    a.life ≠ 0 → a.offs ≠ [] := by
  intro hl
  rw [h.2.1]
  exact hb (fun c => hl (h.2.2.2 c))

theorem Same.covers {a b : Loc} {p : Path} (h : Same a b) (hb : covers b p) : covers a p := by
  refine ⟨⟨h.1.trans hb.1.1, by rw [h.2.1]; exact hb.1.2⟩, fun hl => ?_⟩
  rw [h.2.1]
  exact hb.2 (fun c => hl (h.2.2.2 c))

theorem Same.standsFor {a b : Loc} {p : Path} (h : Same a b) (hb : standsFor b p) :
    standsFor a p :=
  ⟨h.1.trans hb.1, by rw [h.2.1]; exact hb.2⟩

theorem getOrCreate_some {F F' : Fac} {b o life l} (h : getOrCreate F b o life = some (l, F')) :
    Same l ⟨b, o, life⟩ := by
  by_cases hw : life ≠ 0 ∧ o = []
  · unfold getOrCreate profile at h
    rw [if_pos hw] at h
    cases h
  · obtain ⟨l1, F1, h1, h2, _⟩ := getOrCreate_spec F b o life (fun a c => hw ⟨a, c⟩)
    rw [h] at h1
    cases h1
    exact h2

/-- The request of `withIndirection`. -/
theorem indirection_plan {l : Loc} {ind : List Int} {B : Nat} (hl : WF B l) (hz : l.life ≠ 0) :
    ∃ o life, (∀ F, withIndirection F l ind = getOrCreate F l.base o life) ∧
      WF B ⟨l.base, o, life⟩ ∧
      o = (l.offs ++ (if ind = [] then [0] else ind)).take (l.offs.length + l.life) ∧
      life = l.life - (if ind = [] then [0] else ind).length := by
  have hne := hl.2 hz
  have hlen := hl.1
  by_cases hi : ind = []
  · refine ⟨l.offs ++ [0], l.life - 1, fun F => by simp [withIndirection, hz, hi], ⟨?_, ?_⟩, ?_, ?_⟩
    · simp only [List.length_append, List.length_cons, List.length_nil]; omega
    · intro _; simp
    · rw [if_pos hi, List.take_of_length_le]
      simp; omega
    · rw [if_pos hi]; rfl
  · rw [if_neg hi]
    refine ⟨l.offs ++ (if l.life < ind.length then ind.take l.life else ind),
      l.life - (if l.life < ind.length then ind.take l.life else ind).length, fun F => by
      simp only [withIndirection, if_neg hz, if_neg hi], ⟨?_, ?_⟩, ?_, ?_⟩
    · split
      · simp only [List.length_append, List.length_take]; omega
      · simp only [List.length_append]; omega
    · intro _; simp [hne]
    · split
      · rw [List.take_append]
        simp [List.take_of_length_le]
      · rw [List.take_of_length_le]
        simp; omega
    · split
      · simp only [List.length_take]; omega
      · rfl

/-- The request of `withOffsets`. -/
theorem offsets_plan {l : Loc} {k : Int} {r : List Int} {B : Nat} (hl : WF B l) (hz : l.life ≠ 0) :
    ∃ o life, (∀ F, withOffsets F l (k :: r) = getOrCreate F l.base o life) ∧
      WF B ⟨l.base, o, life⟩ ∧
      o = (addLast l.offs k ++ r).take (l.offs.length + l.life) ∧ life = l.life - r.length := by
  have hne := hl.2 hz
  have hlen := hl.1
  have hlen' := addLast_length l.offs k
  by_cases hr : l.life < r.length
  · refine ⟨addLast l.offs k ++ r.take l.life, 0, fun F => ?_, ⟨?_, (nomatch · rfl)⟩, ?_, by omega⟩
    · simp only [withOffsets, if_neg hz, addBack_eq hne, List.length_cons, Nat.add_sub_cancel,
        if_pos hr, List.take_succ_cons, List.length_take, List.tail_cons]
      rw [if_neg (by omega)]
      congr 1
      omega
    · simp only [List.length_append, List.length_take, hlen']; omega
    · rw [List.take_append, hlen', List.take_of_length_le (l := addLast l.offs k) (by omega),
        Nat.add_sub_cancel_left]
  · refine ⟨addLast l.offs k ++ r, l.life - r.length, fun F => ?_, ⟨?_, ?_⟩, ?_, rfl⟩
    · simp only [withOffsets, if_neg hz, addBack_eq hne, List.length_cons, Nat.add_sub_cancel,
        if_neg hr, List.tail_cons]
      rw [if_neg (by omega)]
      congr 1
      omega
    · simp only [List.length_append, hlen']; omega
    · intro _; simp [addLast_ne hne]
    · rw [List.take_of_length_le]
      simp only [List.length_append, hlen']; omega

/-- The request of `withTransferFrom`. -/
theorem transferFrom_plan {a t : Loc} {B : Nat} (ha : WF B a) (ht : WF B t) (hz : a.life ≠ 0) :
    ∃ k r o life, a.offs = k :: r ∧
      (∀ F, withTransferFrom F a t = getOrCreate F t.base o life) ∧ WF B ⟨t.base, o, life⟩ ∧
      o = (addLast t.offs k ++ r).take
        (min (a.offs.length + a.life) (t.offs.length + t.life)) ∧
      life = min a.life (min (a.offs.length + a.life) (t.offs.length + t.life) -
        (t.offs.length + r.length)) := by
  have hne := ha.2 hz
  have hlen := ha.1
  have hlent := ht.1
  cases hao : a.offs with
  | nil => exact (hne hao).elim
  | cons k r =>
    have hl : a.offs.length = r.length + 1 := by rw [hao]; rfl
    have hadd := addLast_length t.offs k
    refine ⟨k, r, (addLast t.offs k ++ r).take
        (min (a.offs.length + a.life) (t.offs.length + t.life)), _, rfl, fun F => ?_, ⟨?_, ?_⟩,
        by rw [hao], rfl⟩
    · have hoffs : transferOffs t.offs a.offs = some (addLast t.offs k ++ r) := by
        rw [hao]
        by_cases hto : t.offs = []
        · simp [hto, addLast, transferOffs]
        · simp [hto, addBack_eq hto, transferOffs]
      unfold withTransferFrom
      rw [if_neg hz, hoffs]
      simp only
      by_cases hbig : (addLast t.offs k ++ r).length >
          min (a.offs.length + a.life) (t.offs.length + t.life)
      · rw [if_pos hbig, if_neg (by simp only [List.length_take]; omega)]
        congr 1
        simp only [List.length_take, List.length_append, hadd] at hbig ⊢
        simp only [List.length_cons] at hl ⊢
        omega
      · rw [if_neg hbig, if_neg (by omega), List.take_of_length_le (by omega)]
        congr 1
        simp only [List.length_append, hadd] at hbig ⊢
        simp only [List.length_cons] at hl ⊢
        omega
    · simp only [List.length_take, List.length_append, hadd, List.length_cons] at hl ⊢
      omega
    · intro hlife hemp
      have := congrArg List.length hemp
      simp only [List.length_take, List.length_append, hadd, List.length_nil] at this hl
      have ht2 := ht.2
      by_cases htl : t.life = 0
      · simp only [List.length_cons] at hlife; omega
      · have := List.length_pos_iff.2 (ht2 htl)
        omega

/-- The request of `withTransferTo`. -/
theorem transferTo_plan {a f : Loc} {t B : Nat} (ha : WF B a) (hf : WF B f) :
    ∃ o life, (∀ F, withTransferTo F a f t = getOrCreate F t o life) ∧ WF B ⟨t, o, life⟩ ∧
      (a.life = 0 ∧ f.life = 0 → o = [0] ∧ life = 0) ∧
      (¬ (a.life = 0 ∧ f.life = 0) → life = min a.life f.life ∧
        (f.offs.length ≤ a.offs.length → o = zeroBack (a.offs.drop (f.offs.length - 1))) ∧
        (a.offs.length < f.offs.length → o = zeroBack (f.offs.drop (a.offs.length - 1)))) := by
  by_cases hz : a.life = 0 ∧ f.life = 0
  · refine ⟨[0], 0, fun F => by simp [withTransferTo, hz, getOrCreateBase], ⟨?_, (nomatch · rfl)⟩,
      fun _ => ⟨rfl, rfl⟩, fun h => (h hz).elim⟩
    show 1 + 0 ≤ max B 1
    omega
  · have ha1 := ha.1
    have hf1 := hf.1
    have ha2 := ha.2
    have hf2 := hf.2
    by_cases hc : a.offs.length ≥ f.offs.length
    · refine ⟨zeroBack (a.offs.drop (f.offs.length - 1)), min a.life f.life, fun F => ?_,
        ⟨?_, ?_⟩, fun h => (hz h).elim, fun _ => ⟨rfl, fun _ => rfl, fun h => by omega⟩⟩
      · simp only [withTransferTo, if_neg hz, if_pos hc]
        by_cases he : f.offs = []
        · simp [he]
        · simp [he]
      · simp only [zeroBack_length, List.length_drop]; omega
      · intro hl hemp
        have := congrArg List.length hemp
        simp only [zeroBack_length, List.length_drop, List.length_nil] at this
        have hl' : min a.life f.life ≠ 0 := hl
        have h1 := List.length_pos_iff.2 (hf2 (by omega))
        omega
    · refine ⟨zeroBack (f.offs.drop (a.offs.length - 1)), min a.life f.life, fun F => ?_,
        ⟨?_, ?_⟩, fun h => (hz h).elim, fun _ => ⟨rfl, fun h => by omega, fun _ => rfl⟩⟩
      · simp only [withTransferTo, if_neg hz, if_neg hc]
        by_cases he : a.offs = []
        · simp [he]
        · simp [he]
      · simp only [zeroBack_length, List.length_drop]; omega
      · intro hl hemp
        have := congrArg List.length hemp
        simp only [zeroBack_length, List.length_drop, List.length_nil] at this
        have hl' : min a.life f.life ≠ 0 := hl
        have h1 := List.length_pos_iff.2 (ha2 (by omega))
        omega

/-- Any call but `create` returns one of its arguments or asks the pool. -/
theorem exec_plan (prog : Nat → IR) (B : Nat) (op : Op) (h : ∀ a ∈ op.args, WF B a)
    (hc : ∀ v, op ≠ .create v) :
    (∃ l ∈ op.args, ∀ F, exec prog B F op = some (l, F)) ∨
    (∃ b o life, (∀ F, exec prog B F op = getOrCreate F b o life) ∧ WF B ⟨b, o, life⟩) := by
  cases op with
  | create v => exact (hc v rfl).elim
  | indirection l ind =>
    have hl := h l (by simp [Op.args])
    by_cases hz : l.life = 0
    · exact .inl ⟨l, by simp [Op.args], fun F => by simp [exec, withIndirection, hz]⟩
    · obtain ⟨o, life, h1, h2, _⟩ := indirection_plan (ind := ind) hl hz
      exact .inr ⟨_, o, life, h1, h2⟩
  | offset l off =>
    have hl := h l (by simp [Op.args])
    by_cases hz : l.life = 0
    · exact .inl ⟨l, by simp [Op.args], fun F => by simp [exec, withOffset, hz]⟩
    · have hne := hl.2 hz
      have hlen := hl.1
      cases off with
      | none =>
        refine .inr ⟨l.base, l.offs.dropLast, 0, fun F => by simp [exec, withOffset, hz, limit],
          ?_, (nomatch · rfl)⟩
        simp only [List.length_dropLast]; omega
      | some k =>
        refine .inr ⟨l.base, addLast l.offs k, l.life, fun F => by
          simp [exec, withOffset, hz, addBack_eq hne], ?_, fun _ => addLast_ne hne k⟩
        simp only [addLast_length]; omega
  | offsets l offs =>
    have hl := h l (by simp [Op.args])
    cases offs with
    | nil => exact .inl ⟨l, by simp [Op.args], fun F => rfl⟩
    | cons k r =>
      by_cases hz : l.life = 0
      · exact .inl ⟨l, by simp [Op.args], fun F => by simp [exec, withOffsets, hz]⟩
      · obtain ⟨o, life, h1, h2, _⟩ := offsets_plan (k := k) (r := r) hl hz
        exact .inr ⟨_, o, life, h1, h2⟩
  | transferTo a f t =>
    obtain ⟨o, life, h1, h2, _⟩ := transferTo_plan (t := t) (h a (by simp [Op.args]))
      (h f (by simp [Op.args]))
    exact .inr ⟨t, o, life, h1, h2⟩
  | transferFrom a t =>
    by_cases hz : a.life = 0
    · exact .inl ⟨t, by simp [Op.args], fun F => by simp [exec, withTransferFrom, hz]⟩
    · obtain ⟨k, r, o, life, _, h1, h2, _⟩ := transferFrom_plan (h a (by simp [Op.args]))
        (h t (by simp [Op.args])) hz
      exact .inr ⟨_, o, life, h1, h2⟩

/-! ### The invariant of the factory -/

structure Inv (prog : Nat → IR) (B : Nat) (F : Fac) : Prop where
  canon : F.pool.Pairwise fun a b => ¬ Same a b
  wf : ∀ l ∈ F.pool, WF B l
  cache : ∀ i l, F.cache.lookup i = some l → l ∈ F.pool ∧
    (∀ dyn, covers l ((prog i).path dyn)) ∧
    (∀ dyn, (prog i).known = true → 0 < B →
      l.offs = ((prog i).path dyn).offs.take B ∧
      (l.life = 0 ↔ B ≤ ((prog i).path dyn).offs.length))

theorem Inv.getOrCreate {prog B F F' b o life l} (hI : Inv prog B F) (hw : WF B ⟨b, o, life⟩)
    (h : getOrCreate F b o life = some (l, F')) :
    Inv prog B F' ∧ l ∈ F'.pool := by
  obtain ⟨l1, F1, h1, h2, hc, h3⟩ := getOrCreate_spec F b o life hw.2
  have he := getOrCreate_ext h
  rw [h] at h1
  cases h1
  rcases h3 with h3 | h3
  · obtain ⟨h3, rfl⟩ := h3
    exact ⟨hI, h3⟩
  · obtain ⟨rfl, hp, hno⟩ := h3
    refine ⟨⟨?_, ?_, ?_⟩, by rw [hp]; simp⟩
    · rw [hp, List.pairwise_append]
      refine ⟨hI.canon, by simp, ?_⟩
      intro a ha c hc'
      have hc'' := List.mem_singleton.1 hc'
      subst hc''
      exact hno a ha
    · intro n hn
      rw [hp] at hn
      rcases List.mem_append.1 hn with hn | hn
      · exact hI.wf n hn
      · rw [List.mem_singleton.1 hn]; exact hw
    · intro i n hn
      rw [hc] at hn
      have := hI.cache i n hn
      exact ⟨he.pool.subset this.1, this.2⟩

theorem lookup_cons_eq {α β : Type} [BEq α] [LawfulBEq α] (k : α) (v : β) (r : List (α × β)) (i : α) :
    ((k, v) :: r).lookup i = if i == k then some v else r.lookup i := by
  simp only [List.lookup]
  cases i == k <;> rfl

theorem create_ok {prog B F} (hid : ∀ i, (prog i).id = i) (hI : Inv prog B F) (i : Nat) :
    ∃ l F', create F B (prog i) = some (l, F') ∧ Inv prog B F' ∧ l ∈ F'.pool ∧ Ext F F' ∧
      F'.cache.lookup i = some l := by
  unfold create
  rw [hid i]
  cases hc : F.cache.lookup i with
  | some l => exact ⟨l, F, rfl, hI, (hI.cache i l hc).1, .refl F, hc⟩
  | none =>
    obtain ⟨b, o, life, h1, h2, h3, h4, h5⟩ := createNew_spec B (prog i)
    obtain ⟨l, F1, g1, g2, g3, g4⟩ := getOrCreate_spec F b o life h3
    have hw : WF B ⟨b, o, life⟩ := ⟨h2, h3⟩
    obtain ⟨k1, k2⟩ := hI.getOrCreate hw g1
    have he := getOrCreate_ext g1
    show ∃ l F', (match createNew F B (prog i) with
      | none => none
      | some (l, F') => some (l, { F' with cache := (i, l) :: F'.cache })) = some (l, F') ∧ _
    rw [h1 F, g1]
    refine ⟨l, _, rfl, ⟨k1.canon, k1.wf, ?_⟩, k2, ⟨he.pool, ?_⟩, ?_⟩
    · intro j n hn
      have hn' : ((i, l) :: F1.cache).lookup j = some n := hn
      rw [lookup_cons_eq] at hn'
      by_cases hji : j = i
      · subst hji
        rw [if_pos (by simp)] at hn'
        cases hn'
        refine ⟨k2, fun dyn => g2.covers (h4 dyn), fun dyn hk hB => ?_⟩
        obtain ⟨e1, e2⟩ := h5 dyn hk hB
        refine ⟨g2.2.1.trans e1, g2.2.2.trans ?_⟩
        show life = 0 ↔ _
        omega
      · rw [if_neg (by simpa using hji)] at hn'
        exact k1.cache j n hn'
    · intro j n hn
      have hji : j ≠ i := fun e => by subst e; rw [hc] at hn; cases hn
      show ((i, l) :: F1.cache).lookup j = some n
      rw [lookup_cons_eq, if_neg (by simpa using hji)]
      exact he.cache j n hn
    · show ((i, l) :: F1.cache).lookup i = some l
      rw [lookup_cons_eq, if_pos (by simp)]

theorem exec_ok {prog B F} (hid : ∀ i, (prog i).id = i) (hI : Inv prog B F) (op : Op)
    (ha : ∀ a ∈ op.args, a ∈ F.pool) :
    ∃ l F', exec prog B F op = some (l, F') ∧ Inv prog B F' ∧ l ∈ F'.pool ∧ Ext F F' := by
  by_cases hc : ∃ v, op = .create v
  · obtain ⟨v, rfl⟩ := hc
    obtain ⟨l, F', h1, h2, h3, h4, _⟩ := create_ok hid hI v
    exact ⟨l, F', h1, h2, h3, h4⟩
  · rcases exec_plan prog B op (fun a h => hI.wf a (ha a h)) (fun v h => hc ⟨v, h⟩) with h | h
    · obtain ⟨l, hl, h⟩ := h
      exact ⟨l, F, h F, hI, ha l hl, .refl F⟩
    · obtain ⟨b, o, life, h, hw⟩ := h
      obtain ⟨l, F', h1, _⟩ := getOrCreate_spec F b o life hw.2
      obtain ⟨h2, h3⟩ := hI.getOrCreate hw h1
      exact ⟨l, F', by rw [h F]; exact h1, h2, h3, getOrCreate_ext h1⟩

theorem Reached.inv {prog B F} (hid : ∀ i, (prog i).id = i) (h : Reached prog B F) :
    Inv prog B F := by
  induction h with
  | empty => exact ⟨List.Pairwise.nil, (fun _ h => (nomatch h)), (fun _ _ h => (nomatch h))⟩
  | step _ ha he ih =>
    obtain ⟨l, F', h1, h2, _⟩ := exec_ok hid ih _ ha
    rw [he] at h1
    cases h1
    exact h2

theorem exec_again {prog B F F1 F2 op l} (hid : ∀ i, (prog i).id = i) (hI : Inv prog B F)
    (ha : ∀ a ∈ op.args, a ∈ F.pool) (h : exec prog B F op = some (l, F1)) (he : Ext F1 F2) :
    exec prog B F2 op = some (l, F2) := by
  by_cases hc : ∃ v, op = .create v
  · obtain ⟨v, rfl⟩ := hc
    obtain ⟨l', F', h1, _, _, _, h5⟩ := create_ok hid hI v
    have h' : create F B (prog v) = some (l, F1) := h
    rw [h'] at h1
    cases h1
    have h6 := he.cache v l h5
    show create F2 B (prog v) = some (l, F2)
    unfold create
    rw [hid v, h6]
  · rcases exec_plan prog B op (fun a h => hI.wf a (ha a h)) (fun v h => hc ⟨v, h⟩) with h' | h'
    · obtain ⟨l', hl', h'⟩ := h'
      rw [h' F] at h
      cases h
      exact h' F2
    · obtain ⟨b, o, life, h', hw⟩ := h'
      rw [h' F] at h
      rw [h' F2]
      exact getOrCreate_again h he

end Phasar.AML
