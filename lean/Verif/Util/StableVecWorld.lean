import Verif.Util.StableVecLemmas
/-!
# Many stable vectors: refinement to lists
-/
set_option linter.unusedSectionVars false
namespace Phasar.SVec

variable {T : Type}

/-- The vector, if there is one, owns the block. -/
def Own (o : Option SV) (a : Nat) : Prop := ∃ u, o = some u ∧ a ∈ u.blocks

/-- The vector, if there is one, stands for the list. -/
def Rel (h : Heap T) : Option SV → Option (List T) → Prop
  | some v, some l => Inv v h l
  | none, none => True
  | _, _ => False

/-- The invariant of all vectors together. -/
structure WInv (w : World T) (S : Nat → Option (List T)) : Prop where
  rel : ∀ k, Rel w.heap (w.vecs k) (S k)
  disj : ∀ k j a, k ≠ j → Own (w.vecs k) a → ¬ Own (w.vecs j) a
  leak : ∀ a, w.heap.mem a ≠ none → ∃ k, Own (w.vecs k) a

theorem Inv.transfer {u : SV} {h h' : Heap T} {m : List T} (hi : Inv u h m)
    (hm : ∀ a, a ∈ u.blocks → h'.mem a = h.mem a) (hn : h.next ≤ h'.next) : Inv u h' m :=
  ⟨hi.nodup, fun a ha => by have := hi.bound a ha; omega,
   fun i b hb => by rw [hm b (List.mem_of_getElem? hb)]; exact hi.content i b hb, hi.size, hi.null, hi.nonnull⟩

theorem WInv.bound {w : World T} {S : Nat → Option (List T)} (hw : WInv w S) {k a : Nat} (ho : Own (w.vecs k) a) :
    a < w.heap.next := by
  obtain ⟨u, hu, ha⟩ := ho
  have := hw.rel k
  rw [hu] at this
  cases hs : S k with
  | none => rw [hs] at this; exact this.elim
  | some m => rw [hs] at this; exact (show Inv u w.heap m from this).bound a ha

theorem WInv.upd {w : World T} {S : Nat → Option (List T)} (hw : WInv w S) {k : Nat} {v v' : SV} {l l' : List T}
    {h' : Heap T} {o' : Option SV} {s' : Option (List T)} (hk : ∀ a, Own (w.vecs k) a ↔ a ∈ v.blocks)
    (hr : Res v w.heap l v' h' l') (hrel : Rel h' o' s') (hk' : ∀ a, Own o' a ↔ a ∈ v'.blocks) :
    WInv (setV w k o' h') (setL S k s') := by
  refine ⟨?_, ?_, ?_⟩
  · intro j
    show Rel h' (if j = k then o' else w.vecs j) (if j = k then s' else S j)
    by_cases hj : j = k
    · rw [if_pos hj, if_pos hj]; exact hrel
    · rw [if_neg hj, if_neg hj]
      have hrj := hw.rel j
      cases hu : w.vecs j with
      | none =>
        rw [hu] at hrj
        cases hs : S j with
        | none => trivial
        | some m => rw [hs] at hrj; exact hrj
      | some u =>
        rw [hu] at hrj
        cases hs : S j with
        | none => rw [hs] at hrj; exact hrj
        | some m =>
          rw [hs] at hrj
          refine Inv.transfer (hi := hrj) ?_ hr.next
          intro a ha
          have ho : Own (w.vecs j) a := ⟨u, hu, ha⟩
          exact hr.frame a (fun hv => hw.disj j k a hj ho ((hk a).2 hv)) (hw.bound ho)
  · intro i j a hij
    show Own (if i = k then o' else w.vecs i) a → ¬ Own (if j = k then o' else w.vecs j) a
    have key : ∀ j, j ≠ k → Own o' a → ¬ Own (w.vecs j) a := by
      intro j hj h1 h2
      rcases hr.own a ((hk' a).1 h1) with h3 | h3
      · exact hw.disj j k a hj h2 ((hk a).2 h3)
      · have := hw.bound h2; omega
    by_cases hi : i = k
    · have hj : j ≠ k := fun e => hij (hi.trans e.symm)
      rw [if_pos hi, if_neg hj]
      exact key j hj
    · rw [if_neg hi]
      by_cases hj : j = k
      · rw [if_pos hj]
        exact fun h1 h2 => key i hi h2 h1
      · rw [if_neg hj]
        exact hw.disj i j a hij
  · intro a ha
    by_cases hv' : a ∈ v'.blocks
    · refine ⟨k, ?_⟩
      show Own (if k = k then o' else w.vecs k) a
      rw [if_pos rfl]; exact (hk' a).2 hv'
    · have hnv : a ∉ v.blocks := fun hv => ha (hr.freed a hv hv')
      have hsame : h'.mem a = w.heap.mem a := by
        by_cases hlt : a < w.heap.next
        · exact hr.frame a hnv hlt
        · exact hr.fresh a (by omega) hv'
      obtain ⟨j, hj⟩ := hw.leak a (by rw [← hsame]; exact ha)
      refine ⟨j, ?_⟩
      show Own (if j = k then o' else w.vecs j) a
      have hjk : j ≠ k := by
        intro e
        rw [e] at hj
        exact hnv ((hk a).1 hj)
      rw [if_neg hjk]; exact hj

theorem own_some {o : Option SV} {v : SV} (h : o = some v) (a : Nat) : Own o a ↔ a ∈ v.blocks :=
  ⟨fun ⟨u, hu, ha⟩ => by rw [h] at hu; cases hu; exact ha, fun ha => ⟨v, h, ha⟩⟩

theorem own_none {o : Option SV} (h : o = none) (a : Nat) : Own o a ↔ a ∈ null.blocks :=
  ⟨fun ⟨u, hu, _⟩ => (by rw [h] at hu; cases hu), fun ha => by simp [null] at ha⟩

theorem WInv.get {w : World T} {S : Nat → Option (List T)} (hw : WInv w S) {k : Nat} {l : List T} (hk : S k = some l) :
    ∃ v, w.vecs k = some v ∧ Inv v w.heap l := by
  have h := hw.rel k
  rw [hk] at h
  cases hu : w.vecs k with
  | none => rw [hu] at h; exact h.elim
  | some v => rw [hu] at h; exact ⟨v, rfl, h⟩

theorem WInv.get_none {w : World T} {S : Nat → Option (List T)} (hw : WInv w S) {k : Nat} (hk : S k = none) :
    w.vecs k = none := by
  have h := hw.rel k
  rw [hk] at h
  cases hu : w.vecs k with
  | none => rfl
  | some v => rw [hu] at h; exact h.elim

theorem WInv.init : WInv (init : World T) (fun _ => none) :=
  ⟨fun _ => trivial, fun _ _ _ _ ⟨_, h, _⟩ => (by cases h), fun _ h => (h rfl).elim⟩

/-- Where the elements of the vectors are after an operation: unchanged for those that stay. -/
def Stays (w w' : World T) (S S' : Nat → Option (List T)) (o : Op T) : Prop :=
  ∀ k v v' l l', w'.vecs k = some v' → S' k = some l' → w.vecs (origin o k) = some v → S (origin o k) = some l →
    ∀ i, i < l.length → i < l'.length → addr v' i = addr v i

theorem stays_upd {w : World T} {S : Nat → Option (List T)} {k : Nat} {v v' : SV} {l l' : List T} {h' : Heap T}
    {o : Op T} (ho : ∀ n, origin o n = n) (hv : w.vecs k = some v) (hl : S k = some l)
    (hs : ∀ i, i < l.length → i < l'.length → addr v' i = addr v i) :
    Stays w (setV w k (some v') h') S (setL S k (some l')) o := by
  intro n u u' m m' h1 h2 h3 h4
  rw [ho] at h3 h4
  have h1' : (if n = k then some v' else w.vecs n) = some u' := h1
  have h2' : (if n = k then some l' else S n) = some m' := h2
  by_cases hn : n = k
  · subst hn
    rw [if_pos rfl] at h1' h2'
    cases h1'; cases h2'
    rw [hv] at h3
    rw [hl] at h4
    cases h3; cases h4
    exact hs
  · rw [if_neg hn] at h1' h2'
    rw [h1'] at h3
    cases h3
    exact fun _ _ _ => rfl

theorem stays_new {w : World T} {S : Nat → Option (List T)} {k : Nat} {o' : Option SV} {s' : Option (List T)} {h' : Heap T}
    {o : Op T} (ho : ∀ n, origin o n = n) (hv : w.vecs k = none ∨ o' = none) :
    Stays w (setV w k o' h') S (setL S k s') o := by
  intro n u u' m m' h1 h2 h3 h4
  rw [ho] at h3 h4
  have h1' : (if n = k then o' else w.vecs n) = some u' := h1
  by_cases hn : n = k
  · subst hn
    rw [if_pos rfl] at h1'
    rcases hv with h | h
    · rw [h] at h3; cases h3
    · rw [h] at h1'; cases h1'
  · rw [if_neg hn] at h1'
    rw [h1'] at h3
    cases h3
    exact fun _ _ _ => rfl

theorem setL_same {S : Nat → Option (List T)} {k : Nat} {l : Option (List T)} (h : S k = l) : setL S k l = S := by
  funext j
  unfold setL
  split
  · rename_i e; rw [e, h]
  · rfl

theorem step_spec {w : World T} {S S' : Nat → Option (List T)} (hw : WInv w S) (o : Op T) (hs : spec S o = some S')
    (hsh : ∀ k, o = .shrink k → S k ≠ some []) : ∃ w', step w o = some w' ∧ WInv w' S' ∧ Stays w w' S S' o := by
  cases o with
  | create k =>
    simp only [spec] at hs
    split at hs
    · rename_i hk
      have hk' := hw.get_none (Option.isNone_iff_eq_none.1 hk)
      cases hs
      refine ⟨setV w k (some null) w.heap, by simp only [step, hk', if_pos], ?_, stays_new (fun _ => rfl) (Or.inl hk')⟩
      exact hw.upd (own_none hk') (l := []) (res_same rfl (Frame.refl _ _) (inv_null _)) (v' := null)
        (inv_null _) (own_some rfl)
    · cases hs
  | emplace k x =>
    simp only [spec] at hs
    cases hk : S k with
    | none => rw [hk] at hs; cases hs
    | some l =>
      rw [hk] at hs
      cases hs
      obtain ⟨v, hv, hi⟩ := hw.get hk
      obtain ⟨v', h', he, hr⟩ := emplace_spec hi x
      exact ⟨_, by simp only [step, hv, Option.bind_some, he, Option.map_some],
        hw.upd (own_some hv) hr (o' := some v') hr.inv (own_some rfl), stays_upd (fun _ => rfl) hv hk hr.stable⟩
  | pop k =>
    simp only [spec] at hs
    cases hk : S k with
    | none => rw [hk] at hs; cases hs
    | some l =>
      rw [hk] at hs
      simp only [Option.bind_some] at hs
      split at hs
      · cases hs
      · rename_i hl
        cases hs
        obtain ⟨v, hv, hi⟩ := hw.get hk
        obtain ⟨v', h', he, hr⟩ := pop_spec hi hl
        exact ⟨_, by simp only [step, hv, Option.bind_some, he, Option.map_some],
          hw.upd (own_some hv) hr (o' := some v') hr.inv (own_some rfl), stays_upd (fun _ => rfl) hv hk hr.stable⟩
  | popN k n =>
    simp only [spec] at hs
    cases hk : S k with
    | none => rw [hk] at hs; cases hs
    | some l =>
      rw [hk] at hs
      simp only [Option.bind_some] at hs
      split at hs
      · cases hs
      · rename_i hl
        cases hs
        obtain ⟨v, hv, hi⟩ := hw.get hk
        obtain ⟨v', h', he, hr⟩ := popN_spec hi (n := n) (by omega)
        exact ⟨_, by simp only [step, hv, Option.bind_some, he, Option.map_some],
          hw.upd (own_some hv) hr (o' := some v') hr.inv (own_some rfl), stays_upd (fun _ => rfl) hv hk hr.stable⟩
  | clear k =>
    simp only [spec] at hs
    cases hk : S k with
    | none => rw [hk] at hs; cases hs
    | some l =>
      rw [hk] at hs
      cases hs
      obtain ⟨v, hv, hi⟩ := hw.get hk
      obtain ⟨v', h', he, hr⟩ := clear_spec hi
      exact ⟨_, by simp only [step, hv, Option.bind_some, he, Option.map_some],
        hw.upd (own_some hv) hr (o' := some v') hr.inv (own_some rfl), stays_upd (fun _ => rfl) hv hk hr.stable⟩
  | shrink k =>
    simp only [spec] at hs
    cases hk : S k with
    | none => rw [hk] at hs; cases hs
    | some l =>
      rw [hk] at hs
      cases hs
      obtain ⟨v, hv, hi⟩ := hw.get hk
      obtain ⟨v', h', he, hr⟩ := shrink_spec hi (fun e => hsh k rfl (by rw [hk, e]))
      have h1 := hw.upd (own_some hv) hr (o' := some v') (s' := some l) hr.inv (own_some rfl)
      have h2 := stays_upd (o := .shrink k) (h' := h') (fun _ => rfl) hv hk hr.stable
      rw [setL_same hk] at h1 h2
      exact ⟨_, by simp only [step, hv, Option.bind_some, he, Option.map_some], h1, h2⟩
  | clone k j =>
    simp only [spec] at hs
    split at hs
    · rename_i hk
      have hk' := hw.get_none (Option.isNone_iff_eq_none.1 hk)
      cases hj : S j with
      | none => rw [hj] at hs; cases hs
      | some l =>
        rw [hj] at hs
        cases hs
        obtain ⟨v, hv, hi⟩ := hw.get hj
        obtain ⟨v', h', he, hr⟩ := copy_spec hi
        exact ⟨_, by simp only [step, hk', hv, if_pos, Option.bind_some, he, Option.map_some],
          hw.upd (own_none hk') hr (o' := some v') hr.inv (own_some rfl), stays_new (fun _ => rfl) (Or.inl hk')⟩
    · cases hs
  | destroy k =>
    simp only [spec] at hs
    cases hk : S k with
    | none => rw [hk] at hs; cases hs
    | some l =>
      rw [hk] at hs
      cases hs
      obtain ⟨v, hv, hi⟩ := hw.get hk
      obtain ⟨h', he, hr⟩ := dtor_spec hi
      exact ⟨_, by simp only [step, hv, Option.bind_some, he, Option.map_some],
        hw.upd (own_some hv) hr (show Rel h' none none from trivial) (own_none rfl), stays_new (fun _ => rfl) (Or.inr rfl)⟩
  | move k j =>
    simp only [spec] at hs
    split at hs
    · rename_i hk
      have hkn := Option.isNone_iff_eq_none.1 hk
      have hk' := hw.get_none hkn
      cases hj : S j with
      | none => rw [hj] at hs; cases hs
      | some l =>
        rw [hj] at hs
        cases hs
        obtain ⟨v, hv, hi⟩ := hw.get hj
        have hjk : j ≠ k := by
          intro e; rw [e, hkn] at hj; cases hj
        refine ⟨_, by simp only [step, hk', if_pos, hv, Option.map_some]; rfl, ?_, ?_⟩
        · have hvec : ∀ n, (setV (setV w k (some (move v).1) w.heap) j (some (move v).2) w.heap).vecs n =
              if n = j then some null else if n = k then some v else w.vecs n := fun _ => rfl
          have own' : ∀ n a, Own ((setV (setV w k (some (move v).1) w.heap) j (some (move v).2) w.heap).vecs n) a →
              (n = k ∧ Own (w.vecs j) a) ∨ (n ≠ k ∧ n ≠ j ∧ Own (w.vecs n) a) := by
            intro n a hn
            rw [hvec] at hn
            by_cases h1 : n = j
            · rw [if_pos h1] at hn
              obtain ⟨u, hu, ha⟩ := hn
              cases hu; simp [null] at ha
            · rw [if_neg h1] at hn
              by_cases h2 : n = k
              · rw [if_pos h2] at hn
                rw [← hv] at hn
                exact Or.inl ⟨h2, hn⟩
              · rw [if_neg h2] at hn
                exact Or.inr ⟨h2, h1, hn⟩
          refine ⟨?_, ?_, ?_⟩
          · intro n
            rw [hvec]
            show Rel w.heap _ (if n = j then some [] else if n = k then some l else S n)
            by_cases h1 : n = j
            · rw [if_pos h1, if_pos h1]; exact inv_null _
            · rw [if_neg h1, if_neg h1]
              by_cases h2 : n = k
              · rw [if_pos h2, if_pos h2]; exact hi
              · rw [if_neg h2, if_neg h2]; exact hw.rel n
          · intro n m a hnm h1 h2
            rcases own' n a h1 with ⟨e1, o1⟩ | ⟨e1, e1', o1⟩ <;> rcases own' m a h2 with ⟨e2, o2⟩ | ⟨e2, e2', o2⟩
            · exact hnm (e1.trans e2.symm)
            · exact hw.disj j m a (fun e => e2' e.symm) o1 o2
            · exact hw.disj n j a e1' o1 o2
            · exact hw.disj n m a hnm o1 o2
          · intro a ha
            obtain ⟨n, hn⟩ := hw.leak a ha
            by_cases h1 : n = j
            · refine ⟨k, ?_⟩
              rw [hvec, if_neg (fun e => hjk e.symm), if_pos rfl, ← hv, ← h1]; exact hn
            · refine ⟨n, ?_⟩
              have h2 : n ≠ k := by
                intro e
                rw [e, hk'] at hn
                obtain ⟨u, hu, _⟩ := hn
                cases hu
              rw [hvec, if_neg h1, if_neg h2]; exact hn
        · intro n u u' m m' h1 h2 h3 h4 i hi1 hi2
          have h1' : (if n = j then some null else if n = k then some v else w.vecs n) = some u' := h1
          have h2' : (if n = j then some [] else if n = k then some l else S n) = some m' := h2
          have h3' : w.vecs (if n = k then j else n) = some u := h3
          by_cases e1 : n = j
          · rw [if_pos e1] at h2'
            cases h2'
            simp at hi2
          · rw [if_neg e1] at h1'
            by_cases e2 : n = k
            · rw [if_pos e2] at h1' h3'
              rw [hv] at h3'
              cases h1'; cases h3'; rfl
            · rw [if_neg e2] at h1' h3'
              rw [h1'] at h3'
              cases h3'; rfl
    · cases hs
  | swap k j =>
    simp only [spec] at hs
    cases hk : S k with
    | none => rw [hk] at hs; cases hs
    | some l =>
      cases hj : S j with
      | none => rw [hk, hj] at hs; cases hs
      | some m =>
        rw [hk, hj] at hs
        cases hs
        obtain ⟨v, hv, hi⟩ := hw.get hk
        obtain ⟨u, hu, hi2⟩ := hw.get hj
        have hvec : ∀ n, (setV (setV w k (some u) w.heap) j (some v) w.heap).vecs n =
            w.vecs (if n = k then j else if n = j then k else n) := by
          intro n
          show (if n = j then some v else if n = k then some u else w.vecs n) = _
          by_cases h1 : n = j
          · by_cases h2 : n = k
            · rw [if_pos h1, if_pos h2, ← h1, h2, hv]
            · rw [if_pos h1, if_neg h2, if_pos h1, hv]
          · by_cases h2 : n = k
            · rw [if_neg h1, if_pos h2, if_pos h2, hu]
            · rw [if_neg h1, if_neg h2, if_neg h2, if_neg h1]
        have hlist : ∀ n, setL (setL S k (some m)) j (some l) n = S (if n = k then j else if n = j then k else n) := by
          intro n
          show (if n = j then some l else if n = k then some m else S n) = _
          by_cases h1 : n = j
          · by_cases h2 : n = k
            · rw [if_pos h1, if_pos h2, ← h1, h2, hk]
            · rw [if_pos h1, if_neg h2, if_pos h1, hk]
          · by_cases h2 : n = k
            · rw [if_neg h1, if_pos h2, if_pos h2, hj]
            · rw [if_neg h1, if_neg h2, if_neg h2, if_neg h1]
        refine ⟨_, by simp only [step, hv, hu, Option.bind_some, Option.map_some]; rfl, ⟨?_, ?_, ?_⟩, ?_⟩
        · intro n
          show Rel _ _ (setL (setL S k (some m)) j (some l) n)
          rw [hvec, hlist]; exact hw.rel _
        · intro n n' a hn
          rw [hvec, hvec]
          apply hw.disj
          intro e
          apply hn
          split at e <;> split at e <;> (try split at e) <;> (try split at e) <;> omega
        · intro a ha
          obtain ⟨n, hn⟩ := hw.leak a ha
          refine ⟨if n = k then j else if n = j then k else n, ?_⟩
          rw [hvec]
          have : (if (if n = k then j else if n = j then k else n) = k then j
              else if (if n = k then j else if n = j then k else n) = j then k
              else (if n = k then j else if n = j then k else n)) = n := by
            by_cases h1 : n = k
            · subst h1
              simp only [if_pos]
              by_cases h2 : j = n
              · simp [h2]
              · simp [h2]
            · by_cases h2 : n = j
              · subst h2; simp [h1]
              · simp [h1, h2]
          rw [this]; exact hn
        · intro n x x' y y' h1 h2 h3 h4 i _ _
          rw [hvec] at h1
          have h3' : w.vecs (if n = k then j else if n = j then k else n) = some x := h3
          rw [h1] at h3'
          cases h3'; rfl

theorem run_spec (os : List (Op T)) : ∀ {w : World T} {S S' : Nat → Option (List T)}, WInv w S →
    specRun S os = some S' → NoEmptyShrink S os → ∃ w', run w os = some w' ∧ WInv w' S' := by
  induction os with
  | nil =>
    intro w S S' hw hs _
    cases hs
    exact ⟨w, rfl, hw⟩
  | cons o os ih =>
    intro w S S' hw hs hn
    simp only [specRun] at hs
    cases hso : spec S o with
    | none => rw [hso] at hs; cases hs
    | some S1 =>
      rw [hso] at hs
      obtain ⟨w1, h1, h2, _⟩ := step_spec hw o hso hn.1
      obtain ⟨w2, h3, h4⟩ := ih h2 hs (hn.2 S1 hso)
      exact ⟨w2, by simp [run, h1, h3], h4⟩

/-- `shrink_to_fit` on an empty vector with more than one block frees the block `Start` still points into. -/
theorem shrink_empty {v : SV} {h : Heap T} (hi : Inv v h ([] : List T)) (hb : 2 ≤ v.blocks.length) :
    ∃ v' h' b, shrink v h = some (v', h') ∧ v'.start = some b ∧ h'.mem b = none ∧ v'.blocks = [] ∧
      ∀ x, emplaceBack v' h' x = none := by
  have hne : v.blocks ≠ [] := by intro e; rw [e] at hb; simp at hb
  obtain ⟨n1, n2, n3, n4, n5, n6⟩ := hi.nonnull hne
  have hx : v.idx = 0 := by
    by_cases hx : v.idx = 0
    · exact hx
    · have := n6 hx; simp at n4; omega
  have hsz : v.size = 0 := hi.size
  have hpos : v.pos = 0 := by rw [hx] at n4; simp at n4; omega
  have hb0 : v.blocks[0]? = some v.blocks[0] := List.getElem?_eq_getElem (by omega)
  have hd : dealloc h v.blocks[0] initialCapacity = some (h.put v.blocks[0] none) :=
    dealloc_spec (hi.content 0 _ hb0) (fun o _ => by simp)
  obtain ⟨h', e, x1, g1, m1⟩ := freeFrom_spec v.blocks hi.nodup (fun n => ([] : List T)[n]?) (v.blocks.length - 1) 1 32
    (h.put v.blocks[0] none) (by
      intro t b ht _ hbt
      have : b ≠ v.blocks[0] := by
        intro e
        rw [e] at hbt
        have := nodup_idx hi.nodup hbt hb0
        omega
      simp only [Heap.put, if_neg this]
      exact hi.content t b hbt) (by omega) (by omega) rfl (by intro m _; simp)
  have hgone : h'.mem v.blocks[0] = none := by
    rw [g1]
    · simp [Heap.put]
    · intro t h1 _ h2
      have := nodup_idx hi.nodup h2 hb0
      omega
  refine ⟨{ v with blocks := [] }, h', v.blocks[0], ?_, ?_, hgone, rfl, ?_⟩
  · unfold shrink
    rw [if_neg (by rw [hx]; simp [hne]; omega), if_pos hsz, hb0]
    simp only [Option.bind_some, hd, hx, Nat.zero_add]
    have e' : freeFrom v.blocks (v.blocks.length - 1) 1 (2 ^ 5) (h.put v.blocks[0] none) = some h' := e
    rw [e']
    simp [hsz]
  · show v.start = _
    rw [n1, hx, hb0]
  · intro x
    have h0 : v.start = some v.blocks[0] := by rw [n1, hx, hb0]
    unfold emplaceBack
    have : v.pos ≠ v.fin := by rw [hpos, n3]; have := cap_pos v.idx; omega
    simp only [if_neg this, h0, construct, hgone, Option.map_none]

end Phasar.SVec
