import Verif.EdgeFn.HandleLemmas
/-!
# C43: edge-function handles never leak or dangle

Specification.  A program is a list of operations, each of which respects the rules of C++ for its variables (`allowed`).
An allocation is referred to if a variable holds a handle to it, or an allocation that is referred to contains one.
-/
namespace Phasar.Handle

/-- Spec: all operations of the program respect the rules of C++ when they are reached. -/
def Respects : List Op → St → Prop
  | [], _ => True
  | op :: ops, st => allowed op st = true ∧ ∀ st', step op st = some st' → Respects ops st'

/-- Spec: the allocation `id` can be reached from a handle variable. -/
inductive Reach (st : St) : Nat → Prop
  | slot {i id : Nat} {c : Bool} (h : st.slots[i]? = some (some (.heap id c))) : Reach st id
  | kid {p id : Nat} {o : Obj} {c : Bool} (hp : Reach st p) (ho : st.heap[p]? = some (some o))
      (h : H.heap id c ∈ o.kids) : Reach st id

/-- Spec: number of handles to `id` in the variables and inside allocations that are not freed. -/
def handlesTo (st : St) (id : Nat) : Nat :=
  (st.slots.map fun s => match s with
    | some (.heap i _) => if i = id then 1 else 0
    | _ => 0).sum +
  (st.heap.map fun o => match o with
    | some o => o.kids.countP fun h => match h with | .heap i _ => decide (i = id) | _ => false
    | none => 0).sum

theorem C43.init_inv (n : Nat) : Inv (init n) [] := by
  have hs : ∀ id, sumBy (slotW id) (List.replicate n none) = 0 := by
    intro id
    induction n with
    | zero => rfl
    | succ n ih => rw [List.replicate_succ, sumBy_cons, ih]; rfl
  have hal : ∀ id, alive (init n) id = none := by intro id; rfl
  refine ⟨?_, ?_, ?_, ?_, ?_⟩
  · intro id
    unfold rcOf cnt
    rw [hal]
    simp only [init, hs, sumBy_nil]
  · intro id o h; rw [hal] at h; cases h
  · intro id o c h; rw [hal] at h; cases h
  · intro c k id
    constructor
    · intro h; cases h
    · rintro ⟨o, h, -⟩; rw [hal] at h; cases h
  · intro p o h; rw [hal] at h; cases h

theorem C43.construct {st : St} {i : Nat} {h : H} (hi : Inv st [h]) (hf : st.slots[i]? = some none) :
    Inv (put st i (some h)) [] := by
  apply hi.put hf
  · intro g c hg
    rcases hg with hg | hg
    · simp at hg
    · cases hg; exact Or.inl (by simp)
  · intro j
    simp only [slotW, sumBy_cons, sumBy_nil]
    omega

theorem C43.assignTail {st : St} {i : Nat} {old h : H} (hi : Inv st [h]) (hg : get st i = some old) :
    ∃ st', assignTail i h st = some st' ∧ Inv st' [] := by
  have hs := get_iff.1 hg
  have hi1 : Inv (put st i none) ([old] ++ [h]) := by
    apply hi.put hs
    · intro g c hgc
      rcases hgc with hgc | hgc
      · rcases List.mem_cons.1 hgc with hgc | hgc
        · rw [hgc]; exact Or.inr (Or.inl (List.mem_of_getElem? hs))
        · exact Or.inl hgc
      · cases hgc
    · intro j
      simp only [slotW, List.cons_append, List.nil_append, sumBy_cons, sumBy_nil]
      omega
  obtain ⟨st', hd, hi', hs', -⟩ := destroyAll_inv hi1
  refine ⟨put st' i (some h), ?_, ?_⟩
  · simp [Handle.assignTail, hg, hd]
  · apply C43.construct hi'
    rw [hs']
    have hlt := (List.getElem?_eq_some_iff.1 hs).1
    simp [put, hlt]

theorem C43.free_slot {st : St} {i : Nat} (h : (st.slots[i]? == some none) = true) : st.slots[i]? = some none := by
  simpa using h

/-- One operation: no invalid access, and the invariant is kept. -/
theorem C43.step_inv {op : Op} {st : St} (hi : Inv st []) (ha : allowed op st = true) :
    ∃ st', step op st = some st' ∧ Inv st' [] := by
  have nonheap : ∀ h : H, (∀ id c, h ≠ .heap id c) → Inv st [h] := by
    intro h hne
    apply hi.temps
    · intro g c hg
      simp at hg
      exact absurd hg.symm (hne g c)
    · intro j
      rw [sumBy_cons]
      cases h with
      | heap id c => exact absurd rfl (hne id c)
      | _ => simp [hit]
  have kid : ∀ (j n : Nat), (match get st j with
      | some (.heap id _) => (match alive st id with | some o => decide (n < o.kids.length) | none => true)
      | _ => false) = true → ∃ h, kidOf st j n = some h ∧ IsLive st [] h := by
    intro j n hk
    split at hk
    · rename_i id c hg
      obtain ⟨o, ho, -⟩ := hi.live (get_live hg)
      rw [ho] at hk
      simp only [decide_eq_true_eq] at hk
      refine ⟨o.kids[n], ?_, Or.inr (Or.inr ⟨id, o, ho, List.getElem_mem hk⟩)⟩
      simp [kidOf, hg, ho, hk]
    · cases hk
  cases op with
  | mkNull i =>
    exact ⟨_, rfl, C43.construct (nonheap .null (by intros; intro h; cases h)) (C43.free_slot ha)⟩
  | mkSoo i v =>
    exact ⟨_, rfl, C43.construct (nonheap (.soo v) (by intros; intro h; cases h)) (C43.free_slot ha)⟩
  | mk i key js =>
    simp only [allowed, Bool.and_eq_true, List.all_eq_true] at ha
    obtain ⟨hs, st', hcp, hi', hsl, -, -⟩ := copies_inv js st [] hi ha.2
    refine ⟨_, by simp only [step, hcp]; exact rfl, ?_⟩
    have hI := alloc_inv (cache := none) (key := key) (T := []) hi' (cs := st'.caches)
      (by intro c k; rw [if_neg]; rintro ⟨h, -⟩; cases h) (by intro c h; cases h)
    exact C43.construct hI (by
      show st'.slots[i]? = _
      rw [hsl]; exact C43.free_slot ha.1)
  | mkCached i c key js =>
    simp only [allowed, Bool.and_eq_true, List.all_eq_true] at ha
    obtain ⟨hs, st', hcp, hi', hsl, hca, -⟩ := copies_inv js st [] hi ha.2
    simp only [step, hcp]
    cases hlk : lookup st'.caches c key with
    | none =>
      refine ⟨_, rfl, ?_⟩
      have hI := alloc_inv (cache := some c) (key := key) (T := []) hi' (cs := ((c, key), st'.heap.length) :: st'.caches)
        (by
          intro c' k'
          simp only [lookup]
          by_cases h : c = c' ∧ key = k'
          · rw [if_pos h, if_pos ⟨by rw [h.1], h.2⟩]
          · rw [if_neg h, if_neg]
            rintro ⟨h1, h2⟩
            exact h ⟨Option.some.inj h1, h2⟩)
        (by intro c' h; cases h; exact hlk)
      exact C43.construct hI (by
        show st'.slots[i]? = _
        rw [hsl]; exact C43.free_slot ha.1)
    | some id =>
      -- the cached allocation is alive; the new handle counts once more
      obtain ⟨o, ho, hoc, hok⟩ := (hi'.cacheOk c key id).1 hlk
      have hinc : incr (.heap id true) st' =
          some { st' with heap := st'.heap.set id (some { o with rc := o.rc + 1 }) } := by
        simp [incr, ho]
      -- policy of all handles to `id` is "cached"
      have hi'' : Inv { st' with heap := st'.heap.set id (some { o with rc := o.rc + 1 }) } (hs ++ [.heap id true]) := by
        have hcount := hi'.count id
        have hpos := hi'.pos id o ho
        -- some living handle to `id` exists, with the policy of the allocation
        have hex : IsLive st' (hs ++ []) (.heap id true) := by
          have hp : 0 < cnt st' id + sumBy (hit id) (hs ++ []) := by
            rw [← hcount]; unfold rcOf; rw [ho]; exact hpos
          have : ∃ c', IsLive st' (hs ++ []) (.heap id c') := by
            by_cases h1 : 0 < sumBy (hit id) (hs ++ [])
            · obtain ⟨a, hm, hh⟩ := exists_of_sumBy_pos _ h1
              obtain ⟨c', rfl⟩ := hit_pos hh
              exact ⟨c', Or.inl hm⟩
            · unfold cnt at hp
              by_cases h2 : 0 < sumBy (slotW id) st'.slots
              · obtain ⟨a, hm, hh⟩ := exists_of_sumBy_pos _ h2
                cases a with
                | none => simp [slotW] at hh
                | some a =>
                  obtain ⟨c', rfl⟩ := hit_pos hh
                  exact ⟨c', Or.inr (Or.inl hm)⟩
              · have h3 : 0 < sumBy (objW id) st'.heap := by omega
                obtain ⟨a, hm, hh⟩ := exists_of_sumBy_pos _ h3
                cases a with
                | none => simp [objW] at hh
                | some a =>
                  obtain ⟨b, hb, hh⟩ := exists_of_sumBy_pos _ hh
                  obtain ⟨c', rfl⟩ := hit_pos hh
                  obtain ⟨p, hp⟩ := List.getElem?_of_mem hm
                  exact ⟨c', Or.inr (Or.inr ⟨p, a, alive_iff.2 hp, hb⟩)⟩
          obtain ⟨c', hc'⟩ := this
          have := hi'.pol id o c' ho hc'
          rw [hoc] at this
          simp only [Option.isSome_some] at this
          rw [this] at hc'
          exact hc'
        apply hi'.setRc ho (by omega)
        · intro g c' hg
          rcases List.mem_append.1 hg with hg | hg
          · exact Or.inl (List.mem_append_left _ hg)
          · simp at hg
            obtain ⟨rfl, rfl⟩ := hg
            exact hex
        · intro j
          simp only [sumBy_append, sumBy_cons, sumBy_nil]
          by_cases hj : j = id
          · subst hj; simp only [if_true, hit_self]; omega
          · rw [if_neg hj, if_neg hj, hit_ne true hj]
      obtain ⟨st3, hd, hi3, hs3, -⟩ := destroyAll_inv hi''
      refine ⟨_, by simp only [hinc, hd]; exact rfl, ?_⟩
      apply C43.construct hi3
      rw [hs3]
      show st'.slots[i]? = _
      rw [hsl]
      exact C43.free_slot ha.1
  | copy i j =>
    simp only [allowed, Bool.and_eq_true] at ha
    obtain ⟨h, hg⟩ := Option.isSome_iff_exists.1 ha.2
    obtain ⟨st', h1, hi', hs, -, -⟩ := incr_inv hi (get_live hg)
    refine ⟨put st' i (some h), by simp [step, hg, h1], C43.construct hi' ?_⟩
    rw [hs]; exact C43.free_slot ha.1
  | fromRef i j =>
    simp only [allowed, Bool.and_eq_true] at ha
    obtain ⟨h, hg⟩ := Option.isSome_iff_exists.1 ha.2
    have hv : viaRef h = h := by
      cases h with
      | heap id c => cases c <;> rfl
      | _ => rfl
    obtain ⟨st', h1, hi', hs, -, -⟩ := incr_inv hi (get_live hg)
    refine ⟨put st' i (some h), by simp [step, hg, hv, h1], C43.construct hi' ?_⟩
    rw [hs]; exact C43.free_slot ha.1
  | copyKid i j n =>
    simp only [allowed, Bool.and_eq_true] at ha
    obtain ⟨h, hk, hl⟩ := kid j n ha.2
    obtain ⟨st', h1, hi', hs, -, -⟩ := incr_inv hi hl
    refine ⟨put st' i (some h), by simp [step, hk, h1], C43.construct hi' ?_⟩
    rw [hs]; exact C43.free_slot ha.1
  | move i j =>
    simp only [allowed, Bool.and_eq_true] at ha
    obtain ⟨h, hg⟩ := Option.isSome_iff_exists.1 ha.2
    have hs := get_iff.1 hg
    have hf := C43.free_slot ha.1
    have hij : j ≠ i := by
      intro h'; subst h'; rw [hf] at hs; cases hs
    refine ⟨_, by simp only [step, hg]; exact rfl, ?_⟩
    have hi1 : Inv (put st j (some .null)) [h] := by
      apply hi.put hs
      · intro g c hgc
        rcases hgc with hgc | hgc
        · simp at hgc; rw [hgc]; exact get_live hg
        · cases hgc
      · intro k
        simp only [slotW, hit, sumBy_cons, sumBy_nil]
        omega
    apply C43.construct hi1
    simp only [put]
    rw [List.getElem?_set_ne hij]
    exact hf
  | assign i j =>
    simp only [allowed, Bool.and_eq_true] at ha
    obtain ⟨old, hgo⟩ := Option.isSome_iff_exists.1 ha.1
    obtain ⟨h, hg⟩ := Option.isSome_iff_exists.1 ha.2
    obtain ⟨st', h1, hi', hs, -, -⟩ := incr_inv hi (get_live hg)
    have hgo' : get st' i = some old := by unfold get; rw [hs]; exact hgo
    obtain ⟨st2, h2, hi2⟩ := C43.assignTail hi' hgo'
    exact ⟨st2, by simp [step, hg, h1, h2], hi2⟩
  | assignKid i j n =>
    simp only [allowed, Bool.and_eq_true] at ha
    obtain ⟨old, hgo⟩ := Option.isSome_iff_exists.1 ha.1
    obtain ⟨h, hk, hl⟩ := kid j n ha.2
    obtain ⟨st', h1, hi', hs, -, -⟩ := incr_inv hi hl
    have hgo' : get st' i = some old := by unfold get; rw [hs]; exact hgo
    obtain ⟨st2, h2, hi2⟩ := C43.assignTail hi' hgo'
    exact ⟨st2, by simp [step, hk, h1, h2], hi2⟩
  | assignMove i j =>
    simp only [allowed, Bool.and_eq_true] at ha
    obtain ⟨old, hgo⟩ := Option.isSome_iff_exists.1 ha.1
    obtain ⟨h, hg⟩ := Option.isSome_iff_exists.1 ha.2
    have hs := get_iff.1 hg
    have hi1 : Inv (put st j (some .null)) [h] := by
      apply hi.put hs
      · intro g c hgc
        rcases hgc with hgc | hgc
        · simp at hgc; rw [hgc]; exact get_live hg
        · cases hgc
      · intro k
        simp only [slotW, hit, sumBy_cons, sumBy_nil]
        omega
    have hgo' : ∃ old', get (put st j (some .null)) i = some old' := by
      by_cases hji : j = i
      · subst hji
        have hlt := (List.getElem?_eq_some_iff.1 hs).1
        exact ⟨.null, get_iff.2 (by simp [put, hlt])⟩
      · exact ⟨old, get_iff.2 (by simp only [put]; rw [List.getElem?_set_ne hji]; exact get_iff.1 hgo)⟩
    obtain ⟨old', hgo'⟩ := hgo'
    obtain ⟨st2, h2, hi2⟩ := C43.assignTail hi1 hgo'
    exact ⟨st2, by simp [step, hg, h2], hi2⟩
  | assignNull i =>
    obtain ⟨old, hg⟩ := Option.isSome_iff_exists.1 (show (get st i).isSome = true from ha)
    have hs := get_iff.1 hg
    have hi1 : Inv (put st i none) ([old] ++ []) := by
      apply hi.put hs
      · intro g c hgc
        rcases hgc with hgc | hgc
        · simp at hgc; rw [hgc]; exact get_live hg
        · cases hgc
      · intro k
        simp only [slotW, List.append_nil, sumBy_cons, sumBy_nil]
        omega
    obtain ⟨st', hd, hi', hs', -⟩ := destroyAll_inv hi1
    refine ⟨put st' i (some .null), by simp [step, hg, hd], ?_⟩
    have hlt := (List.getElem?_eq_some_iff.1 hs).1
    have hf : st'.slots[i]? = some none := by rw [hs']; simp [put, hlt]
    apply hi'.put hf
    · intro g c hgc
      rcases hgc with hgc | hgc
      · simp at hgc
      · cases hgc
    · intro k
      rfl
  | swap i j =>
    simp only [allowed, Bool.and_eq_true] at ha
    obtain ⟨a, hga⟩ := Option.isSome_iff_exists.1 ha.1
    obtain ⟨b, hgb⟩ := Option.isSome_iff_exists.1 ha.2
    refine ⟨_, by simp only [step, hga, hgb]; exact rfl, ?_⟩
    have hsa := get_iff.1 hga
    have hsb := get_iff.1 hgb
    by_cases hij : i = j
    · subst hij
      have hab : a = b := by rw [hsa] at hsb; cases hsb; rfl
      subst hab
      have : put (put st i (some a)) i (some a) = st := by
        have hlt := (List.getElem?_eq_some_iff.1 hsa).1
        unfold put
        simp only [List.set_set]
        congr 1
        apply List.ext_getElem?
        intro k
        rw [List.getElem?_set]
        split
        · rename_i h; subst h; exact hsa.symm
        · rfl
      rw [this]
      exact hi
    · have hi0 : Inv (put st i none) [a] := by
        apply hi.put hsa
        · intro g c hgc
          rcases hgc with hgc | hgc
          · simp at hgc; rw [hgc]; exact get_live hga
          · cases hgc
        · intro k
          simp only [slotW, sumBy_cons, sumBy_nil]
          omega
      have hsb0 : (put st i none).slots[j]? = some (some b) := by
        simp only [put]
        rw [List.getElem?_set_ne hij]
        exact hsb
      have hi1 : Inv (put (put st i none) j (some a)) [b] := by
        apply hi0.put hsb0
        · intro g c hgc
          rcases hgc with hgc | hgc
          · simp at hgc; rw [hgc]; exact Or.inr (Or.inl (List.mem_of_getElem? hsb0))
          · cases hgc; exact Or.inl (by simp)
        · intro k
          simp only [slotW, sumBy_cons, sumBy_nil]
          omega
      have hlt := (List.getElem?_eq_some_iff.1 hsa).1
      have hi2 := C43.construct hi1 (i := i) (by
        simp only [put]
        rw [List.getElem?_set_ne (fun h => hij h.symm)]
        simp [hlt])
      have : put (put (put st i none) j (some a)) i (some b) = put (put st i (some b)) j (some a) := by
        unfold put
        simp only
        rw [List.set_comm _ _ hij, List.set_set, List.set_comm _ _ hij]
      rw [this] at hi2
      exact hi2
  | destroy i =>
    obtain ⟨old, hg⟩ := Option.isSome_iff_exists.1 (show (get st i).isSome = true from ha)
    have hs := get_iff.1 hg
    have hi1 : Inv (put st i none) ([old] ++ []) := by
      apply hi.put hs
      · intro g c hgc
        rcases hgc with hgc | hgc
        · simp at hgc; rw [hgc]; exact get_live hg
        · cases hgc
      · intro k
        simp only [slotW, List.append_nil, sumBy_cons, sumBy_nil]
        omega
    obtain ⟨st', hd, hi', -, -⟩ := destroyAll_inv hi1
    exact ⟨st', by simp [step, hg, hd], hi'⟩

theorem C43.run_inv : ∀ (ops : List Op) (st : St), Inv st [] → Respects ops st →
    ∃ st', run ops st = some st' ∧ Inv st' [] := by
  intro ops
  induction ops with
  | nil => intro st hi _; exact ⟨st, rfl, hi⟩
  | cons op ops ih =>
    intro st hi hr
    obtain ⟨st1, h1, hi1⟩ := C43.step_inv hi hr.1
    obtain ⟨st2, h2, hi2⟩ := ih st1 hi1 (hr.2 st1 h1)
    exact ⟨st2, by simp [run, h1, h2], hi2⟩

theorem C43.cnt_eq (st : St) (id : Nat) : handlesTo st id = cnt st id := by
  unfold handlesTo cnt sumBy
  have h1 : (fun s : Option H => match s with
      | some (.heap i _) => if i = id then 1 else 0
      | _ => 0) = slotW id := by
    funext s
    cases s with
    | none => rfl
    | some h => cases h <;> rfl
  have h2 : (fun o : Option Obj => match o with
      | some o => o.kids.countP fun h => match h with | .heap i _ => decide (i = id) | _ => false
      | none => 0) = objW id := by
    funext o
    cases o with
    | none => rfl
    | some o =>
      simp only [objW]
      induction o.kids with
      | nil => rfl
      | cons h l ih =>
        rw [List.countP_cons, sumBy_cons, ih]
        cases h with
        | heap i c =>
          by_cases hi : i = id <;> simp [hit, hi] <;> omega
        | _ => simp [hit]
  rw [h1, h2]

/-! ## The property -/

/-- No program that respects the rules of C++ makes an invalid memory access through handles: no access to a freed
allocation, no counter below zero, no double free. -/
theorem C43_safe (n : Nat) (ops : List Op) (h : Respects ops (init n)) : ∃ st, run ops (init n) = some st := by
  obtain ⟨st, hr, -⟩ := C43.run_inv ops _ (C43.init_inv n) h
  exact ⟨st, hr⟩

/-- The counter of a live allocation is the number of handles to it, which is positive, and nothing refers to a freed
one: an allocation is freed exactly when its last handle goes away. -/
theorem C43_exact (n : Nat) (ops : List Op) (h : Respects ops (init n)) (st : St) (hr : run ops (init n) = some st) (id : Nat) :
    match st.heap[id]? with
    | some (some o) => o.rc = handlesTo st id ∧ 0 < handlesTo st id
    | _ => handlesTo st id = 0 := by
  obtain ⟨st', hr', hi⟩ := C43.run_inv ops _ (C43.init_inv n) h
  rw [hr] at hr'
  cases hr'
  have hc := hi.count id
  rw [sumBy_nil, Nat.add_zero, ← C43.cnt_eq] at hc
  unfold rcOf at hc
  split
  · rename_i o ho
    have ho' := alive_iff.2 ho
    rw [ho'] at hc
    have := hi.pos id o ho'
    simp only at hc
    exact ⟨hc, by omega⟩
  · rename_i hno
    have : alive st id = none := by
      unfold alive
      split
      · rename_i o ho; exact absurd ho (hno o)
      · rfl
    rw [this] at hc
    exact hc.symm

/-- An allocation is live exactly if it can be reached from a handle variable; in particular there are no cycles that keep
each other alive. -/
theorem C43_reachable (n : Nat) (ops : List Op) (h : Respects ops (init n)) (st : St) (hr : run ops (init n) = some st)
    (id : Nat) : (∃ o, st.heap[id]? = some (some o)) ↔ Reach st id := by
  obtain ⟨st', hr', hi⟩ := C43.run_inv ops _ (C43.init_inv n) h
  rw [hr] at hr'
  cases hr'
  constructor
  · rintro ⟨o, ho⟩
    -- induction from the newest allocation downwards
    have : ∀ m id o, st.heap.length ≤ id + m → alive st id = some o → Reach st id := by
      intro m
      induction m with
      | zero => intro id o hm ho; have := alive_lt ho; omega
      | succ m ih =>
        intro id o hm ho
        have hc := hi.count id
        unfold rcOf at hc
        rw [ho] at hc
        have hp := hi.pos id o ho
        rw [sumBy_nil] at hc
        simp only at hc
        unfold cnt at hc
        by_cases h2 : 0 < sumBy (slotW id) st.slots
        · obtain ⟨a, hm', hh⟩ := exists_of_sumBy_pos _ h2
          cases a with
          | none => simp [slotW] at hh
          | some a =>
            obtain ⟨c', rfl⟩ := hit_pos hh
            obtain ⟨i, hi'⟩ := List.getElem?_of_mem hm'
            exact Reach.slot hi'
        · have h3 : 0 < sumBy (objW id) st.heap := by omega
          obtain ⟨a, hm', hh⟩ := exists_of_sumBy_pos _ h3
          cases a with
          | none => simp [objW] at hh
          | some a =>
            obtain ⟨b, hb, hh⟩ := exists_of_sumBy_pos _ hh
            obtain ⟨c', rfl⟩ := hit_pos hh
            obtain ⟨p, hp'⟩ := List.getElem?_of_mem hm'
            have hlt := hi.acyc p a (alive_iff.2 hp') id c' hb
            exact Reach.kid (ih p a (by omega) (alive_iff.2 hp')) hp' hb
    exact this st.heap.length id o (by omega) (alive_iff.2 ho)
  · intro hre
    induction hre with
    | slot h =>
      obtain ⟨o, ho, -⟩ := hi.live (Or.inr (Or.inl (List.mem_of_getElem? h)))
      exact ⟨o, alive_iff.1 ho⟩
    | kid _ ho h _ =>
      obtain ⟨o', ho', -⟩ := hi.live (Or.inr (Or.inr ⟨_, _, alive_iff.2 ho, h⟩))
      exact ⟨o', alive_iff.1 ho'⟩

/-- No leak: when no variable holds a handle to an allocation any more, everything is freed and the caches are empty. -/
theorem C43_no_leak (n : Nat) (ops : List Op) (h : Respects ops (init n)) (st : St) (hr : run ops (init n) = some st)
    (hs : ∀ (i id : Nat) (c : Bool), st.slots[i]? ≠ some (some (H.heap id c))) :
    (∀ (id : Nat) (o : Obj), st.heap[id]? ≠ some (some o)) ∧ ∀ c k, lookup st.caches c k = none := by
  have h1 : ∀ (id : Nat) (o : Obj), st.heap[id]? ≠ some (some o) := by
    intro id o ho
    have hre := (C43_reachable n ops h st hr id).1 ⟨o, ho⟩
    clear ho
    induction hre with
    | slot h => exact hs _ _ _ h
    | kid _ _ _ ih => exact ih
  refine ⟨h1, fun c k => ?_⟩
  obtain ⟨st', hr', hi⟩ := C43.run_inv ops _ (C43.init_inv n) h
  rw [hr] at hr'
  cases hr'
  cases hl : lookup st.caches c k with
  | none => rfl
  | some id =>
    obtain ⟨o, ho, -⟩ := (hi.cacheOk c k id).1 hl
    exact absurd (alive_iff.1 ho) (h1 id o)

/-- The caches never hold dangling entries and each holds every live allocation that was made through it, once per value. -/
theorem C43_cache (n : Nat) (ops : List Op) (h : Respects ops (init n)) (st : St) (hr : run ops (init n) = some st)
    (c k id : Nat) :
    lookup st.caches c k = some id ↔ ∃ o, st.heap[id]? = some (some o) ∧ o.cache = some c ∧ o.key = k := by
  obtain ⟨st', hr', hi⟩ := C43.run_inv ops _ (C43.init_inv n) h
  rw [hr] at hr'
  cases hr'
  rw [hi.cacheOk]
  simp only [alive_iff]

/-! ## What is false -/

/-- Moving a cache (its move constructor is defaulted) leaves the cache pointers of the allocations behind: the entry of an
allocation freed afterwards stays, and the next handle created through the moved cache refers to freed memory. -/
theorem C43_move_cache_false :
    ((run [.mkCached 0 7 5 []] (init 2)).bind fun st =>
      (run [.destroy 0, .mkCached 1 8 5 []] (moveCache 7 8 st))) = none ∧
    ((run [.mkCached 0 7 5 []] (init 2)).bind fun st => run [.destroy 0] (moveCache 7 8 st)).map (lookup ·.caches 8 5) =
      some (some 0) := by
  decide

/-! ## Non-vacuity -/

/-- A program with nested, cached and small functions, self-assignment, assignment from inside the assigned function, moves
and swaps; it respects the rules, everything is freed at the end. -/
def C43.prog : List Op :=
  [.mk 0 1 [], .mkSoo 1 9, .mkCached 2 0 3 [0, 1], .mkCached 3 0 3 [0, 1], .assign 2 2, .assignMove 3 3, .destroy 0,
   .copyKid 0 2 0, .swap 0 1, .assignKid 2 2 0, .fromRef 4 3, .destroy 3, .assignNull 4, .move 3 2, .destroy 0,
   .destroy 1, .destroy 2, .destroy 3, .destroy 4]

/-- Decides `Respects`. -/
def C43.respects : List Op → St → Bool
  | [], _ => true
  | op :: ops, st => allowed op st && (match step op st with | none => true | some st' => C43.respects ops st')

theorem C43.respects_sound : ∀ (ops : List Op) (st : St), C43.respects ops st = true → Respects ops st := by
  intro ops
  induction ops with
  | nil => intros; trivial
  | cons op ops ih =>
    intro st h
    simp only [C43.respects, Bool.and_eq_true] at h
    refine ⟨h.1, fun st' hs => ih st' ?_⟩
    have := h.2
    rw [hs] at this
    exact this

example : Respects C43.prog (init 5) := C43.respects_sound _ _ (by decide)
example : run C43.prog (init 5) = some { heap := [none, none], caches := [], slots := List.replicate 5 none } := by decide
example : run (C43.prog.take 4) (init 5) =
    some { heap := [some { rc := 2, cache := none, key := 1, kids := [] },
                    some { rc := 2, cache := some 0, key := 3, kids := [H.heap 0 false, .soo 9] }],
           caches := [((0, 3), 1)],
           slots := [some (H.heap 0 false), some (.soo 9), some (.heap 1 true), some (.heap 1 true), none] } := by decide

end Phasar.Handle
