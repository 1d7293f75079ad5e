import Verif.EdgeFn.Handle
/-!
# Helper lemmas for C43: the counting invariant of edge-function handles
-/
namespace Phasar.Handle

/-- 1 if the handle refers to `id`. -/
def hit (id : Nat) : H → Nat
  | .heap i _ => if i = id then 1 else 0
  | _ => 0

def sumBy {α : Type} (f : α → Nat) (l : List α) : Nat := (l.map f).sum

def slotW (id : Nat) : Option H → Nat
  | some h => hit id h
  | none => 0

def objW (id : Nat) : Option Obj → Nat
  | some o => sumBy (hit id) o.kids
  | none => 0

def objLen : Option Obj → Nat
  | some o => o.kids.length
  | none => 0

/-- Number of handles to `id` in variables and in live allocations. -/
def cnt (st : St) (id : Nat) : Nat := sumBy (slotW id) st.slots + sumBy (objW id) st.heap

def rcOf (st : St) (id : Nat) : Nat :=
  match alive st id with
  | some o => o.rc
  | none => 0

/-- The handle lives in a temporary, a variable or a live allocation. -/
def IsLive (st : St) (T : List H) (h : H) : Prop :=
  h ∈ T ∨ some h ∈ st.slots ∨ ∃ p o, alive st p = some o ∧ h ∈ o.kids

structure Inv (st : St) (T : List H) : Prop where
  count : ∀ id, rcOf st id = cnt st id + sumBy (hit id) T
  pos : ∀ id o, alive st id = some o → 0 < o.rc
  pol : ∀ id o c, alive st id = some o → IsLive st T (.heap id c) → c = o.cache.isSome
  cacheOk : ∀ c k id, lookup st.caches c k = some id ↔
    ∃ o, alive st id = some o ∧ o.cache = some c ∧ o.key = k
  acyc : ∀ p o, alive st p = some o → ∀ id c, H.heap id c ∈ o.kids → id < p

/-! ## Sums -/

theorem sumBy_nil {α : Type} (f : α → Nat) : sumBy f [] = 0 := rfl
theorem sumBy_cons {α : Type} (f : α → Nat) (a : α) (l : List α) : sumBy f (a :: l) = f a + sumBy f l := by
  simp [sumBy]
theorem sumBy_append {α : Type} (f : α → Nat) (l l' : List α) : sumBy f (l ++ l') = sumBy f l + sumBy f l' := by
  simp [sumBy, List.sum_append]

theorem sumBy_set {α : Type} (f : α → Nat) : ∀ {l : List α} {i : Nat} {x y : α}, l[i]? = some y →
    sumBy f (l.set i x) + f y = sumBy f l + f x := by
  intro l
  induction l with
  | nil => intro i x y h; simp at h
  | cons a l ih =>
    intro i x y h
    cases i with
    | zero =>
      simp at h
      subst h
      simp only [List.set_cons_zero, sumBy_cons]
      omega
    | succ i =>
      simp at h
      have := ih (x := x) h
      simp only [List.set_cons_succ, sumBy_cons]
      omega

theorem le_sumBy {α : Type} (f : α → Nat) {l : List α} {a : α} (h : a ∈ l) : f a ≤ sumBy f l := by
  induction l with
  | nil => simp at h
  | cons b l ih =>
    rw [sumBy_cons]
    rcases List.mem_cons.1 h with rfl | h
    · omega
    · have := ih h; omega

theorem exists_of_sumBy_pos {α : Type} (f : α → Nat) {l : List α} (h : 0 < sumBy f l) : ∃ a ∈ l, 0 < f a := by
  induction l with
  | nil => simp [sumBy] at h
  | cons b l ih =>
    rw [sumBy_cons] at h
    by_cases hb : 0 < f b
    · exact ⟨b, List.mem_cons_self, hb⟩
    · obtain ⟨a, ha, h⟩ := ih (by omega)
      exact ⟨a, List.mem_cons_of_mem _ ha, h⟩

theorem hit_pos {id : Nat} {h : H} (hp : 0 < hit id h) : ∃ c, h = .heap id c := by
  cases h with
  | heap i c =>
    by_cases hi : i = id
    · subst hi; exact ⟨c, rfl⟩
    · simp [hit, hi] at hp
  | _ => simp [hit] at hp

theorem hit_self (id : Nat) (c : Bool) : hit id (.heap id c) = 1 := by simp [hit]

theorem hit_ne {id j : Nat} (c : Bool) (h : ¬ j = id) : hit j (.heap id c) = 0 := by
  simp only [hit]
  rw [if_neg (fun h' => h h'.symm)]

/-! ## Allocations -/

theorem alive_iff {st : St} {id : Nat} {o : Obj} : alive st id = some o ↔ st.heap[id]? = some (some o) := by
  unfold alive
  split
  · rename_i o' h; rw [h]; simp
  · rename_i h
    constructor
    · intro h'; cases h'
    · intro h'; exact absurd h' (h o)

theorem alive_lt {st : St} {id : Nat} {o : Obj} (h : alive st id = some o) : id < st.heap.length := by
  rw [alive_iff] at h
  exact (List.getElem?_eq_some_iff.1 h).1

/-- Replacing an entry of the heap. -/
theorem alive_set {st : St} {id : Nat} (h : id < st.heap.length) (x : Option Obj) (cs : List ((Nat × Nat) × Nat))
    (ss : List (Option H)) (j : Nat) :
    alive { heap := st.heap.set id x, caches := cs, slots := ss } j = if j = id then x else alive st j := by
  unfold alive
  simp only [List.getElem?_set]
  by_cases hj : id = j
  · subst hj
    simp only [if_true, if_pos h]
    cases x <;> rfl
  · rw [if_neg hj, if_neg (fun h => hj h.symm)]

theorem alive_slots (st : St) (ss : List (Option H)) (j : Nat) : alive { st with slots := ss } j = alive st j := rfl

theorem alive_put (st : St) (i : Nat) (x : Option H) (j : Nat) : alive (put st i x) j = alive st j := rfl

/-- A living handle refers to a live allocation of its policy. -/
theorem Inv.live {st : St} {T : List H} (hi : Inv st T) {id : Nat} {c : Bool} (h : IsLive st T (.heap id c)) :
    ∃ o, alive st id = some o ∧ c = o.cache.isSome := by
  have hpos : 0 < rcOf st id := by
    rw [hi.count]
    rcases h with h | h | ⟨p, o, hp, h⟩
    · have := le_sumBy (hit id) h
      rw [hit_self] at this
      omega
    · have := le_sumBy (slotW id) h
      simp only [slotW, hit_self] at this
      unfold cnt
      omega
    · have h1 := le_sumBy (hit id) h
      rw [hit_self] at h1
      have h2 := le_sumBy (objW id) (List.mem_of_getElem? (alive_iff.1 hp))
      simp only [objW] at h2
      unfold cnt
      omega
  unfold rcOf at hpos
  split at hpos
  · rename_i o ho
    exact ⟨o, ho, hi.pol id o c ho h⟩
  · omega

theorem sumBy_const_heap_set {st : St} {id : Nat} {o : Obj} (h : alive st id = some o) (n : Nat) (j : Nat) :
    sumBy (objW j) (st.heap.set id (some { o with rc := n })) = sumBy (objW j) st.heap := by
  have := sumBy_set (objW j) (x := some { o with rc := n }) (alive_iff.1 h)
  simp only [objW] at this
  omega

/-- Changing a counter only. -/
theorem alive_rc {st : St} {id : Nat} {o : Obj} (h : alive st id = some o) (n j : Nat) :
    alive { st with heap := st.heap.set id (some { o with rc := n }) } j =
      if j = id then some { o with rc := n } else alive st j :=
  alive_set (alive_lt h) _ _ _ j

theorem isLive_rc {st : St} {id : Nat} {o : Obj} (h : alive st id = some o) (n : Nat) (T : List H) (g : H) :
    IsLive { st with heap := st.heap.set id (some { o with rc := n }) } T g ↔ IsLive st T g := by
  have : (∃ p o', alive { st with heap := st.heap.set id (some { o with rc := n }) } p = some o' ∧ g ∈ o'.kids) ↔
      ∃ p o', alive st p = some o' ∧ g ∈ o'.kids := by
    constructor
    · rintro ⟨p, o', hp, hg⟩
      rw [alive_rc h] at hp
      split at hp
      · cases hp; exact ⟨id, o, h, hg⟩
      · exact ⟨p, o', hp, hg⟩
    · rintro ⟨p, o', hp, hg⟩
      by_cases hpi : p = id
      · subst hpi
        rw [h] at hp; cases hp
        exact ⟨p, { o with rc := n }, by rw [alive_rc h, if_pos rfl], hg⟩
      · exact ⟨p, o', by rw [alive_rc h, if_neg hpi, hp], hg⟩
  unfold IsLive
  rw [this]

/-- The invariant after changing one counter. -/
theorem Inv.setRc {st : St} {T T' : List H} (hi : Inv st T) {id : Nat} {o : Obj} (h : alive st id = some o) {n : Nat}
    (hn : 0 < n) (hsub : ∀ g c, H.heap g c ∈ T' → IsLive st T (.heap g c))
    (hc : ∀ j, sumBy (hit j) T' + (if j = id then o.rc else 0) = sumBy (hit j) T + (if j = id then n else 0)) :
    Inv { st with heap := st.heap.set id (some { o with rc := n }) } T' := by
  have hal := alive_rc h n
  refine ⟨?_, ?_, ?_, ?_, ?_⟩
  · intro j
    have h1 := hi.count j
    have h2 := hc j
    unfold cnt at *
    simp only
    rw [sumBy_const_heap_set h]
    unfold rcOf at *
    rw [hal j]
    by_cases hj : j = id
    · subst hj
      rw [h] at h1
      simp only [if_true] at h2 ⊢
      simp only at h1
      omega
    · rw [if_neg hj, if_neg hj] at h2
      rw [if_neg hj]
      omega
  · intro j o' hj
    rw [hal] at hj
    split at hj
    · cases hj; exact hn
    · exact hi.pos j o' hj
  · intro j o' c hj hl
    rw [isLive_rc h] at hl
    have hl' : IsLive st T (.heap j c) := by
      rcases hl with hl | hl
      · exact hsub j c hl
      · exact Or.inr hl
    rw [hal] at hj
    split at hj
    · rename_i hji
      subst hji
      cases hj
      exact hi.pol j o c h hl'
    · exact hi.pol j o' c hj hl'
  · intro c k j
    rw [hi.cacheOk c k j]
    constructor
    · rintro ⟨o', hj, h1, h2⟩
      by_cases hji : j = id
      · subst hji
        rw [h] at hj; cases hj
        exact ⟨{ o with rc := n }, by rw [hal, if_pos rfl], h1, h2⟩
      · exact ⟨o', by rw [hal, if_neg hji, hj], h1, h2⟩
    · rintro ⟨o', hj, h1, h2⟩
      rw [hal] at hj
      split at hj
      · rename_i hji
        subst hji
        cases hj
        exact ⟨o, h, h1, h2⟩
      · exact ⟨o', hj, h1, h2⟩
  · intro p o' hp g c hg
    rw [hal] at hp
    split at hp
    · rename_i hpi
      subst hpi
      cases hp
      exact hi.acyc p o h g c hg
    · exact hi.acyc p o' hp g c hg

/-- Exchanging the temporaries. -/
theorem Inv.temps {st : St} {T T' : List H} (hi : Inv st T) (hsub : ∀ g c, H.heap g c ∈ T' → IsLive st T (.heap g c))
    (hc : ∀ j, sumBy (hit j) T' = sumBy (hit j) T) : Inv st T' := by
  refine ⟨fun j => by rw [hi.count, hc], hi.pos, ?_, hi.cacheOk, hi.acyc⟩
  intro j o c hj hl
  apply hi.pol j o c hj
  rcases hl with hl | hl
  · exact hsub j c hl
  · exact Or.inr hl

theorem mem_set_of {α : Type} {l : List α} {i : Nat} {x a : α} (h : a ∈ l.set i x) : a ∈ l ∨ a = x :=
  List.mem_or_eq_of_mem_set h

/-- Writing a variable. -/
theorem Inv.put {st : St} {T T' : List H} (hi : Inv st T) {i : Nat} {old new : Option H} (ho : st.slots[i]? = some old)
    (hsub : ∀ g c, (H.heap g c ∈ T' ∨ new = some (H.heap g c)) → IsLive st T (.heap g c))
    (hc : ∀ j, slotW j new + sumBy (hit j) T' = slotW j old + sumBy (hit j) T) :
    Inv (Handle.put st i new) T' := by
  refine ⟨?_, hi.pos, ?_, hi.cacheOk, hi.acyc⟩
  · intro j
    have h1 := hi.count j
    have h2 := hc j
    have h3 := sumBy_set (slotW j) (x := new) ho
    show rcOf st j = _
    unfold cnt at *
    simp only [Handle.put]
    omega
  · intro j o c hj hl
    apply hi.pol j o c hj
    rcases hl with hl | hl | hl
    · exact hsub j c (Or.inl hl)
    · rcases mem_set_of hl with hl | hl
      · exact Or.inr (Or.inl hl)
      · exact hsub j c (Or.inr hl.symm)
    · exact Or.inr (Or.inr hl)

/-! ## Caches -/

theorem lookup_erase (cs : List ((Nat × Nat) × Nat)) (c k c' k' : Nat) :
    lookup (erase cs c k) c' k' = if c' = c ∧ k' = k then none else lookup cs c' k' := by
  induction cs with
  | nil => simp [erase, lookup]
  | cons e cs ih =>
    obtain ⟨⟨a, b⟩, id⟩ := e
    unfold erase at ih ⊢
    by_cases he : (a, b) = (c, k)
    · rw [List.filter_cons_of_neg (by simp [he]), ih]
      simp only [Prod.mk.injEq] at he
      by_cases hck : c' = c ∧ k' = k
      · rw [if_pos hck, if_pos hck]
      · rw [if_neg hck, if_neg hck]
        simp only [lookup]
        rw [if_neg]
        rintro ⟨h1, h2⟩
        exact hck ⟨by omega, by omega⟩
    · rw [List.filter_cons_of_pos (by rw [decide_eq_true_eq]; exact he)]
      simp only [lookup, ih]
      by_cases hck : c' = c ∧ k' = k
      · rw [if_pos hck, if_pos hck, if_neg]
        rintro ⟨h1, h2⟩
        apply he
        rw [h1, h2, hck.1, hck.2]
      · rw [if_neg hck, if_neg hck]

/-! ## Destruction -/

theorem kidsTotal_eq (heap : List (Option Obj)) : kidsTotal heap = sumBy objLen heap := by
  unfold kidsTotal sumBy
  congr 1

theorem dropAll_inv : ∀ (n : Nat) (W : List H) (st : St) (T : List H), Inv st (W ++ T) →
    W.length + kidsTotal st.heap ≤ n →
    ∃ st', dropAll n W st = some st' ∧ Inv st' T ∧ st'.slots = st.slots ∧ st'.heap.length = st.heap.length := by
  intro n
  induction n with
  | zero =>
    intro W st T hi hn
    cases W with
    | nil => exact ⟨st, rfl, hi, rfl, rfl⟩
    | cons h W => simp at hn
  | succ n ih =>
    intro W st T hi hn
    cases W with
    | nil => exact ⟨st, rfl, hi, rfl, rfl⟩
    | cons h W =>
      have skip : (∀ id c, h ≠ .heap id c) → Inv st (W ++ T) := by
        intro hne
        apply hi.temps
        · intro g c hg
          exact Or.inl (by simp only [List.cons_append]; exact List.mem_cons_of_mem _ hg)
        · intro j
          simp only [List.cons_append, sumBy_cons]
          cases h with
          | heap id c => exact absurd rfl (hne id c)
          | _ => simp [hit]
      simp only [List.length_cons] at hn
      cases h with
      | null =>
        exact ih W st T (skip (by intros; intro h; cases h)) (by omega)
      | soo v =>
        exact ih W st T (skip (by intros; intro h; cases h)) (by omega)
      | heap id c =>
        have hmem : IsLive st (.heap id c :: W ++ T) (.heap id c) := Or.inl (by simp)
        obtain ⟨o, ho, hpol⟩ := hi.live hmem
        have hpos := hi.pos id o ho
        simp only [dropAll, ho]
        rw [if_neg (by omega)]
        by_cases h1 : o.rc = 1
        · rw [if_pos h1]
          -- the last handle: free the allocation
          have hlt := alive_lt ho
          have hget := alive_iff.1 ho
          have hcnt0 := hi.count id
          unfold rcOf at hcnt0
          rw [ho] at hcnt0
          simp only [List.cons_append, sumBy_cons, hit_self] at hcnt0
          -- the state after freeing
          have key : ∀ cs : List ((Nat × Nat) × Nat),
              (∀ c' k', lookup cs c' k' = if o.cache = some c' ∧ o.key = k' then none else lookup st.caches c' k') →
              Inv { heap := st.heap.set id none, caches := cs, slots := st.slots } ((o.kids ++ W) ++ T) := by
            intro cs hcs
            have hal := alive_set hlt none cs st.slots
            refine ⟨?_, ?_, ?_, ?_, ?_⟩
            · intro j
              have h2 := hi.count j
              have h3 := sumBy_set (objW j) (x := none) hget
              unfold cnt at *
              simp only [objW] at h3
              simp only [List.cons_append, sumBy_cons, sumBy_append] at h2 ⊢
              unfold rcOf at *
              rw [hal j]
              by_cases hj : j = id
              · subst hj
                rw [if_pos rfl]
                rw [ho] at h2
                simp only [hit_self] at h2
                simp only
                omega
              · rw [if_neg hj]
                have : hit j (.heap id c) = 0 := hit_ne c hj
                omega
            · intro j o' hj
              rw [hal] at hj
              split at hj
              · cases hj
              · exact hi.pos j o' hj
            · intro j o' c' hj hl
              rw [hal] at hj
              split at hj
              · cases hj
              · apply hi.pol j o' c' hj
                rcases hl with hl | hl | ⟨p, op, hp, hl⟩
                · simp only [List.append_assoc, List.mem_append] at hl
                  rcases hl with hl | hl
                  · exact Or.inr (Or.inr ⟨id, o, ho, hl⟩)
                  · exact Or.inl (by
                      simp only [List.cons_append, List.mem_cons, List.mem_append]
                      exact Or.inr hl)
                · exact Or.inr (Or.inl hl)
                · rw [hal] at hp
                  split at hp
                  · cases hp
                  · exact Or.inr (Or.inr ⟨p, op, hp, hl⟩)
            · intro c' k' j
              show lookup cs c' k' = some j ↔ _
              rw [hcs]
              by_cases hck : o.cache = some c' ∧ o.key = k'
              · rw [if_pos hck]
                constructor
                · intro h; cases h
                · rintro ⟨o', hj, h1, h2⟩
                  rw [hal] at hj
                  split at hj
                  · cases hj
                  · rename_i hji
                    have e1 := (hi.cacheOk c' k' id).2 ⟨o, ho, hck.1, hck.2⟩
                    have e2 := (hi.cacheOk c' k' j).2 ⟨o', hj, h1, h2⟩
                    rw [e1] at e2
                    exact absurd (Option.some.inj e2).symm hji
              · rw [if_neg hck, hi.cacheOk]
                constructor
                · rintro ⟨o', hj, h1, h2⟩
                  refine ⟨o', ?_, h1, h2⟩
                  rw [hal, if_neg, hj]
                  intro hji
                  subst hji
                  rw [ho] at hj
                  cases hj
                  exact hck ⟨h1, h2⟩
                · rintro ⟨o', hj, h1, h2⟩
                  rw [hal] at hj
                  split at hj
                  · cases hj
                  · exact ⟨o', hj, h1, h2⟩
            · intro p o' hp g c' hg
              rw [hal] at hp
              split at hp
              · cases hp
              · exact hi.acyc p o' hp g c' hg
          have hfuel : (o.kids ++ W).length + kidsTotal (st.heap.set id none) ≤ n := by
            have h3 := sumBy_set objLen (x := none) hget
            simp only [objLen] at h3
            rw [kidsTotal_eq] at *
            rw [List.length_append]
            omega
          unfold free
          cases hoc : o.cache with
          | none =>
            rw [hoc] at hpol
            simp only [Option.isSome_none] at hpol
            subst hpol
            simp only [Bool.false_eq_true, if_false]
            have hI := key st.caches (by
              intro c' k'
              rw [if_neg]
              rintro ⟨h, -⟩
              rw [hoc] at h
              cases h)
            obtain ⟨st', hd, hi', hs, hl⟩ := ih (o.kids ++ W) _ T hI hfuel
            exact ⟨st', hd, hi', hs, by rw [hl]; simp⟩
          | some c0 =>
            rw [hoc] at hpol
            simp only [Option.isSome_some] at hpol
            subst hpol
            simp only [if_true]
            have hI := key (erase st.caches c0 o.key) (by
              intro c' k'
              rw [lookup_erase, hoc]
              by_cases h : c' = c0 ∧ k' = o.key
              · rw [if_pos h, if_pos ⟨by rw [h.1], h.2.symm⟩]
              · rw [if_neg h, if_neg]
                rintro ⟨h1, h2⟩
                exact h ⟨(Option.some.inj h1).symm, h2.symm⟩)
            obtain ⟨st', hd, hi', hs, hl⟩ := ih (o.kids ++ W) _ T hI hfuel
            exact ⟨st', hd, hi', hs, by rw [hl]; simp⟩
        · rw [if_neg h1]
          have hI := hi.setRc ho (n := o.rc - 1) (T' := W ++ T) (by omega)
            (by intro g c' hg; exact Or.inl (by simp only [List.cons_append]; exact List.mem_cons_of_mem _ hg))
            (by
              intro j
              simp only [List.cons_append, sumBy_cons]
              by_cases hj : j = id
              · subst hj; simp only [if_true, hit_self]; omega
              · rw [if_neg hj, if_neg hj]
                have : hit j (.heap id c) = 0 := hit_ne c hj
                omega)
          have hfuel : W.length + kidsTotal (st.heap.set id (some { o with rc := o.rc - 1 })) ≤ n := by
            have h3 := sumBy_set objLen (x := some { o with rc := o.rc - 1 }) (alive_iff.1 ho)
            simp only [objLen] at h3
            rw [kidsTotal_eq] at *
            omega
          obtain ⟨st', hd, hi', hs, hl⟩ := ih W _ T hI hfuel
          exact ⟨st', hd, hi', hs, by rw [hl]; simp⟩

theorem destroyAll_inv {W : List H} {st : St} {T : List H} (hi : Inv st (W ++ T)) :
    ∃ st', destroyAll W st = some st' ∧ Inv st' T ∧ st'.slots = st.slots ∧ st'.heap.length = st.heap.length :=
  dropAll_inv _ W st T hi (Nat.le_refl _)

/-! ## Copies -/

theorem incr_inv {h : H} {st : St} {T : List H} (hi : Inv st T) (hl : IsLive st T h) :
    ∃ st', incr h st = some st' ∧ Inv st' (h :: T) ∧ st'.slots = st.slots ∧ st'.caches = st.caches ∧
      st'.heap.length = st.heap.length := by
  have triv : (∀ id c, h ≠ .heap id c) → Inv st (h :: T) := by
    intro hne
    apply hi.temps
    · intro g c hg
      rcases List.mem_cons.1 hg with hg | hg
      · exact absurd hg.symm (hne g c)
      · exact Or.inl hg
    · intro j
      rw [sumBy_cons]
      cases h with
      | heap id c => exact absurd rfl (hne id c)
      | _ => simp [hit]
  cases h with
  | null => exact ⟨st, rfl, triv (by intros; intro h; cases h), rfl, rfl, rfl⟩
  | soo v => exact ⟨st, rfl, triv (by intros; intro h; cases h), rfl, rfl, rfl⟩
  | heap id c =>
    obtain ⟨o, ho, hpol⟩ := hi.live hl
    refine ⟨{ st with heap := st.heap.set id (some { o with rc := o.rc + 1 }) }, by simp [incr, ho], ?_, rfl, rfl,
      by simp⟩
    apply hi.setRc ho (by omega)
    · intro g c' hg
      rcases List.mem_cons.1 hg with hg | hg
      · rw [hg]; exact hl
      · exact Or.inl hg
    · intro j
      rw [sumBy_cons]
      by_cases hj : j = id
      · subst hj; simp only [if_true, hit_self]; omega
      · rw [if_neg hj, if_neg hj]
        have : hit j (.heap id c) = 0 := hit_ne c hj
        omega

theorem get_iff {st : St} {i : Nat} {h : H} : get st i = some h ↔ st.slots[i]? = some (some h) := by
  unfold get
  split
  · rename_i h' hh; rw [hh]; simp
  · rename_i hh
    constructor
    · intro h'; cases h'
    · intro h'; exact absurd h' (hh h)

theorem get_live {st : St} {T : List H} {i : Nat} {h : H} (hg : get st i = some h) : IsLive st T h :=
  Or.inr (Or.inl (List.mem_of_getElem? (get_iff.1 hg)))

theorem copies_inv : ∀ (js : List Nat) (st : St) (T : List H), Inv st T → (∀ j ∈ js, (get st j).isSome) →
    ∃ hs st', copies js st = some (hs, st') ∧ Inv st' (hs ++ T) ∧ st'.slots = st.slots ∧ st'.caches = st.caches ∧
      st'.heap.length = st.heap.length := by
  intro js
  induction js with
  | nil => intro st T hi _; exact ⟨[], st, rfl, hi, rfl, rfl, rfl⟩
  | cons j js ih =>
    intro st T hi hjs
    obtain ⟨h, hg⟩ := Option.isSome_iff_exists.1 (hjs j List.mem_cons_self)
    obtain ⟨st1, h1, hi1, hs1, hc1, hl1⟩ := incr_inv hi (get_live hg)
    have hget : ∀ k, get st1 k = get st k := by intro k; unfold get; rw [hs1]
    obtain ⟨hs, st2, h2, hi2, hs2, hc2, hl2⟩ := ih st1 (h :: T) hi1
      (fun k hk => by rw [hget]; exact hjs k (List.mem_cons_of_mem _ hk))
    refine ⟨h :: hs, st2, ?_, ?_, by rw [hs2, hs1], by rw [hc2, hc1], by rw [hl2, hl1]⟩
    · simp [copies, hg, h1, h2]
    · apply hi2.temps
      · intro g c hg'
        apply Or.inl
        simp only [List.cons_append, List.mem_cons, List.mem_append] at hg' ⊢
        rcases hg' with h | h | h
        · exact Or.inr (Or.inl h)
        · exact Or.inl h
        · exact Or.inr (Or.inr h)
      · intro k
        simp only [List.cons_append, sumBy_cons, sumBy_append]
        omega

/-! ## Allocation -/

theorem alloc_inv {cache : Option Nat} {key : Nat} {kids T : List H} {st : St} (hi : Inv st (kids ++ T))
    {cs : List ((Nat × Nat) × Nat)}
    (hcs : ∀ c k, lookup cs c k = if cache = some c ∧ key = k then some st.heap.length else lookup st.caches c k)
    (hnew : ∀ c, cache = some c → lookup st.caches c key = none) :
    Inv { (alloc cache key kids st).2 with caches := cs } ((alloc cache key kids st).1 :: T) := by
  have hal : ∀ j, alive { (alloc cache key kids st).2 with caches := cs } j =
      if j = st.heap.length then some { rc := 1, cache := cache, key := key, kids := kids } else alive st j := by
    intro j
    unfold alive alloc
    simp only
    rw [List.getElem?_append]
    by_cases hj : j < st.heap.length
    · rw [if_pos hj, if_neg (by omega)]
    · rw [if_neg hj]
      by_cases hje : j = st.heap.length
      · subst hje; simp
      · rw [if_neg hje]
        have h1 : [some ({ rc := 1, cache := cache, key := key, kids := kids } : Obj)][j - st.heap.length]? = none := by
          apply List.getElem?_eq_none
          simp
          omega
        have h2 : st.heap[j]? = none := List.getElem?_eq_none (by omega)
        rw [h1, h2]
  have hlt : ∀ j o, alive st j = some o → j < st.heap.length := fun j o h => alive_lt h
  have hkid : ∀ g c, H.heap g c ∈ kids → g < st.heap.length := by
    intro g c hg
    obtain ⟨o, ho, -⟩ := hi.live (id := g) (c := c) (Or.inl (List.mem_append_left _ hg))
    exact hlt g o ho
  have hlive : ∀ g c, IsLive st (kids ++ T) (.heap g c) → g < st.heap.length := by
    intro g c h
    obtain ⟨o, ho, -⟩ := hi.live h
    exact hlt g o ho
  have hback : ∀ j c, j < st.heap.length →
      IsLive { (alloc cache key kids st).2 with caches := cs } ((alloc cache key kids st).1 :: T) (.heap j c) →
      IsLive st (kids ++ T) (.heap j c) := by
    intro j c hj hl
    rcases hl with hl | hl | ⟨p, o, hp, hl⟩
    · rcases List.mem_cons.1 hl with hl | hl
      · simp only [alloc, H.heap.injEq] at hl
        omega
      · exact Or.inl (List.mem_append_right _ hl)
    · exact Or.inr (Or.inl hl)
    · rw [hal] at hp
      split at hp
      · cases hp
        exact Or.inl (List.mem_append_left _ hl)
      · exact Or.inr (Or.inr ⟨p, o, hp, hl⟩)
  refine ⟨?_, ?_, ?_, ?_, ?_⟩
  · intro j
    have h1 := hi.count j
    unfold cnt at *
    have h2 : sumBy (objW j) ({ (alloc cache key kids st).2 with caches := cs } : St).heap =
        sumBy (objW j) st.heap + sumBy (hit j) kids := by
      simp only [alloc, sumBy_append, sumBy_cons, sumBy_nil, objW]
      omega
    have h3 : ({ (alloc cache key kids st).2 with caches := cs } : St).slots = st.slots := rfl
    rw [h2, h3, sumBy_cons]
    rw [sumBy_append] at h1
    unfold rcOf at *
    rw [hal j]
    by_cases hj : j = st.heap.length
    · rw [if_pos hj]
      have h0 : alive st j = none := by
        cases h : alive st j with
        | none => rfl
        | some o => exact absurd (hlt j o h) (by omega)
      rw [h0] at h1
      have : hit j (alloc cache key kids st).1 = 1 := by rw [hj]; exact hit_self _ _
      simp only at h1 ⊢
      omega
    · rw [if_neg hj]
      have : hit j (alloc cache key kids st).1 = 0 := by
        simp only [alloc, hit]
        rw [if_neg (fun h => hj h.symm)]
      omega
  · intro j o hj
    rw [hal] at hj
    split at hj
    · cases hj; exact Nat.one_pos
    · exact hi.pos j o hj
  · intro j o c hj hl
    rw [hal] at hj
    split at hj
    · rename_i hje
      cases hj
      rcases hl with hl | hl | ⟨p, o', hp, hl⟩
      · rcases List.mem_cons.1 hl with hl | hl
        · simp only [alloc, H.heap.injEq] at hl
          exact hl.2
        · exact absurd (hlive j c (Or.inl (List.mem_append_right _ hl))) (by omega)
      · exact absurd (hlive j c (Or.inr (Or.inl hl))) (by omega)
      · rw [hal] at hp
        split at hp
        · cases hp
          exact absurd (hkid j c hl) (by omega)
        · exact absurd (hlive j c (Or.inr (Or.inr ⟨p, o', hp, hl⟩))) (by omega)
    · exact hi.pol j o c hj (hback j c (hlt j o hj) hl)
  · intro c k j
    show lookup cs c k = some j ↔ _
    rw [hcs]
    by_cases hck : cache = some c ∧ key = k
    · rw [if_pos hck]
      constructor
      · intro h
        cases h
        exact ⟨_, by rw [hal, if_pos rfl], hck.1, hck.2⟩
      · rintro ⟨o, hj, h1, h2⟩
        rw [hal] at hj
        split at hj
        · rename_i hje; rw [hje]
        · have e := (hi.cacheOk c k j).2 ⟨o, hj, h1, h2⟩
          have := hnew c hck.1
          rw [hck.2, e] at this
          cases this
    · rw [if_neg hck, hi.cacheOk]
      constructor
      · rintro ⟨o, hj, h1, h2⟩
        exact ⟨o, by rw [hal, if_neg (by have := hlt j o hj; omega), hj], h1, h2⟩
      · rintro ⟨o, hj, h1, h2⟩
        rw [hal] at hj
        split at hj
        · cases hj
          exact absurd ⟨h1, h2⟩ hck
        · exact ⟨o, hj, h1, h2⟩
  · intro p o hp g c hg
    rw [hal] at hp
    split at hp
    · rename_i hpe
      cases hp
      have := hkid g c hg
      omega
    · exact hi.acyc p o hp g c hg

end Phasar.Handle
