/-!
# Model of `AdjacencyList`

Models `include/phasar/Utils/AdjacencyList.h`: `GraphTraits<AdjacencyList<T, EdgeTy>>`.  Preconditions the
code asserts are modelled as `none`.
-/
namespace Phasar.Adj

/-- `AdjacencyList<T, EdgeTy>`, `AdjacencyList.h:28-32`. -/
structure Graph (T E : Type) where
  nodes : List T
  adj : List (List E)
  roots : List Nat
deriving DecidableEq

variable {T E : Type}

/-- The empty graph. -/
def empty : Graph T E := ⟨[], [], []⟩

/-- Specification: the invariant asserted throughout, `G.Adj.size() == G.Nodes.size()`. -/
def Wf (g : Graph T E) : Prop := g.adj.length = g.nodes.length

/-- `addNode`, `AdjacencyList.h:58-65`: the graph and the vertex. -/
def addNode (g : Graph T E) (v : T) : Graph T E × Nat :=
  (⟨g.nodes ++ [v], g.adj ++ [[]], g.roots⟩, g.nodes.length)

/-- `addRoot`, `AdjacencyList.h:80-86`. -/
def addRoot (g : Graph T E) (v : Nat) : Option (Graph T E) :=
  if v < g.adj.length then some { g with roots := g.roots ++ [v] } else none

/-- `addEdge`, `AdjacencyList.h:100-106`. -/
def addEdge (g : Graph T E) (v : Nat) (e : E) : Option (Graph T E) :=
  match g.adj[v]? with
  | some es => some { g with adj := g.adj.set v (es ++ [e]) }
  | none => none

/-- `outEdges`, `AdjacencyList.h:109-116`. -/
def outEdges (g : Graph T E) (v : Nat) : Option (List E) := g.adj[v]?

/-- `outDegree`, `AdjacencyList.h:119-125`. -/
def outDegree (g : Graph T E) (v : Nat) : Option Nat := (g.adj[v]?).map List.length

/-- Insertion into a sorted list; `sort` below stands in for `std::sort` with `operator<`. -/
def insertSorted (lt : E → E → Bool) (x : E) : List E → List E
  | [] => [x]
  | y :: ys => if lt y x then y :: insertSorted lt x ys else x :: y :: ys

/-- `std::sort(first, last)`, as used at `AdjacencyList.h:135`. -/
def sort (lt : E → E → Bool) : List E → List E
  | [] => []
  | x :: xs => insertSorted lt x (sort lt xs)

/-- `std::unique` followed by `erase`, as used at `AdjacencyList.h:136-137`: drops all but the first of
consecutive equal elements. -/
def unique [DecidableEq E] : List E → List E
  | [] => []
  | [x] => [x]
  | x :: y :: ys => if x = y then unique (y :: ys) else x :: unique (y :: ys)

/-- `dedupOutEdges`, `AdjacencyList.h:129-138`. -/
def dedupOutEdges [DecidableEq E] (lt : E → E → Bool) (g : Graph T E) (v : Nat) : Option (Graph T E) :=
  match g.adj[v]? with
  | some es => some { g with adj := g.adj.set v (unique (sort lt es)) }
  | none => none

/-- `node`, `AdjacencyList.h:172-185`. -/
def node (g : Graph T E) (v : Nat) : Option T := g.nodes[v]?

/-- `size`, `AdjacencyList.h:196-201`. -/
def size (g : Graph T E) : Nat := g.adj.length

/-- `pop`, `AdjacencyList.h:225-234`; vertices are 32-bit, so on the empty graph the wrapped-around
`Adj.size() - 1` equals none of them. -/
def pop (g : Graph T E) (v : Nat) : Graph T E × Bool :=
  if v + 1 = g.adj.length then (⟨g.nodes.dropLast, g.adj.dropLast, g.roots⟩, true) else (g, false)

/-- Swap with the last element and drop it: `std::swap(V[Idx], V.back()); V.pop_back()`, as used at
`AdjacencyList.h:271-272` and `288-289`. -/
def swapPop {A : Type} (l : List A) (i : Nat) : Option (List A) :=
  match l[i]?, l.getLast? with
  | some _, some x => some ((l.set i x).dropLast)
  | _, _ => none

/-- `removeEdge`, `AdjacencyList.h:262-274`, with the iterator given by its index; the returned iterator has the
same index. -/
def removeEdge (g : Graph T E) (v : Nat) (i : Nat) : Option (Graph T E) :=
  match g.adj[v]? with
  | some es => (swapPop es i).map (fun es' => { g with adj := g.adj.set v es' })
  | none => none

/-- `removeRoot`, `AdjacencyList.h:281-291`, with the iterator given by its index. -/
def removeRoot (g : Graph T E) (i : Nat) : Option (Graph T E) :=
  (swapPop g.roots i).map (fun r => { g with roots := r })

/-- An edit operation with its arguments; edges and roots to remove are given by the index of the iterator. -/
inductive Op (T E : Type) where
  | addNode (t : T)
  | addRoot (v : Nat)
  | addEdge (v : Nat) (e : E)
  | removeEdge (v i : Nat)
  | removeRoot (i : Nat)
  | dedup (v : Nat)
  | pop (v : Nat)
deriving DecidableEq

/-- One edit operation, `AdjacencyList.h:58-291`; `none` if an asserted precondition fails. -/
def step [DecidableEq E] (lt : E → E → Bool) (g : Graph T E) : Op T E → Option (Graph T E)
  | .addNode t => some (addNode g t).1
  | .addRoot v => addRoot g v
  | .addEdge v e => addEdge g v e
  | .removeEdge v i => removeEdge g v i
  | .removeRoot i => removeRoot g i
  | .dedup v => dedupOutEdges lt g v
  | .pop v => some (pop g v).1

/-- A sequence of edit operations, `AdjacencyList.h:58-291`. -/
def run [DecidableEq E] (lt : E → E → Bool) (g : Graph T E) : List (Op T E) → Option (Graph T E)
  | [] => some g
  | o :: os => (step lt g o).bind (fun g' => run lt g' os)

/-! ## Specification: graphs as multisets of edges -/

/-- Specification: a graph with labelled vertices `0 … n-1`, multisets of edges and a multiset of roots. -/
@[ext] structure Abs (T E : Type) where
  n : Nat
  label : Nat → Option T
  out : Nat → E → Nat
  root : Nat → Nat

/-- Specification: an edit naming the edge or root it is about. -/
inductive SOp (T E : Type) where
  | addNode (t : T)
  | addRoot (v : Nat)
  | addEdge (v : Nat) (e : E)
  | removeEdge (v : Nat) (e : E)
  | removeRoot (v : Nat)
  | dedup (v : Nat)
  | popLast
  | nothing

/-- Specification: what each edit does; everything not mentioned stays as it is. -/
def sstep [DecidableEq E] (a : Abs T E) : SOp T E → Abs T E
  | .addNode t => { a with n := a.n + 1, label := fun v => if v = a.n then some t else a.label v }
  | .addRoot v => { a with root := fun u => if u = v then a.root u + 1 else a.root u }
  | .addEdge v e => { a with out := fun u f => if u = v ∧ f = e then a.out u f + 1 else a.out u f }
  | .removeEdge v e => { a with out := fun u f => if u = v ∧ f = e then a.out u f - 1 else a.out u f }
  | .removeRoot v => { a with root := fun u => if u = v then a.root u - 1 else a.root u }
  | .dedup v => { a with out := fun u f => if u = v then min 1 (a.out u f) else a.out u f }
  | .popLast => { a with n := a.n - 1, label := fun v => if v = a.n - 1 then none else a.label v,
                         out := fun u f => if u = a.n - 1 then 0 else a.out u f }
  | .nothing => a

/-- Specification: the multisets a graph stands for. -/
def abs [DecidableEq E] (g : Graph T E) : Abs T E where
  n := g.nodes.length
  label := fun v => g.nodes[v]?
  out := fun v e => match g.adj[v]? with
    | some es => es.count e
    | none => 0
  root := fun v => g.roots.count v

/-- Specification: the edit an operation names in a graph: iterators are replaced by what they point to, and
`pop` of anything but the last vertex does nothing. `none` if the operation's precondition fails. -/
def meaning (g : Graph T E) : Op T E → Option (SOp T E)
  | .addNode t => some (.addNode t)
  | .addRoot v => if v < g.nodes.length then some (.addRoot v) else none
  | .addEdge v e => if v < g.nodes.length then some (.addEdge v e) else none
  | .removeEdge v i => (g.adj[v]?).bind (fun es => (es[i]?).map (fun e => .removeEdge v e))
  | .removeRoot i => (g.roots[i]?).map (fun v => .removeRoot v)
  | .dedup v => if v < g.nodes.length then some (.dedup v) else none
  | .pop v => if v + 1 = g.nodes.length then some .popLast else some .nothing

/-- Specification: the edits a sequence of operations names. -/
def meanings [DecidableEq E] (lt : E → E → Bool) (g : Graph T E) : List (Op T E) → List (SOp T E)
  | [] => []
  | o :: os => match meaning g o, step lt g o with
    | some s, some g' => s :: meanings lt g' os
    | _, _ => []

/-! ## Lemmas -/

theorem swapPop_spec {A : Type} {l l' : List A} {i : Nat} (h : swapPop l i = some l') :
    ∃ x, l[i]? = some x ∧ List.Perm l (x :: l') ∧ l'.take i = l.take i ∧
      List.Perm (l.drop (i + 1)) (l'.drop i) := by
  unfold swapPop at h
  cases hx : l[i]? with
  | none => rw [hx] at h; simp at h
  | some x =>
    rcases List.eq_nil_or_concat l with rfl | ⟨l0, y, rfl⟩
    · simp at hx
    · rw [List.concat_eq_append] at hx h ⊢
      rw [hx] at h
      simp only [List.getLast?_append, List.getLast?_singleton, Option.some_or, Option.some.injEq] at h
      subst h
      refine ⟨x, rfl, ?_⟩
      have hi : i < l0.length + 1 := by
        have := (List.getElem?_eq_some_iff.1 hx).1
        simpa using this
      by_cases hl : i < l0.length
      · have hset : (l0 ++ [y]).set i y = l0.set i y ++ [y] := List.set_append_left _ _ hl
        rw [hset, List.dropLast_concat]
        have hx0 : l0[i] = x := by
          rw [List.getElem?_append_left hl, List.getElem?_eq_getElem hl] at hx
          exact Option.some.inj hx
        have hsplit : l0 = l0.take i ++ x :: l0.drop (i + 1) := by
          rw [← hx0]
          simp
        have hset2 : l0.set i y = l0.take i ++ y :: l0.drop (i + 1) := by
          rw [List.set_eq_take_append_cons_drop, if_pos hl]
        refine ⟨?_, ?_, ?_⟩
        · rw [hset2]
          conv => lhs; rw [hsplit]
          refine List.Perm.trans (l₂ := (x :: (l0.take i ++ l0.drop (i + 1))) ++ [y]) ?_ ?_
          · exact List.Perm.append_right _ List.perm_middle
          · simp only [List.cons_append]
            refine List.Perm.cons _ ?_
            rw [List.append_assoc]
            refine List.Perm.append_left _ ?_
            exact List.perm_append_comm
        · rw [List.take_set_of_le (Nat.le_refl _), List.take_append_of_le_length (by omega)]
        · rw [hset2, List.drop_append_of_le_length (by omega)]
          have : (l0.take i ++ y :: l0.drop (i + 1)).drop i = y :: l0.drop (i + 1) := by
            rw [List.drop_append, List.length_take, Nat.min_eq_left (by omega), Nat.sub_self]
            simp
          rw [this]
          exact List.perm_append_comm
      · have hil : i = l0.length := by omega
        subst hil
        simp only [List.getElem?_append_right (Nat.le_refl _), Nat.sub_self, List.getElem?_cons_zero,
          Option.some.injEq] at hx
        subst hx
        have hset : (l0 ++ [y]).set l0.length y = l0 ++ [y] := by
          rw [List.set_append_right _ _ (Nat.le_refl _)]
          simp
        rw [hset, List.dropLast_concat]
        exact ⟨List.perm_append_comm, by simp, by simp⟩

theorem swapPop_isSome {A : Type} {l : List A} {i : Nat} (h : i < l.length) : ∃ l', swapPop l i = some l' := by
  unfold swapPop
  rw [List.getElem?_eq_getElem h]
  cases hl : l.getLast? with
  | none => rw [List.getLast?_eq_none_iff.1 hl] at h; simp at h
  | some x => exact ⟨_, rfl⟩

/-- Specification: `lt` is a strict total order. -/
structure StrictTotal (lt : E → E → Bool) : Prop where
  irrefl : ∀ a, lt a a = false
  trans : ∀ a b c, lt a b = true → lt b c = true → lt a c = true
  total : ∀ a b, lt a b = false → lt b a = false → a = b

theorem insertSorted_perm (lt : E → E → Bool) (x : E) (l : List E) : List.Perm (insertSorted lt x l) (x :: l) := by
  induction l with
  | nil => exact List.Perm.refl _
  | cons y ys ih =>
    simp only [insertSorted]
    split
    · exact List.Perm.trans (List.Perm.cons y ih) (List.Perm.swap x y ys)
    · exact List.Perm.refl _

theorem sort_perm (lt : E → E → Bool) (l : List E) : List.Perm (sort lt l) l := by
  induction l with
  | nil => exact List.Perm.refl _
  | cons x xs ih =>
    exact List.Perm.trans (insertSorted_perm lt x _) (List.Perm.cons x ih)

theorem insertSorted_sorted {lt : E → E → Bool} (h : StrictTotal lt) (x : E) {l : List E}
    (hl : l.Pairwise (fun a b => lt b a = false)) :
    (insertSorted lt x l).Pairwise (fun a b => lt b a = false) := by
  induction l with
  | nil => simp [insertSorted]
  | cons y ys ih =>
    simp only [insertSorted]
    rw [List.pairwise_cons] at hl
    split
    · rename_i hyx
      rw [List.pairwise_cons]
      refine ⟨?_, ih hl.2⟩
      intro b hb
      rcases List.mem_cons.1 ((insertSorted_perm lt x ys).mem_iff.1 hb) with rfl | hb
      · cases hxy : lt b y with
        | false => rfl
        | true => have := h.trans _ _ _ hyx hxy; rw [h.irrefl] at this; cases this
      · exact hl.1 b hb
    · rename_i hyx
      have hyx : lt y x = false := by simpa using hyx
      rw [List.pairwise_cons]
      refine ⟨?_, List.pairwise_cons.2 hl⟩
      intro b hb
      rcases List.mem_cons.1 hb with rfl | hb
      · exact hyx
      · cases hbx : lt b x with
        | false => rfl
        | true =>
          -- b < x, not y < x, so b < y: contradicts sortedness
          have hby := hl.1 b hb
          cases hyb : lt y b with
          | true => have := h.trans _ _ _ hyb hbx; rw [hyx] at this; cases this
          | false =>
            have := h.total _ _ hyb hby
            subst this
            rw [hyx] at hbx; cases hbx

theorem sort_sorted {lt : E → E → Bool} (h : StrictTotal lt) (l : List E) :
    (sort lt l).Pairwise (fun a b => lt b a = false) := by
  induction l with
  | nil => simp [sort]
  | cons x xs ih => exact insertSorted_sorted h x ih

theorem mem_unique [DecidableEq E] (l : List E) (x : E) : x ∈ unique l ↔ x ∈ l := by
  match l with
  | [] => simp [unique]
  | [y] => simp [unique]
  | y :: z :: ys =>
    simp only [unique]
    have ih := mem_unique (z :: ys) x
    split
    · rename_i h
      subst h
      rw [ih]; simp
    · rw [List.mem_cons, ih, List.mem_cons (a := x) (b := y)]

theorem unique_strict [DecidableEq E] {lt : E → E → Bool} (h : StrictTotal lt) (l : List E)
    (hl : l.Pairwise (fun a b => lt b a = false)) : (unique l).Pairwise (fun a b => lt a b = true) := by
  match l with
  | [] => simp [unique]
  | [y] => simp [unique]
  | y :: z :: ys =>
    simp only [unique]
    rw [List.pairwise_cons] at hl
    have ih := unique_strict h (z :: ys) hl.2
    split
    · exact ih
    · rename_i hne
      rw [List.pairwise_cons]
      refine ⟨?_, ih⟩
      intro b hb
      have hb := (mem_unique _ _).1 hb
      have h1 := hl.1 b hb
      cases h2 : lt y b with
      | true => rfl
      | false =>
        exfalso
        have hyb : y = b := h.total _ _ h2 h1
        -- y = b with y ≠ z, yet z lies between
        have hzy : lt z y = false := hl.1 z (by simp)
        rcases List.mem_cons.1 hb with h3 | h3
        · exact hne (hyb.trans h3)
        · have hbz := (List.pairwise_cons.1 hl.2).1 b h3
          rw [← hyb] at hbz
          exact hne (h.total _ _ hbz hzy)

theorem unique_nodup [DecidableEq E] {lt : E → E → Bool} (h : StrictTotal lt) (l : List E)
    (hl : l.Pairwise (fun a b => lt b a = false)) : (unique l).Nodup := by
  refine List.Pairwise.imp ?_ (unique_strict h l hl)
  intro a b hab e
  subst e
  rw [h.irrefl] at hab
  cases hab

theorem step_wf [DecidableEq E] {lt : E → E → Bool} {g g' : Graph T E} {o : Op T E} (hw : Wf g)
    (h : step lt g o = some g') : Wf g' := by
  unfold Wf at *
  cases o with
  | addNode t => simp only [step, addNode, Option.some.injEq] at h; subst h; simp [hw]
  | addRoot v =>
    simp only [step, addRoot] at h
    split at h
    · cases h; exact hw
    · cases h
  | addEdge v e =>
    simp only [step, addEdge] at h
    split at h
    · cases h; simp [hw]
    · cases h
  | removeEdge v i =>
    simp only [step, removeEdge] at h
    split at h
    · cases hs : swapPop _ i with
      | none => rw [hs] at h; cases h
      | some es' => rw [hs] at h; cases h; simp [hw]
    · cases h
  | removeRoot i =>
    simp only [step, removeRoot] at h
    cases hs : swapPop _ i with
    | none => rw [hs] at h; cases h
    | some es' => rw [hs] at h; cases h; exact hw
  | dedup v =>
    simp only [step, dedupOutEdges] at h
    split at h
    · cases h; simp [hw]
    · cases h
  | pop v =>
    simp only [step, pop, Option.some.injEq] at h
    subst h
    split
    · simp [hw]
    · exact hw

theorem out_set [DecidableEq E] {l : List (List E)} {v : Nat} (es : List E) (hv : v < l.length) (u : Nat) (f : E) :
    (match (l.set v es)[u]? with | some es => es.count f | none => 0) =
      if u = v then es.count f else (match l[u]? with | some es => es.count f | none => 0) := by
  rw [List.getElem?_set]
  by_cases h : v = u
  · subst h; rw [if_pos rfl, if_pos hv, if_pos rfl]
  · rw [if_neg h, if_neg (Ne.symm h)]

theorem count_dedup [DecidableEq E] {lt : E → E → Bool} (hlt : StrictTotal lt) (es : List E) (f : E) :
    (unique (sort lt es)).count f = min 1 (es.count f) := by
  have hn := unique_nodup hlt _ (sort_sorted hlt es)
  have hm : f ∈ unique (sort lt es) ↔ f ∈ es := by
    rw [mem_unique]; exact (sort_perm lt es).mem_iff
  have h1 := List.nodup_iff_count.1 hn f
  by_cases hf : f ∈ es
  · have h2 := List.count_pos_iff.2 (hm.2 hf)
    have h3 := List.count_pos_iff.2 hf
    omega
  · rw [List.count_eq_zero.2 hf, List.count_eq_zero.2 (fun h => hf (hm.1 h))]; rfl

theorem step_abs [DecidableEq E] {lt : E → E → Bool} (hlt : StrictTotal lt) {g : Graph T E} (hw : Wf g)
    (o : Op T E) :
    match meaning g o with
    | some s => ∃ g', step lt g o = some g' ∧ abs g' = sstep (abs g) s
    | none => step lt g o = none := by
  unfold Wf at hw
  cases o with
  | addNode t =>
    refine ⟨_, rfl, ?_⟩
    apply Abs.ext
    · simp [abs, addNode, sstep]
    · funext v
      show (g.nodes ++ [t])[v]? = if v = g.nodes.length then some t else g.nodes[v]?
      by_cases hv : v = g.nodes.length
      · subst hv; simp
      · rw [if_neg hv]
        by_cases hl : v < g.nodes.length
        · rw [List.getElem?_append_left hl]
        · rw [List.getElem?_eq_none (by simp; omega), List.getElem?_eq_none (by omega)]
    · funext v e
      simp only [abs, addNode, sstep]
      by_cases hl : v < g.adj.length
      · rw [List.getElem?_append_left hl]
      · rw [List.getElem?_eq_none (l := g.adj) (by omega)]
        by_cases hv : v = g.adj.length
        · subst hv; simp
        · rw [List.getElem?_eq_none (by simp; omega)]
    · rfl
  | addRoot v =>
    simp only [meaning, step, addRoot, hw]
    by_cases hv : v < g.nodes.length
    · rw [if_pos hv, if_pos hv]
      refine ⟨_, rfl, ?_⟩
      apply Abs.ext <;> try rfl
      funext u
      simp only [abs, sstep, List.count_append, List.count_singleton]
      by_cases hu : u = v
      · subst hu; simp
      · rw [if_neg hu]; simp [Ne.symm hu]
    · rw [if_neg hv, if_neg hv]
  | addEdge v e =>
    simp only [meaning, step, addEdge]
    by_cases hv : v < g.nodes.length
    · rw [if_pos hv, List.getElem?_eq_getElem (by omega)]
      refine ⟨_, rfl, ?_⟩
      apply Abs.ext <;> try rfl
      funext u f
      simp only [abs, sstep]
      rw [out_set _ (by omega)]
      by_cases hu : u = v
      · subst hu
        rw [if_pos rfl, List.getElem?_eq_getElem (by omega)]
        simp only [List.count_append, List.count_singleton, true_and]
        by_cases hf : f = e
        · subst hf; simp
        · rw [if_neg hf]; simp [Ne.symm hf]
      · rw [if_neg hu, if_neg (fun h => hu h.1)]
    · rw [if_neg hv, List.getElem?_eq_none (by omega)]
  | removeEdge v i =>
    simp only [meaning, step, removeEdge]
    cases hes : g.adj[v]? with
    | none => rfl
    | some es =>
      have hv := (List.getElem?_eq_some_iff.1 hes).1
      simp only [Option.bind_some]
      by_cases hi : i < es.length
      · obtain ⟨es', hs⟩ := swapPop_isSome hi
        obtain ⟨x, hx, hp, _⟩ := swapPop_spec hs
        rw [hx, hs]
        refine ⟨_, rfl, ?_⟩
        apply Abs.ext <;> try rfl
        funext u f
        simp only [abs, sstep]
        rw [out_set _ hv]
        by_cases hu : u = v
        · subst hu
          rw [if_pos rfl, hes]
          simp only [true_and]
          rw [hp.count_eq, List.count_cons]
          by_cases hf : f = x
          · subst hf; simp
          · rw [if_neg hf]; simp [Ne.symm hf]
        · rw [if_neg hu, if_neg (fun h => hu h.1)]
      · rw [List.getElem?_eq_none (by omega)]
        simp [swapPop, List.getElem?_eq_none (Nat.le_of_not_lt hi)]
  | removeRoot i =>
    simp only [meaning, step, removeRoot]
    by_cases hi : i < g.roots.length
    · obtain ⟨es', hs⟩ := swapPop_isSome hi
      obtain ⟨x, hx, hp, _⟩ := swapPop_spec hs
      rw [hx, hs]
      refine ⟨_, rfl, ?_⟩
      apply Abs.ext <;> try rfl
      funext u
      simp only [abs, sstep]
      rw [hp.count_eq, List.count_cons]
      by_cases hf : u = x
      · subst hf; simp
      · rw [if_neg hf]; simp [Ne.symm hf]
    · rw [List.getElem?_eq_none (by omega)]
      simp [swapPop, List.getElem?_eq_none (Nat.le_of_not_lt hi)]
  | dedup v =>
    simp only [meaning, step, dedupOutEdges]
    by_cases hv : v < g.nodes.length
    · rw [if_pos hv, List.getElem?_eq_getElem (by omega)]
      refine ⟨_, rfl, ?_⟩
      apply Abs.ext <;> try rfl
      funext u f
      simp only [abs, sstep]
      rw [out_set _ (by omega)]
      by_cases hu : u = v
      · subst hu
        rw [if_pos rfl, if_pos rfl, List.getElem?_eq_getElem (by omega), count_dedup hlt]
      · rw [if_neg hu, if_neg hu]
    · rw [if_neg hv, List.getElem?_eq_none (by omega)]
  | pop v =>
    simp only [meaning, step, pop, hw]
    by_cases hv : v + 1 = g.nodes.length
    · rw [if_pos hv, if_pos hv]
      refine ⟨_, rfl, ?_⟩
      apply Abs.ext <;> try rfl
      · simp [abs, sstep]
      · funext u
        show (g.nodes.dropLast)[u]? = if u = g.nodes.length - 1 then none else g.nodes[u]?
        rw [List.getElem?_dropLast]
        split
        · rw [if_neg (by omega)]
        · split
          · rfl
          · rw [List.getElem?_eq_none (by omega)]
      · funext u f
        show (match (g.adj.dropLast)[u]? with | some es => es.count f | none => 0) =
          if u = g.nodes.length - 1 then 0 else (match g.adj[u]? with | some es => es.count f | none => 0)
        rw [List.getElem?_dropLast]
        by_cases hu : u = g.nodes.length - 1
        · rw [if_pos hu, if_neg (by omega)]
        · rw [if_neg hu]
          by_cases hl : u < g.adj.length - 1
          · rw [if_pos hl]
          · rw [if_neg hl, List.getElem?_eq_none (by omega)]
    · rw [if_neg hv, if_neg hv]
      exact ⟨_, rfl, rfl⟩

end Phasar.Adj
