import Verif.Alias.CFLSteens
import Verif.Alias.StratifiedProps
import Verif.Alias.CFLAndersProps

/-!
# The unification-based CFL alias analysis: properties

C79: the analysis gives a result for every function; values are in one set only if unification demands it; for functions whose
values have a depth (see `Depth`) its answers are right: it answers `NoAlias` only where the inclusion-based analysis does, and
hence only where no execution makes the two values point to the same object.  Without depths the last two are false, and the
answer depends on the order of a hash table.
-/
namespace Phasar.CFLSteens
open CFLAnders Stratified

/-- Values have a depth: the two ends of every edge of the graph are equally deep, one level down counting as one step.  This
rules out functions in which a value is assigned, through memory or not, to a cell it points to. -/
def Depth (g : Graph) (τ : Nat → Int) : Prop := ∀ a b, (a, b) ∈ g.edges → τ a.val + a.lvl = τ b.val + b.lvl

/-- The order of the hash table: the values of the graph, each of them at least once. -/
def Listed (g : Graph) (vs : List Nat) : Prop := ∀ v, v ∈ vs ↔ 0 < g.levels v

variable {g : Graph} {skip : Nat → Bool} {vs : List Nat}

/-! ## The requests -/

theorem C79.note_mem (hv : Listed g vs) {n : Node} (h : g.has n = true) (hs : skip n.val = false) :
    Op.note n (g.attrFor n) ∈ setOps g skip vs := by
  have h' : n.lvl < g.levels n.val := of_decide_eq_true h
  refine List.mem_append_left _ (List.mem_flatMap.2 ⟨n.val, List.mem_filter.2 ⟨(hv _).2 (by omega), by simp [hs]⟩, ?_⟩)
  obtain ⟨v, l⟩ := n
  cases l with
  | zero => exact .tail _ (.head _)
  | succ l =>
    have h2 : l + 1 < g.levels v := h'
    exact .tail _ (.tail _ (List.mem_flatMap.2 ⟨l, List.mem_range.2 (show l < g.levels v - 1 by omega), by simp⟩))

theorem C79.below_mem (hv : Listed g vs) {n : Node} (h : g.has n.below = true) (hs : skip n.val = false) :
    Op.below n n.below ∈ setOps g skip vs := by
  have h' : n.lvl + 1 < g.levels n.val := of_decide_eq_true h
  refine List.mem_append_left _ (List.mem_flatMap.2 ⟨n.val, List.mem_filter.2 ⟨(hv _).2 (by omega), by simp [hs]⟩, ?_⟩)
  exact .tail _ (.tail _ (List.mem_flatMap.2 ⟨n.lvl, List.mem_range.2 (by omega), by simp [Node.below]⟩))

theorem C79.with_mem (hv : Listed g vs) {a b : Node} (he : (a, b) ∈ g.edges) (h : g.has a = true) (hs : skip a.val = false) :
    Op.with_ a b ∈ setOps g skip vs := by
  have h' : a.lvl < g.levels a.val := of_decide_eq_true h
  refine List.mem_append_right _ (List.mem_flatMap.2 ⟨a.val, List.mem_filter.2 ⟨(hv _).2 (by omega), by simp [hs]⟩, ?_⟩)
  refine List.mem_flatMap.2 ⟨a.lvl, List.mem_range.2 h', List.mem_map.2 ⟨(a, b), List.mem_filter.2 ⟨he, ?_⟩, rfl⟩⟩
  simp

/-- There are no other requests. -/
theorem C79.ops {o : Op} (h : o ∈ setOps g skip vs) : (∃ n, o = .add n) ∨ (∃ n, o = .note n (g.attrFor n)) ∨
    (∃ n, o = .below n n.below) ∨ ∃ a b, o = .with_ a b ∧ (a, b) ∈ g.edges := by
  rcases List.mem_append.1 h with h | h
  · obtain ⟨v, _, h⟩ := List.mem_flatMap.1 h
    rcases List.mem_cons.1 h with rfl | h
    · exact .inl ⟨_, rfl⟩
    rcases List.mem_cons.1 h with rfl | h
    · exact .inr (.inl ⟨_, rfl⟩)
    obtain ⟨i, _, h⟩ := List.mem_flatMap.1 h
    simp only [List.mem_cons, List.not_mem_nil, or_false] at h
    rcases h with rfl | rfl | rfl
    · exact .inl ⟨_, rfl⟩
    · exact .inr (.inl ⟨_, rfl⟩)
    · exact .inr (.inr (.inl ⟨⟨v, i⟩, rfl⟩))
  · obtain ⟨v, _, h⟩ := List.mem_flatMap.1 h
    obtain ⟨i, _, h⟩ := List.mem_flatMap.1 h
    obtain ⟨e, he, rfl⟩ := List.mem_map.1 h
    obtain ⟨h1, h2⟩ := List.mem_filter.1 he
    refine .inr (.inr (.inr ⟨_, _, rfl, ?_⟩))
    have : e.1 = ⟨v, i⟩ := by simpa using h2
    rw [← this]
    exact h1

/-! ## Every request is about a value already there -/

/-- The requests are about values of `S` or values added before. -/
def C79.From (S : Node → Prop) : List Op → Prop
  | [] => True
  | o :: ops => (∀ m, o.main = some m → S m) ∧ C79.From (fun n => S n ∨ o.new = some n) ops

theorem C79.From.mono : ∀ {ops : List Op} {S T : Node → Prop}, (∀ n, S n → T n) → C79.From S ops → C79.From T ops := by
  intro ops
  induction ops with
  | nil => intro S T _ _; trivial
  | cons o ops ih =>
    intro S T h h'
    exact ⟨fun m hm => h m (h'.1 m hm), ih (fun n hn => hn.imp (h n) id) h'.2⟩

theorem C79.From.append : ∀ {a b : List Op} {S : Node → Prop}, C79.From S a → C79.From (fun n => S n ∨ ∃ o ∈ a, o.new = some n) b →
    C79.From S (a ++ b) := by
  intro a
  induction a with
  | nil => intro b S _ h; exact h.mono fun n hn => hn.resolve_right (by simp)
  | cons o a ih =>
    intro b S h h'
    refine ⟨h.1, ih h.2 (h'.mono fun n hn => ?_)⟩
    rcases hn with hn | ⟨o', ho', hn⟩
    · exact .inl (.inl hn)
    · rcases List.mem_cons.1 ho' with rfl | ho'
      · exact .inl (.inr hn)
      · exact .inr ⟨o', ho', hn⟩

theorem C79.From.ready : ∀ {ops : List Op} {S : Node → Prop}, C79.From S ops → ∀ pre op post, ops = pre ++ op :: post → ∀ m, op.main = some m →
    S m ∨ ∃ o ∈ pre, o.new = some m := by
  intro ops
  induction ops with
  | nil => intro S _ pre op post h; simp at h
  | cons o ops ih =>
    intro S h pre op post he m hm
    cases pre with
    | nil => cases he; exact .inl (h.1 m hm)
    | cons o' pre =>
      simp only [List.cons_append, List.cons.injEq] at he
      obtain ⟨rfl, he⟩ := he
      rcases ih h.2 pre op post he m hm with (h1 | h1) | ⟨o', h1, h2⟩
      · exact .inl h1
      · exact .inr ⟨o, .head _, h1⟩
      · exact .inr ⟨o', .tail _ h1, h2⟩

theorem C79.value_from (g : Graph) (v : Nat) (S : Node → Prop) : C79.From S (valueOps g v) := by
  refine ⟨fun m hm => by simp [Op.main] at hm, fun m hm => by simp [Op.main] at hm; simp [Op.new, hm], ?_⟩
  have : ∀ k, C79.From (fun n => S n ∨ n = ⟨v, 0⟩) ((List.range k).flatMap fun i =>
      [Op.add ⟨v, i + 1⟩, .note ⟨v, i + 1⟩ (g.attrFor ⟨v, i + 1⟩), .below ⟨v, i⟩ ⟨v, i + 1⟩]) := by
    intro k
    induction k with
    | zero => trivial
    | succ k ih =>
      rw [List.range_succ, List.flatMap_append]
      refine ih.append ?_
      have hk : ∀ n : Node, n = ⟨v, k⟩ → (S n ∨ n = ⟨v, 0⟩) ∨ ∃ o ∈ (List.range k).flatMap fun i =>
          [Op.add ⟨v, i + 1⟩, .note ⟨v, i + 1⟩ (g.attrFor ⟨v, i + 1⟩), .below ⟨v, i⟩ ⟨v, i + 1⟩], o.new = some n := by
        rintro n rfl
        cases k with
        | zero => exact .inl (.inr rfl)
        | succ k => exact .inr ⟨.add ⟨v, k + 1⟩, List.mem_flatMap.2 ⟨k, by simp, by simp⟩, rfl⟩
      refine ⟨fun m hm => by simp [Op.main] at hm, fun m hm => ?_, fun m hm => ?_, trivial⟩
      · simp only [Op.main, Option.some.injEq] at hm
        exact .inr (by rw [hm]; rfl)
      · simp only [Op.main, Option.some.injEq] at hm
        exact .inl (.inl (hk m hm.symm))
  exact (this _).mono fun n hn => by
    rcases hn with hn | hn
    · exact .inl (.inl hn)
    · exact .inl (.inr (by rw [hn]; rfl))

theorem C79.flat_from (h : α → List Op) : ∀ (l : List α) (S : Node → Prop), (∀ v ∈ l, C79.From S (h v)) → C79.From S (l.flatMap h) := by
  intro l
  induction l with
  | nil => intro S _; trivial
  | cons v l ih =>
    intro S hS
    rw [List.flatMap_cons]
    exact (hS v (.head _)).append (ih _ fun w hw => (hS w (.tail _ hw)).mono fun n hn => .inl hn)

theorem C79.value_new {v i : Nat} (h : i < g.levels v) : ∃ o ∈ valueOps g v, o.new = some ⟨v, i⟩ := by
  cases i with
  | zero => exact ⟨_, .head _, rfl⟩
  | succ i => exact ⟨.add ⟨v, i + 1⟩, .tail _ (.tail _ (List.mem_flatMap.2 ⟨i, List.mem_range.2 (by omega), by simp⟩)), rfl⟩

/-- **C79.** The analysis gives a result for every graph, whatever the order of the hash table: no assertion of the stratified
sets fails, and all loops end. -/
theorem C79_total (g : Graph) (skip : Nat → Bool) (vs : List Nat) : ∃ s, result (setOps g skip vs) = some s := by
  refine (C78_total _).2 fun pre op post he m hm => ?_
  have : C79.From (fun _ => False) (setOps g skip vs) := by
    refine C79.From.append (C79.flat_from _ _ _ fun v _ => C79.value_from g v _) (C79.flat_from _ _ _ fun v hv => ?_)
    refine C79.flat_from _ _ _ fun i hi => ?_
    have hi' := List.mem_range.1 hi
    have key : ∀ (l : List (Node × Node)) (S : Node → Prop), S ⟨v, i⟩ → C79.From S (l.map fun e => Op.with_ ⟨v, i⟩ e.2) := by
      intro l
      induction l with
      | nil => intro S _; trivial
      | cons e l ih =>
        intro S hS
        exact ⟨fun m hm => by simp only [Op.main, Option.some.injEq] at hm; rw [← hm]; exact hS, ih _ (.inl hS)⟩
    obtain ⟨o, h1, h2⟩ := C79.value_new hi'
    exact key _ _ (.inr ⟨o, List.mem_flatMap.2 ⟨v, hv, h1⟩, h2⟩)
  exact (this.ready pre op post he m hm).resolve_left id

/-! ## Unification -/

/-- What unification demands of levels of values (a value may have levels that are not in the graph): the ends of an edge
belong together; what belongs together does so one level down and one level up; a value that belongs together with one of its
own levels does so with the next one. -/
inductive Uni (g : Graph) : Nat × Int → Nat × Int → Prop
  | refl (x) : Uni g x x
  | symm {x y} : Uni g x y → Uni g y x
  | trans {x y z} : Uni g x y → Uni g y z → Uni g x z
  | edge {a b : Node} : (a, b) ∈ g.edges → Uni g (a.val, a.lvl) (b.val, b.lvl)
  | shift {x y} (k : Int) : Uni g x y → Uni g (x.1, x.2 + k) (y.1, y.2 + k)
  | cycle {x} (k : Nat) : Uni g x (x.1, x.2 + (k + 1 : Nat)) → Uni g x (x.1, x.2 + 1)

/-- The classes. -/
def C79.setoid (g : Graph) : Setoid (Nat × Int) := ⟨Uni g, .refl, .symm, .trans⟩

/-- One level down. -/
def C79.down (g : Graph) : Quotient (C79.setoid g) → Quotient (C79.setoid g) :=
  Quotient.lift (fun x => Quotient.mk (C79.setoid g) (x.1, x.2 + 1)) fun _ _ h => Quotient.sound (s := C79.setoid g) (Uni.shift 1 h)

theorem C79.iter_down (g : Graph) (k : Nat) (x : Nat × Int) :
    iter (C79.down g) k (Quotient.mk _ x) = Quotient.mk _ (x.1, x.2 + (k : Int)) := by
  induction k with
  | zero => simp [iter]
  | succ k ih =>
    simp only [iter, ih]
    show Quotient.mk (C79.setoid g) (x.1, x.2 + (k : Int) + 1) = _
    congr 2
    omega

/-- The labels of the sets. -/
theorem C79.labels {s : Sets} (h : result (setOps g skip vs) = some s) : ∃ γ : Nat → Quotient (C79.setoid g),
    (∀ v r, s.values v = some r → γ r = Quotient.mk _ (v.val, (v.lvl : Int))) ∧
    ∀ r q, s.live r → (s.links r).below = some q → γ q = C79.down g (γ r) := by
  refine C78_labels h (C79.down g) (fun n => Quotient.mk (C79.setoid g) (n.val, (n.lvl : Int))) ?_ ?_ ?_ ?_ ?_
  · intro a b
    refine Quotient.inductionOn₂ a b fun a b hab => Quotient.sound (s := C79.setoid g) ?_
    have h1 : Uni g (a.1, a.2 + 1) (b.1, b.2 + 1) := Quotient.exact (s := C79.setoid g) hab
    have h2 := Uni.shift (-1) h1
    simp only [Int.add_neg_cancel_right] at h2
    exact h2
  · intro k a
    refine Quotient.inductionOn a fun a ha => ?_
    rw [C79.iter_down] at ha
    have h1 : Uni g (a.1, a.2 + (k + 1 : Nat)) a := Quotient.exact (s := C79.setoid g) ha
    exact Quotient.sound (s := C79.setoid g) (Uni.cycle k h1.symm).symm
  · intro m t ho
    rcases C79.ops ho with ⟨n, h⟩ | ⟨n, h⟩ | ⟨n, h⟩ | ⟨a, b, h, he⟩ <;> cases h
    exact Quotient.sound (s := C79.setoid g) (Uni.edge he).symm
  · intro m t ho
    rcases C79.ops ho with ⟨n, h⟩ | ⟨n, h⟩ | ⟨n, h⟩ | ⟨a, b, h, he⟩ <;> cases h
    show Quotient.mk (C79.setoid g) (m.val, ((m.lvl + 1 : Nat) : Int)) = Quotient.mk (C79.setoid g) (m.val, (m.lvl : Int) + 1)
    congr 2
  · intro m t ho
    rcases C79.ops ho with ⟨n, h⟩ | ⟨n, h⟩ | ⟨n, h⟩ | ⟨a, b, h, he⟩ <;> cases h

/-- **C79.** Levels of values are in one set only if unification demands it, and one is in a set above another one only if it is
some levels up. -/
theorem C79_least {s : Sets} (h : result (setOps g skip vs) = some s) {x y : Node} {r q : Nat} (hx : s.values x = some r)
    (hy : s.values y = some q) : (r = q → Uni g (x.val, x.lvl) (y.val, y.lvl)) ∧
      (Up s.links r q → ∃ k : Nat, Uni g (y.val, y.lvl + k) (x.val, x.lvl)) := by
  obtain ⟨γ, h1, h2⟩ := C79.labels h
  refine ⟨fun e => ?_, fun hu => ?_⟩
  · refine Quotient.exact (s := C79.setoid g) ?_
    rw [← h1 x r hx, ← h1 y q hy, e]
  · have : ∀ {r q}, Up s.links r q → s.live r → ∃ k, γ r = iter (C79.down g) k (γ q) := by
      intro r q hu
      induction hu with
      | refl r => exact fun _ => ⟨0, rfl⟩
      | @step r t q ht _ ih =>
        intro hl
        obtain ⟨hl', hb⟩ := (C78_chains h r hl).2.1 t ht
        obtain ⟨k, hk⟩ := ih hl'
        exact ⟨k + 1, by rw [h2 t r hl' hb, hk]; rfl⟩
    obtain ⟨k, hk⟩ := this hu ((C78_values h x).2 r hx)
    rw [h1 x r hx, h1 y q hy, C79.iter_down] at hk
    exact ⟨k, Quotient.exact (s := C79.setoid g) hk.symm⟩

/-! ## Functions with depths -/

/-- A node that was added. -/
def C79.In (g : Graph) (n : Node) : Prop := ∃ a, (n, a) ∈ g.log

/-- The ends of edges are nodes. -/
def C79.Ends (g : Graph) : Prop := ∀ e ∈ g.edges, C79.In g e.1 ∧ C79.In g e.2

theorem C79.In.mono {g g' : Graph} (h : GLe g g') {n : Node} : C79.In g n → C79.In g' n := fun ⟨a, ha⟩ => ⟨a, h.log _ ha⟩

theorem C79.Ends.step {g g' : Graph} (h : C79.Ends g) (hl : GLe g g') (he : ∀ e ∈ g'.edges, e ∈ g.edges ∨ C79.In g' e.1 ∧ C79.In g' e.2) :
    C79.Ends g' := fun e hm => (he e hm).elim (fun h1 => ⟨(h e h1).1.mono hl, (h e h1).2.mono hl⟩) id

theorem C79.node_edges (f : Fn) (g : Graph) (v : Nat) (a : Attr) : (addNode f g v a).edges = g.edges := by
  unfold addNode
  repeat' split
  all_goals rfl

theorem C79.node_in (f : Fn) (g : Graph) (v : Nat) (a : Attr) : C79.In (addNode f g v a) ⟨v, 0⟩ := by
  unfold addNode
  repeat' split
  · exact ⟨_, add_mem ..⟩
  · exact ⟨_, (add_le ..).log _ (add_mem ..)⟩
  · exact ⟨_, add_mem ..⟩
  · exact ⟨_, add_mem ..⟩

theorem C79.node_ends (f : Fn) {g : Graph} (h : C79.Ends g) (v : Nat) (a : Attr) : C79.Ends (addNode f g v a) :=
  h.step (addNode_le ..) fun e he => .inl (by rwa [C79.node_edges] at he)

theorem C79.add_ends {g : Graph} (h : C79.Ends g) (n : Node) (a : Attr) : C79.Ends (g.add n a) := h.step (add_le ..) fun _ he => .inl he

theorem C79.fold_ends {α : Type} {k : Graph → α → Graph} (hk : ∀ g a, C79.Ends g → C79.Ends (k g a)) : ∀ (l : List α) (g : Graph), C79.Ends g →
    C79.Ends (l.foldl k g)
  | [], _, h => h
  | a :: l, g, h => C79.fold_ends hk l _ (hk g a h)

theorem C79.edge_ends {g : Graph} (h : C79.Ends g) {s t : Node} (hs : C79.In g s) (ht : C79.In g t) : C79.Ends (g.edge s t) :=
  h.step (edge_le ..) fun e he => by
    rcases List.mem_append.1 he with he | he
    · exact .inl he
    · rw [List.mem_singleton] at he
      subst he
      exact .inr ⟨hs.mono (edge_le ..), ht.mono (edge_le ..)⟩

theorem C79.visit_ends (f : Fn) {g : Graph} (h : C79.Ends g) (i : Instr) : C79.Ends (visit f g i) := by
  have hstore : ∀ v p, C79.Ends (addStoreEdge f g v p) := fun v p =>
    C79.edge_ends (C79.add_ends (C79.node_ends f (C79.node_ends f h _ _) _ _) _ _)
      (((C79.node_in f g v _).mono (addNode_le ..)).mono (add_le ..)) ⟨_, add_mem ..⟩
  cases i with
  | alloca x => exact C79.node_ends f h _ _
  | assign froms x =>
    refine C79.fold_ends (fun g y h => ?_) _ _ h
    unfold addAssignEdge
    dsimp only
    split
    · exact C79.node_ends f h _ _
    · exact C79.edge_ends (C79.node_ends f (C79.node_ends f h _ _) _ _) ((C79.node_in f g y _).mono (addNode_le ..)) (C79.node_in ..)
  | load p x =>
    exact C79.edge_ends (C79.add_ends (C79.node_ends f (C79.node_ends f h _ _) _ _) _ _) ⟨_, add_mem ..⟩ ((C79.node_in ..).mono (add_le ..))
  | store v p => exact hstore v p
  | ptrToInt p => exact C79.node_ends f h _ _
  | intToPtr x => exact C79.node_ends f h _ _
  | malloc x => exact C79.node_ends f h _ _
  | cmpXchg p v x => exact hstore v p
  | ret v => exact C79.node_ends f h _ _
  | call args ret ro na =>
    simp only [visit, visitCall_eq]
    have hA : C79.Ends (callA f g args) := C79.fold_ends (fun g v h => C79.node_ends f h _ _) _ _ h
    have hB : C79.Ends (callB f (callA f g args) ret) := by
      cases ret
      · exact hA
      · exact C79.node_ends f hA _ _
    have hC : C79.Ends (callC (callB f (callA f g args) ret) args ro) := by
      unfold callC
      split
      · exact hB
      · exact C79.fold_ends (fun g v h => C79.add_ends (C79.add_ends h _ _) _ _) _ _ hB
    cases ret with
    | none => exact hC
    | some x =>
      unfold callD
      dsimp only
      split
      · exact hC
      · exact C79.add_ends hC _ _

theorem C79.build_ends (f : Fn) : C79.Ends (buildGraph f) :=
  C79.fold_ends (fun _ _ h => C79.add_ends (C79.add_ends h _ _) _ _) _ _ (C79.fold_ends (fun _ i h => C79.visit_ends f h i) _ _ fun _ h => nomatch h)

/-- The ends of edges exist. -/
theorem C79.has_ends (f : Fn) {a b : Node} (h : (a, b) ∈ (buildGraph f).edges) : (buildGraph f).has a = true ∧ (buildGraph f).has b = true := by
  obtain ⟨⟨c, h1⟩, d, h2⟩ := C79.build_ends f _ h
  exact ⟨has_of_mem h1, has_of_mem h2⟩

/-- No value of the graph is left out (`canSkipAddingToSets`: constants like `null`). -/
def Kept (g : Graph) (skip : Nat → Bool) : Prop := ∀ v, 0 < g.levels v → skip v = false

theorem C79.congr {s : Sets} (h : result (setOps g skip vs) = some s) {τ : Nat → Int} (hd : Depth g τ) :
    (∀ m t r q, .below m t ∈ setOps g skip vs → s.values m = some r → s.values t = some q → (s.links r).below = some q) ∧
    ∀ m t m' t', .below m t ∈ setOps g skip vs → .below m' t' ∈ setOps g skip vs → s.values m = s.values m' → s.values t = s.values t' := by
  refine (fun h => ⟨h.1, h.2.1⟩) (C78_congr_partial h (fun n => τ n.val + n.lvl)
    (fun m t ho => by
      rcases C79.ops ho with ⟨n, h⟩ | ⟨n, h⟩ | ⟨n, h⟩ | ⟨a, b, h, he⟩ <;> cases h
      exact (hd _ _ he).symm)
    (fun m t ho => by
      rcases C79.ops ho with ⟨n, h⟩ | ⟨n, h⟩ | ⟨n, h⟩ | ⟨a, b, h, he⟩ <;> cases h
      simp only [Node.below]
      omega)
    (fun m t ho => by
      rcases C79.ops ho with ⟨n, h⟩ | ⟨n, h⟩ | ⟨n, h⟩ | ⟨a, b, h, he⟩ <;> cases h))

/-- Only nodes of the graph are in sets. -/
theorem C79.has_val {f : Fn} {s : Sets} (h : sets f skip vs = some s) (hv : Listed (buildGraph f) vs) {n : Node} {r : Nat}
    (hr : s.values n = some r) : (buildGraph f).has n = true := by
  obtain ⟨o, ho, hn⟩ := (C78_values h n).1.1 ⟨r, hr⟩
  rcases List.mem_append.1 ho with ho | ho
  · obtain ⟨v, h1, ho⟩ := List.mem_flatMap.1 ho
    have h2 := (hv v).1 (List.mem_filter.1 h1).1
    rcases List.mem_cons.1 ho with rfl | ho
    · cases hn; exact decide_eq_true h2
    rcases List.mem_cons.1 ho with rfl | ho
    · cases hn
    obtain ⟨i, hi, ho⟩ := List.mem_flatMap.1 ho
    have hi := List.mem_range.1 hi
    have h3 : i + 1 < (buildGraph f).levels v := by omega
    simp only [List.mem_cons, List.not_mem_nil, or_false] at ho
    rcases ho with rfl | rfl | rfl <;> cases hn <;> exact decide_eq_true h3
  · obtain ⟨v, _, ho⟩ := List.mem_flatMap.1 ho
    obtain ⟨i, _, ho⟩ := List.mem_flatMap.1 ho
    obtain ⟨e, he, rfl⟩ := List.mem_map.1 ho
    cases hn
    exact (C79.has_ends f (a := e.1) (b := e.2) (List.mem_filter.1 he).1).2

theorem C79.kept (hk : Kept g skip) {n : Node} (h : g.has n = true) : skip n.val = false :=
  hk _ (by have : n.lvl < g.levels n.val := of_decide_eq_true h; omega)

/-- **C79 (partial).** What a word of the grammar connects is in one set, for functions with depths and without constants like
`null`. -/
theorem C79_va_partial {f : Fn} {s : Sets} (h : sets f skip vs = some s) (hv : Listed (buildGraph f) vs) (hk : Kept (buildGraph f) skip)
    {τ : Nat → Int} (hd : Depth (buildGraph f) τ) {x y : Node} {p : Ph} (hp : VA (buildGraph f) x y p) : s.values x = s.values y := by
  have edge : ∀ {a b}, (a, b) ∈ (buildGraph f).edges → s.values a = s.values b := fun {a b} he => by
    have ha := (C79.has_ends f he).1
    obtain ⟨r, h1, h2⟩ := C78_with h (C79.with_mem hv he ha (C79.kept hk ha))
    rw [h1, h2]
  have mem : ∀ {u v}, (buildGraph f).has (Node.below u) = true → (buildGraph f).has (Node.below v) = true → s.values u = s.values v →
      s.values u.below = s.values v.below := fun {u v} hu hw he =>
    (C79.congr h hd).2 _ _ _ _ (C79.below_mem hv hu (C79.kept hk (has_above hu))) (C79.below_mem hv hw (C79.kept hk (has_above hw))) he
  induction hp with
  | refl x => rfl
  | back _ _ he ih => rw [ih, edge he]
  | fwd _ he ih => rw [ih, edge he]
  | memF _ _ hu hw ih ih' => rw [ih, mem hu hw ih']
  | memT _ _ hu hw ih ih' => rw [ih, mem hu hw ih']

/-- The attributes the sets give to a level of a value. -/
def C79.at_ (s : Sets) (n : Node) : Attr :=
  match s.values n with
  | some r => (s.links r).attrs
  | none => {}

theorem C79.le_flags {a b : Attr} (h : ∀ p ∈ [Attr.esc, Attr.unk, Attr.glob, Attr.caller, Attr.arg], p a = true → p b = true) : a.le b :=
  ⟨h _ (by simp), h _ (by simp), h _ (by simp), h _ (by simp), h _ (by simp)⟩

/-- More attributes, more aliases. -/
theorem C79.flags {a b a2 b2 : Attr} (ha : a.le a2) (hb : b.le b2) {q : Bool}
    (h : (if a.unkCaller = true then b.any else if b.unkCaller = true then a.any else if a.globalArg = true then b.globalArg
      else if b.globalArg = true then a.globalArg else q) = true) (hq : ¬ q = true) :
    (if (!a2.any || !b2.any) = true then false else if (a2.unkCaller || b2.unkCaller) = true then true else a2.globalArg && b2.globalArg) = true := by
  have hany : ∀ {c d : Attr}, c.le d → c.any = true → d.any = true := by
    intro c d ⟨h1, h2, h3, h4, h5⟩ h
    simp only [Attr.any, Bool.or_eq_true] at h ⊢
    rcases h with (((h | h) | h) | h) | h
    · simp [h1 h]
    · simp [h2 h]
    · simp [h3 h]
    · simp [h4 h]
    · simp [h5 h]
  have hunk : ∀ {c d : Attr}, c.le d → c.unkCaller = true → d.unkCaller = true := by
    intro c d ⟨h1, h2, h3, h4, h5⟩ h
    simp only [Attr.unkCaller, Bool.or_eq_true] at h ⊢
    exact h.imp h2 h4
  have hglob : ∀ {c d : Attr}, c.le d → c.globalArg = true → d.globalArg = true := by
    intro c d ⟨h1, h2, h3, h4, h5⟩ h
    simp only [Attr.globalArg, Bool.or_eq_true] at h ⊢
    exact h.imp h3 h5
  have ua : ∀ c : Attr, c.unkCaller = true → c.any = true := fun c h => by
    simp only [Attr.unkCaller, Attr.any, Bool.or_eq_true] at h ⊢
    rcases h with h | h <;> simp [h]
  have ga : ∀ c : Attr, c.globalArg = true → c.any = true := fun c h => by
    simp only [Attr.globalArg, Attr.any, Bool.or_eq_true] at h ⊢
    rcases h with h | h <;> simp [h]
  split at h
  · rename_i h1
    simp [hany ha (ua a h1), hany hb h, hunk ha h1]
  split at h
  · rename_i _ h1
    simp [hany hb (ua b h1), hany ha h, hunk hb h1]
  split at h
  · rename_i _ _ h1
    simp [hany hb (ga b h), hany ha (ga a h1), hglob ha h1, hglob hb h]
  split at h
  · rename_i _ _ h1 _
    exact absurd h h1
  · exact absurd h hq

/-- The attributes of the sets contain those of the graph, and those of the level above. -/
theorem C79.sol {f : Fn} {s : Sets} (h : sets f skip vs = some s) (hv : Listed (buildGraph f) vs) (hk : Kept (buildGraph f) skip)
    {τ : Nat → Int} (hd : Depth (buildGraph f) τ) : AttrSol (buildGraph f) (C79.at_ s) := by
  have le' : ∀ a b : Attr, a.or b = b ↔ a.le b := fun a b => by rw [C76.or_comm, Attr.or_eq]
  have hval := C78_values h
  refine ⟨fun n => (le' ..).2 ?_, fun x y p hp => ?_, fun n hn => (le' ..).2 ?_⟩
  · rcases mem_nodes_or_empty (buildGraph f) n with h1 | h1
    · have hn := mem_nodes.1 h1
      have hm := C79.note_mem hv hn (C79.kept hk hn)
      obtain ⟨pre, post, he⟩ := List.append_of_mem hm
      obtain ⟨o, ho, ho'⟩ := (C78_total _).1 ⟨s, h⟩ pre _ post he n rfl
      obtain ⟨r, hr⟩ := (hval n).1.2 ⟨o, by rw [he]; simp [ho], ho'⟩
      simp only [C79.at_, hr]
      exact C79.le_flags fun p hp hpa => (C78_attrs h p hp r ((hval n).2 r hr)).2 ⟨n, _, r, hm, hpa, hr, .refl r⟩
    · rw [h1]; exact Attr.empty_le _
  · unfold C79.at_
    rw [C79_va_partial h hv hk hd hp]
  · have hm := C79.below_mem hv hn (C79.kept hk (has_above hn))
    obtain ⟨r, q, hr, hq, hrq⟩ := C78_below h hm
    have hb := (C79.congr h hd).1 _ _ _ _ hm hr hq
    simp only [C79.at_, hr, hq]
    have hlr := (hval n).2 r hr
    have hlq := (hval _).2 q hq
    refine C79.le_flags fun p hp hpa => ?_
    obtain ⟨m, a, t, h1, h2, h3, h4⟩ := (C78_attrs h p hp r hlr).1 hpa
    exact (C78_attrs h p hp q hlq).2 ⟨m, a, t, h1, h2, h3, .step ((C78_chains h r hlr).1 q hb).2 h4⟩

/-- **C79 (partial).** The analysis answers `NoAlias` only where the inclusion-based analysis does, for functions with depths
and without constants like `null`. -/
theorem C79_over_partial {f : Fn} {s : Sets} (h : sets f skip vs = some s) (hv : Listed (buildGraph f) vs) (hk : Kept (buildGraph f) skip)
    {τ : Nat → Int} (hd : Depth (buildGraph f) τ) {ord : List Item → List Item} {ordA : List Node → List Node} (ho : C76.Order ord)
    (hoA : C76.Order ordA) {n : Nat} {r : Info} (hr : analyze f ord ordA n = some r) {x y : Nat} (hxy : r.alias x y = true) :
    mayAlias s x y = true := by
  have hat := (C76_attr ho hoA hr).2 _ (C79.sol h hv hk hd)
  have hre := C76_reach ho hr ⟨y, 0⟩ ⟨x, 0⟩
  obtain ⟨s', a', _, _, rfl⟩ := C76.parts hr
  dsimp only at hat hre
  have le' : ∀ a b : Attr, a.or b = b ↔ a.le b := fun a b => by rw [C76.or_comm, Attr.or_eq]
  have hx := (le' ..).1 (hat ⟨x, 0⟩)
  have hy := (le' ..).1 (hat ⟨y, 0⟩)
  unfold mayAlias
  simp only [Info.alias, Bool.or_eq_true] at hxy
  refine (Bool.or_eq_true_iff ..).2 (hxy.imp id fun hxy => ?_)
  unfold C79.at_ at hx hy
  cases h1 : s.values ⟨x, 0⟩ with
  | none => rfl
  | some i =>
    cases h2 : s.values ⟨y, 0⟩ with
    | none => rfl
    | some j =>
      rw [h1] at hx
      rw [h2] at hy
      dsimp only at hx hy ⊢
      by_cases hij : i = j
      · rw [if_pos hij]
      rw [if_neg hij]
      have hva : ¬ ∃ q, (⟨⟨y, 0⟩, ⟨x, 0⟩, q⟩ : Item) ∈ s'.reach := fun hq => by
        obtain ⟨_, p, hp⟩ := hre.1 hq
        have := C79_va_partial h hv hk hd hp
        rw [h1, h2, Option.some.injEq] at this
        exact hij this.symm
      have l1 : 0 < (buildGraph f).levels x := of_decide_eq_true (C79.has_val h hv h1)
      have l2 : 0 < (buildGraph f).levels y := of_decide_eq_true (C79.has_val h hv h2)
      rw [← C76.any_iff] at hva
      simp only [Info.mayAlias, Info.attrs, if_pos l1, if_pos l2] at hxy
      generalize a'.at_ ⟨x, 0⟩ = a at hx hxy
      generalize a'.at_ ⟨y, 0⟩ = b at hy hxy
      generalize (s.links i).attrs = a2 at hx ⊢
      generalize (s.links j).attrs = b2 at hy ⊢
      exact C79.flags hx hy hxy hva

/-- **C79 (partial).** If two values of a function hold pointers to the same object at the same time in some execution, the
analysis does not answer `NoAlias`: for functions that are `Plain`, with depths and without constants like `null`. -/
theorem C79_sound_partial {f : Fn} (hf : Plain f) {s : Sets} (h : sets f skip vs = some s) (hv : Listed (buildGraph f) vs)
    (hk : Kept (buildGraph f) skip) {τ : Nat → Int} (hd : Depth (buildGraph f) τ) {c : Conf} (hc : Run f c) {x y : Nat} {o : Obj}
    (hx : c.reg x = some o) (hy : c.reg y = some o) : mayAlias s x y = true := by
  obtain ⟨n, r, hr⟩ := C76_terminates f (ord := id) (ordA := id) C77.id_order
  exact C79_over_partial h hv hk hd C77.id_order C77.id_order hr (C77_sound_partial hf C77.id_order C77.id_order hr hc hx hy)

/-! ### What the result is -/

/-- The set a chain of sets begins with. -/
noncomputable def C79.top (s : Sets) (r : Nat) : Nat :=
  open Classical in if h : ∃ t, Up s.links r t ∧ (s.links t).above = none then Classical.choose h else r

theorem C79.up_trans {l : Nat → Link} {a b c : Nat} (h : Up l a b) (h' : Up l b c) : Up l a c := by
  induction h with
  | refl => exact h'
  | step ht _ ih => exact .step ht (ih h')

theorem C79.top_unique {l : Nat → Link} {a t : Nat} (h : Up l a t) (ht : (l t).above = none) : ∀ {t'}, Up l a t' → (l t').above = none → t = t' := by
  induction h with
  | refl a =>
    intro t' h' _
    cases h' with
    | refl => rfl
    | step h _ => rw [ht] at h; cases h
  | step h1 _ ih =>
    intro t' h' ht'
    cases h' with
    | refl => rw [ht'] at h1; cases h1
    | step h2 h3 =>
      rw [h1] at h2
      cases h2
      exact ih ht h3 ht'

section
variable {s : Sets} (h : result (setOps g skip vs) = some s)
include h

theorem C79.top_spec {r : Nat} (hr : s.live r) : Up s.links r (C79.top s r) ∧ (s.links (C79.top s r)).above = none := by
  have he := (C78_chains h r hr).2.2.1
  unfold C79.top
  rw [dif_pos he]
  exact Classical.choose_spec he

theorem C79.up_live {r q : Nat} (hu : Up s.links r q) : s.live r → s.live q := by
  induction hu with
  | refl => exact id
  | @step r t q ht _ ih => exact fun hl => ih ((C78_chains h r hl).2.1 t ht).1

theorem C79.top_up {r q : Nat} (hr : s.live r) (hu : Up s.links r q) : C79.top s r = C79.top s q := by
  obtain ⟨h1, h2⟩ := C79.top_spec h hr
  obtain ⟨h3, h4⟩ := C79.top_spec h (C79.up_live h hu hr)
  exact C79.top_unique h1 h2 (C79.up_trans hu h3) h4

/-- The depths of the sets. -/
theorem C79.depths {τ : Nat → Int} (hd : Depth g τ) : ∃ γ : Nat → Int, (∀ v r, s.values v = some r → γ r = τ v.val + v.lvl) ∧
    ∀ r q, s.live r → (s.links r).above = some q → γ r = γ q + 1 := by
  obtain ⟨γ, h1, h2⟩ := C78_labels h (fun g : Int => g + 1) (fun n => τ n.val + n.lvl) (fun g k h => by omega)
    (fun k g h => by rw [C78.iter_int] at h; omega)
    (fun m t ho => by
      rcases C79.ops ho with ⟨n, h⟩ | ⟨n, h⟩ | ⟨n, h⟩ | ⟨a, b, h, he⟩ <;> cases h
      exact (hd _ _ he).symm)
    (fun m t ho => by
      rcases C79.ops ho with ⟨n, h⟩ | ⟨n, h⟩ | ⟨n, h⟩ | ⟨a, b, h, he⟩ <;> cases h
      simp only [Node.below]
      omega)
    (fun m t ho => by
      rcases C79.ops ho with ⟨n, h⟩ | ⟨n, h⟩ | ⟨n, h⟩ | ⟨a, b, h, he⟩ <;> cases h)
  refine ⟨γ, h1, fun r q hr hq => ?_⟩
  obtain ⟨hl, hb⟩ := (C78_chains h r hr).2.1 q hq
  exact h2 q r hl hb

/-- In a chain, the deeper set is the lower one. -/
theorem C79.chain_up {γ : Nat → Int} (hγ : ∀ r q, s.live r → (s.links r).above = some q → γ r = γ q + 1) {q t : Nat} (hq : Up s.links q t) :
    ∀ {r}, Up s.links r t → s.live r → s.live q → γ q ≤ γ r → Up s.links r q := by
  have mono : ∀ {r t}, Up s.links r t → s.live r → γ t ≤ γ r := by
    intro r t hu
    induction hu with
    | refl => exact fun _ => Int.le_refl _
    | @step r t' t ht _ ih =>
      intro hl
      have := ih ((C78_chains h r hl).2.1 t' ht).1
      have := hγ r t' hl ht
      omega
  induction hq with
  | refl => exact fun hr _ _ _ => hr
  | @step q q' t hq' hu ih =>
    intro r hr hlr hlq hle
    obtain ⟨hlq', hb⟩ := (C78_chains h q hlq).2.1 q' hq'
    have hg := hγ q q' hlq hq'
    -- the way from `r` to `q'` has a last step, which comes from `q`
    have : ∀ {r}, Up s.links r q' → s.live r → γ q ≤ γ r → Up s.links r q := by
      intro r hr
      generalize hz : q' = z at hr
      induction hr with
      | refl z => subst hz; intro _ h1; omega
      | @step r t' z ht hu' ih' =>
        intro hl hle
        by_cases he : t' = q'
        · subst he
          obtain ⟨_, hb'⟩ := (C78_chains h r hl).2.1 t' ht
          rw [hb] at hb'
          cases hb'
          exact .refl q
        · have hl' := ((C78_chains h r hl).2.1 t' ht).1
          refine .step ht (ih' hz hl' ?_)
          cases hu' with
          | refl => exact absurd hz.symm he
          | @step _ t2 _ ht2 hu2 =>
            have h1 := hγ t' t2 hl' ht2
            have h2 := mono hu2 ((C78_chains h t' hl').2.1 t2 ht2).1
            subst hz
            omega
    exact this (ih hr hlr hlq' (by omega)) hlr hle

end

/-- The chain of a value; values outside the graph have none. -/
noncomputable def C79.chain (s : Sets) (v : Nat) : Nat ⊕ Nat :=
  match s.values ⟨v, 0⟩ with
  | some r => .inl (C79.top s r)
  | none => .inr v

section
variable {f : Fn} {s : Sets} (h : sets f skip vs = some s) (hv : Listed (buildGraph f) vs) (hk : Kept (buildGraph f) skip)
  {τ : Nat → Int} (hd : Depth (buildGraph f) τ)
include h hv hk hd

omit hd in
/-- Nodes of the graph are in a set. -/
theorem C79.val_has {n : Node} (hn : (buildGraph f).has n = true) : ∃ r, s.values n = some r := by
  have hm := C79.note_mem hv hn (C79.kept hk hn)
  obtain ⟨pre, post, he⟩ := List.append_of_mem hm
  obtain ⟨o, ho, ho'⟩ := (C78_total _).1 ⟨s, h⟩ pre _ post he n rfl
  exact (C78_values h n).1.2 ⟨o, by rw [he]; simp [ho], ho'⟩

theorem C79.val_up (v : Nat) : ∀ l r, s.values ⟨v, l⟩ = some r → ∃ r0, s.values ⟨v, 0⟩ = some r0 ∧ Up s.links r r0 := by
  intro l
  induction l with
  | zero => exact fun r hr => ⟨r, hr, .refl r⟩
  | succ l ih =>
    intro r hr
    have hn := C79.has_val (n := (⟨v, l⟩ : Node).below) h hv hr
    obtain ⟨q, hq⟩ := C79.val_has h hv hk (has_above hn)
    obtain ⟨r0, h1, h2⟩ := ih q hq
    have hb := (C79.congr h hd).1 _ _ q r (C79.below_mem hv hn (C79.kept hk (has_above hn))) hq hr
    exact ⟨r0, h1, .step ((C78_chains h q ((C78_values h _).2 q hq)).1 r hb).2 h2⟩

theorem C79.chain_val {n : Node} {r : Nat} (hr : s.values n = some r) : C79.chain s n.val = .inl (C79.top s r) := by
  obtain ⟨r0, h1, h2⟩ := C79.val_up h hv hk hd n.val n.lvl r hr
  unfold C79.chain
  rw [h1]
  dsimp only
  rw [C79.top_up h ((C78_values h n).2 r hr) h2]

theorem C79.uni_chain {x y : Nat × Int} (hu : Uni (buildGraph f) x y) : C79.chain s x.1 = C79.chain s y.1 ∧ τ x.1 + x.2 = τ y.1 + y.2 := by
  induction hu with
  | refl => exact ⟨rfl, rfl⟩
  | symm _ ih => exact ⟨ih.1.symm, ih.2.symm⟩
  | trans _ _ ih ih' => exact ⟨ih.1.trans ih'.1, ih.2.trans ih'.2⟩
  | @edge a b he =>
    refine ⟨?_, hd a b he⟩
    have ha := (C79.has_ends f he).1
    obtain ⟨r, h1, h2⟩ := C78_with h (C79.with_mem hv he ha (C79.kept hk ha))
    rw [C79.chain_val h hv hk hd h1, C79.chain_val h hv hk hd h2]
  | shift k _ ih =>
    refine ⟨ih.1, ?_⟩
    have := ih.2
    dsimp only
    omega
  | cycle k _ ih =>
    have := ih.2
    dsimp only at this
    omega

theorem C79.up_uni {x y : Node} {r q : Nat} (hx : s.values x = some r) (hy : s.values y = some q) {k : Nat}
    (hu : Uni (buildGraph f) (y.val, y.lvl + k) (x.val, x.lvl)) : Up s.links r q := by
  obtain ⟨h1, h2⟩ := C79.uni_chain h hv hk hd hu
  dsimp only at h1 h2
  rw [C79.chain_val h hv hk hd hx, C79.chain_val h hv hk hd hy] at h1
  simp only [Sum.inl.injEq] at h1
  obtain ⟨γ, g1, g2⟩ := C79.depths h hd
  have hlx := (C78_values h x).2 r hx
  have hly := (C78_values h y).2 q hy
  refine C79.chain_up h g2 (C79.top_spec h hly).1 (h1 ▸ (C79.top_spec h hlx).1) hlx hly ?_
  rw [g1 x r hx, g1 y q hy]
  omega

/-- **C79 (partial).** Levels of values are in one set exactly if unification demands it, for functions with depths and without
constants like `null`. -/
theorem C79_same_partial {x y : Node} (hx : (buildGraph f).has x = true) (hy : (buildGraph f).has y = true) :
    s.values x = s.values y ↔ Uni (buildGraph f) (x.val, x.lvl) (y.val, y.lvl) := by
  obtain ⟨r, hr⟩ := C79.val_has h hv hk hx
  obtain ⟨q, hq⟩ := C79.val_has h hv hk hy
  refine ⟨fun e => (C79_least h hr hq).1 (by rw [hr, hq] at e; exact Option.some.inj e), fun hu => ?_⟩
  have h1 : Up s.links r q := C79.up_uni h hv hk hd hr hq (k := 0) (by simpa using hu.symm)
  have h2 : Up s.links q r := C79.up_uni h hv hk hd hq hr (k := 0) (by simpa using hu)
  rw [hr, hq]
  cases h1 with
  | refl => rfl
  | @step _ t _ ht h3 => exact absurd (C79.up_trans h3 h2) ((C78_chains h r ((C78_values h x).2 r hr)).2.2.2 t ht)

/-- **C79 (partial).** The attributes of a level of a value are exactly those the graph gives to it, to what is unified with it,
and to what that is some levels below of; for functions with depths and without constants like `null`. -/
theorem C79_attrs_partial (p : Attr → Bool) (hp : p ∈ [Attr.esc, Attr.unk, Attr.glob, Attr.caller, Attr.arg]) {x : Node} {r : Nat}
    (hr : s.values x = some r) : p (s.links r).attrs = true ↔ ∃ (m : Node) (k : Nat), (buildGraph f).has m = true ∧
      p ((buildGraph f).attrFor m) = true ∧ Uni (buildGraph f) (m.val, m.lvl + k) (x.val, x.lvl) := by
  rw [C78_attrs h p hp r ((C78_values h x).2 r hr)]
  constructor
  · rintro ⟨m, a, q, h1, h2, h3, h4⟩
    obtain ⟨k, hk'⟩ := (C79_least h hr h3).2 h4
    refine ⟨m, k, C79.has_val h hv h3, ?_, hk'⟩
    rcases C79.ops h1 with ⟨n, e⟩ | ⟨n, e⟩ | ⟨n, e⟩ | ⟨_, _, e, _⟩ <;> cases e
    exact h2
  · rintro ⟨m, k, h1, h2, h3⟩
    obtain ⟨q, hq⟩ := C79.val_has h hv hk h1
    exact ⟨m, _, q, C79.note_mem hv h1 (C79.kept hk h1), h2, hq, C79.up_uni h hv hk hd hr hq h3⟩

end

/-- **C79 (partial).** The answers do not depend on the order of the hash table, for functions with depths and without constants
like `null`. -/
theorem C79_order_partial {f : Fn} {vs vs' : List Nat} {s s' : Sets} (h : sets f skip vs = some s) (h' : sets f skip vs' = some s')
    (hv : Listed (buildGraph f) vs) (hv' : Listed (buildGraph f) vs') (hk : Kept (buildGraph f) skip) {τ : Nat → Int}
    (hd : Depth (buildGraph f) τ) (x y : Nat) : mayAlias s x y = mayAlias s' x y := by
  by_cases hx : (buildGraph f).has ⟨x, 0⟩ = true
  · obtain ⟨r, hr⟩ := C79.val_has h hv hk hx
    obtain ⟨r', hr'⟩ := C79.val_has h' hv' hk hx
    by_cases hy : (buildGraph f).has ⟨y, 0⟩ = true
    · obtain ⟨q, hq⟩ := C79.val_has h hv hk hy
      obtain ⟨q', hq'⟩ := C79.val_has h' hv' hk hy
      have hrq : r = q ↔ r' = q' := by
        have h1 := C79_same_partial h hv hk hd hx hy
        have h2 := C79_same_partial h' hv' hk hd hx hy
        rw [hr, hq, Option.some.injEq] at h1
        rw [hr', hq', Option.some.injEq] at h2
        rw [h1, h2]
      have hat : ∀ {z : Nat} {r r' : Nat}, s.values ⟨z, 0⟩ = some r → s'.values ⟨z, 0⟩ = some r' → (s.links r).attrs = (s'.links r').attrs := by
        intro z r r' hr hr'
        refine Attr.le_antisymm ?_ ?_
        · exact C79.le_flags fun p hp => by rw [C79_attrs_partial h hv hk hd p hp hr, C79_attrs_partial h' hv' hk hd p hp hr']; exact id
        · exact C79.le_flags fun p hp => by rw [C79_attrs_partial h hv hk hd p hp hr, C79_attrs_partial h' hv' hk hd p hp hr']; exact id
      simp only [mayAlias, hr, hr', hq, hq', hat hr hr', hat hq hq', hrq]
    · have n1 : s.values ⟨y, 0⟩ = none := Option.eq_none_iff_forall_not_mem.2 fun q hq => hy (C79.has_val h hv hq)
      have n2 : s'.values ⟨y, 0⟩ = none := Option.eq_none_iff_forall_not_mem.2 fun q hq => hy (C79.has_val h' hv' hq)
      simp only [mayAlias, hr, hr', n1, n2]
  · have n1 : s.values ⟨x, 0⟩ = none := Option.eq_none_iff_forall_not_mem.2 fun q hq => hx (C79.has_val h hv hq)
    have n2 : s'.values ⟨x, 0⟩ = none := Option.eq_none_iff_forall_not_mem.2 fun q hq => hx (C79.has_val h' hv' hq)
    simp only [mayAlias, n1, n2]

/-! ## Functions without depths -/

/-- `p = alloca; q = alloca; *q = p; r = q; *p = r; s = p; t = *s`: values 0 to 4.  Two cells that point to each other. -/
def C79.cyclic : Fn := C77.fn [.alloca 0, .alloca 1, .store 0 1, .assign [1] 2, .store 2 0, .assign [0] 3, .load 3 4]

theorem C79.listed {g : Graph} {vs : List Nat} (h1 : ∀ v ∈ vs, 0 < g.levels v) (h2 : ∀ e ∈ g.log, e.1.val ∈ vs) : Listed g vs := by
  refine fun v => ⟨h1 v, fun h => ?_⟩
  obtain ⟨e, he, hev⟩ := occ_of_has (n := ⟨v, 0⟩) (decide_eq_true h)
  have := h2 e he
  rwa [hev] at this

/-- **C79 false.** Without depths the analysis answers `NoAlias` although an execution makes the two values point to the same
object. -/
theorem C79_cycle_false : ∃ f vs s c x y o, Plain f ∧ Listed (buildGraph f) vs ∧ Kept (buildGraph f) (fun _ => false) ∧
    sets f (fun _ => false) vs = some s ∧ Run f c ∧ c.reg x = some o ∧ c.reg y = some o ∧ mayAlias s x y = false := by
  have h0 : ((sets C79.cyclic (fun _ => false) [1, 2, 0, 3, 4]).map fun s => mayAlias s 4 2) = some false := by decide +kernel
  obtain ⟨s, hs, he⟩ := Option.map_eq_some_iff.1 h0
  refine ⟨C79.cyclic, [1, 2, 0, 3, 4], s, _, 4, 2, .loc 1 0, ⟨fun _ h => (nomatch h), fun _ => rfl, fun p h => by simp [C79.cyclic, C77.fn] at h,
    fun p v x h => by simp [C79.cyclic, C77.fn] at h, fun _ h => by simp [C79.cyclic, C77.fn] at h, fun _ _ _ _ h => by simp [C79.cyclic, C77.fn] at h⟩,
    C79.listed (by decide +kernel) (by decide +kernel), fun _ _ => rfl, hs,
    .step (.step (.step (.step (.step (.step (.step (C77.start_run _) (i := .alloca 0) (by simp [C79.cyclic, C77.fn]) (.alloca 0 0))
      (i := .alloca 1) (by simp [C79.cyclic, C77.fn]) (.alloca 1 0)) (i := .store 0 1) (by simp [C79.cyclic, C77.fn]) (.store (o := .loc 1 0) rfl))
      (i := .assign [1] 2) (by simp [C79.cyclic, C77.fn]) (.assign (y := 1) (by simp))) (i := .store 2 0) (by simp [C79.cyclic, C77.fn]) (.store (o := .loc 0 0) rfl))
      (i := .assign [0] 3) (by simp [C79.cyclic, C77.fn]) (.assign (y := 0) (by simp))) (i := .load 3 4) (by simp [C79.cyclic, C77.fn]) (.load (o := .loc 0 0) rfl),
    rfl, rfl, he⟩

/-- **C79 false.** Without depths the answer depends on the order of a hash table of pointers. -/
theorem C79_order_false : ∃ f vs vs' s s' x y, Listed (buildGraph f) vs ∧ Listed (buildGraph f) vs' ∧ sets f (fun _ => false) vs = some s ∧
    sets f (fun _ => false) vs' = some s' ∧ mayAlias s x y = false ∧ mayAlias s' x y = true := by
  have h0 : ((sets C79.cyclic (fun _ => false) [1, 2, 0, 3, 4]).map fun s => mayAlias s 4 2) = some false := by decide +kernel
  have h1 : ((sets C79.cyclic (fun _ => false) [0, 1, 2, 3, 4]).map fun s => mayAlias s 4 2) = some true := by decide +kernel
  obtain ⟨s, hs, he⟩ := Option.map_eq_some_iff.1 h0
  obtain ⟨s', hs', he'⟩ := Option.map_eq_some_iff.1 h1
  exact ⟨C79.cyclic, _, _, s, s', 4, 2, C79.listed (by decide +kernel) (by decide +kernel), C79.listed (by decide +kernel) (by decide +kernel),
    hs, hs', he, he'⟩

/-! ## A function with depths -/

/-- The depths of `C76.copy`: the allocations are one level up. -/
example : Depth (buildGraph C76.copy) (fun v => if v = 1 ∨ v = 2 then -1 else 0) := fun a b h =>
  (show ∀ e ∈ (buildGraph C76.copy).edges, (if e.1.val = 1 ∨ e.1.val = 2 then -1 else 0 : Int) + e.1.lvl =
    (if e.2.val = 1 ∨ e.2.val = 2 then -1 else 0) + e.2.lvl by decide +kernel) (a, b) h

/-- The hash table lists its values. -/
example : Listed (buildGraph C76.copy) [3, 1, 4, 0, 2] ∧ Listed (buildGraph C76.copy) [0, 1, 2, 3, 4] ∧ Kept (buildGraph C76.copy) (fun _ => false) :=
  ⟨C79.listed (by decide +kernel) (by decide +kernel), C79.listed (by decide +kernel) (by decide +kernel), fun _ _ => rfl⟩

/-- `C79_over_partial`, `C79_sound_partial`, `C79_order_partial`: the argument and the last value may be aliases; an allocation and
that value are not.  The two allocations are taken to be aliases, which the inclusion-based analysis does not. -/
example : ((sets C76.copy (fun _ => false) [3, 1, 4, 0, 2]).map fun s => (mayAlias s 0 4, mayAlias s 1 4, mayAlias s 1 2)) = some (true, false, true) ∧
    ((sets C76.copy (fun _ => false) [0, 1, 2, 3, 4]).map fun s => (mayAlias s 0 4, mayAlias s 1 4, mayAlias s 1 2)) = some (true, false, true) := by
  decide +kernel

/-- `C79_attrs_partial`: the last value has the attributes of the argument, and the allocation none. -/
example : ((sets C76.copy (fun _ => false) [3, 1, 4, 0, 2]).map fun s => ((C79.at_ s ⟨4, 0⟩).arg, (C79.at_ s ⟨4, 0⟩).caller, (C79.at_ s ⟨1, 0⟩).any)) =
    some (true, false, false) := by decide +kernel

/-- `C79_least`, `C79_same_partial`: unification demands that the two allocations are in one set. -/
example : Uni (buildGraph C76.copy) (1, 0) (2, 0) := by
  have e2 : ((⟨1, 1⟩ : Node), (⟨3, 0⟩ : Node)) ∈ (buildGraph C76.copy).edges := by decide +kernel
  have e3 : ((⟨3, 0⟩ : Node), (⟨2, 1⟩ : Node)) ∈ (buildGraph C76.copy).edges := by decide +kernel
  exact Uni.shift (-1) ((Uni.edge e2).trans (Uni.edge e3))

end Phasar.CFLSteens
