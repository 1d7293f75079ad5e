import Verif.Alias.CFLAndersSound

/-!
# Properties of the CFL-based alias analysis

C76: what the analysis computes.  C77: what its answers mean for executions.
-/
namespace Phasar.CFLAnders

/-- An order of work: every item is processed. -/
def C76.Order {α : Type} (ord : List α → List α) : Prop := ∀ l i, i ∈ ord l ↔ i ∈ l

theorem C76.parts {f : Fn} {ord : List Item → List Item} {ordA : List Node → List Node} {n : Nat} {r : Info}
    (h : analyze f ord ordA n = some r) : ∃ s a, loop (buildGraph f) ord n (initWork (buildGraph f)) = some s ∧
      attrLoop (buildGraph f) s.reach ordA n (attrInit (buildGraph f)) = some a ∧ r = ⟨buildGraph f, s.reach, a.at_⟩ := by
  unfold analyze at h
  cases h1 : loop (buildGraph f) ord n (initWork (buildGraph f)) with
  | none => rw [h1] at h; cases h
  | some s =>
    rw [h1] at h
    simp only [Option.bind_some] at h
    cases h2 : attrLoop (buildGraph f) s.reach ordA n (attrInit (buildGraph f)) with
    | none => rw [h2] at h; cases h
    | some a =>
      rw [h2] at h
      cases h
      exact ⟨s, a, rfl, h2, rfl⟩

theorem C76.or_comm (a b : Attr) : a.or b = b.or a := by
  simp [Attr.or, Bool.or_comm]

theorem C76.der {f : Fn} {ord : List Item → List Item} {ordA : List Node → List Node} (ho : C76.Order ord)
    {n : Nat} {r : Info} (h : analyze f ord ordA n = some r) (x y : Node) (q : MState) :
    ⟨x, y, q⟩ ∈ r.reach ↔ Der (buildGraph f) x y q := by
  obtain ⟨s, a, h1, _, rfl⟩ := C76.parts h
  exact loop_reach ho h1 x y q

/-- **C76.** The analysis records exactly the pairs of different nodes that a word of the grammar connects, for every
function and every order of the work. -/
theorem C76_reach {f : Fn} {ord : List Item → List Item} {ordA : List Node → List Node} (ho : C76.Order ord)
    {n : Nat} {r : Info} (h : analyze f ord ordA n = some r) (x y : Node) :
    (∃ q, ⟨x, y, q⟩ ∈ r.reach) ↔ x ≠ y ∧ ∃ p, VA (buildGraph f) x y p := by
  rw [← der_iff_va]
  exact exists_congr fun q => C76.der ho h x y q

/-- **C76.** The relation recorded is symmetric (assumed at `CFLAndersAliasAnalysis.cpp:328-330, :446, :650-652`). -/
theorem C76_symm {f : Fn} {ord : List Item → List Item} {ordA : List Node → List Node} (ho : C76.Order ord)
    {n : Nat} {r : Info} (h : analyze f ord ordA n = some r) (x y : Node) :
    (∃ q, ⟨x, y, q⟩ ∈ r.reach) ↔ ∃ q, ⟨y, x, q⟩ ∈ r.reach := by
  rw [C76_reach ho h, C76_reach ho h]
  constructor
  · rintro ⟨h1, p, h2⟩; exact ⟨fun e => h1 e.symm, h2.symm⟩
  · rintro ⟨h1, p, h2⟩; exact ⟨fun e => h1 e.symm, h2.symm⟩

/-- What the names of the states promise, `CFLAndersAliasAnalysis.cpp:104-127`: steps against and along assignments. -/
def C76.flags : MState → Bool × Bool
  | .fromRO | .fromMemRO => (true, false)
  | .fromMemNo => (false, false)
  | .toWO | .toMemWO => (false, true)
  | .toRW | .toMemRW => (true, true)

theorem C76.vaf {g : Graph} {x y : Node} {q : MState} (h : Der g x y q) : VAF g x y q.ph (C76.flags q).1 (C76.flags q).2 := by
  induction h with
  | back0 h _ => exact .back (.refl _) (.inl rfl) h
  | fwd0 h _ => exact .fwd (.refl _) h
  | @fwd _ _ _ p _ h _ ih => cases p <;> exact .fwd ih h
  | @rev _ _ _ p q _ hq h _ ih =>
    cases p <;> simp only [MState.rev, Option.some.injEq, reduceCtorEq] at hq <;> subst hq
    · exact .back ih (.inl rfl) h
    · exact .back ih (.inr rfl) h
    · exact .back ih (.inr rfl) h
  | mem0 h _ h1 h2 _ => exact .memF (.refl _) h.va (by assumption) (by assumption)
  | @mem _ _ _ p q _ _ hq h' h1 h2 _ ih _ =>
    cases p <;> simp only [MState.mem, Option.some.injEq, reduceCtorEq] at hq <;> subst hq
    · exact .memF ih h'.va h1 h2
    · exact .memT ih h'.va h1 h2
    · exact .memT ih h'.va h1 h2

/-- **C76.** The states recorded are right: a word with just the steps the state stands for exists. -/
theorem C76_states {f : Fn} {ord : List Item → List Item} {ordA : List Node → List Node} (ho : C76.Order ord)
    {n : Nat} {r : Info} (h : analyze f ord ordA n = some r) {x y : Node} {q : MState} (hq : ⟨x, y, q⟩ ∈ r.reach) :
    VAF (buildGraph f) x y q.ph (C76.flags q).1 (C76.flags q).2 :=
  C76.vaf ((C76.der ho h x y q).1 hq)

/-- **C76.** The attributes are the least solution. -/
theorem C76_attr {f : Fn} {ord : List Item → List Item} {ordA : List Node → List Node} (ho : C76.Order ord)
    (hoA : C76.Order ordA) {n : Nat} {r : Info} (h : analyze f ord ordA n = some r) :
    AttrSol (buildGraph f) r.at_ ∧ ∀ B, AttrSol (buildGraph f) B → ∀ m, (r.at_ m).or (B m) = B m := by
  have hr := C76_reach ho h
  have hs := C76_symm ho h
  obtain ⟨s, a, h1, h2, rfl⟩ := C76.parts h
  have hc := attrLoop_closed hoA h2
  dsimp only at hr hs ⊢
  have le' : ∀ a b : Attr, a.or b = b ↔ a.le b := fun a b => by rw [C76.or_comm, Attr.or_eq]
  refine ⟨⟨fun n => (le' ..).2 (hc.init n), fun x y p hv => ?_, fun n hn => (le' ..).2 (hc.below n hn)⟩, fun B hB m => ?_⟩
  · by_cases he : x = y
    · rw [he]
    · obtain ⟨q, hq⟩ := (hr x y).2 ⟨he, p, hv⟩
      obtain ⟨q', hq'⟩ := (hs x y).1 ⟨q, hq⟩
      exact Attr.le_antisymm (hc.reach _ hq') (hc.reach _ hq)
  · rw [le']
    refine attrLoop_le (B := B) ⟨fun n => (le' ..).1 (hB.init n), fun j hj => ?_, fun n hn => (le' ..).1 (hB.below n hn)⟩ n _ _
      (fun n => (le' ..).1 (hB.init n)) h2 m
    obtain ⟨_, p, hv⟩ := (hr j.src j.dst).1 ⟨j.st, hj⟩
    rw [hB.alias _ _ _ hv]
    exact Attr.le_refl _

/-- **C76.** The analysis ends, for every function and every order of the work. -/
theorem C76_terminates (f : Fn) {ord : List Item → List Item} {ordA : List Node → List Node} (ho : C76.Order ord) :
    ∃ n r, analyze f ord ordA n = some r := by
  let g := buildGraph f
  let n := g.items.length + 1 + (5 * g.univ.length + 1)
  have h1 : (loop g ord n (initWork g)).isSome = true := by
    refine loop_total ho n _ (initWork_sinv g) ?_ (.inr (by omega))
    exact propagateAll_nodup _ List.nodup_nil
  obtain ⟨s, hs⟩ := Option.isSome_iff_exists.1 h1
  have h2 : (attrLoop g s.reach ordA n (attrInit g)).isSome = true := by
    refine attrLoop_total (U := g.univ) (fun _ => has_univ) (fun j hj => ?_) n _ (.inr (by omega))
    exact ((loop_reach ho hs j.src j.dst j.st).1 hj).univ.1
  obtain ⟨a, ha⟩ := Option.isSome_iff_exists.1 h2
  refine ⟨n, ⟨g, s.reach, a.at_⟩, ?_⟩
  simp only [analyze]
  rw [show loop (buildGraph f) ord n (initWork (buildGraph f)) = some s from hs]
  simp only [Option.bind_some]
  rw [show attrLoop (buildGraph f) s.reach ordA n (attrInit (buildGraph f)) = some a from ha]
  rfl

theorem C76.any_iff {l : List Item} {x y : Nat} : (l.any fun j => j.dst = ⟨x, 0⟩ && j.src = ⟨y, 0⟩) = true ↔
    ∃ q, ⟨⟨y, 0⟩, ⟨x, 0⟩, q⟩ ∈ l := by
  simp only [List.any_eq_true, Bool.and_eq_true, decide_eq_true_eq]
  constructor
  · rintro ⟨⟨a, b, q⟩, h, rfl, rfl⟩; exact ⟨q, h⟩
  · rintro ⟨q, h⟩; exact ⟨_, h, rfl, rfl⟩

/-- **C76.** The answers do not depend on the order of the work. -/
theorem C76_order {f : Fn} {ord ord' : List Item → List Item} {ordA ordA' : List Node → List Node} (ho : C76.Order ord)
    (ho' : C76.Order ord') (hA : C76.Order ordA) (hA' : C76.Order ordA') {n n' : Nat} {r r' : Info}
    (h : analyze f ord ordA n = some r) (h' : analyze f ord' ordA' n' = some r') (x y : Nat) :
    r.alias x y = r'.alias x y := by
  obtain ⟨s1, l1⟩ := C76_attr ho hA h
  obtain ⟨s2, l2⟩ := C76_attr ho' hA' h'
  have hat : r.at_ = r'.at_ := funext fun m => by
    have h1 := l1 _ s2 m
    have h2 := l2 _ s1 m
    rw [← h1, C76.or_comm, h2]
  have hg : r.graph = r'.graph := by
    obtain ⟨_, _, _, _, rfl⟩ := C76.parts h
    obtain ⟨_, _, _, _, rfl⟩ := C76.parts h'
    rfl
  have hany : (r.reach.any fun j => j.dst = ⟨x, 0⟩ && j.src = ⟨y, 0⟩) = r'.reach.any fun j => j.dst = ⟨x, 0⟩ && j.src = ⟨y, 0⟩ := by
    rw [Bool.eq_iff_iff, C76.any_iff, C76.any_iff, C76_reach ho h, C76_reach ho' h']
  simp only [Info.alias, Info.mayAlias, Info.attrs, hat, hg, hany]

/-- **C76.** The answers are symmetric. -/
theorem C76_alias_symm {f : Fn} {ord : List Item → List Item} {ordA : List Node → List Node} (ho : C76.Order ord)
    {n : Nat} {r : Info} (h : analyze f ord ordA n = some r) (x y : Nat) : r.alias x y = r.alias y x := by
  have hany : (r.reach.any fun j => j.dst = ⟨x, 0⟩ && j.src = ⟨y, 0⟩) = r.reach.any fun j => j.dst = ⟨y, 0⟩ && j.src = ⟨x, 0⟩ := by
    rw [Bool.eq_iff_iff, C76.any_iff, C76.any_iff, C76_symm ho h]
  have hxy : (x == y) = (y == x) := by rw [Bool.eq_iff_iff, beq_iff_eq, beq_iff_eq]; exact eq_comm
  have unk_any : ∀ a : Attr, a.unkCaller = true → a.any = true := fun a ha => by
    simp only [Attr.unkCaller, Attr.any, Bool.or_eq_true] at *
    rcases ha with h | h <;> simp [h]
  simp only [Info.alias, hxy]
  congr 1
  unfold Info.mayAlias
  rw [hany]
  cases r.attrs x with
  | none => cases r.attrs y <;> rfl
  | some a =>
    cases r.attrs y with
    | none => rfl
    | some b =>
      dsimp only
      have ha := unk_any a
      have hb := unk_any b
      cases h1 : a.unkCaller <;> cases h2 : b.unkCaller <;> cases h3 : a.globalArg <;> cases h4 : b.globalArg <;> simp_all

/-- `int **f(int **p) { ... v = *p; *p = v; int **r = p; *r; return r; }`: values 0 (`p`), 1, 2 (`r`), 3. -/
def C76.selfCopy : Fn :=
  { args := [0], isGlobal := fun _ => false, body := [.load 0 1, .store 1 0, .assign [0] 2, .load 2 3, .ret 2] }

/-- **C76 false.** The states are not symmetric, against the comment at `CFLAndersAliasAnalysis.cpp:446`: `*r` reaches `*p`
by assignments only, but `*p` does not reach `*r` by reverse assignments only according to the states recorded, although
such a word exists (it passes `*p` twice, and `propagate` drops the way from a node to itself, `:599-606`). -/
theorem C76_states_symm_false : ∃ f r x y, analyze f id id 30 = some r ∧ ⟨x, y, .toWO⟩ ∈ r.reach ∧
    VAF (buildGraph f) y x .frM true false ∧ ⟨y, x, .fromRO⟩ ∉ r.reach ∧ ⟨y, x, .fromMemRO⟩ ∉ r.reach := by
  have h0 : ((analyze C76.selfCopy id id 30).map fun r => (decide (⟨⟨2, 1⟩, ⟨0, 1⟩, .toWO⟩ ∈ r.reach),
      decide (⟨⟨0, 1⟩, ⟨2, 1⟩, .fromRO⟩ ∈ r.reach), decide (⟨⟨0, 1⟩, ⟨2, 1⟩, .fromMemRO⟩ ∈ r.reach))) = some (true, false, false) := by
    decide +kernel
  obtain ⟨r, hr, he⟩ := Option.map_eq_some_iff.1 h0
  simp only [Prod.mk.injEq, decide_eq_true_eq, decide_eq_false_iff_not] at he
  refine ⟨_, r, _, _, hr, he.1, ?_, he.2.1, he.2.2⟩
  have e1 : ((⟨1, 0⟩ : Node), (⟨0, 1⟩ : Node)) ∈ (buildGraph C76.selfCopy).edges := by decide +kernel
  have e2 : ((⟨0, 1⟩ : Node), (⟨1, 0⟩ : Node)) ∈ (buildGraph C76.selfCopy).edges := by decide +kernel
  have e3 : ((⟨0, 0⟩ : Node), (⟨2, 0⟩ : Node)) ∈ (buildGraph C76.selfCopy).edges := by decide +kernel
  exact .memF (u := ⟨0, 0⟩) (v := ⟨2, 0⟩) (.back (.back (.refl _) (.inl rfl) e1) (.inl rfl) e2) (.fwd (.refl _) e3)
    (by decide +kernel) (by decide +kernel)

/-! ### A function with two levels of memory -/

/-- `f(a) { T **p = alloca, **q = alloca; *p = a; b = *p; *q = b; c = *q; }`: values 0 (`a`), 1, 2, 3 (`b`), 4 (`c`). -/
def C76.copy : Fn :=
  { args := [0], isGlobal := fun _ => false, body := [.alloca 1, .alloca 2, .store 0 1, .load 1 3, .store 3 2, .load 2 4] }

/-- The analysis ends on it for the order of the code and for another one, which is an order too. -/
example : C76.Order (List.reverse : List Item → List Item) ∧ (analyze C76.copy id id 30).isSome = true ∧
    (analyze C76.copy List.reverse List.reverse 30).isSome = true :=
  ⟨fun _ _ => List.mem_reverse, by decide +kernel, by decide +kernel⟩

/-- `C76_reach`, `C76_symm`: `a` and `c` are related, the two allocations are not. -/
example : VA (buildGraph C76.copy) ⟨0, 0⟩ ⟨4, 0⟩ .to :=
  have e1 : ((⟨0, 0⟩ : Node), (⟨1, 1⟩ : Node)) ∈ (buildGraph C76.copy).edges := by decide +kernel
  have e2 : ((⟨1, 1⟩ : Node), (⟨3, 0⟩ : Node)) ∈ (buildGraph C76.copy).edges := by decide +kernel
  have e3 : ((⟨3, 0⟩ : Node), (⟨2, 1⟩ : Node)) ∈ (buildGraph C76.copy).edges := by decide +kernel
  have e4 : ((⟨2, 1⟩ : Node), (⟨4, 0⟩ : Node)) ∈ (buildGraph C76.copy).edges := by decide +kernel
  .fwd (.fwd (.fwd (.fwd (.refl _) e1) e2) e3) e4

/-- `C76_order`, `C76_alias_symm`: answers in both directions, with two orders. -/
example : ((analyze C76.copy id id 30).map fun r => (r.alias 0 4, r.alias 4 0, r.alias 1 2, r.alias 1 4)) = some (true, true, false, false) ∧
    ((analyze C76.copy List.reverse List.reverse 30).map fun r => (r.alias 0 4, r.alias 4 0, r.alias 1 2, r.alias 1 4)) =
      some (true, true, false, false) := by decide +kernel

/-- `C76_attr`: `c` has the attributes of the argument `a` and of nothing else, the allocation none. -/
example : ((analyze C76.copy id id 30).map fun r => (decide (r.at_ ⟨4, 0⟩ = r.at_ ⟨0, 0⟩), (r.at_ ⟨4, 0⟩).arg, (r.at_ ⟨4, 0⟩).unk,
    (r.at_ ⟨1, 0⟩).any)) = some (true, true, false, false) := by decide +kernel

/-- `C76_states`: the way from `a` to `c` has steps along assignments only. -/
example : ((analyze C76.copy id id 30).map fun r => (decide (⟨⟨0, 0⟩, ⟨4, 0⟩, .toWO⟩ ∈ r.reach), decide (⟨⟨0, 0⟩, ⟨4, 0⟩, .toRW⟩ ∈ r.reach))) =
    some (true, false) := by decide +kernel

/-! ## Executions -/

/-- **C77 (partial).** If two values of a function hold pointers to the same object at the same time, the analysis does
not answer `NoAlias`: for functions that are `Plain`.  Missing: what `Plain` excludes, see the theorems below. -/
theorem C77_sound_partial {f : Fn} (hf : Plain f) {ord : List Item → List Item} {ordA : List Node → List Node}
    (ho : C76.Order ord) (hA : C76.Order ordA) {n : Nat} {r : Info} (h : analyze f ord ordA n = some r)
    {c : Conf} (hc : Run f c) {x y : Nat} {o : Obj} (hx : c.reg x = some o) (hy : c.reg y = some o) :
    r.alias x y = true := by
  by_cases he : x = y
  · simp [Info.alias, he]
  have hd := C76.der ho h
  obtain ⟨s, a, h1, h2, rfl⟩ := C76.parts h
  have hs : Sol f s.reach a.at_ := ⟨hf, hd, attrLoop_closed hA h2⟩
  have hok := hs.run hc
  simp only [Info.alias, Bool.or_eq_true]
  exact .inr (hs.mayAlias he (hok.reg x o hx) (hok.reg y o hy))

/-- `C77_sound_partial`: `C76.copy` is plain, and `a` and `c` hold the same object after a run of it. -/
example : Plain C76.copy ∧ ∃ c o, Run C76.copy c ∧ c.reg 0 = some o ∧ c.reg 4 = some o ∧ c.reg 1 = some (.loc 1 0) := by
  refine ⟨⟨fun _ _ => rfl, fun _ => rfl, fun p h => by simp [C76.copy] at h, fun p v x h => by simp [C76.copy] at h, fun _ _ => rfl,
    fun _ _ _ _ h => by simp [C76.copy] at h⟩, _, .ext 7,
    .step (.step (.step (.step (.step (.step (.init
      (c := ⟨fun x => if x = 0 then some (.ext 7) else none, fun _ => none, fun _ => False⟩) ⟨fun x o h => ?_, fun o o' h => (nomatch h), fun o h => h.elim⟩)
      (i := .alloca 1) (by simp [C76.copy]) (.alloca 1 0)) (i := .alloca 2) (by simp [C76.copy]) (.alloca 2 0))
      (i := .store 0 1) (by simp [C76.copy]) (.store (o := .loc 1 0) rfl)) (i := .load 1 3) (by simp [C76.copy]) (.load (o := .loc 1 0) rfl))
      (i := .store 3 2) (by simp [C76.copy]) (.store (o := .loc 2 0) rfl)) (i := .load 2 4) (by simp [C76.copy]) (.load (o := .loc 2 0) rfl), rfl, rfl, rfl⟩
  dsimp only at h
  split at h
  · rename_i hx; cases h; exact ⟨⟨7, rfl⟩, .inl (by simp [C76.copy, hx])⟩
  · cases h

/-- The analysis answers `NoAlias` for two values that hold pointers to the same object in some execution. -/
def C77.Wrong (f : Fn) : Prop := ∃ x y n c o, (analyze f id id n).map (·.alias x y) = some false ∧
  Run f c ∧ c.reg x = some o ∧ c.reg y = some o

theorem C77.id_order {α : Type} : C76.Order (id : List α → List α) := fun _ _ => Iff.rfl

/-- The initial state of the examples: global 5 is object 5, nothing else. -/
def C77.start : Conf := ⟨fun x => if x = 5 then some (.ext 5) else none, fun _ => none, fun _ => False⟩

/-- Functions without arguments and with the global 5. -/
def C77.fn (body : List Instr) : Fn := { args := [], isGlobal := fun x => x == 5, body := body }

theorem C77.start_run (body : List Instr) : Run (C77.fn body) C77.start := by
  refine .init ⟨fun x o h => ?_, fun o o' h => (nomatch h), fun o h => h.elim⟩
  simp only [C77.start] at h
  split at h
  · rename_i hx; cases h; exact ⟨⟨5, rfl⟩, .inr (.inl (by simp [C77.fn, hx]))⟩
  · cases h

/-- **C77 false.** A call that only reads memory may return its argument (`strchr`); its result counts as unknown, the
argument, a local object, has no attribute: `NoAlias`. -/
theorem C77_readonly_false : C77.Wrong (C77.fn [.alloca 0, .call [0] (some 1) true false]) := by
  refine ⟨0, 1, 9, _, .loc 0 0, by decide +kernel,
    .step (.step (C77.start_run _) (by simp [C77.fn]) (.alloca 0 0)) (i := .call [0] (some 1) true false) (by simp [C77.fn])
      (.callRO (r := some (.loc 0 0)) fun o ho => ?_), rfl, rfl⟩
  cases ho
  exact .base (.inr ⟨0, by simp, rfl⟩)

/-- **C77 false.** The new object a call marked `noalias` returns may contain pointers to globals; what is loaded from it
has no attribute. -/
theorem C77_noalias_false : C77.Wrong (C77.fn [.call [] (some 1) false true, .load 1 2, .assign [5] 3]) := by
  refine ⟨2, 3, 9, _, .ext 5, by decide +kernel,
    .step (.step (.step (C77.start_run _) (i := .call [] (some 1) false true) (by simp [C77.fn])
      (.callNA (k := 0) (m := fun o => if o = .loc 1 0 then some (.ext 5) else none) ?_ ?_ ?_))
      (i := .load 1 2) (by simp [C77.fn]) (.load rfl)) (i := .assign [5] 3) (by simp [C77.fn]) (.assign (y := 5) (by simp)), rfl, rfl⟩
  · intro y; simp only [C77.start]; split <;> simp
  · intro o; simp [C77.start]
  · intro o
    by_cases ho : o = .loc 1 0
    · right; refine ⟨.inl ho, fun o' h => ?_⟩
      simp only [ho, if_true, Option.some.injEq] at h; subst h; exact .ext 5
    · left; simp [ho, C77.start]

/-- **C77 false.** An object whose address was turned into an integer may be written to by any later call; what is loaded
from it only counts as escaped. -/
theorem C77_ptrtoint_false :
    C77.Wrong (C77.fn [.alloca 0, .ptrToInt 0, .call [] none false false, .load 0 1, .assign [5] 2]) := by
  refine ⟨1, 2, 9, _, .ext 5, by decide +kernel,
    .step (.step (.step (.step (.step (C77.start_run _) (i := .alloca 0) (by simp [C77.fn]) (.alloca 0 0))
      (i := .ptrToInt 0) (by simp [C77.fn]) (.ptrToInt 0)) (i := .call [] none false false) (by simp [C77.fn])
      (.call (m := fun o => if o = .loc 0 0 then some (.ext 5) else none) (r := none) ?_ (fun o h => (nomatch h))))
      (i := .load 0 1) (by simp [C77.fn]) (.load rfl)) (i := .assign [5] 2) (by simp [C77.fn]) (.assign (y := 5) (by simp)), rfl, rfl⟩
  intro o
  by_cases ho : o = .loc 0 0
  · right; refine ⟨?_, fun o' h => ?_⟩
    · subst ho; exact .base (.inl (.base (.inr rfl)))
    · simp only [ho, if_true, Option.some.injEq] at h; subst h; exact .ext 5
  · left; simp [ho, Conf.set, C77.start]

/-- **C77 false.** The value `cmpxchg` has read from memory is not related to that memory. -/
theorem C77_cmpxchg_false :
    C77.Wrong (C77.fn [.alloca 0, .alloca 1, .store 1 0, .cmpXchg 0 2 3, .assign [3] 4]) := by
  refine ⟨4, 1, 9, _, .loc 1 0, by decide +kernel,
    .step (.step (.step (.step (.step (C77.start_run _) (i := .alloca 0) (by simp [C77.fn]) (.alloca 0 0))
      (i := .alloca 1) (by simp [C77.fn]) (.alloca 1 0)) (i := .store 1 0) (by simp [C77.fn]) (.store (o := .loc 0 0) rfl))
      (i := .cmpXchg 0 2 3) (by simp [C77.fn]) (.cmpXchgNo (o := .loc 0 0) rfl)) (i := .assign [3] 4) (by simp [C77.fn])
      (.assign (y := 3) (by simp)), rfl, rfl⟩

/-- A function with a constant expression `inttoptr` (7) and a global (5). -/
def C77.fnExpr : Fn := { args := [], isGlobal := fun x => x == 5, isIntExpr := fun x => x == 7, body := [.assign [7] 1, .assign [5] 2] }

/-- **C77 false.** A constant expression `inttoptr` does not get the attribute meant for it. -/
theorem C77_inttoptr_false : C77.Wrong C77.fnExpr := by
  refine ⟨1, 2, 9, _, .ext 5, by decide +kernel,
    .step (.step (.init (c := ⟨fun x => if x = 5 ∨ x = 7 then some (.ext 5) else none, fun _ => none, fun _ => False⟩)
      ⟨fun x o h => ?_, fun o o' h => (nomatch h), fun o h => h.elim⟩) (i := .assign [7] 1) (by simp [C77.fnExpr]) (.assign (y := 7) (by simp)))
      (i := .assign [5] 2) (by simp [C77.fnExpr]) (.assign (y := 5) (by simp)), rfl, rfl⟩
  dsimp only at h
  split at h
  · rename_i hx
    cases h
    refine ⟨⟨5, rfl⟩, .inr ?_⟩
    rcases hx with rfl | rfl
    · exact .inl rfl
    · exact .inr rfl
  · cases h

end Phasar.CFLAnders
