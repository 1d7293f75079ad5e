import Verif.Mono.InterTaint
import Verif.Mono.Props

/-!
# C83: the inter-procedural monotone taint analysis

Which values are tainted is defined by executions (`Exec`) that know for every value of the running function whether it is tainted, and
for every memory cell whether its contents are; no flow function occurs in the definition.  A fact of the analysis stands for a
tainted value or for tainted contents of the cell a value points to.
-/
namespace Phasar.InterTaint
open InterMono

/-! ## Sets as numbers -/

theorem has_ins (c : Facts) (v w : Nat) : has (ins c v) w = (has c w || v == w) := by
  simp only [has, ins, Nat.testBit_or, Nat.testBit_two_pow]
  rfl

theorem has_or (a b : Facts) (w : Nat) : has (a ||| b) w = (has a w || has b w) := Nat.testBit_or ..

theorem has_and (a b : Facts) (w : Nat) : has (a &&& b) w = (has a w && has b w) := Nat.testBit_and ..

theorem has_minus (a b : Facts) (w : Nat) : has (minus a b) w = (has a w && !has b w) := by
  simp only [has, minus, Nat.testBit_xor, Nat.testBit_and]
  cases a.testBit w <;> cases b.testBit w <;> rfl

theorem has_pow (v w : Nat) : has (2 ^ v) w = (v == w) := Nat.testBit_two_pow ..

theorem has_era (c : Facts) (v w : Nat) : has (era c v) w = (has c w && !(v == w)) := by
  rw [era, has_minus, has_pow]

theorem has_zero (w : Nat) : has 0 w = false := Nat.zero_testBit ..

theorem has_insAll (l : List Nat) (c : Facts) (w : Nat) : has (insAll c l) w = (has c w || l.contains w) := by
  induction l generalizing c with
  | nil => simp [insAll]
  | cons v l ih =>
    have h : insAll c (v :: l) = insAll (ins c v) l := rfl
    rw [h, ih, has_ins, List.contains_cons, Bool.or_assoc, Bool.beq_comm]

theorem has_eraAll (l : List Nat) (c : Facts) (w : Nat) : has (l.foldl era c) w = (has c w && !l.contains w) := by
  induction l generalizing c with
  | nil => simp
  | cons v l ih =>
    rw [List.foldl_cons, ih, has_era, List.contains_cons, Bool.not_or, Bool.and_assoc, Bool.beq_comm]

theorem ext {a b : Facts} (h : ∀ v, has a v = has b v) : a = b := Nat.eq_of_testBit_eq h

theorem le_iff (p : Prog) (a b : Facts) : Le p.prob a b ↔ ∀ v, has a v = true → has b v = true := by
  constructor
  · intro h v hv
    have h : a ||| b = b := h
    rw [← h, has_or, hv, Bool.true_or]
  · intro h
    refine ext fun v => ?_
    have := h v
    show has (a ||| b) v = has b v
    rw [has_or]
    cases ha : has a v with
    | false => rfl
    | true => rw [this ha]; rfl

/-! ## What the flow functions compute -/

theorem has_copy (c : Facts) (r q w : Nat) :
    has (if has c q then ins c r else c) w = (has c w || (w == r && has c q)) := by
  split
  · rename_i h; rw [has_ins, h, Bool.and_true, Bool.beq_comm]
  · rename_i h; simp [h]

theorem has_normal (p : Prog) (n : Nat) (c : Facts) (w : Nat) : has (p.normalFlow n c) w =
    match p.inst n with
    | .store v q => if w = q then has c v else has c w
    | .load r q => has c w || (w == r && has c q)
    | .gep r q => has c w || (w == r && has c q)
    | .cast r q => has c w || (w == r && has c q)
    | _ => has c w := by
  unfold Prog.normalFlow
  cases p.inst n with
  | store v q =>
    show has (if has c v = true then ins c q else if has c q = true then era c q else c) w = if w = q then has c v else has c w
    by_cases h : w = q
    · subst h
      rw [if_pos rfl]
      split
      · rename_i hv; rw [has_ins, hv]; simp
      · rename_i hv
        split
        · rw [has_era]; simp [hv]
        · rename_i hw; simp [hv, hw]
    · rw [if_neg h]
      have h' : (q == w) = false := by simp [Ne.symm h]
      split
      · rw [has_ins, h', Bool.or_false]
      · split
        · rw [has_era, h']; simp
        · rfl
  | load r q => exact has_copy c r q w
  | gep r q => exact has_copy c r q w
  | cast r q => exact has_copy c r q w
  | _ => rfl

theorem has_call (p : Prog) (n f : Nat) (c : Facts) (w : Nat) :
    has (p.callFlow n f c) w = true ↔ ∃ a, (w, a) ∈ p.bind n f ∧ has c a = true := by
  rw [Prog.callFlow, has_insAll, has_zero, Bool.false_or, List.contains_iff_mem, List.mem_map]
  constructor
  · rintro ⟨⟨q, a⟩, h, rfl⟩
    rw [List.mem_filter] at h
    exact ⟨a, h⟩
  · rintro ⟨a, h⟩
    exact ⟨(w, a), List.mem_filter.2 h, rfl⟩

theorem has_return (p : Prog) (n f e : Nat) (c : Facts) (w : Nat) :
    has (p.returnFlow n f e c) w = true ↔
      (∃ v as, p.inst e = .ret (some v) ∧ p.inst n = .call w as ∧ has c v = true) ∨
      ∃ q, (q, w) ∈ p.bind n f ∧ p.isPtr q = true ∧ has c q = true := by
  rw [Prog.returnFlow, has_insAll, Bool.or_eq_true_iff, List.contains_iff_mem, List.mem_map]
  refine or_congr ?_ ?_
  · constructor
    · split
      · rename_i v r as he hn
        split
        · rename_i hv
          rw [has_ins, has_zero, Bool.false_or, beq_iff_eq]
          rintro rfl
          exact ⟨v, as, he, hn, hv⟩
        · rw [has_zero]; exact nofun
      · rw [has_zero]; exact nofun
    · rintro ⟨v, as, he, hn, hv⟩
      simp only [he, hn, hv, if_true, has_ins, beq_self_eq_true, Bool.or_true]
  · constructor
    · rintro ⟨⟨q, a⟩, h, rfl⟩
      rw [List.mem_filter, Bool.and_eq_true_iff] at h
      exact ⟨q, h⟩
    · rintro ⟨q, h⟩
      exact ⟨(q, w), List.mem_filter.2 ⟨h.1, by simp [h.2]⟩, rfl⟩

theorem has_gen (p : Prog) (n : Nat) (fs : List Nat) (w : Nat) :
    has (p.gen n fs) w = true ↔ ∃ f ∈ fs, w ∈ p.collectGen n f := by
  have key : ∀ (fs : List Nat) (c : Facts), has (fs.foldl (fun g f => insAll g (p.collectGen n f)) c) w = true ↔
      has c w = true ∨ ∃ f ∈ fs, w ∈ p.collectGen n f := by
    intro fs
    induction fs with
    | nil => simp
    | cons f fs ih =>
      intro c
      rw [List.foldl_cons, ih, has_insAll, Bool.or_eq_true_iff, List.contains_iff_mem]
      simp [or_assoc]
  rw [Prog.gen, key, has_zero]
  simp

theorem has_kill (p : Prog) (n : Nat) (fs : List Nat) (w : Nat) :
    has (p.kill n fs) w = true ↔ fs ≠ [] ∧ ∀ f ∈ fs, w ∈ p.collectSani n f := by
  cases fs with
  | nil => simp [Prog.kill, has_zero]
  | cons f fs =>
    have key : ∀ (fs : List Nat) (c : Facts),
        has (fs.foldl (fun k g => k &&& insAll 0 (p.collectSani n g)) c) w = true ↔
        has c w = true ∧ ∀ f ∈ fs, w ∈ p.collectSani n f := by
      intro fs
      induction fs with
      | nil => simp
      | cons f fs ih =>
        intro c
        rw [List.foldl_cons, ih, has_and, Bool.and_eq_true_iff, has_insAll, has_zero, Bool.false_or, List.contains_iff_mem]
        simp [and_assoc]
    rw [Prog.kill, key, has_insAll, has_zero, Bool.false_or, List.contains_iff_mem]
    simp

theorem has_ctr (p : Prog) (n : Nat) (fs : List Nat) (c : Facts) (w : Nat) :
    has (p.ctrFlow n fs c) w = true ↔ has (p.gen n fs) w = true ∨
      (has c w = true ∧ has (p.kill n fs) w = false ∧
        (p.gen n fs = 0 → p.kill n fs = 0 → w ∈ p.args n → p.isPtr w = false)) := by
  rw [Prog.ctrFlow]
  split
  · rename_i h
    rw [has_eraAll, has_or, has_minus, h.1, h.2, has_zero]
    simp [List.mem_filter]
    exact fun _ => Decidable.imp_iff_not_or.symm
  · rename_i h
    rw [has_or, has_minus]
    cases hg : has (p.gen n fs) w with
    | true => simp
    | false =>
      simp only [Bool.or_false, Bool.and_eq_true_iff, Bool.not_eq_true', Bool.false_eq_true, false_or]
      refine and_congr_right fun _ => ⟨fun hk => ⟨hk, fun h1 h2 => absurd ⟨h1, h2⟩ h⟩, fun h => h.1⟩

/-- Exactly the facts that the flow functions let through, kill and generate.  A store makes its pointer a fact if and only if the stored
value is one; loads, address computations and casts add their result if the operand is a fact; callees get the parameters whose operands
are facts; callers get the call, if the returned value is a fact, and the operands of pointer parameters that are facts; beside the call,
facts survive unless all callees sanitize them, or unless they are pointers given to a call that generates and sanitizes nothing. -/
theorem C83_flows (p : Prog) (c : Facts) (w : Nat) :
    (∀ n v q, p.inst n = .store v q →
      (has (p.normalFlow n c) w = true ↔ (w = q ∧ has c v = true) ∨ (w ≠ q ∧ has c w = true))) ∧
    (∀ n r q, p.inst n = .load r q ∨ p.inst n = .gep r q ∨ p.inst n = .cast r q →
      (has (p.normalFlow n c) w = true ↔ has c w = true ∨ (w = r ∧ has c q = true))) ∧
    (∀ n, (∀ v q, p.inst n ≠ .store v q) → (∀ r q, p.inst n ≠ .load r q ∧ p.inst n ≠ .gep r q ∧ p.inst n ≠ .cast r q) →
      p.normalFlow n c = c) ∧
    (∀ n f, has (p.callFlow n f c) w = true ↔
      ∃ (i a : Nat), (p.params f)[i]? = some w ∧ (p.args n)[i]? = some a ∧ has c a = true) ∧
    (∀ n f e, has (p.returnFlow n f e c) w = true ↔
      (∃ v as, p.inst e = .ret (some v) ∧ p.inst n = .call w as ∧ has c v = true) ∨
      ∃ (i q : Nat), (p.params f)[i]? = some q ∧ (p.args n)[i]? = some w ∧ p.isPtr q = true ∧ has c q = true) ∧
    (∀ n fs, has (p.ctrFlow n fs c) w = true ↔
      (∃ f ∈ fs, w ∈ p.collectGen n f) ∨
      (has c w = true ∧ ¬ (fs ≠ [] ∧ ∀ f ∈ fs, w ∈ p.collectSani n f) ∧
        ¬ ((∀ f ∈ fs, p.collectGen n f = []) ∧ (¬ ∃ v, fs ≠ [] ∧ ∀ f ∈ fs, v ∈ p.collectSani n f) ∧ w ∈ p.args n ∧
          p.isPtr w = true))) := by
  have hbind : ∀ n f (q a : Nat), (q, a) ∈ p.bind n f ↔ ∃ i : Nat, (p.params f)[i]? = some q ∧ (p.args n)[i]? = some a := by
    intro n f q a
    rw [Prog.bind, List.mem_iff_getElem?]
    refine exists_congr fun i => ?_
    rw [List.getElem?_zip_eq_some]
  have hempty : ∀ a : Facts, a = 0 ↔ ∀ v, ¬ has a v = true :=
    fun a => ⟨fun h v => by rw [h, has_zero]; exact nofun, fun h => ext fun v => by rw [has_zero]; simpa using h v⟩
  refine ⟨fun n v q hi => ?_, fun n r q hi => ?_, fun n h1 h2 => ?_, fun n f => ?_, fun n f e => ?_, fun n fs => ?_⟩
  · rw [has_normal, hi]
    by_cases h : w = q <;> simp [h]
  · rw [has_normal]
    rcases hi with hi | hi | hi <;> rw [hi] <;> simp
  · unfold Prog.normalFlow
    split
    · rename_i v q hi; exact absurd hi (h1 v q)
    · rename_i r q hi; exact absurd hi (h2 r q).1
    · rename_i r q hi; exact absurd hi (h2 r q).2.1
    · rename_i r q hi; exact absurd hi (h2 r q).2.2
    · rfl
  · rw [has_call]
    constructor
    · rintro ⟨a, h, hc⟩
      obtain ⟨i, h1, h2⟩ := (hbind ..).1 h
      exact ⟨i, a, h1, h2, hc⟩
    · rintro ⟨i, a, h1, h2, hc⟩
      exact ⟨a, (hbind ..).2 ⟨i, h1, h2⟩, hc⟩
  · rw [has_return]
    refine or_congr Iff.rfl ?_
    constructor
    · rintro ⟨q, h, hc⟩
      obtain ⟨i, h1, h2⟩ := (hbind ..).1 h
      exact ⟨i, q, h1, h2, hc⟩
    · rintro ⟨i, q, h1, h2, hc⟩
      exact ⟨q, (hbind ..).2 ⟨i, h1, h2⟩, hc⟩
  · rw [has_ctr, has_gen, hempty, hempty]
    have hk : has (p.kill n fs) w = false ↔ ¬ (fs ≠ [] ∧ ∀ f ∈ fs, w ∈ p.collectSani n f) := by
      rw [← has_kill]; simp
    rw [hk]
    refine or_congr Iff.rfl (and_congr_right fun _ => and_congr_right fun _ => ?_)
    have hg : (∀ v, ¬ has (p.gen n fs) v = true) ↔ ∀ f ∈ fs, p.collectGen n f = [] := by
      constructor
      · intro h f hf
        refine List.eq_nil_iff_forall_not_mem.2 fun v hv => h v ((has_gen ..).2 ⟨f, hf, hv⟩)
      · intro h v hv
        obtain ⟨f, hf, hv⟩ := (has_gen ..).1 hv
        rw [h f hf] at hv
        cases hv
    have hk0 : (∀ v, ¬ has (p.kill n fs) v = true) ↔ ¬ ∃ v, fs ≠ [] ∧ ∀ f ∈ fs, v ∈ p.collectSani n f := by
      constructor
      · rintro h ⟨v, hv⟩; exact h v ((has_kill ..).2 hv)
      · intro h v hv; exact h ⟨v, (has_kill ..).1 hv⟩
    rw [hg, hk0]
    constructor
    · rintro h ⟨h1, h2, h3, h4⟩
      rw [h h1 h2 h3] at h4
      cases h4
    · intro h h1 h2 h3
      cases hp : p.isPtr w with
      | false => rfl
      | true => exact absurd ⟨h1, h2, h3, hp⟩ h

/-- What the configuration names: `w` is generated by a call of `f` if the callback says so, if the call itself is a source, or if it is the
operand of a source parameter; leaked if the callback says so or if it is the operand of a sink parameter; sanitized if it is the operand
of a sanitizing parameter. -/
theorem C83_config (p : Prog) (n f w : Nat) :
    (w ∈ p.collectGen n f ↔ (∃ g, p.srcCB = some g ∧ w ∈ g n) ∨ (∃ as, p.inst n = .call w as ∧ p.isSource w = true) ∨
      ∃ (i q : Nat), (p.params f)[i]? = some q ∧ (p.args n)[i]? = some w ∧ p.isSource q = true) ∧
    (w ∈ p.collectLeak n f ↔ (∃ g, p.sinkCB = some g ∧ w ∈ g n) ∨
      ∃ (i q : Nat), (p.params f)[i]? = some q ∧ (p.args n)[i]? = some w ∧ p.isSink q = true) ∧
    (w ∈ p.collectSani n f ↔ ∃ (i q : Nat), (p.params f)[i]? = some q ∧ (p.args n)[i]? = some w ∧ p.isSani q = true) := by
  have hw : ∀ q : Nat → Bool, w ∈ p.argsWith q n f ↔
      ∃ (i r : Nat), (p.params f)[i]? = some r ∧ (p.args n)[i]? = some w ∧ q r = true := by
    intro q
    rw [Prog.argsWith, List.mem_map]
    constructor
    · rintro ⟨⟨r, a⟩, h, rfl⟩
      rw [List.mem_filter, Prog.bind, List.mem_iff_getElem?] at h
      obtain ⟨⟨i, hi⟩, hq⟩ := h
      rw [List.getElem?_zip_eq_some] at hi
      exact ⟨i, r, hi.1, hi.2, hq⟩
    · rintro ⟨i, r, h1, h2, hq⟩
      refine ⟨(r, w), List.mem_filter.2 ⟨List.mem_iff_getElem?.2 ⟨i, ?_⟩, hq⟩, rfl⟩
      rw [Prog.bind, List.getElem?_zip_eq_some]
      exact ⟨h1, h2⟩
  refine ⟨?_, ?_, hw _⟩
  · rw [Prog.collectGen, List.mem_append, List.mem_append, hw, or_assoc]
    refine or_congr ?_ (or_congr ?_ Iff.rfl)
    · cases p.srcCB <;> simp
    · cases p.inst n with
      | call r as =>
        by_cases h : p.isSource r = true
        · simp only [h, if_true, List.mem_singleton]
          constructor
          · rintro rfl; exact ⟨as, rfl, h⟩
          · rintro ⟨_, e, _⟩; cases e; rfl
        · simp only [h]
          constructor
          · intro h; cases h
          · rintro ⟨_, e, h'⟩; cases e; exact absurd h' h
      | _ => simp
  · rw [Prog.collectLeak, List.mem_append, hw]
    refine or_congr ?_ Iff.rfl
    cases p.sinkCB <;> simp

/-- All four flow functions distribute over the union of facts: the analysis loses no precision by merging. -/
theorem C83_distributive (p : Prog) (a b : Facts) :
    (∀ n, p.normalFlow n (a ||| b) = p.normalFlow n a ||| p.normalFlow n b) ∧
    (∀ n f, p.callFlow n f (a ||| b) = p.callFlow n f a ||| p.callFlow n f b) ∧
    (∀ n f e, p.returnFlow n f e (a ||| b) = p.returnFlow n f e a ||| p.returnFlow n f e b) ∧
    ∀ n fs, p.ctrFlow n fs (a ||| b) = p.ctrFlow n fs a ||| p.ctrFlow n fs b := by
  refine ⟨fun n => ext fun w => ?_, fun n f => ext fun w => ?_, fun n f e => ext fun w => ?_, fun n fs => ext fun w => ?_⟩
  · rw [has_or, has_normal, has_normal, has_normal]
    cases p.inst n with
    | store v q => dsimp only; split <;> rw [has_or]
    | load r q | gep r q | cast r q =>
      simp only [has_or]
      cases has a w <;> cases has b w <;> cases (w == r) <;> cases has a q <;> rfl
    | _ => exact has_or a b w
  · rw [Bool.eq_iff_iff, has_or, Bool.or_eq_true_iff, has_call, has_call, has_call, ← exists_or]
    refine exists_congr fun x => ?_
    rw [has_or, Bool.or_eq_true_iff, and_or_left]
  · rw [Bool.eq_iff_iff, has_or, Bool.or_eq_true_iff, has_return, has_return, has_return]
    simp only [has_or, Bool.or_eq_true_iff]
    constructor
    · rintro (⟨v, as, he, hn, h | h⟩ | ⟨q, h1, h2, h | h⟩)
      · exact .inl (.inl ⟨v, as, he, hn, h⟩)
      · exact .inr (.inl ⟨v, as, he, hn, h⟩)
      · exact .inl (.inr ⟨q, h1, h2, h⟩)
      · exact .inr (.inr ⟨q, h1, h2, h⟩)
    · rintro ((⟨v, as, he, hn, h⟩ | ⟨q, h1, h2, h⟩) | (⟨v, as, he, hn, h⟩ | ⟨q, h1, h2, h⟩))
      · exact .inl ⟨v, as, he, hn, .inl h⟩
      · exact .inr ⟨q, h1, h2, .inl h⟩
      · exact .inl ⟨v, as, he, hn, .inr h⟩
      · exact .inr ⟨q, h1, h2, .inr h⟩
  · rw [Bool.eq_iff_iff, has_or, Bool.or_eq_true_iff, has_ctr, has_ctr, has_ctr, has_or, Bool.or_eq_true_iff]
    constructor
    · rintro (h | ⟨h | h, h2⟩)
      · exact .inl (.inl h)
      · exact .inl (.inr ⟨h, h2⟩)
      · exact .inr (.inr ⟨h, h2⟩)
    · rintro ((h | ⟨h, h2⟩) | (h | ⟨h, h2⟩))
      · exact .inl h
      · exact .inr ⟨.inl h, h2⟩
      · exact .inl h
      · exact .inr ⟨.inr h, h2⟩

/-- The problem has union-like sets and monotone flows, as the theorems about the solver (C24) ask for. -/
theorem C83_monotone (p : Prog) : C24.Mono p.prob where
  assoc := Nat.or_assoc
  comm := Nat.or_comm
  idem := Nat.or_self
  ins_merge _ _ := rfl
  dflt_least a := Nat.zero_or a
  normal n a b h := by
    have h : a ||| b = b := h
    show p.normalFlow n a ||| p.normalFlow n b = p.normalFlow n b
    rw [← (C83_distributive p a b).1, h]
  call n f a b h := by
    have h : a ||| b = b := h
    show p.callFlow n f a ||| p.callFlow n f b = p.callFlow n f b
    rw [← (C83_distributive p a b).2.1, h]
  ret n f e r a b h := by
    have h : a ||| b = b := h
    show p.returnFlow n f e a ||| p.returnFlow n f e b = p.returnFlow n f e b
    rw [← (C83_distributive p a b).2.2.1, h]
  ctr n d fs a b h := by
    have h : a ||| b = b := h
    show p.ctrFlow n fs a ||| p.ctrFlow n fs b = p.ctrFlow n fs b
    rw [← (C83_distributive p a b).2.2.2, h]

/-! ## Executions -/

/-- Specification: what is tainted while a function runs: its values, and the contents of memory cells. -/
structure Frame where
  reg : Nat → Bool
  mem : Nat → Bool

/-- Specification: memory.  `cell v` is the cell that the pointer value `v` points to; cells for which `glob` holds are shared by all
functions. -/
structure Mem where
  cell : Nat → Nat
  glob : Nat → Bool

variable (p : Prog) (M : Mem)

/-- Specification: changing a function at one place. -/
def upd (f : Nat → Bool) (i : Nat) (b : Bool) : Nat → Bool := fun j => if j = i then b else f j

/-- Specification: the effect of an instruction on what is tainted. -/
def Frame.exec (fr : Frame) : Inst → Frame
  | .store v q => { fr with mem := upd fr.mem (M.cell q) (fr.reg v) }
  | .load r q => { fr with reg := upd fr.reg r (fr.mem (M.cell q)) }
  | .gep r q => { fr with reg := upd fr.reg r (fr.reg q) }
  | .cast r v => { fr with reg := upd fr.reg r (fr.reg v) }
  | .op r vs => { fr with reg := upd fr.reg r (vs.any fr.reg) }
  | _ => fr

/-- Specification: the first frame of a callee: its parameters are as tainted as the operands are, the cells its pointer parameters lead
to as those of the operands. -/
def enter (fr : Frame) (n f : Nat) : Frame where
  reg v := (p.bind n f).any fun x => x.1 == v && fr.reg x.2
  mem c := M.glob c && fr.mem c || (p.bind n f).any fun x => M.cell x.1 == c && p.isPtr x.1 && fr.mem (M.cell x.2)

/-- Specification: what a call of `f` does by its configuration: sanitized operands are no longer tainted, generated facts are; a generated
pointer means the contents of its cell. -/
def configured (fr : Frame) (n f : Nat) : Frame where
  reg v := (p.collectGen n f).any (fun g => !p.isPtr g && g == v) || (fr.reg v && !(p.collectSani n f).contains v)
  mem c := (p.collectGen n f).any (fun g => p.isPtr g && M.cell g == c) ||
    (fr.mem c && !(p.collectSani n f).any fun a => M.cell a == c)

/-- Specification: the frame of the caller after a return: the call has the value that is returned, the cells that pointer operands lead
to have the contents the callee left there. -/
def leave (fr callee : Frame) (n f e : Nat) : Frame :=
  match p.inst n with
  | .call r _ =>
    { reg := upd fr.reg r (match p.inst e with | .ret (some v) => callee.reg v | _ => false)
      mem := fun c =>
        if M.glob c then callee.mem c
        else if (p.bind n f).any fun x => p.isPtr x.1 && M.cell x.2 == c then
          (p.bind n f).any fun x => p.isPtr x.1 && M.cell x.2 == c && callee.mem (M.cell x.1)
        else if M.cell r = c then (match p.inst e with | .ret (some v) => callee.mem (M.cell v) | _ => false)
        else fr.mem c }
  | _ => fr

/-- Specification: executions, with the call sites, callees and frames that have not been returned from, innermost first.  Executions
begin in `main` with any of its parameters that are no pointers, and any of the contents its parameters point to, tainted.  A function that is only declared, and a call that
the call graph has no callee for, change nothing but what the configuration says. -/
inductive Exec : Nat → Frame → List (Nat × Nat × Frame) → Prop
  | start {m s fr} : p.main = some m → (p.starts m).head? = some s → (∀ v, fr.reg v = true → v ∈ p.params m ∧ p.isPtr v = false) →
      (∀ c, fr.mem c = true → ∃ v ∈ p.params m, M.cell v = c) → Exec s fr []
  | normal {n d fr st} : Exec n fr st → p.isCall n = false → p.isExit n = false → d ∈ p.succs n →
      Exec d (fr.exec M (p.inst n)) st
  | call {n f s fr st} : Exec n fr st → p.isCall n = true → f ∈ p.callees n → s ∈ p.starts f →
      Exec s (enter p M fr n f) ((n, f, fr) :: st)
  | ret {e n f r fr fr' v st} : Exec e fr' ((n, f, fr) :: st) → p.inst e = .ret v → p.funOf e = f → r ∈ p.retSites n →
      Exec r (configured p M (leave p M fr fr' n f e) n f) st
  | decl {n f r fr st} : Exec n fr st → p.isCall n = true → f ∈ p.callees n → p.starts f = [] → r ∈ p.retSites n →
      Exec r (configured p M fr n f) st
  | unknown {n r fr st} : Exec n fr st → p.isCall n = true → p.callees n = [] → r ∈ p.retSites n → Exec r fr st

/-- Specification: the value or what it points to is tainted. -/
def Tainted (fr : Frame) (v : Nat) : Prop := fr.reg v = true ∨ fr.mem (M.cell v) = true

/-- Specification: what the analysis needs to be right.  `op`, `ptr`, `cell`, `glob` and `keep` are all necessary
(`C83_op_false`, `C83_pointer_false`, `C83_alias_false`, `C83_global_false`, `C83_declaration_false`, `C83_vararg_false`). -/
structure Fit : Prop where
  /-- Tainted values are only moved and stored, not computed with. -/
  op : ∀ n fr st r vs, Exec p M n fr st → p.inst n = .op r vs → vs.any fr.reg = false
  /-- Pointers are not tainted themselves, only what they point to. -/
  ptr : ∀ n fr st v, Exec p M n fr st → p.isPtr v = true → fr.reg v = false
  /-- Stores have pointer operands. -/
  store : ∀ n v q, p.inst n = .store v q → p.isPtr q = true
  /-- Different pointers lead to different cells. -/
  cell : ∀ v w, M.cell v = M.cell w → v = w
  /-- No pointer leads to a cell that is shared with other functions. -/
  glob : ∀ v, M.glob (M.cell v) = false
  /-- A pointer that is passed to a call without sources and without sanitizers is only passed to pointer parameters of functions with a
  body. -/
  keep : ∀ n, p.isCall n = true → p.gen n (p.callees n) = 0 → p.kill n (p.callees n) = 0 → ∀ a ∈ p.args n, p.isPtr a = true →
    p.callees n ≠ [] ∧ ∀ f ∈ p.callees n, p.starts f ≠ [] ∧ ∃ q, (q, a) ∈ p.bind n f ∧ p.isPtr q = true

/-- The call sites of a stack, innermost last. -/
def C83.sites (st : List (Nat × Nat × Frame)) : List Nat := (st.map (·.1)).reverse

/-- What is tainted is a fact of some realizable path. -/
def C83.Cov (n : Nat) (fr : Frame) (st : List Nat) : Prop :=
  (∃ c, Reach p.prob n st c) ∧ ∀ v, Tainted M fr v → ∃ c, Reach p.prob n st c ∧ has c v = true

/-- The same for all frames. -/
inductive C83.Stk : List (Nat × Nat × Frame) → Prop
  | nil : C83.Stk []
  | cons {n f fr st} : p.isCall n = true → f ∈ p.callees n → p.starts f ≠ [] → (∀ v, p.isPtr v = true → fr.reg v = false) →
      C83.Cov p M n fr (C83.sites st) → C83.Stk st → C83.Stk ((n, f, fr) :: st)

variable {p M}

theorem C83.cov_normal (h : Fit p M) {n d fr st} (he : Exec p M n fr st) (hc : p.isCall n = false) (hx : p.isExit n = false)
    (hd : d ∈ p.succs n) (ih : C83.Cov p M n fr (C83.sites st)) :
    C83.Cov p M d (fr.exec M (p.inst n)) (C83.sites st) := by
  obtain ⟨⟨c0, h0⟩, ih⟩ := ih
  refine ⟨⟨_, h0.normal hc hx hd⟩, fun w hw => ?_⟩
  -- a fact from which `w` flows
  suffices hs : ∃ v, Tainted M fr v ∧ ∀ c, has c v = true → has (p.normalFlow n c) w = true by
    obtain ⟨v, hv, hf⟩ := hs
    obtain ⟨c, hr, hc'⟩ := ih v hv
    exact ⟨_, hr.normal hc hx hd, hf c hc'⟩
  have keep : Tainted M fr w → (∀ v q, p.inst n = .store v q → w ≠ q) →
      ∃ v, Tainted M fr v ∧ ∀ c, has c v = true → has (p.normalFlow n c) w = true := by
    intro hw hq
    refine ⟨w, hw, fun c hc => ?_⟩
    rw [has_normal]
    split
    · rename_i v q hi; rw [if_neg (hq v q hi)]; exact hc
    all_goals simp [hc]
  cases hi : p.inst n with
  | store v q =>
    rw [hi] at hw
    by_cases hwq : w = q
    · subst hwq
      refine ⟨v, ?_, fun c hc => by rw [has_normal, hi]; simp [hc]⟩
      rcases hw with hw | hw
      · have : fr.reg w = true := hw
        rw [h.ptr n fr st w he (h.store n v w hi)] at this
        cases this
      · refine .inl ?_
        simpa [Frame.exec, upd] using hw
    · refine keep ?_ (fun v' q' hi' => by rw [hi] at hi'; cases hi'; exact hwq)
      rcases hw with hw | hw
      · exact .inl hw
      · refine .inr ?_
        have : M.cell w ≠ M.cell q := fun e => hwq (h.cell _ _ e)
        simpa [Frame.exec, upd, this] using hw
  | load r q =>
    rw [hi] at hw
    by_cases hwr : w = r
    · subst hwr
      rcases hw with hw | hw
      · refine ⟨q, .inr ?_, fun c hc => by rw [has_normal, hi]; simp [hc]⟩
        simpa [Frame.exec, upd] using hw
      · exact keep (.inr hw) (fun _ _ hi' => by rw [hi] at hi'; cases hi')
    · refine keep ?_ (fun _ _ hi' => by rw [hi] at hi'; cases hi')
      rcases hw with hw | hw
      · exact .inl (by simpa [Frame.exec, upd, hwr] using hw)
      · exact .inr hw
  | gep r q | cast r q =>
    rw [hi] at hw
    by_cases hwr : w = r
    · subst hwr
      rcases hw with hw | hw
      · refine ⟨q, .inl ?_, fun c hc => by rw [has_normal, hi]; simp [hc]⟩
        simpa [Frame.exec, upd] using hw
      · exact keep (.inr hw) (fun _ _ hi' => by rw [hi] at hi'; cases hi')
    · refine keep ?_ (fun _ _ hi' => by rw [hi] at hi'; cases hi')
      rcases hw with hw | hw
      · exact .inl (by simpa [Frame.exec, upd, hwr] using hw)
      · exact .inr hw
  | op r vs =>
    rw [hi] at hw
    refine keep ?_ (fun _ _ hi' => by rw [hi] at hi'; cases hi')
    rcases hw with hw | hw
    · by_cases hwr : w = r
      · have : vs.any fr.reg = true := by simpa only [Frame.exec, upd, if_pos hwr] using hw
        rw [h.op n fr st r vs he hi] at this
        cases this
      · exact .inl (by simpa only [Frame.exec, upd, if_neg hwr] using hw)
    · exact .inr hw
  | _ =>
    rw [hi] at hw
    exact keep hw (fun _ _ hi' => by rw [hi] at hi'; cases hi')

theorem C83.cov_call (h : Fit p M) {n f s fr st} (hc : p.isCall n = true) (hf : f ∈ p.callees n) (hs : s ∈ p.starts f)
    (ih : C83.Cov p M n fr st) : C83.Cov p M s (enter p M fr n f) (st ++ [n]) := by
  obtain ⟨⟨c0, h0⟩, ih⟩ := ih
  refine ⟨⟨_, h0.call hc hf hs⟩, fun w hw => ?_⟩
  suffices hs' : ∃ a, (w, a) ∈ p.bind n f ∧ Tainted M fr a by
    obtain ⟨a, ha, ht⟩ := hs'
    obtain ⟨c, hr, hc'⟩ := ih a ht
    exact ⟨_, hr.call hc hf hs, (has_call p n f c w).2 ⟨a, ha, hc'⟩⟩
  rcases hw with hw | hw
  · simp only [enter, List.any_eq_true, Bool.and_eq_true_iff, beq_iff_eq] at hw
    obtain ⟨⟨q, a⟩, hm, rfl, hr⟩ := hw
    exact ⟨a, hm, .inl hr⟩
  · simp only [enter, h.glob, Bool.false_and, Bool.false_or, List.any_eq_true, Bool.and_eq_true_iff, beq_iff_eq] at hw
    obtain ⟨⟨q, a⟩, hm, ⟨he, _⟩, hr⟩ := hw
    cases h.cell _ _ he
    exact ⟨a, hm, .inr hr⟩

/-- What the configuration of `f` leaves or makes tainted after the call. -/
theorem C83.cov_configured (h : Fit p M) {n f r fr fr0 st} (hc : p.isCall n = true) (hf : f ∈ p.callees n) (hr : r ∈ p.retSites n)
    (h0 : C83.Cov p M n fr0 st) (hp : ∀ v, p.isPtr v = true → fr0.reg v = false)
    (hfr : ∀ v, Tainted M fr v → v ∉ p.collectSani n f → (∃ c, Reach p.prob r st c ∧ has c v = true) ∨
      (fr0.reg v = true ∨ (fr0.mem (M.cell v) = true ∧ (p.isPtr v = true → v ∈ p.args n →
        ¬ (p.starts f ≠ [] ∧ ∃ q, (q, v) ∈ p.bind n f ∧ p.isPtr q = true))))) :
    C83.Cov p M r (configured p M fr n f) st := by
  obtain ⟨⟨c0, hc0⟩, h0⟩ := h0
  refine ⟨⟨_, hc0.ctr hc hr⟩, fun v hv => ?_⟩
  by_cases hg : v ∈ p.collectGen n f
  · exact ⟨_, hc0.ctr hc hr, (has_ctr ..).2 (.inl ((has_gen ..).2 ⟨f, hf, hg⟩))⟩
  have hv' : Tainted M fr v ∧ v ∉ p.collectSani n f := by
    rcases hv with hv | hv
    · simp only [configured, Bool.or_eq_true_iff, List.any_eq_true, Bool.and_eq_true_iff, beq_iff_eq, Bool.not_eq_true',
        List.contains_eq_mem, decide_eq_false_iff_not] at hv
      rcases hv with ⟨g, hm, _, rfl⟩ | hv
      · exact absurd hm hg
      · exact ⟨.inl hv.1, hv.2⟩
    · simp only [configured, Bool.or_eq_true_iff, List.any_eq_true, Bool.and_eq_true_iff, beq_iff_eq, Bool.not_eq_true',
        List.any_eq_false] at hv
      rcases hv with ⟨g, hm, _, he⟩ | hv
      · cases h.cell _ _ he; exact absurd hm hg
      · exact ⟨.inr hv.1, fun hm => hv.2 v hm rfl⟩
  rcases hfr v hv'.1 hv'.2 with h1 | h1
  · exact h1
  obtain ⟨c, hr', hcv⟩ := h0 v (h1.imp id And.left)
  refine ⟨_, hr'.ctr hc hr, (has_ctr ..).2 (.inr ⟨hcv, ?_, fun hg0 hk0 ha => ?_⟩)⟩
  · cases hk : has (p.kill n (p.callees n)) v with
    | false => exact hk
    | true => exact absurd (((has_kill ..).1 hk).2 f hf) hv'.2
  · cases hpv : p.isPtr v with
    | false => rfl
    | true =>
      rcases h1 with h1 | ⟨_, h1⟩
      · rw [hp v hpv] at h1; cases h1
      · exact absurd ((h.keep n hc hg0 hk0 v ha hpv).2 f hf) (h1 hpv ha)

theorem C83.sites_cons (n f : Nat) (fr : Frame) (st : List (Nat × Nat × Frame)) :
    C83.sites ((n, f, fr) :: st) = C83.sites st ++ [n] := by simp [C83.sites]

theorem C83.cov (h : Fit p M) {n fr st} (he : Exec p M n fr st) : C83.Cov p M n fr (C83.sites st) ∧ C83.Stk p M st := by
  induction he with
  | @start m s fr hm hs hr hmem =>
    have hseed : (s, insAll 0 (p.params m)) ∈ p.prob.seeds := by simp [Prog.prob, Prog.seeds, hm, hs]
    refine ⟨⟨⟨_, .seed hseed⟩, fun v hv => ⟨_, .seed hseed, ?_⟩⟩, .nil⟩
    rw [has_insAll, has_zero, Bool.false_or, List.contains_iff_mem]
    rcases hv with hv | hv
    · exact (hr v hv).1
    · obtain ⟨w, hw, e⟩ := hmem _ hv
      cases h.cell _ _ e
      exact hw
  | normal he hc hx hd ih => exact ⟨C83.cov_normal h he hc hx hd ih.1, ih.2⟩
  | @call n f s fr st he hc hf hs ih =>
    rw [C83.sites_cons]
    exact ⟨C83.cov_call h hc hf hs ih.1, .cons hc hf (List.ne_nil_of_mem hs) (fun v => h.ptr n fr st v he) ih.1 ih.2⟩
  | @ret e n f r fr fr' rv st he hrt hfun hr ih =>
    obtain ⟨⟨⟨c1, hc1⟩, ihe⟩, hst⟩ := ih
    cases hst with
    | cons hc hf hbody hp hcov hst =>
    refine ⟨C83.cov_configured h hc hf hr hcov hp fun v hv _ => ?_, hst⟩
    have hexit : p.prob.isExit e = true := by simp [Prog.prob, Prog.isExit, hrt]
    rw [C83.sites_cons] at ihe
    have back : ∀ q, Tainted M fr' q → (∀ c, has c q = true → has (p.returnFlow n f e c) v = true) →
        ∃ c, Reach p.prob r (C83.sites st) c ∧ has c v = true := by
      intro q hq hflow
      obtain ⟨c, hrc, hcq⟩ := ihe q hq
      have := hrc.ret hexit hr
      refine ⟨_, this, ?_⟩
      show has (p.returnFlow n (p.funOf e) e c) v = true
      rw [hfun]
      exact hflow c hcq
    cases hn : p.inst n with
    | call x as =>
      rcases hv with hv | hv
      · simp only [leave, hn, upd] at hv
        split at hv
        · rename_i hvx
          subst hvx
          split at hv
          · rename_i w hi
            exact .inl (back w (.inl hv) fun c hcw => (has_return ..).2 (.inl ⟨w, as, hi, hn, hcw⟩))
          · cases hv
        · exact .inr (.inl hv)
      · simp only [leave, hn, h.glob, Bool.false_eq_true, if_false] at hv
        split at hv
        · rw [List.any_eq_true] at hv
          obtain ⟨⟨q, a⟩, hm, hv⟩ := hv
          simp only [Bool.and_eq_true_iff, beq_iff_eq] at hv
          cases h.cell _ _ hv.1.2
          exact .inl (back q (.inr hv.2) fun c hcq => (has_return ..).2 (.inr ⟨q, hm, hv.1.1, hcq⟩))
        · rename_i hnb
          split at hv
          · rename_i hx
            cases h.cell _ _ hx
            split at hv
            · rename_i w hi
              exact .inl (back w (.inr hv) fun c hcw => (has_return ..).2 (.inl ⟨w, as, hi, hn, hcw⟩))
            · cases hv
          · refine .inr (.inr ⟨hv, fun _ _ hq => ?_⟩)
            obtain ⟨_, q, hm, hq⟩ := hq
            exact hnb (List.any_eq_true.2 ⟨(q, v), hm, by simp [hq]⟩)
    | _ => simp [Prog.isCall, hn] at hc
  | @decl n f r fr st he hc hf hs hr ih =>
    refine ⟨C83.cov_configured h hc hf hr ih.1 (fun v => h.ptr n fr st v he) fun v hv _ => .inr ?_, ih.2⟩
    exact hv.imp id fun hv => ⟨hv, fun _ _ hb => hb.1 hs⟩
  | @unknown n r fr st he hc hf hr ih =>
    obtain ⟨⟨⟨c0, h0⟩, ih⟩, hst⟩ := ih
    refine ⟨⟨⟨_, h0.ctr hc hr⟩, fun v hv => ?_⟩, hst⟩
    obtain ⟨c, hrc, hcv⟩ := ih v hv
    have hctr := hrc.ctr hc hr
    refine ⟨_, hctr, ?_⟩
    show has (p.ctrFlow n (p.callees n) c) v = true
    rw [has_ctr]
    refine .inr ⟨hcv, by rw [hf]; exact has_zero v, fun hg hk ha => ?_⟩
    cases hpv : p.isPtr v with
    | false => rfl
    | true => exact absurd hf (h.keep n hc hg hk v ha hpv).1

/-- Soundness, partial: of a fit program (`Fit`), every value that is tainted in an execution is a fact along a realizable path to the
same instruction with the same open calls.  Missing: programs that are not fit, see the theorems named at `Fit`. -/
theorem C83_sound_partial (h : Fit p M) {n fr st} (he : Exec p M n fr st) (v : Nat) (hv : Tainted M fr v) :
    ∃ c, Reach p.prob n ((st.map (·.1)).reverse) c ∧ has c v = true :=
  (C83.cov h he).1.2 v hv

/-- The reported leaks, partial (see `C83_sound_partial`): if a tainted value arrives at a sink, `callToRetFlow` records it as a leak for
the facts of some realizable path. -/
theorem C83_leak_partial (h : Fit p M) {n fr st f} (he : Exec p M n fr st) (hf : f ∈ p.callees n) (v : Nat)
    (hl : v ∈ p.collectLeak n f) (hv : Tainted M fr v) :
    ∃ c, Reach p.prob n ((st.map (·.1)).reverse) c ∧ v ∈ p.leaks n (p.callees n) c := by
  obtain ⟨c, hr, hc⟩ := C83_sound_partial h he v hv
  exact ⟨c, hr, List.mem_flatMap.2 ⟨f, hf, List.mem_filter.2 ⟨hl, hc⟩⟩⟩

/-- What is reported comes from facts: a leak is a tainted fact that is an operand of a sink. -/
theorem C83_leak_exact (p : Prog) (n : Nat) (fs : List Nat) (c : Facts) (v : Nat) :
    v ∈ p.leaks n fs c ↔ has c v = true ∧ ∃ f ∈ fs, v ∈ p.collectLeak n f := by
  rw [Prog.leaks, List.mem_flatMap]
  constructor
  · rintro ⟨f, hf, h⟩
    rw [List.mem_filter] at h
    exact ⟨h.2, f, hf, h.1⟩
  · rintro ⟨h, f, hf, hl⟩
    exact ⟨f, hf, List.mem_filter.2 ⟨hl, h⟩⟩

/-- The result of the solver, partial (see `C83_sound_partial`): if the map the solver computed satisfies the data-flow inequalities (which
it need not, see C24), every value that is tainted in an execution is in the result, for every limit on call strings. -/
theorem C83_result_partial (h : Fit p M) (A : An Nat Facts) (hA : C24.Closed p.prob A)
    (hcall : ∀ n f, f ∈ p.callees n → n ∈ p.callers f) (hstart : ∀ f s, s ∈ p.starts f → p.funOf s = f)
    (hfun : ∀ n d, d ∈ p.succs n → p.funOf d = p.funOf n) (hret : ∀ n r, r ∈ p.retSites n → p.funOf r = p.funOf n)
    {n fr st} (he : Exec p M n fr st) (v : Nat) (hv : Tainted M fr v) : has (getResultsAt p.prob A n) v = true := by
  obtain ⟨c, hr, hc⟩ := C83_sound_partial h he v hv
  exact (le_iff p _ _).1 (C24_partial p.prob (C83_monotone p) A hA hcall hstart hfun hret n _ c hr) v hc

/-- Specification: conditions on the text of a program that make it fit. -/
structure Static (p : Prog) (M : Mem) : Prop where
  /-- Computations have only constant operands. -/
  op : ∀ n r vs, p.inst n = .op r vs → vs = []
  /-- Pointers are not loaded. -/
  load : ∀ n r q, p.inst n = .load r q → p.isPtr r = false
  /-- Pointers are only made from pointers. -/
  gep : ∀ n r q, p.inst n = .gep r q → p.isPtr r = true → p.isPtr q = true
  cast : ∀ n r q, p.inst n = .cast r q → p.isPtr r = true → p.isPtr q = true
  store : ∀ n v q, p.inst n = .store v q → p.isPtr q = true
  /-- Pointer parameters have pointer operands, pointer calls return pointers. -/
  arg : ∀ n f q a, f ∈ p.callees n → (q, a) ∈ p.bind n f → p.isPtr q = true → p.isPtr a = true
  ret : ∀ n e r as v, p.inst n = .call r as → p.inst e = .ret (some v) → p.funOf e ∈ p.callees n → p.isPtr r = true → p.isPtr v = true
  cell : ∀ v w, M.cell v = M.cell w → v = w
  glob : ∀ v, M.glob (M.cell v) = false
  keep : ∀ n, p.isCall n = true → p.gen n (p.callees n) = 0 → p.kill n (p.callees n) = 0 → ∀ a ∈ p.args n, p.isPtr a = true →
    p.callees n ≠ [] ∧ ∀ f ∈ p.callees n, p.starts f ≠ [] ∧ ∃ q, (q, a) ∈ p.bind n f ∧ p.isPtr q = true

theorem C83.static_configured {n f : Nat} {fr : Frame} (h : ∀ v, p.isPtr v = true → fr.reg v = false) (v : Nat)
    (hv : p.isPtr v = true) : (configured p M fr n f).reg v = false := by
  simp only [configured, h v hv, Bool.false_and, Bool.or_false, List.any_eq_false, Bool.and_eq_true_iff, Bool.not_eq_true', beq_iff_eq]
  rintro g _ ⟨h1, rfl⟩
  rw [hv] at h1
  cases h1

theorem C83.static_ptr (h : Static p M) {n fr st} (he : Exec p M n fr st) :
    (∀ v, p.isPtr v = true → fr.reg v = false) ∧
    ∀ x ∈ st, x.2.1 ∈ p.callees x.1 ∧ ∀ v, p.isPtr v = true → x.2.2.reg v = false := by
  induction he with
  | @start m s fr hm hs hr _ =>
    refine ⟨fun v hv => ?_, by simp⟩
    cases hrv : fr.reg v with
    | false => rfl
    | true => have := (hr v hrv).2; rw [hv] at this; cases this
  | @normal n d fr st he hc hx hd ih =>
    refine ⟨fun v hv => ?_, ih.2⟩
    cases hi : p.inst n with
    | store => exact ih.1 v hv
    | load r q =>
      have : v ≠ r := by rintro rfl; rw [h.load n v q hi] at hv; cases hv
      simpa only [Frame.exec, upd, if_neg this] using ih.1 v hv
    | gep r q =>
      by_cases e : v = r
      · subst e; simpa only [Frame.exec, upd, if_pos] using ih.1 q (h.gep n v q hi hv)
      · simpa only [Frame.exec, upd, if_neg e] using ih.1 v hv
    | cast r q =>
      by_cases e : v = r
      · subst e; simpa only [Frame.exec, upd, if_pos] using ih.1 q (h.cast n v q hi hv)
      · simpa only [Frame.exec, upd, if_neg e] using ih.1 v hv
    | op r vs =>
      by_cases e : v = r
      · subst e; simp [Frame.exec, upd, h.op n v vs hi]
      · simpa only [Frame.exec, upd, if_neg e] using ih.1 v hv
    | _ => exact ih.1 v hv
  | @call n f s fr st he hc hf hs ih =>
    refine ⟨fun v hv => ?_, fun x hx => ?_⟩
    · simp only [enter, List.any_eq_false, Bool.and_eq_true_iff, beq_iff_eq]
      rintro ⟨q, a⟩ hm ⟨rfl, hr⟩
      rw [ih.1 a (h.arg n f _ a hf hm hv)] at hr
      cases hr
    · rcases List.mem_cons.1 hx with rfl | hx
      · exact ⟨hf, ih.1⟩
      · exact ih.2 x hx
  | @ret e n f r fr fr' rv st he hrt hfun hr ih =>
    obtain ⟨hf, hfr⟩ := ih.2 _ List.mem_cons_self
    refine ⟨C83.static_configured fun v hv => ?_, fun x hx => ih.2 x (List.mem_cons_of_mem _ hx)⟩
    unfold leave
    split
    · rename_i x as hn
      by_cases hvx : v = x
      · subst hvx
        simp only [upd, if_pos]
        split
        · rename_i w hi
          exact ih.1 w (h.ret n e v as w hn hi (hfun ▸ hf) hv)
        · rfl
      · simpa only [upd, if_neg hvx] using hfr v hv
    · exact hfr v hv
  | decl he hc hf hs hr ih => exact ⟨C83.static_configured ih.1, ih.2⟩
  | unknown he hc hf hr ih => exact ih

/-- A program that fulfils the conditions on its text is fit. -/
theorem C83_static (h : Static p M) : Fit p M where
  op n fr st r vs _ hi := by rw [h.op n r vs hi]; rfl
  ptr n fr st v he := (C83.static_ptr h he).1 v
  store := h.store
  cell := h.cell
  glob := h.glob
  keep := h.keep

/-- `main(argv)` loads a value from what `argv` (0) points to, stores it through `2` and calls a function with the pointer `2`, which loads
the value as `11` and gives it to a sink. -/
def C83.demo : Prog where
  K := 1
  inst n := match n with
    | 0 => .load 1 0 | 1 => .store 1 2 | 2 => .call 3 [2] | 3 => .ret none
    | 10 => .load 11 10 | 11 => .call 12 [11] | 12 => .ret (some 11) | _ => .other
  params f := match f with | 0 => [0] | 1 => [10] | 2 => [20] | _ => []
  isPtr v := v = 0 || v = 2 || v = 10
  funOf n := if n < 10 then 0 else 1
  edges f := if f = 0 then [(0, 1), (1, 2), (2, 3)] else if f = 1 then [(10, 11), (11, 12)] else []
  succs n := if n = 0 ∨ n = 1 ∨ n = 2 ∨ n = 10 ∨ n = 11 then [n + 1] else []
  preds n := if n = 1 ∨ n = 2 ∨ n = 3 ∨ n = 11 ∨ n = 12 then [n - 1] else []
  branchTarget _ _ := false
  callees n := if n = 2 then [1] else if n = 11 then [2] else []
  callers f := if f = 1 then [2] else if f = 2 then [11] else []
  starts f := if f = 0 then [0] else if f = 1 then [10] else []
  exits f := if f = 0 then [3] else if f = 1 then [12] else []
  retSites n := if n = 2 ∨ n = 11 then [n + 1] else []
  main := some 0
  srcCB := none
  sinkCB := none
  isSource _ := false
  isSink v := v = 20
  isSani _ := false

/-- Memory without aliases and without shared cells. -/
def C83.plain : Mem := ⟨id, fun _ => false⟩

theorem C83.demo_inst (n : Nat) : (n, C83.demo.inst n) ∈ [(0, .load 1 0), (1, .store 1 2), (2, .call 3 [2]), (3, .ret none),
    (10, .load 11 10), (11, .call 12 [11]), (12, .ret (some 11)), (n, Inst.other)] := by
  unfold C83.demo
  dsimp only
  split <;> simp

theorem C83.demo_static : Static C83.demo C83.plain where
  op n r vs h := by have := C83.demo_inst n; rw [h] at this; simp at this
  load n r q h := by have := C83.demo_inst n; rw [h] at this; simp at this; rcases this with h | h <;> simp [C83.demo, h]
  gep n r q h := by have := C83.demo_inst n; rw [h] at this; simp at this
  cast n r q h := by have := C83.demo_inst n; rw [h] at this; simp at this
  store n v q h := by have := C83.demo_inst n; rw [h] at this; simp at this; simp [C83.demo, this]
  arg n f q a hf hb hq := by
    have := C83.demo_inst n
    unfold Prog.bind Prog.args at hb
    cases hi : C83.demo.inst n with
    | call r as =>
      rw [hi] at hb this
      simp at this
      rcases this with ⟨rfl, rfl, rfl⟩ | ⟨rfl, rfl, rfl⟩
      · simp [C83.demo] at hf; subst hf; simp [C83.demo] at hb; simp [C83.demo, hb]
      · simp [C83.demo] at hf; subst hf; simp [C83.demo] at hb; simp [C83.demo, hb] at hq
    | _ => rw [hi] at hb; simp at hb
  ret n e r as v hn _ _ hr := by
    have := C83.demo_inst n; rw [hn] at this; simp at this
    rcases this with ⟨_, rfl, _⟩ | ⟨_, rfl, _⟩ <;> simp [C83.demo] at hr
  cell v w h := h
  glob v := rfl
  keep n hc _ _ a ha hp := by
    have := C83.demo_inst n
    unfold Prog.args at ha
    cases hi : C83.demo.inst n with
    | call r as =>
      rw [hi] at ha this
      simp at this
      rcases this with ⟨rfl, rfl, rfl⟩ | ⟨rfl, rfl, rfl⟩
      · simp at ha
        subst ha
        refine ⟨by decide, fun f hf => ?_⟩
        simp [C83.demo] at hf
        subst hf
        exact ⟨by decide, 10, by decide, by decide⟩
      · simp at ha; subst ha; simp [C83.demo] at hp
    | _ => rw [hi] at ha; simp at ha

/-- `argv` points to tainted contents. -/
def C83.argv : Frame := ⟨fun _ => false, fun c => c == 0⟩

theorem C83.demo_exec : ∃ fr fr', Exec C83.demo C83.plain 11 fr' [(2, 1, fr)] ∧ Tainted C83.plain fr' 11 := by
  have h0 : Exec C83.demo C83.plain 0 C83.argv [] := .start (m := 0) rfl rfl (fun _ h => by cases h)
    (fun c h => ⟨0, List.mem_cons_self, (beq_iff_eq.1 h).symm⟩)
  have h1 := h0.normal (d := 1) rfl rfl (by decide)
  have h2 := h1.normal (d := 2) rfl rfl (by decide)
  have h3 := h2.call (f := 1) (s := 10) rfl (by decide) (by decide)
  have h4 := h3.normal (d := 11) rfl rfl (by decide)
  exact ⟨_, _, h4, .inl (by decide)⟩

/-- The tainted value arrives at the sink, and the leak is recorded. -/
example : ∃ c, Reach C83.demo.prob 11 [2] c ∧ 11 ∈ C83.demo.leaks 11 [2] c := by
  obtain ⟨fr, fr', he, ht⟩ := C83.demo_exec
  exact C83_leak_partial (C83_static C83.demo_static) he (f := 2) (by decide) 11 (by decide) ht

example : ∃ c, Reach C83.demo.prob 11 [2] c ∧ has c 11 = true := by
  obtain ⟨fr, fr', he, ht⟩ := C83.demo_exec
  exact C83_sound_partial (C83_static C83.demo_static) he 11 ht

/-! ## Where it fails -/

/-- An invariant of the facts of realizable paths. -/
theorem C83.inv (p : Prog) (J : Nat → Facts → Prop) (hs : ∀ x ∈ p.seeds.getD [], J x.1 x.2)
    (hn : ∀ n d c, J n c → p.isCall n = false → d ∈ p.succs n → J d (p.normalFlow n c))
    (hc : ∀ n f s c, J n c → p.isCall n = true → f ∈ p.callees n → s ∈ p.starts f → J s (p.callFlow n f c))
    (hr : ∀ n e r c, J e c → p.isExit e = true → r ∈ p.retSites n → J r (p.returnFlow n (p.funOf e) e c))
    (hk : ∀ n r c, J n c → p.isCall n = true → r ∈ p.retSites n → J r (p.ctrFlow n (p.callees n) c))
    {n st c} (h : Reach p.prob n st c) : J n c := by
  induction h with
  | seed h => exact hs _ h
  | normal _ h1 _ h2 ih => exact hn _ _ _ ih h1 h2
  | call _ h1 h2 h3 ih => exact hc _ _ _ _ ih h1 h2 h3
  | ctr _ h1 h2 ih => exact hk _ _ _ ih h1 h2
  | ret _ h1 h2 ih => exact hr _ _ _ _ ih h1 h2

/-- The claim of `C83_sound_partial` fails at an instruction for a value. -/
def C83.Missed (p : Prog) (M : Mem) (n v : Nat) : Prop :=
  ∃ fr st, Exec p M n fr st ∧ Tainted M fr v ∧ ∀ c, Reach p.prob n ((st.map (·.1)).reverse) c → has c v = false

/-- A program whose `main` is the instructions `0, 1, 2` with parameter `0`, to be filled in. -/
def C83.line (inst : Nat → Inst) (isPtr : Nat → Bool) : Prog where
  K := 1
  inst := inst
  params f := if f = 0 then [0] else []
  isPtr := isPtr
  funOf n := if n < 10 then 0 else 1
  edges _ := []
  succs n := if n = 0 then [1] else if n = 1 then [2] else []
  preds n := if n = 2 then [1] else if n = 1 then [0] else []
  branchTarget _ _ := false
  callees _ := []
  callers _ := []
  starts f := if f = 0 then [0] else []
  exits _ := []
  retSites _ := []
  main := some 0
  srcCB := none
  sinkCB := none
  isSource _ := false
  isSink _ := false
  isSani _ := false

theorem C83.line_inv (inst : Nat → Inst) (isPtr : Nat → Bool) (J : Nat → Facts → Prop) (h0 : J 0 1)
    (h1 : ∀ c, J 0 c → J 1 ((C83.line inst isPtr).normalFlow 0 c)) (h2 : ∀ c, J 1 c → J 2 ((C83.line inst isPtr).normalFlow 1 c))
    {n st c} (h : Reach (C83.line inst isPtr).prob n st c) : J n c := by
  refine C83.inv _ J ?_ ?_ ?_ ?_ ?_ h
  · intro x hx
    have : x = (0, 1) := by simpa [Prog.seeds, C83.line, insAll, ins] using hx
    subst this
    exact h0
  · intro n d c hJ _ hd
    simp only [C83.line] at hd
    split at hd
    · rename_i e; subst e; rw [List.mem_singleton] at hd; subst hd; exact h1 c hJ
    · split at hd
      · rename_i e; subst e; rw [List.mem_singleton] at hd; subst hd; exact h2 c hJ
      · cases hd
  · intro n f s c _ _ hf; cases hf
  · intro n e r c _ _ hr; cases hr
  · intro n r c _ _ hr; cases hr

/-- An execution of such a program, with a tainted parameter that is no pointer. -/
theorem C83.line_start (inst : Nat → Inst) (isPtr : Nat → Bool) (M : Mem) (h : isPtr 0 = false) :
    Exec (C83.line inst isPtr) M 0 ⟨fun v => v == 0, fun _ => false⟩ [] :=
  .start (m := 0) rfl rfl (fun v hv => by rw [beq_iff_eq] at hv; subst hv; exact ⟨List.mem_cons_self, h⟩) (fun _ hv => by cases hv)

/-- An execution of such a program, whose parameter points to tainted contents. -/
theorem C83.line_argv (inst : Nat → Inst) (isPtr : Nat → Bool) : Exec (C83.line inst isPtr) C83.plain 0 C83.argv [] :=
  .start (m := 0) rfl rfl (fun _ h => by cases h) (fun _ h => ⟨0, List.mem_cons_self, (beq_iff_eq.1 h).symm⟩)

/-- Results of computations with tainted operands (binary operators, `phi`, `select` …) are not tainted for the analysis: `x + 1` of a
tainted `x` is missed. -/
theorem C83_op_false : C83.Missed (C83.line (fun n => if n = 0 then .op 1 [0] else .other) fun _ => false) C83.plain 1 1 := by
  refine ⟨_, [], (C83.line_start _ _ _ rfl).normal (d := 1) rfl rfl (by decide), .inl (by decide), fun c h => ?_⟩
  refine C83.line_inv _ _ (fun _ c => has c 1 = false) (by decide) ?_ ?_ h <;> intro c hc <;> rw [has_normal] <;> exact hc

/-- Storing an untainted value through a tainted pointer makes the pointer untainted for the analysis, although only the contents were
overwritten: the pointer `1`, loaded from tainted memory, is missed after the store. -/
theorem C83_pointer_false :
    C83.Missed (C83.line (fun n => if n = 0 then .load 1 0 else if n = 1 then .store 2 1 else .other) fun v => v < 2) C83.plain 2 1 := by
  refine ⟨_, [], ((C83.line_argv _ _).normal (d := 1) rfl rfl (by decide)).normal (d := 2) rfl rfl (by decide),
    .inl (by decide), fun c h => ?_⟩
  refine (C83.line_inv _ _ (fun n c => has c 2 = false ∧ (n = 2 → has c 1 = false)) (by decide) ?_ ?_ h).2 rfl
  · intro c hc
    refine ⟨?_, nofun⟩
    rw [has_normal]
    simp [C83.line, hc.1]
  · intro c hc
    refine ⟨?_, fun _ => ?_⟩ <;> rw [has_normal] <;> simp [C83.line, hc.1]

/-- Aliases are ignored: a pointer cast before tainted contents are stored through the original is missed. -/
theorem C83_alias_false :
    C83.Missed (C83.line (fun n => if n = 0 then .cast 2 1 else if n = 1 then .store 0 1 else .other) fun v => v = 1 || v = 2)
      ⟨fun v => if v = 2 then 1 else v, fun _ => false⟩ 2 2 := by
  refine ⟨_, [], ((C83.line_start _ _ _ rfl).normal (d := 1) rfl rfl (by decide)).normal (d := 2) rfl rfl (by decide),
    .inr (by decide), fun c h => ?_⟩
  refine (C83.line_inv _ _ (fun n c => has c 2 = false ∧ (n = 0 → has c 1 = false)) (by decide) ?_ ?_ h).1
  · intro c hc
    refine ⟨?_, nofun⟩
    rw [has_normal]
    simp [C83.line, hc.1, hc.2]
  · intro c hc
    refine ⟨?_, nofun⟩
    rw [has_normal]
    simp [C83.line, hc.1]

/-- Such a program that calls function `1` in instruction `k`. -/
def C83.caller (inst : Nat → Inst) (isPtr : Nat → Bool) (k : Nat) (starts : List Nat) : Prog :=
  { C83.line inst isPtr with
    callees := fun n => if n = k then [1] else []
    callers := fun f => if f = 1 then [k] else []
    starts := fun f => if f = 0 then [0] else if f = 1 then starts else []
    retSites := fun n => if n = k then [k + 1] else [] }

/-- What a pointer points to is untainted for the analysis after the pointer was passed to a function that is only declared (and is neither
source nor sanitizer), although that function need not write to it: `strlen(p)` hides the taint of `p`. -/
theorem C83_declaration_false : C83.Missed (C83.caller (fun n => if n = 0 then .call 1 [0] else .other) (· == 0) 0 []) C83.plain 1 0 := by
  refine ⟨_, [], .decl (f := 1) (n := 0) (fr := C83.argv) (.start (m := 0) rfl rfl (fun _ h => by cases h)
    (fun _ h => ⟨0, List.mem_cons_self, (beq_iff_eq.1 h).symm⟩)) rfl (by decide) rfl (by decide), .inr (by decide), fun c h => ?_⟩
  refine C83.inv _ (fun n c => n ≠ 0 → has c 0 = false) ?_ ?_ ?_ ?_ ?_ h nofun
  · intro x hx
    have : x = (0, 1) := by simpa [Prog.seeds, C83.caller, C83.line, insAll, ins] using hx
    subst this
    exact fun h => absurd rfl h
  · intro n d c hJ hc hd _
    by_cases e : n = 0
    · subst e; cases hc
    · rw [has_normal]; simp [C83.caller, C83.line, e, hJ]
  · intro n f s c _ hc hf hs
    have e : n = 0 := by
      cases Nat.decEq n 0 with
      | isTrue e => exact e
      | isFalse e => simp [Prog.isCall, C83.caller, C83.line, e] at hc
    subst e
    simp [C83.caller] at hf
    subst hf
    simp [C83.caller] at hs
  · intro n e r c _ he
    by_cases h0 : e = 0 <;> simp [Prog.isExit, C83.caller, C83.line, h0] at he
  · intro n r c _ hc hr _
    have e : n = 0 := by
      cases Nat.decEq n 0 with
      | isTrue e => exact e
      | isFalse e => simp [Prog.isCall, C83.caller, C83.line, e] at hc
    subst e
    cases hb : has (Prog.ctrFlow (C83.caller (fun n => if n = 0 then .call 1 [0] else .other) (· == 0) 0 []) 0 [1] c) 0 with
    | false => exact hb
    | true =>
      rcases (has_ctr ..).1 hb with h | ⟨_, _, h⟩
      · exact absurd h (by decide)
      · exact absurd (h (by decide) (by decide) (by decide)) (by decide)

/-- The same for a pointer that is passed beyond the parameters of a variadic function with a body. -/
theorem C83_vararg_false :
    C83.Missed (C83.caller (fun n => if n = 0 then .call 1 [0] else if n = 10 then .ret none else .other) (· == 0) 0 [10]) C83.plain 1 0 := by
  have h0 : Exec (C83.caller (fun n => if n = 0 then .call 1 [0] else if n = 10 then .ret none else .other) (· == 0) 0 [10]) C83.plain 0
      C83.argv [] := .start (m := 0) rfl rfl (fun _ h => by cases h) (fun _ h => ⟨0, List.mem_cons_self, (beq_iff_eq.1 h).symm⟩)
  refine ⟨_, [], (h0.call (f := 1) (s := 10) rfl (by decide) (by decide)).ret (r := 1) rfl rfl (by decide), .inr (by decide),
    fun c h => ?_⟩
  refine C83.inv _ (fun n c => n ≠ 0 → has c 0 = false) ?_ ?_ ?_ ?_ ?_ h nofun
  · intro x hx
    have : x = (0, 1) := by simpa [Prog.seeds, C83.caller, C83.line, insAll, ins] using hx
    subst this
    exact fun h => absurd rfl h
  · intro n d c hJ hc hd _
    by_cases e : n = 0
    · subst e; cases hc
    · rw [has_normal]
      by_cases e' : n = 10 <;> simp [C83.caller, C83.line, e, e', hJ]
  · intro n f s c _ hc hf hs _
    cases hb : has _ 0 with
    | false => rfl
    | true =>
      obtain ⟨a, ha, _⟩ := (has_call ..).1 hb
      have hf : f = 1 := by
        simp only [C83.caller] at hf
        split at hf
        · simpa using hf
        · cases hf
      subst hf
      simp [Prog.bind, C83.caller, C83.line] at ha
  · intro n e r c _ he hr _
    have e : n = 0 := by
      cases Nat.decEq n 0 with
      | isTrue e => exact e
      | isFalse e => simp [C83.caller, e] at hr
    subst e
    have e' : e = 10 := by
      cases Nat.decEq e 10 with
      | isTrue e => exact e
      | isFalse e' => by_cases h0 : e = 0 <;> simp [Prog.isExit, C83.caller, C83.line, h0, e'] at he
    subst e'
    cases hb : has _ 0 with
    | false => rfl
    | true =>
      rcases (has_return ..).1 hb with ⟨v, as, h, _⟩ | ⟨q, h, _⟩
      · simp [C83.caller, C83.line] at h
      · exact absurd h (by simp [Prog.bind, C83.caller, C83.line])
  · intro n r c _ hc hr _
    have e : n = 0 := by
      cases Nat.decEq n 0 with
      | isTrue e => exact e
      | isFalse e => simp [C83.caller, e] at hr
    subst e
    cases hb : has (Prog.ctrFlow (C83.caller _ _ 0 [10]) 0 [1] c) 0 with
    | false => exact hb
    | true =>
      rcases (has_ctr ..).1 hb with h | ⟨_, _, h⟩
      · exact absurd h (by decide)
      · exact absurd (h (by decide) (by decide) (by decide)) (by decide)

/-- Global variables are not followed into callees: the contents of the global `5`, tainted by the caller, are missed in the callee. -/
theorem C83_global_false :
    C83.Missed (C83.caller (fun n => if n = 0 then .store 0 5 else if n = 1 then .call 1 [] else .other) (· == 5) 1 [10])
      ⟨id, fun c => c == 5⟩ 10 5 := by
  have h0 : Exec (C83.caller (fun n => if n = 0 then .store 0 5 else if n = 1 then .call 1 [] else .other) (· == 5) 1 [10])
      ⟨id, fun c => c == 5⟩ 0 ⟨fun v => v == 0, fun _ => false⟩ [] :=
    .start (m := 0) rfl rfl (fun v hv => by rw [beq_iff_eq] at hv; subst hv; exact ⟨List.mem_cons_self, rfl⟩) (fun _ hv => by cases hv)
  refine ⟨_, _, (h0.normal (d := 1) rfl rfl (by decide)).call (f := 1) (s := 10) rfl (by decide) (by decide), .inr (by decide),
    fun c h => ?_⟩
  refine C83.inv _ (fun n c => n = 10 → has c 5 = false) ?_ ?_ ?_ ?_ ?_ h rfl
  · intro x hx
    have : x = (0, 1) := by simpa [Prog.seeds, C83.caller, C83.line, insAll, ins] using hx
    subst this
    exact nofun
  · intro n d c _ _ hd e
    subst e
    simp only [C83.caller, C83.line] at hd
    split at hd
    · simp at hd
    · split at hd <;> simp at hd
  · intro n f s c _ hc hf hs _
    have hf : f = 1 := by
      simp only [C83.caller] at hf
      split at hf
      · simpa using hf
      · cases hf
    subst hf
    cases hb : has _ 5 with
    | false => rfl
    | true =>
      obtain ⟨a, ha, _⟩ := (has_call ..).1 hb
      simp [Prog.bind, C83.caller, C83.line] at ha
  · intro n e r c _ _ hr e
    subst e
    simp only [C83.caller] at hr
    split at hr <;> simp at hr
  · intro n r c _ _ hr e
    subst e
    simp only [C83.caller] at hr
    split at hr <;> simp at hr

/-- Without a function `main` the seeds are taken from a null pointer, whatever the entry points are. -/
theorem C83_main_false (p : Prog) : p.seeds = none ↔ p.main = none ∨ ∃ m, p.main = some m ∧ p.starts m = [] := by
  unfold Prog.seeds
  cases p.main with
  | none => simp
  | some m => cases h : p.starts m <;> simp [h]

/-- A call with fewer operands than the callee has parameters is read out of bounds: always by `callFlow`; by `returnFlow` if a pointer
parameter beyond the operands is tainted, which is never so for facts that `callFlow` gave the callee. -/
theorem C83_arity (p : Prog) (n f : Nat) :
    (p.callOk n f = false ↔ (p.args n).length < (p.params f).length) ∧
    (∀ c, p.callOk n f = true → p.retOk n f c = true) ∧
    ∀ c, (p.params f).Nodup → p.retOk n f (p.callFlow n f c) = true := by
  refine ⟨by simp [Prog.callOk], fun c h => ?_, fun c hnd => ?_⟩
  · have h : (p.params f).length ≤ (p.args n).length := by simpa [Prog.callOk] using h
    rw [Prog.retOk, List.drop_eq_nil_of_le h]
    rfl
  · rw [Prog.retOk, Bool.not_eq_true', List.any_eq_false]
    intro q hq
    cases hb : has (p.callFlow n f c) q with
    | false => simp
    | true =>
      obtain ⟨a, ha, _⟩ := (has_call ..).1 hb
      exfalso
      -- `q` is among the first parameters and among the later ones
      have h1 : q ∈ (p.params f).take (p.args n).length := by
        obtain ⟨i, hi, e⟩ := List.mem_iff_getElem.1 ha
        have hi' := hi
        rw [Prog.bind, List.length_zip] at hi'
        have e1 : (p.params f)[i]'(by omega) = q := by
          have := congrArg Prod.fst e
          simpa [Prog.bind] using this
        rw [List.mem_take_iff_getElem]
        exact ⟨i, by omega, e1⟩
      rw [← List.take_append_drop (p.args n).length (p.params f)] at hnd
      exact (List.nodup_append.1 hnd).2.2 q h1 q hq rfl

end Phasar.InterTaint
