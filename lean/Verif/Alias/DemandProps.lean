import Verif.Alias.Props
/-!
# Property C31: what queries compute on demand
-/
set_option linter.unusedSectionVars false
namespace Phasar.Alias
variable {V : Type} [DecidableEq V] {F : Type} [DecidableEq F] {Ty : Type} [DecidableEq Ty]

/-- Specification: the pairs a sequence of steps introduces, with the given representatives at its start. -/
def evPairs (may : V → V → Bool) (ty : V → Ty) : List V → List (Op V) → List (V × V)
  | _, [] => []
  | reps, .single _ :: os => evPairs may ty reps os
  | reps, .ptr v :: os => (reps.filter (may v)).map (fun r => (r, v)) ++ evPairs may ty (nextReps may ty v reps) os
  | reps, .merge v w :: os => (v, w) :: evPairs may ty reps os
  | _, .newFn :: os => evPairs may ty [] os

/-- Specification: the values whose alias sets the calls compute. -/
def Computed (m : Mod V F) (cs : List (Call V)) (v : V) : Prop :=
  m.interesting v = true ∧ (.compute v ∈ cs ∨ ∃ w, m.interesting w = true ∧ (.introduce v w ∈ cs ∨ .introduce w v ∈ cs))

/-- Specification: the functions that have to be analysed for a value: those using it if it is a global, else its own. -/
def Needs (m : Mod V F) (v : V) (f : F) : Prop :=
  match m.users v with
  | some us => ∃ u ∈ us, u.1 = f
  | none => m.fn v = some f

/-- Specification: the pairs merged for the users of a global. -/
def UsePair (m : Mod V F) (v : V) (p : V × V) : Prop := ∃ us, m.users v = some us ∧ ∃ u ∈ us, u.2 = some p

theorem C31.specRun_mem {may : V → V → Bool} {ty : V → Ty} (os : List (Op V)) : ∀ (sp sp' : Spec V),
    specRun may ty sp os = some sp' →
    (∀ x, x ∈ sp'.pairs ↔ x ∈ sp.pairs ∨ x ∈ evPairs may ty sp.reps os) ∧ ∀ x, x ∈ sp'.known ↔ x ∈ sp.known ∨ x ∈ adds os := by
  induction os with
  | nil => intro sp sp' h; cases h; simp [evPairs, adds]
  | cons o os ih =>
    intro sp sp' h
    simp only [specRun] at h
    cases o with
    | single v =>
      simp only [specStep, Option.bind_some] at h
      obtain ⟨h1, h2⟩ := ih _ _ h
      refine ⟨fun x => by rw [h1]; rfl, fun x => ?_⟩
      rw [h2]
      simp only [adds, List.mem_cons]
      constructor
      · rintro ((h | h) | h)
        · exact .inr (.inl h)
        · exact .inl h
        · exact .inr (.inr h)
      · rintro (h | h | h)
        · exact .inl (.inr h)
        · exact .inl (.inl h)
        · exact .inr h
    | ptr v =>
      simp only [specStep, Option.bind_some] at h
      obtain ⟨h1, h2⟩ := ih _ _ h
      refine ⟨fun x => ?_, fun x => ?_⟩
      · rw [h1]
        simp only [evPairs, List.mem_append]
        constructor
        · rintro ((h | h) | h)
          · exact .inr (.inl h)
          · exact .inl h
          · exact .inr (.inr h)
        · rintro (h | h | h)
          · exact .inl (.inr h)
          · exact .inl (.inl h)
          · exact .inr h
      · rw [h2]
        simp only [adds, List.mem_cons]
        constructor
        · rintro ((h | h) | h)
          · exact .inr (.inl h)
          · exact .inl h
          · exact .inr (.inr h)
        · rintro (h | h | h)
          · exact .inl (.inr h)
          · exact .inl (.inl h)
          · exact .inr h
    | merge v w =>
      simp only [specStep] at h
      split at h
      · rw [Option.bind_some] at h
        obtain ⟨h1, h2⟩ := ih _ _ h
        refine ⟨fun x => ?_, fun x => by rw [h2]; rfl⟩
        rw [h1]
        simp only [evPairs, List.mem_cons]
        constructor
        · rintro ((h | h) | h)
          · exact .inr (.inl h)
          · exact .inl h
          · exact .inr (.inr h)
        · rintro (h | h | h)
          · exact .inl (.inr h)
          · exact .inl (.inl h)
          · exact .inr h
      · cases h
    | newFn =>
      simp only [specStep, Option.bind_some] at h
      obtain ⟨h1, h2⟩ := ih _ _ h
      exact ⟨fun x => by rw [h1]; rfl, fun x => by rw [h2]; rfl⟩

/-- The steps do not depend on the representatives left by the previous function. -/
def C31.Indep (may : V → V → Bool) (ty : V → Ty) (os : List (Op V)) : Prop :=
  ∀ reps, evPairs may ty reps os = evPairs may ty [] os

theorem C31.evPairs_append {may : V → V → Bool} {ty : V → Ty} (os : List (Op V)) {os' : List (Op V)} (h' : C31.Indep may ty os') :
    ∀ reps, evPairs may ty reps (os ++ os') = evPairs may ty reps os ++ evPairs may ty [] os' := by
  induction os with
  | nil => intro reps; exact h' reps
  | cons o os ih =>
    intro reps
    cases o with
    | single v => exact ih reps
    | ptr v => simp only [List.cons_append, evPairs, ih, List.append_assoc]
    | merge v w => simp only [List.cons_append, evPairs, ih]
    | newFn => exact ih []

theorem C31.Indep.append {may : V → V → Bool} {ty : V → Ty} {os os' : List (Op V)} (h : C31.Indep may ty os)
    (h' : C31.Indep may ty os') : C31.Indep may ty (os ++ os') := by
  intro reps
  rw [C31.evPairs_append os h', C31.evPairs_append os h', h]

theorem C31.adds_append (os os' : List (Op V)) : adds (os ++ os') = adds os ++ adds os' := by
  induction os with
  | nil => rfl
  | cons o os ih => cases o <;> simp [adds, ih]

/-- What a part of the computation contributes: functions, pairs and pointers. -/
structure C31.Contrib (m : Mod V F) (may : V → V → Bool) (ty : V → Ty) (done : List F) (r : List (Op V) × List F)
    (Fs : F → Prop) (Ms : V × V → Prop) (Vs : V → Prop) : Prop where
  indep : C31.Indep may ty r.1
  fns : ∀ f, f ∈ r.2 ↔ f ∈ done ∨ Fs f
  pairs : ∀ x, x ∈ evPairs may ty [] r.1 ↔
    (∃ f, Fs f ∧ f ∉ done ∧ m.decl f = false ∧ x ∈ evPairs may ty [] (m.events f)) ∨ Ms x
  vals : ∀ x, x ∈ adds r.1 ↔ (∃ f, Fs f ∧ f ∉ done ∧ m.decl f = false ∧ x ∈ adds (m.events f)) ∨ Vs x

theorem C31.Contrib.append {m : Mod V F} {may : V → V → Bool} {ty : V → Ty} {done : List F} {r q : List (Op V) × List F}
    {Fs Fs' : F → Prop} {Ms Ms' : V × V → Prop} {Vs Vs' : V → Prop} (h : C31.Contrib m may ty done r Fs Ms Vs)
    (h' : C31.Contrib m may ty r.2 q Fs' Ms' Vs') :
    C31.Contrib m may ty done (r.1 ++ q.1, q.2) (fun f => Fs f ∨ Fs' f) (fun p => Ms p ∨ Ms' p) (fun v => Vs v ∨ Vs' v) := by
  have key : ∀ (Q : F → Prop), ((∃ f, Fs f ∧ f ∉ done ∧ m.decl f = false ∧ Q f) ∨
      (∃ f, Fs' f ∧ f ∉ r.2 ∧ m.decl f = false ∧ Q f)) ↔ ∃ f, (Fs f ∨ Fs' f) ∧ f ∉ done ∧ m.decl f = false ∧ Q f := by
    intro Q
    constructor
    · rintro (⟨f, h1, h2⟩ | ⟨f, h1, h2, h3⟩)
      · exact ⟨f, .inl h1, h2⟩
      · exact ⟨f, .inr h1, fun hd => h2 ((h.fns f).2 (.inl hd)), h3⟩
    · rintro ⟨f, h1 | h1, h2⟩
      · exact .inl ⟨f, h1, h2⟩
      · by_cases hF : Fs f
        · exact .inl ⟨f, hF, h2⟩
        · refine .inr ⟨f, h1, fun hd => ?_, h2.2⟩
          rcases (h.fns f).1 hd with hd | hd
          · exact h2.1 hd
          · exact hF hd
  refine ⟨h.indep.append h'.indep, fun f => ?_, fun x => ?_, fun x => ?_⟩
  · simp only
    rw [h'.fns, h.fns, or_assoc]
  · simp only
    rw [C31.evPairs_append _ h'.indep, List.mem_append, h.pairs, h'.pairs, ← key]
    constructor
    · rintro ((a | a) | (a | a))
      · exact .inl (.inl a)
      · exact .inr (.inl a)
      · exact .inl (.inr a)
      · exact .inr (.inr a)
    · rintro ((a | a) | (a | a))
      · exact .inl (.inl a)
      · exact .inr (.inl a)
      · exact .inl (.inr a)
      · exact .inr (.inr a)
  · simp only
    rw [C31.adds_append, List.mem_append, h.vals, h'.vals, ← key]
    constructor
    · rintro ((a | a) | (a | a))
      · exact .inl (.inl a)
      · exact .inr (.inl a)
      · exact .inl (.inr a)
      · exact .inr (.inr a)
    · rintro ((a | a) | (a | a))
      · exact .inl (.inl a)
      · exact .inr (.inl a)
      · exact .inl (.inr a)
      · exact .inr (.inr a)

theorem C31.Contrib.congr {m : Mod V F} {may : V → V → Bool} {ty : V → Ty} {done : List F} {r : List (Op V) × List F}
    {Fs Fs' : F → Prop} {Ms Ms' : V × V → Prop} {Vs Vs' : V → Prop} (h : C31.Contrib m may ty done r Fs Ms Vs)
    (h1 : ∀ f, Fs f ↔ Fs' f) (h2 : ∀ p, Ms p ↔ Ms' p) (h3 : ∀ v, Vs v ↔ Vs' v) : C31.Contrib m may ty done r Fs' Ms' Vs' := by
  have e1 : Fs = Fs' := funext (fun f => propext (h1 f))
  have e2 : Ms = Ms' := funext (fun f => propext (h2 f))
  have e3 : Vs = Vs' := funext (fun f => propext (h3 f))
  subst e1 e2 e3
  exact h

section
variable (m : Mod V F) (may : V → V → Bool) (ty : V → Ty)

theorem C31.contrib_nil (done : List F) :
    C31.Contrib m may ty done ([], done) (fun _ => False) (fun _ => False) (fun _ => False) :=
  ⟨fun _ => rfl, by simp, by simp [evPairs], by simp [Alias.adds]⟩

theorem C31.contrib_merge (done : List F) (v w : V) :
    C31.Contrib m may ty done ([.merge v w], done) (fun _ => False) (fun p => p = (v, w)) (fun _ => False) :=
  ⟨fun _ => rfl, by simp, by simp [evPairs], by simp [Alias.adds]⟩

theorem C31.contrib_single (done : List F) (v : V) :
    C31.Contrib m may ty done ([.single v], done) (fun _ => False) (fun _ => False) (fun x => x = v) :=
  ⟨fun _ => rfl, by simp, by simp [evPairs], by simp [Alias.adds]⟩

theorem C31.contrib_fn (done : List F) (of : Option F) :
    C31.Contrib m may ty done (computeFn m done of) (fun f => of = some f) (fun _ => False) (fun _ => False) := by
  cases of with
  | none => exact (C31.contrib_nil m may ty done).congr (by simp) (by simp) (by simp)
  | some f =>
    unfold computeFn
    by_cases hd : f ∈ done
    · simp only [if_pos hd]
      refine ⟨fun _ => rfl, fun g => ?_, fun x => ?_, fun x => ?_⟩
      · constructor
        · exact .inl
        · rintro (h | h)
          · exact h
          · cases h; exact hd
      · simp only [evPairs, List.not_mem_nil, or_false, false_iff]
        rintro ⟨g, h, h2, _⟩
        cases h
        exact h2 hd
      · simp only [Alias.adds, List.not_mem_nil, or_false, false_iff]
        rintro ⟨g, h, h2, _⟩
        cases h
        exact h2 hd
    · simp only [if_neg hd]
      have hdone : ∀ g, g ∈ f :: done ↔ g ∈ done ∨ some f = some g := by
        intro g
        rw [List.mem_cons, or_comm, Option.some.injEq, eq_comm]
      cases hdecl : m.decl f with
      | true =>
        refine ⟨fun _ => rfl, hdone, fun x => ?_, fun x => ?_⟩
        · simp only [if_true, evPairs, List.not_mem_nil, or_false, false_iff]
          rintro ⟨g, h, _, h3, _⟩
          cases h
          rw [hdecl] at h3
          cases h3
        · simp only [if_true, Alias.adds, List.not_mem_nil, or_false, false_iff]
          rintro ⟨g, h, _, h3, _⟩
          cases h
          rw [hdecl] at h3
          cases h3
      | false =>
        refine ⟨fun _ => rfl, hdone, fun x => ?_, fun x => ?_⟩
        · simp only [Bool.false_eq_true, if_false, evPairs, or_false]
          constructor
          · intro h; exact ⟨f, rfl, hd, hdecl, h⟩
          · rintro ⟨g, h, _, _, h4⟩; cases h; exact h4
        · simp only [Bool.false_eq_true, if_false, Alias.adds, or_false]
          constructor
          · intro h; exact ⟨f, rfl, hd, hdecl, h⟩
          · rintro ⟨g, h, _, _, h4⟩; cases h; exact h4

theorem C31.contrib_users (us : List (F × Option (V × V))) : ∀ (done : List F),
    C31.Contrib m may ty done (computeUsers m done us) (fun f => ∃ u ∈ us, u.1 = f) (fun p => ∃ u ∈ us, u.2 = some p)
      (fun _ => False) := by
  induction us with
  | nil => intro done; exact (C31.contrib_nil m may ty done).congr (by simp) (by simp) (by simp)
  | cons u us ih =>
    intro done
    have h1 := C31.contrib_fn m may ty done (some u.1)
    have h3 := ih (computeFn m done (some u.1)).2
    obtain ⟨f, op⟩ := u
    have goal : ∀ p, (∃ u ∈ (f, op) :: us, u.2 = some p) ↔ op = some p ∨ ∃ u ∈ us, u.2 = some p := by
      intro p
      simp only [List.mem_cons, exists_eq_or_imp]
    have goalf : ∀ g, (∃ u ∈ (f, op) :: us, u.1 = g) ↔ f = g ∨ ∃ u ∈ us, u.1 = g := by
      intro p
      simp only [List.mem_cons, exists_eq_or_imp]
    cases op with
    | none =>
      refine (h1.append h3).congr (fun g => ?_) (fun p => ?_) (by simp)
      · rw [goalf, Option.some.injEq]
      · rw [goal]; simp
    | some q =>
      have h2 := C31.contrib_merge m may ty (computeFn m done (some f)).2 q.1 q.2
      refine (h1.append (h2.append h3)).congr (fun g => ?_) (fun p => ?_) (by simp)
      · rw [goalf, Option.some.injEq, false_or]
      · rw [goal, Option.some.injEq, false_or]
        constructor
        · rintro (h | h)
          · exact .inl h.symm
          · exact .inr h
        · rintro (h | h)
          · exact .inl h.symm
          · exact .inr h

theorem C31.contrib_val (done : List F) (v : V) :
    C31.Contrib m may ty done (computeVal m done v) (fun f => m.interesting v = true ∧ Needs m v f)
      (fun p => m.interesting v = true ∧ UsePair m v p) (fun x => m.interesting v = true ∧ x = v) := by
  unfold computeVal
  cases hi : m.interesting v with
  | false => exact (C31.contrib_nil m may ty done).congr (by simp) (by simp) (by simp)
  | true =>
    simp only [if_true]
    have h1 := C31.contrib_single m may ty done v
    cases hu : m.users v with
    | some us =>
      refine (h1.append (C31.contrib_users m may ty us done)).congr (fun f => ?_) (fun p => ?_) (by simp)
      · simp [Needs, hu]
      · simp [UsePair, hu]
    | none =>
      refine (h1.append (C31.contrib_fn m may ty done (m.fn v))).congr (fun f => ?_) (fun p => ?_) (by simp)
      · simp [Needs, hu]
      · simp [UsePair, hu]

theorem C31.contrib_call (done : List F) (c : Call V) :
    C31.Contrib m may ty done (call m done c) (fun f => ∃ v, Computed m [c] v ∧ Needs m v f)
      (fun p => (∃ v, Computed m [c] v ∧ UsePair m v p) ∨
        (m.interesting p.1 = true ∧ m.interesting p.2 = true ∧ c = .introduce p.1 p.2)) (Computed m [c]) := by
  cases c with
  | compute v =>
    have hc : ∀ x, Computed m [.compute v] x ↔ m.interesting v = true ∧ x = v := by
      intro x
      unfold Computed
      constructor
      · rintro ⟨h1, h2 | ⟨w, _, h2 | h2⟩⟩
        · simp only [List.mem_singleton, Call.compute.injEq] at h2; subst h2; exact ⟨h1, rfl⟩
        · simp at h2
        · simp at h2
      · rintro ⟨h1, rfl⟩
        exact ⟨h1, .inl (by simp)⟩
    refine (C31.contrib_val m may ty done v).congr (fun f => ?_) (fun p => ?_) (fun x => (hc x).symm)
    · constructor
      · rintro ⟨h1, h2⟩; exact ⟨v, (hc v).2 ⟨h1, rfl⟩, h2⟩
      · rintro ⟨x, h1, h2⟩
        obtain ⟨h3, rfl⟩ := (hc x).1 h1
        exact ⟨h3, h2⟩
    · constructor
      · rintro ⟨h1, h2⟩; exact .inl ⟨v, (hc v).2 ⟨h1, rfl⟩, h2⟩
      · rintro (⟨x, h1, h2⟩ | ⟨_, _, h⟩)
        · obtain ⟨h3, rfl⟩ := (hc x).1 h1
          exact ⟨h3, h2⟩
        · cases h
  | introduce v w =>
    have hc : ∀ x, Computed m [.introduce v w] x ↔ (m.interesting v = true ∧ m.interesting w = true) ∧ (x = v ∨ x = w) := by
      intro x
      unfold Computed
      constructor
      · rintro ⟨h1, h2 | ⟨y, h3, h2 | h2⟩⟩
        · simp at h2
        · simp only [List.mem_singleton, Call.introduce.injEq] at h2
          obtain ⟨rfl, rfl⟩ := h2; exact ⟨⟨h1, h3⟩, .inl rfl⟩
        · simp only [List.mem_singleton, Call.introduce.injEq] at h2
          obtain ⟨rfl, rfl⟩ := h2; exact ⟨⟨h3, h1⟩, .inr rfl⟩
      · rintro ⟨⟨h1, h2⟩, rfl | rfl⟩
        · exact ⟨h1, .inr ⟨w, h2, .inl (by simp)⟩⟩
        · exact ⟨h2, .inr ⟨v, h1, .inr (by simp)⟩⟩
    unfold call
    by_cases hi : (m.interesting v && m.interesting w) = true
    · simp only [if_pos hi]
      rw [Bool.and_eq_true] at hi
      have h1 := C31.contrib_val m may ty done v
      have h2 := C31.contrib_val m may ty (computeVal m done v).2 w
      have h3 := C31.contrib_merge m may ty (computeVal m (computeVal m done v).2 w).2 v w
      refine (h1.append (h2.append h3)).congr (fun f => ?_) (fun p => ?_) (fun x => ?_)
      · constructor
        · rintro (⟨_, h⟩ | ⟨_, h⟩ | h)
          · exact ⟨v, (hc v).2 ⟨hi, .inl rfl⟩, h⟩
          · exact ⟨w, (hc w).2 ⟨hi, .inr rfl⟩, h⟩
          · cases h
        · rintro ⟨x, g1, g2⟩
          rcases ((hc x).1 g1).2 with rfl | rfl
          · exact .inl ⟨hi.1, g2⟩
          · exact .inr (.inl ⟨hi.2, g2⟩)
      · constructor
        · rintro (⟨_, h⟩ | ⟨_, h⟩ | h)
          · exact .inl ⟨v, (hc v).2 ⟨hi, .inl rfl⟩, h⟩
          · exact .inl ⟨w, (hc w).2 ⟨hi, .inr rfl⟩, h⟩
          · subst h; exact .inr ⟨hi.1, hi.2, rfl⟩
        · rintro (⟨x, g1, g2⟩ | ⟨_, _, h⟩)
          · rcases ((hc x).1 g1).2 with rfl | rfl
            · exact .inl ⟨hi.1, g2⟩
            · exact .inr (.inl ⟨hi.2, g2⟩)
          · cases h; exact .inr (.inr rfl)
      · rw [hc]
        constructor
        · rintro (⟨_, h⟩ | ⟨_, h⟩ | h)
          · exact ⟨hi, .inl h⟩
          · exact ⟨hi, .inr h⟩
          · cases h
        · rintro ⟨_, h | h⟩
          · exact .inl ⟨hi.1, h⟩
          · exact .inr (.inl ⟨hi.2, h⟩)
    · simp only [if_neg hi]
      rw [Bool.and_eq_true] at hi
      refine (C31.contrib_nil m may ty done).congr (fun f => ?_) (fun p => ?_) (fun x => ?_)
      · simp only [false_iff]
        rintro ⟨x, h, _⟩
        exact hi ((hc x).1 h).1
      · simp only [false_iff]
        rintro (⟨x, h, _⟩ | ⟨h1, h2, h⟩)
        · exact hi ((hc x).1 h).1
        · cases h; exact hi ⟨h1, h2⟩
      · simp only [false_iff]
        intro h
        exact hi ((hc x).1 h).1

theorem C31.computed_cons (c : Call V) (cs : List (Call V)) (v : V) :
    Computed m (c :: cs) v ↔ Computed m [c] v ∨ Computed m cs v := by
  unfold Computed
  simp only [List.mem_cons, List.not_mem_nil, or_false]
  constructor
  · rintro ⟨h1, (h | h) | ⟨w, hw, (h | h) | (h | h)⟩⟩
    · exact .inl ⟨h1, .inl h⟩
    · exact .inr ⟨h1, .inl h⟩
    · exact .inl ⟨h1, .inr ⟨w, hw, .inl h⟩⟩
    · exact .inr ⟨h1, .inr ⟨w, hw, .inl h⟩⟩
    · exact .inl ⟨h1, .inr ⟨w, hw, .inr h⟩⟩
    · exact .inr ⟨h1, .inr ⟨w, hw, .inr h⟩⟩
  · rintro (⟨h1, h | ⟨w, hw, h | h⟩⟩ | ⟨h1, h | ⟨w, hw, h | h⟩⟩)
    · exact ⟨h1, .inl (.inl h)⟩
    · exact ⟨h1, .inr ⟨w, hw, .inl (.inl h)⟩⟩
    · exact ⟨h1, .inr ⟨w, hw, .inr (.inl h)⟩⟩
    · exact ⟨h1, .inl (.inr h)⟩
    · exact ⟨h1, .inr ⟨w, hw, .inl (.inr h)⟩⟩
    · exact ⟨h1, .inr ⟨w, hw, .inr (.inr h)⟩⟩

theorem C31.contrib_calls (cs : List (Call V)) : ∀ (done : List F),
    C31.Contrib m may ty done (calls m done cs) (fun f => ∃ v, Computed m cs v ∧ Needs m v f)
      (fun p => (∃ v, Computed m cs v ∧ UsePair m v p) ∨
        (m.interesting p.1 = true ∧ m.interesting p.2 = true ∧ .introduce p.1 p.2 ∈ cs)) (Computed m cs) := by
  induction cs with
  | nil =>
    intro done
    refine (C31.contrib_nil m may ty done).congr ?_ ?_ ?_ <;> simp [Computed]
  | cons c cs ih =>
    intro done
    refine ((C31.contrib_call m may ty done c).append (ih _)).congr (fun f => ?_) (fun p => ?_)
      (fun v => (C31.computed_cons m c cs v).symm)
    · constructor
      · rintro (⟨v, h, h'⟩ | ⟨v, h, h'⟩)
        · exact ⟨v, (C31.computed_cons m c cs v).2 (.inl h), h'⟩
        · exact ⟨v, (C31.computed_cons m c cs v).2 (.inr h), h'⟩
      · rintro ⟨v, h, h'⟩
        rcases (C31.computed_cons m c cs v).1 h with h | h
        · exact .inl ⟨v, h, h'⟩
        · exact .inr ⟨v, h, h'⟩
    · constructor
      · rintro ((⟨v, h, h'⟩ | ⟨h1, h2, h⟩) | (⟨v, h, h'⟩ | ⟨h1, h2, h⟩))
        · exact .inl ⟨v, (C31.computed_cons m c cs v).2 (.inl h), h'⟩
        · exact .inr ⟨h1, h2, by rw [h]; simp⟩
        · exact .inl ⟨v, (C31.computed_cons m c cs v).2 (.inr h), h'⟩
        · exact .inr ⟨h1, h2, List.mem_cons_of_mem _ h⟩
      · rintro (⟨v, h, h'⟩ | ⟨h1, h2, h⟩)
        · rcases (C31.computed_cons m c cs v).1 h with h | h
          · exact .inl (.inl ⟨v, h, h'⟩)
          · exact .inr (.inl ⟨v, h, h'⟩)
        · rcases List.mem_cons.1 h with h | h
          · exact .inl (.inr ⟨h1, h2, h.symm⟩)
          · exact .inr (.inr ⟨h1, h2, h⟩)
end

/-- C31: what a sequence of interface calls computes on demand. The known pointers are those asked for and those the analysed
functions add; the pairs are those of the analysed functions, each analysed from scratch, those merged for the uses of the
globals asked for, and those introduced. The analysed functions are those the pointers asked for need. In particular the
result does not depend on the order of the calls or on repeated ones. -/
theorem C31_on_demand (m : Mod V F) (may : V → V → Bool) (ty : V → Ty) (cs : List (Call V)) (sp : Spec V)
    (h : specRun may ty ⟨[], [], []⟩ (calls m [] cs).1 = some sp) :
    (∀ x, x ∈ sp.known ↔ Computed m cs x ∨
      ∃ v f, Computed m cs v ∧ Needs m v f ∧ m.decl f = false ∧ x ∈ adds (m.events f)) ∧
    (∀ p, p ∈ sp.pairs ↔ (∃ v f, Computed m cs v ∧ Needs m v f ∧ m.decl f = false ∧ p ∈ evPairs may ty [] (m.events f)) ∨
      (∃ v, Computed m cs v ∧ UsePair m v p) ∨
      (m.interesting p.1 = true ∧ m.interesting p.2 = true ∧ .introduce p.1 p.2 ∈ cs)) := by
  obtain ⟨h1, h2⟩ := C31.specRun_mem _ _ _ h
  have hc := C31.contrib_calls m may ty cs []
  constructor
  · intro x
    rw [h2, hc.vals]
    simp only [List.not_mem_nil, false_or]
    constructor
    · rintro (⟨f, ⟨v, a, b⟩, _, c, d⟩ | h)
      · exact .inr ⟨v, f, a, b, c, d⟩
      · exact .inl h
    · rintro (h | ⟨v, f, a, b, c, d⟩)
      · exact .inr h
      · exact .inl ⟨f, ⟨v, a, b⟩, by simp, c, d⟩
  · intro p
    rw [h1, hc.pairs]
    simp only [List.not_mem_nil, false_or]
    constructor
    · rintro (⟨f, ⟨v, a, b⟩, _, c, d⟩ | h)
      · exact .inl ⟨v, f, a, b, c, d⟩
      · exact .inr h
    · rintro (⟨v, f, a, b, c, d⟩ | h)
      · exact .inl ⟨f, ⟨v, a, b⟩, by simp, c, d⟩
      · exact .inr h

theorem C31.clos_mono {P Q : List (V × V)} (h : ∀ p, p ∈ P → p ∈ Q) {a b : V} (hc : Clos P a b) : Clos Q a b := by
  induction hc with
  | pair h' => exact .pair (h _ h')
  | refl a => exact .refl a
  | symm _ ih => exact ih.symm
  | trans _ _ ih1 ih2 => exact ih1.trans ih2

theorem C31.computed_perm (m : Mod V F) {cs cs' : List (Call V)} (hcs : ∀ c, c ∈ cs ↔ c ∈ cs') (v : V) :
    Computed m cs v ↔ Computed m cs' v := by
  unfold Computed
  simp only [hcs]

/-- C31: the alias sets do not depend on the order of the calls, on repeated calls, or on the allocator. -/
theorem C31_order (fresh fresh' : St V → Nat) (hf : Alloc fresh) (hf' : Alloc fresh') (m : Mod V F) (hm : MWf m)
    (may : V → V → Bool) (ty : V → Ty) (cs cs' : List (Call V)) (hcs : ∀ c, c ∈ cs ↔ c ∈ cs') :
    ∃ s r s' r', run fresh may ty (empty, []) (calls m [] cs).1 = some (s, r) ∧
      run fresh' may ty (empty, []) (calls m [] cs').1 = some (s', r') ∧
      (∀ p, (aliasSet s p).isSome = (aliasSet s' p).isSome) ∧
      ∀ p S S', aliasSet s p = some S → aliasSet s' p = some S' → ∀ q, q ∈ S ↔ q ∈ S' := by
  obtain ⟨sp, hsp⟩ := C31_calls m hm may ty cs
  obtain ⟨sp', hsp'⟩ := C31_calls m hm may ty cs'
  obtain ⟨k1, p1⟩ := C31_on_demand m may ty cs sp hsp
  obtain ⟨k2, p2⟩ := C31_on_demand m may ty cs' sp' hsp'
  have hk : ∀ x, x ∈ sp.known ↔ x ∈ sp'.known := by
    intro x
    rw [k1, k2]
    simp only [C31.computed_perm m hcs]
  have hp : ∀ x, x ∈ sp.pairs ↔ x ∈ sp'.pairs := by
    intro x
    rw [p1, p2]
    simp only [C31.computed_perm m hcs, hcs]
  obtain ⟨s, r, a1, a2, a3, _⟩ := C31_partition fresh hf may ty _ sp hsp
  obtain ⟨s', r', b1, b2, b3, _⟩ := C31_partition fresh' hf' may ty _ sp' hsp'
  refine ⟨s, r, s', r', a1, b1, fun p => ?_, fun p S S' hS hS' q => ?_⟩
  · rw [Bool.eq_iff_iff, Option.isSome_iff_exists, Option.isSome_iff_exists, a2, b2, hk]
  · rw [(a3 p S hS).2, (b3 p S' hS').2, hk]
    constructor
    · rintro ⟨h1, h2⟩; exact ⟨h1, C31.clos_mono (fun x hx => (hp x).1 hx) h2⟩
    · rintro ⟨h1, h2⟩; exact ⟨h1, C31.clos_mono (fun x hx => (hp x).2 hx) h2⟩

/-- C31 instance: querying the global 0 analyses function 1, whose pointers 2 and 3 are merged, and merges 0 with 3. -/
example (sp : Spec Nat) (h : specRun (fun _ _ => false) (fun v => v % 2) ⟨[], [], []⟩ (calls C31.mod [] [.compute 0]).1 = some sp) :
    (2, 3) ∈ sp.pairs ∧ (0, 3) ∈ sp.pairs ∧ 1 ∈ sp.known := by
  obtain ⟨hk, hp⟩ := C31_on_demand C31.mod _ _ _ sp h
  have hc : Computed C31.mod [.compute 0] 0 := ⟨rfl, .inl (by simp)⟩
  refine ⟨(hp _).2 (.inl ⟨0, 1, hc, ⟨(1, some (0, 3)), by simp, rfl⟩, by decide, by decide⟩),
    (hp _).2 (.inr (.inl ⟨0, hc, _, rfl, (1, some (0, 3)), by simp, rfl⟩)),
    (hk _).2 (.inr ⟨0, 1, hc, ⟨(1, some (0, 3)), by simp, rfl⟩, by decide, by decide⟩)⟩

example := C31_order bump bump C31.bump_alloc C31.bump_alloc C31.mod C31.mod_wf (fun a b => a + 1 == b) (fun v => v % 2)
  [.compute 0, .introduce 4 1, .compute 5] [.compute 5, .compute 0, .introduce 4 1, .compute 5] (by
    intro c
    simp only [List.mem_cons, List.not_mem_nil, or_false]
    constructor
    · rintro (h | h | h) <;> simp [h]
    · rintro (h | h | h | h) <;> simp [h])

end Phasar.Alias
