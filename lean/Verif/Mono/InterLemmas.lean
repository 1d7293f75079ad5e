import Verif.Mono.Inter
/-!
# Lemmas on `InterMonoSolver`
-/
set_option linter.unusedSectionVars false
namespace Phasar.InterMono
variable {N F C : Type} [DecidableEq N] [DecidableEq F]

theorem row_put (A : An N C) (n : N) (x : Ctx N) (c : C) (m : N) :
    row (put A n x c) m = if m = n then (row A n).set x c else row A m := by
  unfold put row
  rw [AMap.get_set]
  by_cases h : m = n
  · subst h; simp
  · have : ¬ n = m := fun e => h e.symm
    simp [this, h]

theorem val_put (P : MProb N F C) (A : An N C) (n : N) (x : Ctx N) (c : C) (m : N) (y : Ctx N) :
    val P (put A n x c) m y = if m = n ∧ y = x then c else val P A m y := by
  unfold val
  rw [row_put]
  by_cases h : m = n
  · subst h
    rw [if_pos rfl, AMap.get_set]
    by_cases hy : y = x
    · subst hy; simp
    · have : ¬ x = y := fun e => hy e.symm
      simp [this, hy]
  · simp [h]

theorem val_touch (P : MProb N F C) (A : An N C) (n : N) (x : Ctx N) (m : N) (y : Ctx N) :
    val P (touch P A n x) m y = val P A m y := by
  unfold touch
  cases h : (row A n).get x with
  | some c => rfl
  | none =>
    simp only
    rw [val_put]
    split
    · rename_i hh
      obtain ⟨rfl, rfl⟩ := hh
      simp [val, h]
    · rfl

/-- The contexts of every statement are distinct. -/
def Distinct (A : An N C) : Prop := ∀ n, AMap.NodupKeys (row A n)

theorem distinct_put {A : An N C} (h : Distinct A) (n : N) (x : Ctx N) (c : C) : Distinct (put A n x c) := by
  intro m
  rw [row_put]
  split
  · exact AMap.nodupKeys_set (h n) x c
  · exact h m

theorem distinct_touch {P : MProb N F C} {A : An N C} (h : Distinct A) (n : N) (x : Ctx N) : Distinct (touch P A n x) := by
  unfold touch
  split
  · exact h
  · exact distinct_put h n x _

theorem distinct_initEdges {P : MProb N F C} {A : An N C} (h : Distinct A) (es : List (N × N)) :
    Distinct (initEdges P A es) := by
  unfold initEdges
  have : ∀ (es : List (N × N)) (A : An N C), Distinct A → Distinct (es.foldl (fun A e => put A e.1 [] P.allTop) A) := by
    intro es
    induction es with
    | nil => intro A h; exact h
    | cons e es ih => intro A h; exact ih _ (distinct_put h _ _ _)
  simp only
  split
  · exact distinct_put (this _ _ h) _ _ _
  · exact this _ _ h

theorem val_initEdges (P : MProb N F C) (A : An N C) (es : List (N × N)) (n : N) (x : Ctx N) :
    val P (initEdges P A es) n x = val P A n x ∨ x = [] ∧ val P (initEdges P A es) n x = P.allTop := by
  have : ∀ (es : List (N × N)) (A : An N C), val P (es.foldl (fun A e => put A e.1 [] P.allTop) A) n x = val P A n x ∨
      x = [] ∧ val P (es.foldl (fun A e => put A e.1 [] P.allTop) A) n x = P.allTop := by
    intro es
    induction es with
    | nil => intro A; exact .inl rfl
    | cons e es ih =>
      intro A
      rw [List.foldl_cons]
      rcases ih (put A e.1 [] P.allTop) with h | h
      · rw [h, val_put]
        split
        · rename_i hh; exact .inr ⟨hh.2, rfl⟩
        · exact .inl rfl
      · exact .inr h
  unfold initEdges
  simp only
  split
  · rw [val_put]
    split
    · rename_i hh; exact .inr ⟨hh.2, rfl⟩
    · exact this es A
  · exact this es A

theorem mergePreds_val (P : MProb N F C) (src : N) (x : Ctx N) (ps : List N) : ∀ (A : An N C) (o : C) (m : N) (y : Ctx N),
    val P (mergePreds P src x ps A o).1 m y = val P A m y := by
  induction ps with
  | nil => intro A o m y; rfl
  | cons p ps ih =>
    intro A o m y
    unfold mergePreds
    split
    · exact ih _ _ _ _
    · rw [ih, val_touch]

theorem mergePreds_out (P : MProb N F C) (src : N) (x : Ctx N) (ps : List N) : ∀ (A : An N C) (o : C),
    (mergePreds P src x ps A o).2 =
      (ps.filter (fun p => p ≠ src)).foldl (fun o p => P.merge o (P.normalFlow p (val P A p x))) o := by
  induction ps with
  | nil => intro A o; rfl
  | cons p ps ih =>
    intro A o
    unfold mergePreds
    by_cases h : p = src
    · subst h
      rw [if_pos rfl, ih, List.filter_cons_of_neg (by simp)]
    · rw [if_neg h, ih, List.filter_cons_of_pos (by simpa using h), List.foldl_cons]
      congr 1
      funext o q
      rw [val_touch]

theorem mergePreds_distinct {P : MProb N F C} {src : N} {x : Ctx N} (ps : List N) : ∀ {A : An N C} {o : C}, Distinct A →
    Distinct (mergePreds P src x ps A o).1 := by
  induction ps with
  | nil => intro A o h; exact h
  | cons p ps ih =>
    intro A o h
    unfold mergePreds
    split
    · exact ih h
    · exact ih (distinct_touch h _ _)

/-- With an exact comparison, `update` stores the value, whether or not it differs. -/
theorem update_val {P : MProb N F C} (heq : ∀ a b, P.equalTo a b = true ↔ a = b) (src dst : N) (x : Ctx N) (o : C)
    (s : St N F C) (n : N) (y : Ctx N) :
    val P (update P src dst x o s).an n y = if n = dst ∧ y = x then o else val P s.an n y := by
  unfold update
  simp only
  by_cases h : P.equalTo o (val P s.an dst x) = true
  · rw [if_pos h]
    simp only
    rw [val_touch]
    split
    · rename_i hh
      obtain ⟨rfl, rfl⟩ := hh
      exact ((heq _ _).1 h).symm
    · rfl
  · rw [if_neg h]
    simp only
    rw [val_put]

theorem update_distinct {P : MProb N F C} {src dst : N} {x : Ctx N} {o : C} {s : St N F C} (h : Distinct s.an) :
    Distinct (update P src dst x o s).an := by
  unfold update
  simp only
  split
  · exact distinct_touch h _ _
  · exact distinct_put h _ _ _

theorem update_wl {P : MProb N F C} {src dst : N} {x : Ctx N} {o : C} {s : St N F C} {e : N × N}
    (h : e ∈ (update P src dst x o s).wl) : e ∈ s.wl ∨ e ∈ pushed P src dst := by
  unfold update at h
  simp only at h
  split at h
  · exact .inl h
  · exact List.mem_append.1 h

theorem update_wl_mono {P : MProb N F C} {src dst : N} {x : Ctx N} {o : C} {s : St N F C} {e : N × N}
    (h : e ∈ s.wl) : e ∈ (update P src dst x o s).wl := by
  unfold update
  simp only
  split
  · exact h
  · exact List.mem_append_left _ h

/-- `update` queues the edges if it changes the value. -/
theorem update_pushes {P : MProb N F C} (heq : ∀ a b, P.equalTo a b = true ↔ a = b) {src dst : N} {x : Ctx N} {o : C}
    {s : St N F C} (hne : val P s.an dst x ≠ o) {e : N × N} (he : e ∈ pushed P src dst) :
    e ∈ (update P src dst x o s).wl := by
  unfold update
  simp only
  rw [if_neg (fun h => hne ((heq _ _).1 h).symm)]
  exact List.mem_append_right _ he

theorem update_added {P : MProb N F C} {src dst : N} {x : Ctx N} {o : C} {s : St N F C} :
    (update P src dst x o s).added = s.added := by
  unfold update
  simp only
  split <;> rfl

/-- The value `processNormal` computes for a context. -/
def normalOut (P : MProb N F C) (A : An N C) (src dst : N) (x : Ctx N) : C :=
  if P.branchTarget src dst then
    ((P.preds dst).filter (fun p => p ≠ src)).foldl (fun o p => P.merge o (P.normalFlow p (val P A p x)))
      (P.normalFlow src (val P A src x))
  else P.normalFlow src (val P A src x)

/-- `normalCtx` as an update. -/
theorem normalCtx_eq (P : MProb N F C) (src dst : N) (s : St N F C) (x : Ctx N) :
    ∃ A, normalCtx P src dst s x = update P src dst x (normalOut P s.an src dst x) { s with an := A } ∧
      (∀ n y, val P A n y = val P s.an n y) ∧ (Distinct s.an → Distinct A) := by
  unfold normalCtx normalOut
  by_cases h : P.branchTarget src dst = true
  · simp only [if_pos h, mergePreds_out]
    exact ⟨_, rfl, fun n y => mergePreds_val _ _ _ _ _ _ _ _, fun hd => mergePreds_distinct _ hd⟩
  · simp only [if_neg h]
    exact ⟨s.an, rfl, fun _ _ => rfl, fun h => h⟩

theorem normalOut_congr {P : MProb N F C} {A B : An N C} {x : Ctx N} (h : ∀ n, val P A n x = val P B n x) (src dst : N) :
    normalOut P A src dst x = normalOut P B src dst x := by
  unfold normalOut
  rw [h src]
  have : (fun (o : C) p => P.merge o (P.normalFlow p (val P A p x))) = (fun o p => P.merge o (P.normalFlow p (val P B p x))) := by
    funext o p; rw [h p]
  rw [this]

theorem normal_fold {P : MProb N F C} (heq : ∀ a b, P.equalTo a b = true ↔ a = b) (src dst : N) (l : List (Ctx N)) :
    ∀ (s : St N F C), l.Nodup →
      (∀ n y, val P (l.foldl (normalCtx P src dst) s).an n y =
        if n = dst ∧ y ∈ l then normalOut P s.an src dst y else val P s.an n y) ∧
      (∀ e ∈ s.wl, e ∈ (l.foldl (normalCtx P src dst) s).wl) ∧
      (∀ y ∈ l, val P s.an dst y ≠ normalOut P s.an src dst y → ∀ e ∈ pushed P src dst,
        e ∈ (l.foldl (normalCtx P src dst) s).wl) := by
  induction l with
  | nil => intro s _; simp
  | cons x l ih =>
    intro s hn
    rw [List.nodup_cons] at hn
    obtain ⟨A, h1, h2, _⟩ := normalCtx_eq P src dst s x
    rw [List.foldl_cons]
    have hv : ∀ n y, val P (normalCtx P src dst s x).an n y =
        if n = dst ∧ y = x then normalOut P s.an src dst x else val P s.an n y := by
      intro n y
      rw [h1, update_val heq]
      simp only
      rw [h2]
    have ho : ∀ y, y ≠ x → normalOut P (normalCtx P src dst s x).an src dst y = normalOut P s.an src dst y := by
      intro y hy
      exact normalOut_congr (fun n => by rw [hv]; simp [hy]) _ _
    obtain ⟨i1, i2, i3⟩ := ih (normalCtx P src dst s x) hn.2
    have hw : ∀ e ∈ s.wl, e ∈ (normalCtx P src dst s x).wl := by
      intro e he
      rw [h1]
      exact update_wl_mono (s := { s with an := A }) he
    refine ⟨fun n y => ?_, fun e he => i2 e (hw e he), fun y hy hne e he => ?_⟩
    · rw [i1]
      by_cases hy : y ∈ l
      · have hyx : y ≠ x := fun e => hn.1 (e ▸ hy)
        rw [ho y hyx, hv]
        simp [hy, hyx]
      · rw [hv]
        by_cases hyx : y = x
        · subst hyx; simp [hy]
        · simp [hy, hyx]
    · rcases List.mem_cons.1 hy with rfl | hy
      · refine i2 e ?_
        rw [h1]
        exact update_pushes heq (s := { s with an := A }) (by simp only; rw [h2]; exact hne) he
      · have hyx : y ≠ x := fun e => hn.1 (e ▸ hy)
        refine i3 y hy ?_ e he
        rw [ho y hyx, hv]
        simpa [hyx] using hne

theorem ctr_fold {P : MProb N F C} (heq : ∀ a b, P.equalTo a b = true ↔ a = b) (src dst : N) (l : List (Ctx N)) :
    ∀ (s : St N F C), l.Nodup →
      (∀ n y, val P (l.foldl (ctrCtx P src dst) s).an n y =
        if n = dst ∧ y ∈ l then P.ctrFlow src dst (P.callees src) (val P s.an src y) else val P s.an n y) ∧
      (∀ e ∈ s.wl, e ∈ (l.foldl (ctrCtx P src dst) s).wl) ∧
      (∀ y ∈ l, val P s.an dst y ≠ P.ctrFlow src dst (P.callees src) (val P s.an src y) → ∀ e ∈ pushed P src dst,
        e ∈ (l.foldl (ctrCtx P src dst) s).wl) := by
  induction l with
  | nil => intro s _; simp
  | cons x l ih =>
    intro s hn
    rw [List.nodup_cons] at hn
    rw [List.foldl_cons]
    have hv : ∀ n y, val P (ctrCtx P src dst s x).an n y =
        if n = dst ∧ y = x then P.ctrFlow src dst (P.callees src) (val P s.an src x) else val P s.an n y :=
      fun n y => update_val heq _ _ _ _ _ _ _
    obtain ⟨i1, i2, i3⟩ := ih (ctrCtx P src dst s x) hn.2
    refine ⟨fun n y => ?_, fun e he => i2 e (update_wl_mono he), fun y hy hne e he => ?_⟩
    · rw [i1]
      by_cases hy : y ∈ l
      · have hyx : y ≠ x := fun e => hn.1 (e ▸ hy)
        rw [hv, hv]
        simp [hy, hyx]
      · rw [hv n y]
        by_cases hyx : y = x
        · subst hyx; simp [hy]
        · simp [hy, hyx]
    · rcases List.mem_cons.1 hy with rfl | hy
      · exact i2 e (update_pushes heq hne he)
      · have hyx : y ≠ x := fun e => hn.1 (e ▸ hy)
        refine i3 y hy ?_ e he
        rw [hv, hv]
        simpa [hyx] using hne

theorem call_fold {P : MProb N F C} (heq : ∀ a b, P.equalTo a b = true ↔ a = b) {src dst : N} (hsd : src ≠ dst)
    (l : List (Ctx N)) : ∀ (s : St N F C),
      (∀ n y, (val P (l.foldl (callCtx P src dst) s).an n y = val P s.an n y ∧
          ¬ (n = dst ∧ ∃ x ∈ l, y = CallString.push P.K x src)) ∨
        n = dst ∧ ∃ x ∈ l, y = CallString.push P.K x src ∧
          val P (l.foldl (callCtx P src dst) s).an n y = P.callFlow src (P.funOf dst) (val P s.an src x)) ∧
      (∀ e ∈ s.wl, e ∈ (l.foldl (callCtx P src dst) s).wl) ∧
      (∀ y, val P (l.foldl (callCtx P src dst) s).an dst y ≠ val P s.an dst y → ∀ e ∈ pushed P src dst,
        e ∈ (l.foldl (callCtx P src dst) s).wl) := by
  induction l with
  | nil => intro s; simp
  | cons x l ih =>
    intro s
    rw [List.foldl_cons]
    have hv : ∀ n y, val P (callCtx P src dst s x).an n y =
        if n = dst ∧ y = CallString.push P.K x src then P.callFlow src (P.funOf dst) (val P s.an src x)
        else val P s.an n y := fun n y => update_val heq _ _ _ _ _ _ _
    have hsrc : ∀ y, val P (callCtx P src dst s x).an src y = val P s.an src y := by
      intro y; rw [hv]; simp [hsd]
    obtain ⟨i1, i2, i3⟩ := ih (callCtx P src dst s x)
    refine ⟨fun n y => ?_, fun e he => i2 e (update_wl_mono he), fun y hne e he => ?_⟩
    · rcases i1 n y with ⟨h1, h2⟩ | ⟨h1, x', h2, h3, h4⟩
      · by_cases hy : n = dst ∧ y = CallString.push P.K x src
        · refine .inr ⟨hy.1, x, by simp, hy.2, ?_⟩
          rw [h1, hv, if_pos hy]
        · refine .inl ⟨by rw [h1, hv, if_neg hy], ?_⟩
          rintro ⟨q1, x', q2, q3⟩
          rcases List.mem_cons.1 q2 with rfl | q2
          · exact hy ⟨q1, q3⟩
          · exact h2 ⟨q1, x', q2, q3⟩
      · refine .inr ⟨h1, x', by simp [h2], h3, ?_⟩
        rw [h4, hsrc]
    · by_cases hc : val P (callCtx P src dst s x).an dst y = val P s.an dst y
      · exact i3 y (by rw [hc]; exact hne) e he
      · refine i2 e (update_pushes heq ?_ he)
        intro h
        apply hc
        rw [hv]
        split
        · rename_i hh; rw [hh.2]; exact h.symm
        · rfl

/-- Specification: the call sites a return from `e` in context `x` goes to, `InterMonoSolver.h:297-304`: the most recent
call site of the context, all callers if it is empty. -/
def sites (P : MProb N F C) (e : N) (x : Ctx N) : List N :=
  match x.getLast? with
  | none => P.callers (P.funOf e)
  | some c => [c]

theorem mem_dedup (l : List N) (n : N) : n ∈ dedup l ↔ n ∈ l := by
  induction l with
  | nil => simp [dedup]
  | cons m l ih =>
    simp only [dedup, List.mem_cons, List.mem_filter, ih, decide_eq_true_eq]
    constructor
    · rintro (h | h)
      · exact .inl h
      · exact .inr h.1
    · rintro (h | h)
      · exact .inl h
      · by_cases e : n = m
        · exact .inl e
        · exact .inr ⟨h, by simpa using e⟩

theorem retSite_val {P : MProb N F C} (src dst : N) (x : Ctx N) (o : C) (s : St N F C) (r : N) (n : N) (y : Ctx N) :
    val P (retSite P src dst x o s r).an n y =
      if P.equalTo o (val P s.an r x) = true then val P s.an n y
      else if (n = dst ∨ n = r) ∧ y = x then P.ins (P.ins P.dflt (val P s.an r x)) o else val P s.an n y := by
  unfold retSite
  simp only
  by_cases h : P.equalTo o (val P s.an r x) = true
  · rw [if_pos h, if_pos h]
    exact val_touch _ _ _ _ _ _
  · rw [if_neg h, if_neg h]
    simp only
    rw [val_put, val_put]
    by_cases h1 : n = dst
    · by_cases h2 : y = x <;> simp [h1, h2]
    · by_cases h2 : y = x <;> simp [h1, h2]

theorem retSite_wl (P : MProb N F C) (src dst : N) (x : Ctx N) (o : C) (s : St N F C) (r : N) :
    (retSite P src dst x o s r).wl = s.wl := by
  unfold retSite
  simp only
  split <;> rfl

theorem retSite_distinct {P : MProb N F C} {src dst : N} {x : Ctx N} {o : C} {s : St N F C} {r : N} (h : Distinct s.an) :
    Distinct (retSite P src dst x o s r).an := by
  unfold retSite
  simp only
  split
  · exact distinct_touch h _ _
  · exact distinct_put (distinct_put h _ _ _) _ _ _

/-- What `Out[CTXRm]` becomes for a context. -/
def exitOut (P : MProb N F C) (src dst : N) (A : An N C) (out : AMap (Ctx N) C) (x : Ctx N) : C :=
  (sites P src x).foldl (fun o c => P.ins o (P.returnFlow c (P.funOf src) src dst (val P A src x)))
    (match out.get (CallString.pop x).1 with
    | some c => c
    | none => P.dflt)

theorem exitCtx_eq (P : MProb N F C) (src dst : N) (s : St N F C) (out : AMap (Ctx N) C) (x : Ctx N) :
    exitCtx P src dst (s, out) x =
      ((dedup ((sites P src x).flatMap P.retSites)).foldl
        (retSite P src dst (CallString.pop x).1 (exitOut P src dst s.an out x)) s,
       out.set (CallString.pop x).1 (exitOut P src dst s.an out x)) := rfl

/-- Specification: the states `solve()` goes through. -/
inductive Reached (P : MProb N F C) : St N F C → Prop
  | init : Reached P (initSt P)
  | step {e : N × N} {wl : List (N × N)} {A : An N C} {f : List F} {u : Bool} :
      Reached P ⟨e :: wl, A, f, u⟩ → Reached P (step P e.1 e.2 ⟨wl, A, f, u⟩)

theorem loop_reached {P : MProb N F C} (k : Nat) : ∀ {s t : St N F C}, Reached P s → loop P k s = some t →
    Reached P t ∧ t.wl = [] := by
  induction k with
  | zero =>
    intro s t hr h
    obtain ⟨wl, A, f, u⟩ := s
    cases wl with
    | nil => cases h; exact ⟨hr, rfl⟩
    | cons e wl => cases h
  | succ k ih =>
    intro s t hr h
    obtain ⟨wl, A, f, u⟩ := s
    cases wl with
    | nil => cases h; exact ⟨hr, rfl⟩
    | cons e wl => exact ih (.step hr) h

theorem foldl_ind {S A : Type} (I : S → Prop) (g : S → A → S) (l : List A) (h : ∀ s, I s → ∀ a ∈ l, I (g s a)) :
    ∀ s, I s → I (l.foldl g s) := by
  induction l with
  | nil => intro s hs; exact hs
  | cons a l ih =>
    intro s hs
    rw [List.foldl_cons]
    exact ih (fun s hs b hb => h s hs b (List.mem_cons_of_mem _ hb)) _ (h s hs a (by simp))

theorem addCallees_distinct {P : MProb N F C} {src : N} (fs : List F) : ∀ {s : St N F C}, Distinct s.an →
    Distinct (addCallees P src fs s).an := by
  induction fs with
  | nil => intro s h; exact h
  | cons f fs ih =>
    intro s h
    unfold addCallees
    split
    · exact h
    · exact ih (distinct_initEdges h _)

theorem step_distinct {P : MProb N F C} {src dst : N} {s : St N F C} (h : Distinct s.an) : Distinct (step P src dst s).an := by
  unfold step
  split
  · have h1 := addCallees_distinct (P := P) (src := src) (P.callees src) h
    simp only
    split
    · exact foldl_ind (fun (s : St N F C) => Distinct s.an) _ _ (fun s hs x _ => update_distinct hs) _ h1
    · exact foldl_ind (fun (s : St N F C) => Distinct s.an) _ _ (fun s hs x _ => update_distinct hs) _ h1
  · split
    · refine foldl_ind (fun (so : St N F C × AMap (Ctx N) C) => Distinct so.1.an) _ _ (fun so hs x _ => ?_) _ h
      obtain ⟨s, out⟩ := so
      rw [exitCtx_eq]
      exact foldl_ind (fun (s : St N F C) => Distinct s.an) _ _ (fun s hs r _ => retSite_distinct hs) _ hs
    · refine foldl_ind (fun (s : St N F C) => Distinct s.an) _ _ (fun s hs x _ => ?_) _ h
      obtain ⟨A, h1, _, h3⟩ := normalCtx_eq P src dst s x
      rw [h1]
      exact update_distinct (s := { s with an := A }) (h3 hs)

theorem initSt_distinct (P : MProb N F C) : Distinct (initSt P).an := by
  unfold initSt
  refine foldl_ind (fun (s : St N F C) => Distinct s.an) _ _ (fun s hs x _ => ?_) _ ?_
  · exact distinct_put (distinct_initEdges hs _) _ _ _
  · intro n
    exact AMap.nodupKeys_nil

theorem reached_distinct {P : MProb N F C} {s : St N F C} (h : Reached P s) : Distinct s.an := by
  induction h with
  | init => exact initSt_distinct P
  | step _ ih => exact step_distinct (s := ⟨_, _, _, _⟩) ih

theorem addCallees_known {P : MProb N F C} {src : N} {s : St N F C} (h : ∀ f ∈ P.callees src, f ∈ s.added) :
    addCallees P src (P.callees src) s = s := by
  cases hc : P.callees src with
  | nil => rfl
  | cons f fs =>
    unfold addCallees
    rw [if_pos (h f (by rw [hc]; simp))]

theorem ctxs_nodup {A : An N C} (h : Distinct A) (n : N) : (ctxs A n).Nodup := h n

end Phasar.InterMono
