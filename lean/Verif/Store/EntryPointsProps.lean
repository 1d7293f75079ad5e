import Verif.Store.EntryPoints
/-!
# C90: entry points and initial seeds
-/
set_option linter.unusedSectionVars false
namespace Phasar.EntryPoints
open Phasar Phasar.Seeds

variable {F N D L S : Type} [DecidableEq N] [DecidableEq D]

/-! ## Specification -/

/-- Specification: the statement is a start point of an entry point: of any function, if the only entry point is `__ALL__`, and otherwise of
a function that an entry point names. -/
def C90.Entry (p : Prog F N) (eps : List String) (n : N) : Prop :=
  (eps = ["__ALL__"] ∧ ∃ f ∈ p.allFunctions, n ∈ p.startPoints f) ∨
  (eps ≠ ["__ALL__"] ∧ ∃ e ∈ eps, ∃ f, p.getFunction e = some f ∧ n ∈ p.startPoints f)

/-- Specification: the seeds have the value for the fact at the statement. -/
def C90.Has (s : Seeds N D L) (n : N) (d : D) (l : L) : Prop := ∃ m, AMap.get s n = some m ∧ AMap.get m d = some l

/-! ## Lemmas -/

theorem C90.has_iff (s : Seeds N D L) (n : N) (d : D) (l : L) : C90.Has s n d l ↔ (rowOf s n).get d = some l := by
  unfold C90.Has rowOf
  cases h : s.get n with
  | none => simp
  | some m => simp

/-- The start points in the order in which they are handled. -/
def C90.points (p : Prog F N) (eps : List String) : List N :=
  if eps = ["__ALL__"] then p.allFunctions.flatMap p.startPoints
  else eps.flatMap fun e => match p.getFunction e with | some f => p.startPoints f | none => []

theorem C90.forallFns_eq (p : Prog F N) (h : S → N → S) : ∀ (fs : List (Option F)) (s : S),
    forallFns p h fs s = (fs.flatMap fun o => match o with | some f => p.startPoints f | none => []).foldl h s := by
  intro fs
  induction fs with
  | nil => intro s; rfl
  | cons o fs ih =>
    intro s
    cases o with
    | none => exact ih s
    | some f => rw [forallFns, ih, List.flatMap_cons, List.foldl_append]

/-- C90, order: the handler gets the start points of the functions one after the other: of all functions, if the only entry point is
`__ALL__`, and otherwise of the functions that are named, in the order of the names, each as often as it is named. -/
theorem C90_order (p : Prog F N) (eps : List String) (h : S → N → S) (s : S) :
    forallStartingPoints p eps h s =
      (if eps = ["__ALL__"] then p.allFunctions.flatMap p.startPoints
       else eps.flatMap fun e => match p.getFunction e with | some f => p.startPoints f | none => []).foldl h s := by
  have all : forallFns p h (p.allFunctions.map some) s = (p.allFunctions.flatMap p.startPoints).foldl h s := by
    rw [C90.forallFns_eq, List.flatMap_map]
  have named : ∀ eps : List String, forallFns p h (eps.map p.getFunction) s =
      (eps.flatMap fun e => match p.getFunction e with | some f => p.startPoints f | none => []).foldl h s := by
    intro eps
    rw [C90.forallFns_eq, List.flatMap_map]
  match eps with
  | [] => exact named []
  | [e] =>
    by_cases he : e = "__ALL__"
    · subst he
      rw [if_pos rfl, ← all]
      unfold forallStartingPoints
      simp
    · rw [if_neg (by simpa using he), ← named [e]]
      unfold forallStartingPoints
      simp [he]
  | e :: e' :: eps =>
    rw [if_neg (by simp), ← named (e :: e' :: eps)]
    rfl

theorem C90.mem_points (p : Prog F N) (eps : List String) (n : N) : n ∈ C90.points p eps ↔ C90.Entry p eps n := by
  unfold C90.points C90.Entry
  by_cases h : eps = ["__ALL__"]
  · rw [if_pos h, List.mem_flatMap]
    exact ⟨fun h' => .inl ⟨h, h'⟩, fun h' => h'.elim (fun h' => h'.2) fun h' => absurd h h'.1⟩
  · rw [if_neg h, List.mem_flatMap]
    constructor
    · rintro ⟨e, he, hn⟩
      cases hf : p.getFunction e with
      | none => rw [hf] at hn; exact absurd hn List.not_mem_nil
      | some f => rw [hf] at hn; exact .inr ⟨h, e, he, f, hf, hn⟩
    · rintro (⟨h', _⟩ | ⟨_, e, he, f, hf, hn⟩)
      · exact absurd h' h
      · exact ⟨e, he, by rw [hf]; exact hn⟩

/-- The effect of a list of `addSeed` calls. -/
def C90.addAll (s : Seeds N D L) (ops : List (N × D × L)) : Seeds N D L := ops.foldl (fun s o => addSeed s o.1 o.2.1 o.2.2) s

theorem C90.addAll_append (s : Seeds N D L) (a b : List (N × D × L)) : C90.addAll s (a ++ b) = C90.addAll (C90.addAll s a) b := by
  unfold C90.addAll; rw [List.foldl_append]

theorem C90.addAll_map {A : Type} (k : A → N × D × L) (l : List A) (s : Seeds N D L) :
    l.foldl (fun s a => addSeed s (k a).1 (k a).2.1 (k a).2.2) s = C90.addAll s (l.map k) := by
  unfold C90.addAll; rw [List.foldl_map]

theorem C90.addAll_flatMap {A : Type} (k : A → List (N × D × L)) (l : List A) (s : Seeds N D L) :
    l.foldl (fun s a => C90.addAll s (k a)) s = C90.addAll s (l.flatMap k) := by
  induction l generalizing s with
  | nil => rfl
  | cons a l ih => rw [List.foldl_cons, ih, List.flatMap_cons, C90.addAll_append]

/-- After a list of calls that agree on the values, exactly what was added is there. -/
theorem C90.addAll_iff (ops : List (N × D × L)) (hf : ∀ o ∈ ops, ∀ o' ∈ ops, o.1 = o'.1 → o.2.1 = o'.2.1 → o.2.2 = o'.2.2) (n : N) (d : D)
    (l : L) : C90.Has (C90.addAll [] ops) n d l ↔ (n, d, l) ∈ ops := by
  rw [C90.has_iff]
  show (rowOf (runAdd ops) n).get d = some l ↔ _
  rw [rowOf_run]
  unfold lastAdded
  rw [Option.map_eq_some_iff]
  constructor
  · rintro ⟨⟨n', d', l'⟩, h, rfl⟩
    have h1 := List.find?_some h
    have h2 := List.mem_of_find?_eq_some h
    simp only [decide_eq_true_eq] at h1
    obtain ⟨rfl, rfl⟩ := h1
    exact List.mem_reverse.1 h2
  · intro h
    cases hfd : ops.reverse.find? fun o => decide (o.1 = n ∧ o.2.1 = d) with
    | none =>
      have := List.find?_eq_none.1 hfd (n, d, l) (List.mem_reverse.2 h)
      simp at this
    | some o =>
      have h1 := List.find?_some hfd
      have h2 := List.mem_of_find?_eq_some hfd
      simp only [decide_eq_true_eq] at h1
      exact ⟨o, rfl, hf o (List.mem_reverse.1 h2) (n, d, l) h h1.1 h1.2⟩

theorem C90.order' (p : Prog F N) (eps : List String) (h : S → N → S) (s : S) :
    forallStartingPoints p eps h s = (C90.points p eps).foldl h s := C90_order p eps h s

/-- The seeds for adding the same at every start point. -/
theorem C90.same (p : Prog F N) (eps : List String) (k : N → List (D × L))
    (hf : ∀ n, ∀ x ∈ k n, ∀ y ∈ k n, x.1 = y.1 → x.2 = y.2) (n : N) (d : D) (l : L) :
    C90.Has ((C90.points p eps).foldl (fun s n => C90.addAll s ((k n).map fun x => (n, x))) []) n d l ↔
      C90.Entry p eps n ∧ (d, l) ∈ k n := by
  rw [C90.addAll_flatMap, C90.addAll_iff]
  · rw [List.mem_flatMap, ← C90.mem_points]
    constructor
    · rintro ⟨n', hn, h⟩
      obtain ⟨x, hx, e⟩ := List.mem_map.1 h
      cases e
      exact ⟨hn, hx⟩
    · rintro ⟨hn, hx⟩
      exact ⟨n, hn, List.mem_map.2 ⟨_, hx, rfl⟩⟩
  · intro o ho o' ho' e1 e2
    obtain ⟨m, _, h⟩ := List.mem_flatMap.1 ho
    obtain ⟨m', _, h'⟩ := List.mem_flatMap.1 ho'
    obtain ⟨x, hx, rfl⟩ := List.mem_map.1 h
    obtain ⟨x', hx', rfl⟩ := List.mem_map.1 h'
    cases e1
    exact hf m x hx x' hx' e2

/-! ## Theorems -/

/-- C90, default seeds: exactly the zero value at the start points of the entry points, with the bottom element. -/
theorem C90_default (p : Prog F N) (eps : List String) (zero : D) (bot : L) (n : N) (d : D) (l : L) :
    C90.Has (defaultSeeds p eps zero bot) n d l ↔ C90.Entry p eps n ∧ d = zero ∧ l = bot := by
  unfold defaultSeeds addSeeds
  rw [C90.order']
  have := C90.same (D := D) (L := L) p eps (fun _ => [(zero, bot)]) (by simp) n d l
  simpa [C90.addAll] using this

/-- C90: adding seeds for the start points sets the zero value there and leaves all other seeds. -/
theorem C90_add (p : Prog F N) (eps : List String) (s : Seeds N D L) (zero : D) (bot : L) (n : N) (d : D) (l : L) :
    C90.Has (addSeeds p eps s zero bot) n d l ↔
      (C90.Entry p eps n ∧ d = zero ∧ l = bot) ∨ (¬(C90.Entry p eps n ∧ d = zero) ∧ C90.Has s n d l) := by
  unfold addSeeds
  rw [C90.order', C90.has_iff, C90.has_iff, ← C90.mem_points]
  generalize C90.points p eps = ps
  have : ∀ (ps : List N) (s : Seeds N D L), (rowOf (ps.foldl (fun s n => addSeed s n zero bot) s) n).get d =
      if n ∈ ps ∧ d = zero then some bot else (rowOf s n).get d := by
    intro ps
    induction ps with
    | nil => intro s; simp
    | cons m ps ih =>
      intro s
      rw [List.foldl_cons, ih, rowOf_addSeed]
      by_cases hd : d = zero
      · subst hd
        by_cases hm : n ∈ ps
        · simp [hm]
        · by_cases hn : m = n
          · subst hn; simp
          · simp [hm, hn, Ne.symm hn]
      · simp [hd, Ne.symm hd]
  rw [this]
  by_cases h : n ∈ ps ∧ d = zero
  · rw [if_pos h]
    simp [h, eq_comm]
  · rw [if_neg h]
    have h' : ¬(n ∈ ps ∧ d = zero ∧ l = bot) := fun h' => h ⟨h'.1, h'.2.1⟩
    simp only [h, h', not_false_eq_true, true_and, false_or]

theorem C90.lcaGlobals_eq (ofInt : Int → L) (n : N) : ∀ (gs : List (Global D)) (s : Seeds N D L),
    (∀ g ∈ gs, ∀ v, g.init = some (.int v) → fits v = true) →
    lcaGlobals ofInt n gs s = some (C90.addAll s (gs.filterMap fun g => match g.init with
      | some (.int v) => some (n, g.id, ofInt v) | _ => none)) := by
  intro gs
  induction gs with
  | nil => intros; rfl
  | cons g gs ih =>
    intro s h
    have ih' := fun s => ih s fun g hg => h g (List.mem_cons_of_mem _ hg)
    unfold lcaGlobals
    cases hi : g.init with
    | none => simp only [List.filterMap_cons, hi]; exact ih' s
    | some i =>
      cases i with
      | int v =>
        simp only [List.filterMap_cons, hi, h g (List.mem_cons_self ..) v hi, if_true]
        exact ih' _
      | dataArray => simp only [List.filterMap_cons, hi]; exact ih' s
      | other => simp only [List.filterMap_cons, hi]; exact ih' s

theorem C90.lcaGlobals_none (ofInt : Int → L) (n : N) {gs : List (Global D)} {g : Global D} {v : Int} (hg : g ∈ gs)
    (hi : g.init = some (.int v)) (hv : fits v = false) : ∀ s : Seeds N D L, lcaGlobals ofInt n gs s = none := by
  induction gs with
  | nil => exact absurd hg List.not_mem_nil
  | cons x gs ih =>
    intro s
    unfold lcaGlobals
    rcases List.mem_cons.1 hg with rfl | hg
    · simp [hi, hv]
    · split
      · split
        · exact ih hg _
        · rfl
      · exact ih hg _

theorem C90.fits_iff (v : Int) : fits v = true ↔ -(2 ^ 63) ≤ v ∧ v < 2 ^ 63 := by
  simp [fits]

/-- C90, linear constants: if all integer constants of globals fit into 64 bits, the seeds are exactly, at the start points of the entry
points, the zero value with the bottom element and every global with an integer initializer with that integer. -/
theorem C90_lca (p : Prog F N) (eps : List String) (globals : List (Global D)) (zero : D) (bot : L) (ofInt : Int → L)
    (hz : ∀ g ∈ globals, g.id ≠ zero) (hu : ∀ g ∈ globals, ∀ g' ∈ globals, g.id = g'.id → g = g')
    (hv : ∀ g ∈ globals, ∀ v, g.init = some (.int v) → -(2 ^ 63) ≤ v ∧ v < 2 ^ 63) :
    ∃ s, lcaSeeds p eps globals zero bot ofInt = some s ∧ ∀ n d l, C90.Has s n d l ↔
      C90.Entry p eps n ∧ ((d = zero ∧ l = bot) ∨ ∃ g ∈ globals, ∃ v, g.id = d ∧ g.init = some (.int v) ∧ l = ofInt v) := by
  let k : List (D × L) := (zero, bot) :: globals.filterMap fun g => match g.init with | some (.int v) => some (g.id, ofInt v) | _ => none
  have hk : ∀ d l, (d, l) ∈ k ↔ (d = zero ∧ l = bot) ∨ ∃ g ∈ globals, ∃ v, g.id = d ∧ g.init = some (.int v) ∧ l = ofInt v := by
    intro d l
    show (d, l) ∈ (zero, bot) :: _ ↔ _
    rw [List.mem_cons, List.mem_filterMap, Prod.mk.injEq]
    refine or_congr Iff.rfl (exists_congr fun g => and_congr Iff.rfl ?_)
    cases hi : g.init with
    | none => simp
    | some i => cases i <;> simp [eq_comm]
  have step : ∀ (ps : List N) (s : Seeds N D L),
      ps.foldl (fun s n => s.bind fun s => lcaGlobals ofInt n globals (addSeed s n zero bot)) (some s) =
      some (ps.foldl (fun s n => C90.addAll s (k.map fun x => (n, x))) s) := by
    intro ps
    induction ps with
    | nil => intro s; rfl
    | cons n ps ih =>
      intro s
      rw [List.foldl_cons, List.foldl_cons, Option.bind_some,
        C90.lcaGlobals_eq _ _ _ _ fun g hg v h => (C90.fits_iff v).2 (hv g hg v h), ih]
      congr 2
      show C90.addAll _ _ = C90.addAll (addSeed s n zero bot) (List.map _ (globals.filterMap _))
      rw [List.map_filterMap]
      congr 2
      funext g
      cases g.init with
      | none => rfl
      | some i => cases i <;> rfl
  refine ⟨(C90.points p eps).foldl (fun s n => C90.addAll s (k.map fun x => (n, x))) [], ?_, ?_⟩
  · unfold lcaSeeds
    rw [C90.order', step]
  · intro n d l
    rw [C90.same p eps (fun _ => k), hk]
    intro _ x hx y hy e
    obtain ⟨x1, x2⟩ := x
    obtain ⟨y1, y2⟩ := y
    rw [hk] at hx hy
    cases e
    rcases hx with ⟨rfl, rfl⟩ | ⟨g, hg, v, h1, h2, rfl⟩
    · rcases hy with ⟨_, rfl⟩ | ⟨g, hg, v, h1, _⟩
      · rfl
      · exact absurd h1 (hz g hg)
    · rcases hy with ⟨rfl, _⟩ | ⟨g', hg', v', h1', h2', rfl⟩
      · exact absurd h1 (hz g hg)
      · cases hu g hg g' hg' (h1.trans h1'.symm)
        rw [h2] at h2'
        cases h2'
        rfl

/-- C90, linear constants: an integer constant of a global that does not fit fails an assertion, unless there is no start point. -/
theorem C90_lca_undefined (p : Prog F N) (eps : List String) (globals : List (Global D)) (zero : D) (bot : L) (ofInt : Int → L) :
    lcaSeeds p eps globals zero bot ofInt = none ↔
      (∃ n, C90.Entry p eps n) ∧ ∃ g ∈ globals, ∃ v, g.init = some (.int v) ∧ (v < -(2 ^ 63) ∨ 2 ^ 63 ≤ v) := by
  have none_fix : ∀ ps : List N, ps.foldl (fun s n => Option.bind s fun s => lcaGlobals ofInt n globals (addSeed s n zero bot))
      (none : Option (Seeds N D L)) = none := by
    intro ps
    induction ps with
    | nil => rfl
    | cons n ps ih => exact ih
  unfold lcaSeeds
  rw [C90.order']
  by_cases hv : ∃ g ∈ globals, ∃ v, g.init = some (.int v) ∧ (v < -(2 ^ 63) ∨ 2 ^ 63 ≤ v)
  · obtain ⟨g, hg, v, hi, hb⟩ := hv
    have hf : fits v = false := by
      rw [Bool.eq_false_iff, ne_eq, C90.fits_iff]; omega
    have : (∃ n, C90.Entry p eps n) ↔ C90.points p eps ≠ [] := by
      rw [ne_eq, List.eq_nil_iff_forall_not_mem, Classical.not_forall]
      exact exists_congr fun n => (C90.mem_points p eps n).symm.trans Classical.not_not.symm
    rw [this]
    cases hp : C90.points p eps with
    | nil => simp
    | cons n ps =>
      rw [List.foldl_cons, Option.bind_some, C90.lcaGlobals_none ofInt n hg hi hf, none_fix]
      simp only [ne_eq, reduceCtorEq, not_false_eq_true, true_and, true_iff]
      exact ⟨g, hg, v, hi, hb⟩
  · have hv' : ∀ g ∈ globals, ∀ v, g.init = some (.int v) → fits v = true := by
      intro g hg v hi
      rw [C90.fits_iff]
      have : ¬(v < -(2 ^ 63) ∨ 2 ^ 63 ≤ v) := fun h => hv ⟨g, hg, v, hi, h⟩
      omega
    have some_fix : ∀ (ps : List N) (s : Seeds N D L),
        ps.foldl (fun s n => s.bind fun s => lcaGlobals ofInt n globals (addSeed s n zero bot)) (some s) ≠ none := by
      intro ps
      induction ps with
      | nil => intro s; simp
      | cons n ps ih =>
        intro s
        rw [List.foldl_cons, Option.bind_some, C90.lcaGlobals_eq _ _ _ _ hv']
        exact ih _
    exact ⟨fun h => absurd h (some_fix _ _), fun h => absurd h.2 hv⟩

/-- C90, generalized constants: exactly, at the start points of the entry points, the zero value and every global whose initializer is an
integer or an array of data, with the bottom element. -/
theorem C90_glca (p : Prog F N) (eps : List String) (globals : List (Global D)) (zero : D) (bot : L) (n : N) (d : D) (l : L) :
    C90.Has (glcaSeeds p eps globals zero bot) n d l ↔
      C90.Entry p eps n ∧ l = bot ∧
        (d = zero ∨ ∃ g ∈ globals, g.id = d ∧ ((∃ v, g.init = some (.int v)) ∨ g.init = some .dataArray)) := by
  let k : List (D × L) := (zero, bot) :: globals.filterMap fun g => match g.init with
    | some (.int _) => some (g.id, bot) | some .dataArray => some (g.id, bot) | _ => none
  have hk : ∀ d l, (d, l) ∈ k ↔ l = bot ∧
      (d = zero ∨ ∃ g ∈ globals, g.id = d ∧ ((∃ v, g.init = some (.int v)) ∨ g.init = some .dataArray)) := by
    intro d l
    show (d, l) ∈ (zero, bot) :: _ ↔ _
    rw [List.mem_cons, List.mem_filterMap, Prod.mk.injEq]
    constructor
    · rintro (⟨h1, h2⟩ | ⟨g, hg, h⟩)
      · exact ⟨h2, .inl h1⟩
      · cases hi : g.init with
        | none => rw [hi] at h; cases h
        | some i =>
          rw [hi] at h
          cases i with
          | int v => cases h; exact ⟨rfl, .inr ⟨g, hg, rfl, .inl ⟨v, hi⟩⟩⟩
          | dataArray => cases h; exact ⟨rfl, .inr ⟨g, hg, rfl, .inr hi⟩⟩
          | other => cases h
    · rintro ⟨rfl, h | ⟨g, hg, rfl, ⟨v, hi⟩ | hi⟩⟩
      · exact .inl ⟨h, rfl⟩
      · exact .inr ⟨g, hg, by rw [hi]⟩
      · exact .inr ⟨g, hg, by rw [hi]⟩
  have inner : ∀ (n : N) (gs : List (Global D)) (s : Seeds N D L), gs.foldl (fun s g =>
      match g.init with
      | some (.int _) => addSeed s n g.id bot
      | some .dataArray => addSeed s n g.id bot
      | _ => s) s = C90.addAll s ((gs.filterMap fun g => match g.init with
        | some (.int _) => some (g.id, bot) | some .dataArray => some (g.id, bot) | _ => none).map fun x => (n, x)) := by
    intro n gs
    induction gs with
    | nil => intro s; rfl
    | cons g gs ih =>
      intro s
      rw [List.foldl_cons, ih]
      cases hi : g.init with
      | none => simp only [List.filterMap_cons, hi]
      | some i => cases i <;> simp only [List.filterMap_cons, hi] <;> rfl
  have key := C90.same p eps (fun _ => k) (by
    intro _ x hx y hy _
    exact ((hk x.1 x.2).1 hx).1.trans ((hk y.1 y.2).1 hy).1.symm) n d l
  rw [hk] at key
  rw [← key]
  unfold glcaSeeds
  rw [C90.order']
  have : (fun (s : Seeds N D L) n => globals.foldl (fun s g =>
      match g.init with
      | some (.int _) => addSeed s n g.id bot
      | some .dataArray => addSeed s n g.id bot
      | _ => s) (addSeed s n zero bot)) = fun s n => C90.addAll s (k.map fun x => (n, x)) := by
    funext s n
    rw [inner]
    rfl
  exact iff_of_eq (congrArg (fun h => C90.Has ((C90.points p eps).foldl h []) n d l) this)

/-- C90, instruction interactions: exactly, at the start points of the entry points, the zero value with the bottom element, the parameters
of the function with the empty set, and all globals with what is generated for them. -/
theorem C90_iia (p : Prog F N) (eps : List String) (globals : List (Global D)) (args : N → List D) (zero : D) (bot empty : L) (gen : D → L)
    (h1 : ∀ g ∈ globals, g.id ≠ zero) (h2 : ∀ n, zero ∉ args n) (h3 : ∀ n, ∀ g ∈ globals, g.id ∉ args n) (n : N) (d : D) (l : L) :
    C90.Has (iiaSeeds p eps globals args zero bot empty gen) n d l ↔
      C90.Entry p eps n ∧
        ((d = zero ∧ l = bot) ∨ (d ∈ args n ∧ l = empty) ∨ ∃ g ∈ globals, g.id = d ∧ l = gen d) := by
  let k : N → List (D × L) := fun n => (zero, bot) :: ((args n).map (fun a => (a, empty)) ++ globals.map fun g => (g.id, gen g.id))
  have hk : ∀ n d l, (d, l) ∈ k n ↔ (d = zero ∧ l = bot) ∨ (d ∈ args n ∧ l = empty) ∨ ∃ g ∈ globals, g.id = d ∧ l = gen d := by
    intro n d l
    show (d, l) ∈ (zero, bot) :: _ ↔ _
    rw [List.mem_cons, List.mem_append, List.mem_map, List.mem_map, Prod.mk.injEq]
    refine or_congr Iff.rfl (or_congr ?_ (exists_congr fun g => and_congr Iff.rfl ?_))
    · constructor
      · rintro ⟨a, ha, e⟩; cases e; exact ⟨ha, rfl⟩
      · rintro ⟨ha, rfl⟩; exact ⟨d, ha, rfl⟩
    · constructor
      · intro e; cases e; exact ⟨rfl, rfl⟩
      · rintro ⟨rfl, rfl⟩; rfl
  have key := C90.same p eps k (by
    intro n x hx y hy e
    obtain ⟨x1, x2⟩ := x
    obtain ⟨y1, y2⟩ := y
    rw [hk] at hx hy
    cases e
    rcases hx with ⟨rfl, rfl⟩ | ⟨ha, rfl⟩ | ⟨g, hg, rfl, rfl⟩
    · rcases hy with ⟨_, rfl⟩ | ⟨ha, _⟩ | ⟨g, hg, e, _⟩
      · rfl
      · exact absurd ha (h2 n)
      · exact absurd e (h1 g hg)
    · rcases hy with ⟨rfl, _⟩ | ⟨_, rfl⟩ | ⟨g, hg, rfl, _⟩
      · exact absurd ha (h2 n)
      · rfl
      · exact absurd ha (h3 n g hg)
    · rcases hy with ⟨e, _⟩ | ⟨ha, _⟩ | ⟨_, _, _, rfl⟩
      · exact absurd e (h1 g hg)
      · exact absurd ha (h3 n g hg)
      · rfl) n d l
  rw [hk] at key
  rw [← key]
  unfold iiaSeeds
  rw [C90.order']
  have : (fun (s : Seeds N D L) n => globals.foldl (fun s g => addSeed s n g.id (gen g.id))
      ((args n).foldl (fun s a => addSeed s n a empty) (addSeed s n zero bot))) = fun s n => C90.addAll s ((k n).map fun x => (n, x)) := by
    funext s n
    rw [C90.addAll_map (fun a => (n, a, empty)), C90.addAll_map (fun g : Global D => (n, g.id, gen g.id)), ← C90.addAll_append]
    show _ = C90.addAll (addSeed s n zero bot) (List.map _ (_ ++ _))
    rw [List.map_append, List.map_map, List.map_map]
    rfl
  rw [this]

/-- C90, taint analysis: exactly the default seeds and, if asked for and `main` is among the entry points by its name, the parameters of
`main` at its start. -/
theorem C90_taint (p : Prog F N) (eps : List String) (args : N → List D) (tm : Bool) (zero : D) (bot : L) (n : N) (d : D) (l : L) :
    C90.Has (taintSeeds p eps args tm zero bot) n d l ↔
      l = bot ∧ ((C90.Entry p eps n ∧ d = zero) ∨
        (tm = true ∧ "main" ∈ eps ∧ ∃ f, p.getFunction "main" = some f ∧ n ∈ p.startPoints f ∧ d ∈ args n)) := by
  have base : addSeeds p eps ([] : Seeds N D L) zero bot = C90.addAll [] ((C90.points p eps).map fun n => (n, zero, bot)) := by
    unfold addSeeds
    rw [C90.order']
    exact C90.addAll_map (fun n => (n, zero, bot)) _ _
  have hb : ∀ o ∈ (C90.points p eps).map (fun n => (n, zero, bot)), o.2.2 = bot := by
    intro o ho
    obtain ⟨n, _, rfl⟩ := List.mem_map.1 ho
    rfl
  have hbase : ∀ n d l, (n, d, l) ∈ (C90.points p eps).map (fun n => (n, zero, bot)) ↔ C90.Entry p eps n ∧ d = zero ∧ l = bot := by
    intro n d l
    rw [List.mem_map, ← C90.mem_points]
    constructor
    · rintro ⟨m, hm, e⟩; cases e; exact ⟨hm, rfl, rfl⟩
    · rintro ⟨hm, rfl, rfl⟩; exact ⟨n, hm, rfl⟩
  have plain : C90.Has (addSeeds p eps ([] : Seeds N D L) zero bot) n d l ↔ l = bot ∧ C90.Entry p eps n ∧ d = zero := by
    rw [base, C90.addAll_iff _ fun o ho o' ho' _ _ => (hb o ho).trans (hb o' ho').symm, hbase]
    exact ⟨fun ⟨a, b, c⟩ => ⟨c, a, b⟩, fun ⟨c, a, b⟩ => ⟨a, b, c⟩⟩
  unfold taintSeeds
  simp only [Bool.and_eq_true, List.contains_iff_mem]
  split
  · rename_i h
    cases hm : p.getFunction "main" with
    | none => simp [plain]
    | some f =>
      simp only
      have loop : ∀ (ps : List N) (s : Seeds N D L), ps.foldl (fun s n => (args n).foldl (fun s a => addSeed s n a bot) s) s =
          C90.addAll s (ps.flatMap fun n => (args n).map fun a => (n, a, bot)) := by
        intro ps s
        rw [← C90.addAll_flatMap]
        congr 1
        funext s n
        exact C90.addAll_map (fun a => (n, a, bot)) _ _
      have hl : ∀ n d l, (n, d, l) ∈ ((p.startPoints f).flatMap fun n => (args n).map fun a => (n, a, bot)) ↔
          n ∈ p.startPoints f ∧ d ∈ args n ∧ l = bot := by
        intro n d l
        rw [List.mem_flatMap]
        constructor
        · rintro ⟨m, hm, h⟩
          obtain ⟨a, ha, e⟩ := List.mem_map.1 h
          cases e
          exact ⟨hm, ha, rfl⟩
        · rintro ⟨hm, ha, rfl⟩
          exact ⟨n, hm, List.mem_map.2 ⟨d, ha, rfl⟩⟩
      rw [loop, base, ← C90.addAll_append, C90.addAll_iff]
      · rw [List.mem_append, hbase, hl]
        simp only [h, true_and, Option.some.injEq, exists_eq_left']
        constructor
        · rintro (⟨a, b, c⟩ | ⟨a, b, c⟩)
          · exact ⟨c, .inl ⟨a, b⟩⟩
          · exact ⟨c, .inr ⟨a, b⟩⟩
        · rintro ⟨c, ⟨a, b⟩ | ⟨a, b⟩⟩
          · exact .inl ⟨a, b, c⟩
          · exact .inr ⟨a, b, c⟩
      · have : ∀ o ∈ (C90.points p eps).map (fun n => (n, zero, bot)) ++
            ((p.startPoints f).flatMap fun n => (args n).map fun a => (n, a, bot)), o.2.2 = bot := by
          intro o ho
          rcases List.mem_append.1 ho with ho | ho
          · exact hb o ho
          · exact ((hl o.1 o.2.1 o.2.2).1 ho).2.2
        exact fun o ho o' ho' _ _ => (this o ho).trans (this o' ho').symm
  · rename_i h
    rw [plain]
    constructor
    · exact fun ⟨a, b⟩ => ⟨a, .inl b⟩
    · rintro ⟨a, b | ⟨h1, h2, _⟩⟩
      · exact ⟨a, b⟩
      · exact absurd ⟨h1, h2⟩ h

/-- C90, extended taint analysis: exactly the configured facts and, at the start points of the entry points, the zero value. -/
theorem C90_xtaint (p : Prog F N) (eps : List String) (auto : List (N × List D)) (nul : L) (zero : D) (bot : L)
    (hz : ∀ q ∈ auto, zero ∉ q.2) (n : N) (d : D) (l : L) :
    C90.Has (xtaintSeeds p eps auto nul zero bot) n d l ↔
      (C90.Entry p eps n ∧ d = zero ∧ l = bot) ∨ ((∃ q ∈ auto, q.1 = n ∧ d ∈ q.2) ∧ l = nul) := by
  have loop : auto.foldl (fun s q => q.2.foldl (fun s d => addSeed s q.1 d nul) s) ([] : Seeds N D L) =
      C90.addAll [] (auto.flatMap fun q => q.2.map fun d => (q.1, d, nul)) := by
    rw [← C90.addAll_flatMap]
    congr 1
    funext s q
    exact C90.addAll_map (fun d => (q.1, d, nul)) _ _
  have hl : ∀ n d l, (n, d, l) ∈ (auto.flatMap fun q => q.2.map fun d => (q.1, d, nul)) ↔ (∃ q ∈ auto, q.1 = n ∧ d ∈ q.2) ∧ l = nul := by
    intro n d l
    rw [List.mem_flatMap]
    constructor
    · rintro ⟨q, hq, h⟩
      obtain ⟨a, ha, e⟩ := List.mem_map.1 h
      cases e
      exact ⟨⟨q, hq, rfl, ha⟩, rfl⟩
    · rintro ⟨⟨q, hq, rfl, ha⟩, rfl⟩
      exact ⟨q, hq, List.mem_map.2 ⟨d, ha, rfl⟩⟩
  unfold xtaintSeeds
  rw [C90_add, loop, C90.addAll_iff _ fun o ho o' ho' _ _ =>
    ((hl o.1 o.2.1 o.2.2).1 ho).2.trans ((hl o'.1 o'.2.1 o'.2.2).1 ho').2.symm, hl]
  refine or_congr Iff.rfl ⟨And.right, fun h => ⟨?_, h⟩⟩
  rintro ⟨_, rfl⟩
  obtain ⟨⟨q, hq, _, hd⟩, _⟩ := h
  exact hz q hq hd

/-! ## Examples and findings -/

/-- Functions 0 (`main`), 1 (`f`) and 2 (a declaration); the start point of a function is ten times its number. -/
def C90.ex : Prog Nat Nat where
  allFunctions := [0, 1, 2]
  getFunction s := if s = "main" then some 0 else if s = "f" then some 1 else if s = "d" then some 2 else none
  startPoints f := if f = 2 then [] else [10 * f]

example : (forallStartingPoints C90.ex ["f", "no", "d", "main"] (fun s n => s ++ [n]) []) = [10, 0] := by
  rw [C90_order, if_neg (by decide)]; decide

example : (forallStartingPoints C90.ex ["__ALL__"] (fun s n => s ++ [n]) []) = [0, 10] := by
  rw [C90_order, if_pos rfl]; decide

/-- The hypotheses of `C90_lca`: a global with 7, one without initializer. -/
example : ∃ s, lcaSeeds C90.ex ["main"] [⟨1, some (.int 7)⟩, ⟨2, none⟩] 0 none some = some s ∧ C90.Has s 0 1 (some 7) := by
  obtain ⟨s, h1, h2⟩ := C90_lca C90.ex ["main"] [⟨1, some (.int 7)⟩, ⟨2, none⟩] 0 none some (by decide) (by
    intro g hg g' hg' e
    simp at hg hg'
    rcases hg with rfl | rfl <;> rcases hg' with rfl | rfl <;> simp_all) (by
    intro g hg v hi
    simp at hg
    rcases hg with rfl | rfl
    · cases hi; decide
    · cases hi)
  refine ⟨s, h1, (h2 0 1 (some 7)).2 ⟨.inr ⟨by decide, "main", by decide, 0, rfl, by decide⟩, .inr ⟨_, List.mem_cons_self .., 7, rfl, rfl, rfl⟩⟩⟩

/-- The hypotheses of `C90_iia` and `C90_xtaint`. -/
example : C90.Has (iiaSeeds C90.ex ["main"] [⟨1, none⟩] (fun _ => [2]) 0 [9] [] fun g => [g]) 0 1 [1] ∧
    C90.Has (xtaintSeeds C90.ex ["f"] [(3, [5])] "nul" 0 "bot") 3 5 "nul" :=
  ⟨(C90_iia C90.ex ["main"] [⟨1, none⟩] (fun _ => [2]) 0 [9] [] (fun g => [g]) (by simp) (by simp) (by simp) 0 1 [1]).2
    ⟨.inr ⟨by decide, "main", by decide, 0, rfl, by decide⟩, .inr (.inr ⟨_, List.mem_cons_self .., rfl, rfl⟩)⟩,
   (C90_xtaint C90.ex ["f"] [(3, [5])] "nul" 0 "bot" (by simp) 3 5 "nul").2 (.inr ⟨⟨_, List.mem_cons_self .., rfl, by simp⟩, rfl⟩)⟩

/-- C90, finding: with the entry point `__ALL__` the analysis starts in `main`, but the arguments of `main` are not tainted, although asked
for (IFDSTaintAnalysis.cpp:491). -/
theorem C90_taint_all_false : C90.Entry C90.ex ["__ALL__"] 0 ∧
    ∀ l, ¬C90.Has (taintSeeds C90.ex ["__ALL__"] (fun _ => [1, 2]) true 0 ()) 0 1 l := by
  refine ⟨.inl ⟨rfl, 0, by decide, by decide⟩, fun l h => ?_⟩
  obtain ⟨_, ⟨_, h⟩ | ⟨_, h, _⟩⟩ := (C90_taint ..).1 h
  · exact absurd h (by decide)
  · exact absurd h (by decide)

/-- C90, finding: `__ALL__` beside another entry point is taken for the name of a function (EntryPointUtils.h:44-45). -/
theorem C90_all_false : ¬C90.Entry C90.ex ["__ALL__", "main"] 10 ∧ C90.Entry C90.ex ["__ALL__"] 10 := by
  refine ⟨?_, .inl ⟨rfl, 1, by decide, by decide⟩⟩
  rintro (⟨h, _⟩ | ⟨_, e, he, f, hf, hn⟩)
  · exact absurd h (by decide)
  · simp at he
    rcases he with rfl | rfl
    · have : C90.ex.getFunction "__ALL__" = none := by decide
      rw [this] at hf
      cases hf
    · have : f = 0 := (Option.some.inj hf).symm
      subst this
      exact absurd hn (by decide)

end Phasar.EntryPoints
