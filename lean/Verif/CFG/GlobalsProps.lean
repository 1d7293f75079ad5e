import Verif.CFG.GlobalsDB
/-! # C63: the model of global constructors and destructors -/
namespace Phasar.Globals

open Phasar.StringID (Str ascii)
open Phasar.DB (IRDB Val)

theorem C63.runs_iff {lossless : Nat → Nat → Bool} {m : GMod} {es : List Nat} {b b' : Built} {sel c : Nat} (hf : Fresh m) (hv : Valid m es)
    (h1 : First lossless m es b sel c) (hg : Grown b.mod b'.mod) (hm : b'.model = b.model) (hi : b'.inserted = b.inserted) (t : List Event) :
    b'.Runs t ↔ Trace lossless m es b.model sel (collectGlobalCtors m) (collectGlobalDtors m) t := by
  rw [← (h1.shape.grown hg).runs hf.below hv (gen := b'.gen) (fun f => by unfold Built.gen; rw [hi]; rfl)]
  unfold Built.Runs kindsOf
  rw [hm]
  constructor
  · rintro ⟨g, blk, hg, hk, hr⟩
    exact ⟨g.kinds, blk, by rw [hg]; rfl, hk, hr⟩
  · rintro ⟨ks, blk, hk, hh, hr⟩
    obtain ⟨g, hg, rfl⟩ := Option.map_eq_some_iff.1 hk
    exact ⟨g, blk, hg, hh, hr⟩

theorem C63.first {lossless : Nat → Nat → Bool} {m : GMod} {es : List Nat} {b : Built} (hf : Fresh m) (hv : Valid m es)
    (hb : buildIR lossless m es = some b) : ∃ sel c, First lossless m es b sel c := by
  obtain ⟨b', sel, c, h1, h2⟩ := build_first (lossless := lossless) hf hv
  rw [hb] at h1
  injection h1 with h1
  subst h1
  exact ⟨sel, c, h2⟩

/-- C63: for a module in which the names of the generated functions are free and the assertions hold, the model can be built, and
its executions are exactly these: the functions of `llvm.global_ctors` by ascending priority, those of equal priority in the order
of the array; the call of the selector if there are several entry points; one of the entry points; and, if it is `main`, the
functions of `llvm.global_dtors` by descending priority, then the destructors registered with `__cxa_atexit`, the last first.
Missing for a model of the C++ runtime: see the theorems below on parameters of entry points and on the order at exit. -/
theorem C63_runs_partial (lossless : Nat → Nat → Bool) (m : GMod) (es : List Nat) (hf : Fresh m) (hv : Valid m es) :
    ∃ b sel C D, buildIR lossless m es = some b ∧ Ordered (· ≤ ·) (declared m.ctors) C ∧ Ordered (· ≥ ·) (declared m.dtors) D ∧
      (es.length ≠ 1 → ∃ g, fnNamed b.mod selectorName = some g ∧ g.id = sel ∧ g.params = [] ∧ fnOf m sel = none) ∧
      (∃ g, fnNamed b.mod modelName = some g ∧ g.id = b.model ∧ g.params = [0, 1]) ∧
      ∀ t, b.Runs t ↔ Trace lossless m es b.model sel C D t := by
  obtain ⟨b, sel, c, h1, h2⟩ := build_first (lossless := lossless) hf hv
  refine ⟨b, sel, _, _, h1, ctors_ordered m, dtors_ordered m, ?_, ?_, C63.runs_iff hf hv h2 (Grown.refl h2.grown.below) rfl rfl⟩
  · intro hl
    obtain ⟨k1, k2⟩ := h2.sel hl
    obtain ⟨g, hg, e⟩ := Option.map_eq_some_iff.1 k1
    injection e with e1 e2
    exact ⟨g, hg, e1, e2, hf.below.fresh k2⟩
  · obtain ⟨g, hg, e⟩ := Option.map_eq_some_iff.1 h2.modelNamed
    injection e with e1 e2
    exact ⟨g, hg, e1, e2⟩

/-- C63: building the model once more in the same module, whatever the new entry points are, does not change its executions: the
new blocks are added behind the old ones and are never reached. -/
theorem C63_stale (lossless : Nat → Nat → Bool) (m : GMod) (es es' : List Nat) (b b' : Built) (hf : Fresh m) (hv : Valid m es)
    (hb : buildIR lossless m es = some b) (hb' : buildIR lossless b.mod es' = some b') (t : List Event) : b'.Runs t ↔ b.Runs t := by
  obtain ⟨sel, c, h2⟩ := C63.first hf hv hb
  obtain ⟨k1, k2, _, k4⟩ := second hv h2 hb'
  rw [C63.runs_iff hf hv h2 k1 k2 k4, C63.runs_iff hf hv h2 (Grown.refl h2.grown.below) rfl rfl]

/-- C63: what is called by the model: constructors, destructors, the selector, and of the entry points only those without
parameters and a `main` with exactly two. -/
theorem C63_uncalled (lossless : Nat → Nat → Bool) (m : GMod) (es : List Nat) (b : Built) (hf : Fresh m) (hv : Valid m es)
    (hb : buildIR lossless m es = some b) (t : List Event) (ht : b.Runs t) (x : Nat) (as : List Opnd) (hx : (x, as) ∈ t) (g : GFn)
    (hg : fnOf m x = some g) (hc : x ∉ (declared m.ctors).map Prod.snd) (hd : x ∉ (declared m.dtors).map Prod.snd)
    (hr : x ∉ (registered m).map Prod.fst) : x ∈ es ∧ (g.params = [] ∨ (g.name = ascii "main" ∧ g.params.length = 2)) := by
  obtain ⟨sel, c, h2⟩ := C63.first hf hv hb
  rw [C63.runs_iff hf hv h2 (Grown.refl h2.grown.below) rfl rfl] at ht
  obtain ⟨e, he, f, hfe, rfl⟩ := ht
  simp only [List.mem_append] at hx
  rcases hx with ((hx | hx) | hx) | hx
  · obtain ⟨d, hd', e⟩ := List.mem_map.1 hx
    injection e with e1 _
    exact absurd (List.mem_map.2 ⟨d, (ctors_ordered m).mem.1 hd', e1⟩) hc
  · split at hx
    · cases hx
    · rename_i hl
      rw [List.mem_singleton] at hx
      injection hx with e1 _
      have := (h2.sel hl).2
      have := fn_lt hf.below hg
      omega
  · have hfid : f.id = e := fnOf_id hfe
    have key : x = f.id ∧ (f.params = [] ∨ (f.name = ascii "main" ∧ f.params.length = 2)) := by
      unfold entryEvents at hx
      split at hx
      · rename_i hp
        rw [List.mem_singleton] at hx
        injection hx with e1 _
        exact ⟨e1, .inl hp⟩
      · split at hx
        · rename_i hp
          rw [List.mem_singleton] at hx
          injection hx with e1 _
          exact ⟨e1, .inr hp⟩
        · cases hx
    have e1 : x = e := key.1.trans hfid
    rw [e1, hfe] at hg
    injection hg with hg
    subst hg
    exact ⟨e1 ▸ he, key.2⟩
  · split at hx
    · rcases List.mem_append.1 hx with hx | hx
      · obtain ⟨d, hd', e⟩ := List.mem_map.1 hx
        injection e with e1 _
        exact absurd (List.mem_map.2 ⟨d, (dtors_ordered m).mem.1 hd', e1⟩) hd
      · obtain ⟨d, hd', e⟩ := List.mem_filterMap.1 hx
        refine absurd (List.mem_map.2 ⟨d, List.mem_reverse.1 hd', ?_⟩) hr
        unfold regEvent at e
        split at e
        · split at e
          · injection e with e; injection e with e _
          · split at e
            · injection e with e; injection e with e _
            · cases e
        · cases e
    · cases hx

/-- A test for `Valid`. -/
theorem C63.valid {m : GMod} {es : List Nat}
    (h1 : ∀ d ∈ declared m.ctors, (fnOf m d.2).map GFn.params = some [])
    (h2 : ∀ d ∈ declared m.dtors, (fnOf m d.2).map GFn.params = some [])
    (h3 : ∀ u ∈ m.atexit.getD [], u.call = true → 2 ≤ u.args.length)
    (h4 : ∀ d ∈ registered m, ((fnOf m d.1).map (fun g => g.params.length)) = some 1)
    (h5 : ∀ e ∈ es, (fnOf m e).isSome = true) (h6 : es ≠ []) : Valid m es := by
  refine ⟨fun d hd => ?_, fun d hd => ?_, h3, fun d hd => ?_, fun e he => Option.isSome_iff_exists.1 (h5 e he), h6⟩
  · obtain ⟨g, a, c⟩ := Option.map_eq_some_iff.1 (h1 d hd); exact ⟨g, a, c⟩
  · obtain ⟨g, a, c⟩ := Option.map_eq_some_iff.1 (h2 d hd); exact ⟨g, a, c⟩
  · obtain ⟨g, a, c⟩ := Option.map_eq_some_iff.1 (h4 d hd)
    obtain ⟨t, ht⟩ := List.length_eq_one_iff.1 c
    exact ⟨g, t, a, ht⟩

/-- A program: `main` (0), two constructors (1, 2), a destructor (3), the destructor (4) of a global variable, registered in
`__cxx_global_var_init`, the destructor (5) of a local static variable, registered in `main`, and a second entry point (6). -/
def C63.prog : GMod :=
  ⟨ascii "dir/prog.ll",
   [⟨0, ascii "main", [0, 1], true, [[(10, .ret)]]⟩, ⟨1, ascii "ctorA", [], false, [[(11, .ret)]]⟩, ⟨2, ascii "ctorB", [], false, [[(12, .ret)]]⟩,
    ⟨3, ascii "dtorX", [], false, [[(13, .ret)]]⟩, ⟨4, ascii "dtorG", [2], true, []⟩, ⟨5, ascii "dtorL", [2], true, []⟩,
    ⟨6, ascii "test", [], true, [[(14, .ret)]]⟩],
   some [some ⟨some 1, some 65535⟩, none, some ⟨none, some 1⟩, some ⟨some 2, some 101⟩],
   some [some ⟨some 3, some 65535⟩],
   some [⟨true, [.fn 5 2, .const 21 2, .const 22 2], ascii "main"⟩, ⟨false, [], []⟩,
         ⟨true, [.expr (.fn 4 9) 2, .const 20 2, .const 22 2], ascii "__cxx_global_var_init.1"⟩],
   30⟩

theorem C63.prog_fresh : Fresh C63.prog := ⟨by decide +kernel, by decide +kernel, by decide +kernel⟩

theorem C63.prog_valid (es : List Nat) (h : ∀ e ∈ es, e < 7) (hn : es ≠ []) : Valid C63.prog es :=
  C63.valid (by decide +kernel) (by decide +kernel) (by decide +kernel) (by decide +kernel)
    (fun e he => (by decide +kernel : ∀ e < 7, (fnOf C63.prog e).isSome = true) e (h e he)) hn

/-- The hypotheses of `C63_runs_partial` hold of the program, and its trace is the expected one. -/
example : ∃ b, buildIR (fun _ _ => true) C63.prog [0] = some b ∧
    ∀ t, b.Runs t → t = [(2, []), (1, []), (0, [.loc b.model 0 0, .loc b.model 1 1]), (3, []), (5, [.const 21 2]), (4, [.const 20 2])] := by
  obtain ⟨b, sel, c, h1, h2⟩ := build_first (lossless := fun _ _ => true) C63.prog_fresh (C63.prog_valid [0] (by decide) (by decide))
  refine ⟨b, h1, fun t ht => ?_⟩
  rw [C63.runs_iff C63.prog_fresh (C63.prog_valid [0] (by decide) (by decide)) h2 (Grown.refl h2.grown.below) rfl rfl] at ht
  obtain ⟨e, he, f, hf, rfl⟩ := ht
  rw [List.mem_singleton.1 he] at hf
  have : f = ⟨0, ascii "main", [0, 1], true, [[(10, .ret)]]⟩ := by
    have h : fnOf C63.prog 0 = some ⟨0, ascii "main", [0, 1], true, [[(10, .ret)]]⟩ := by decide +kernel
    rw [h] at hf; injection hf with hf; exact hf.symm
  subst this
  have e1 : collectGlobalCtors C63.prog = [(101, 2), (65535, 1)] := by decide +kernel
  have e2 : collectGlobalDtors C63.prog = [(65535, 3)] := by decide +kernel
  have e3 : (registered C63.prog).reverse.filterMap (regEvent (fun _ _ => true) C63.prog) = [(5, [.const 21 2]), (4, [.const 20 2])] := by
    decide +kernel
  rw [e1, e2, e3]
  rfl

/-- Two entry points, and a second build with other entry points that succeeds. -/
example : ((buildIR (fun _ _ => true) C63.prog [0, 6]).bind (fun b => buildIR (fun _ _ => true) b.mod [6])).isSome = true := by decide +kernel

/-! ### Where the model differs from the runtime -/

/-- C63, false: there is a program whose `main` has the parameters `argc`, `argv` and `envp`, and whose model never calls it. -/
theorem C63_envp_false : ∃ m b, Fresh m ∧ Valid m [0] ∧ (∃ g, fnOf m 0 = some g ∧ g.name = ascii "main" ∧ g.blocks ≠ []) ∧
    buildIR (fun _ _ => true) m [0] = some b ∧ (∃ t, b.Runs t) ∧ ∀ t, b.Runs t → ∀ as, (0, as) ∉ t := by
  let m : GMod := ⟨ascii "p", [⟨0, ascii "main", [0, 1, 1], true, [[(1, .ret)]]⟩], none, none, none, 2⟩
  have hf : Fresh m := ⟨by decide +kernel, by decide +kernel, by decide +kernel⟩
  have hv : Valid m [0] := C63.valid (by decide +kernel) (by decide +kernel) (by decide +kernel) (by decide +kernel) (by decide +kernel) (by decide)
  have hg : fnOf m 0 = some ⟨0, ascii "main", [0, 1, 1], true, [[(1, .ret)]]⟩ := by decide +kernel
  obtain ⟨b, sel, C, D, h1, _, _, _, _, h2⟩ := C63_runs_partial (fun _ _ => true) m [0] hf hv
  refine ⟨m, b, hf, hv, ⟨_, hg, rfl, by simp⟩, h1, ⟨_, (h2 _).2 ⟨0, by simp, _, hg, rfl⟩⟩, fun t ht as hx => ?_⟩
  have := C63_uncalled (fun _ _ => true) m [0] b hf hv h1 t ht 0 as hx _ hg (by decide +kernel) (by decide +kernel) (by decide +kernel)
  revert this
  decide +kernel

/-- What the runtime does at exit: the functions registered with `__cxa_atexit` are called before those of `llvm.global_dtors`. -/
def C63.exitOrder (m : GMod) (t : List Event) : Prop :=
  ∀ d ∈ registered m, ∀ k ∈ declared m.dtors, ∀ (i j : Nat) as as', t[i]? = some (d.1, as) → t[j]? = some (k.2, as') → i < j

/-- C63, false: the executions of the model do not have the order of the runtime at exit. -/
theorem C63_exit_false : ∃ m b t, Fresh m ∧ Valid m [0] ∧ buildIR (fun _ _ => true) m [0] = some b ∧ b.Runs t ∧ ¬ C63.exitOrder m t := by
  have hv := C63.prog_valid [0] (by decide) (by decide)
  obtain ⟨b, sel, c, h1, h2⟩ := build_first (lossless := fun _ _ => true) C63.prog_fresh hv
  refine ⟨C63.prog, b, _, C63.prog_fresh, hv, h1,
    (C63.runs_iff C63.prog_fresh hv h2 (Grown.refl h2.grown.below) rfl rfl _).2
      ⟨0, by simp, ⟨0, ascii "main", [0, 1], true, [[(10, .ret)]]⟩, by decide +kernel, rfl⟩, ?_⟩
  have e1 : collectGlobalCtors C63.prog = [(101, 2), (65535, 1)] := by decide +kernel
  have e2 : collectGlobalDtors C63.prog = [(65535, 3)] := by decide +kernel
  have e3 : (registered C63.prog).reverse.filterMap (regEvent (fun _ _ => true) C63.prog) = [(5, [.const 21 2]), (4, [.const 20 2])] := by
    decide +kernel
  rw [e1, e2, e3]
  intro h
  have := h (4, .const 20 2) (by decide +kernel) (65535, 3) (by decide +kernel) 5 3 [.const 20 2] [] rfl rfl
  omega

/-- C63: the generated functions are recognised by their names, except for the one that calls the registered destructors. -/
theorem C63_generated (lossless : Nat → Nat → Bool) (m : GMod) (es : List Nat) (b : Built) (hf : Fresh m) (hv : Valid m es)
    (hb : buildIR lossless m es = some b) (f : Nat) (hi : f ∈ b.inserted) :
    ∃ g ∈ b.mod.fns, g.id = f ∧ (isPhasarGenerated g.name = true ↔ b.caller ≠ some f) := by
  obtain ⟨sel, c, h2⟩ := C63.first hf hv hb
  have hcal : ∀ s, isPhasarGenerated (dtorsCallerName ++ 46 :: s) = false := by
    intro s
    have e1 : dtorsCallerName ++ 46 :: s ≠ modelName := by
      intro h; have := congrArg (fun l => l[5]?) h; revert this; exact (by decide : ¬ (some 71 = some 67))
    have e2 : dtorsCallerName ++ 46 :: s ≠ dtorModelName := by
      intro h; have := congrArg (fun l => l[5]?) h; revert this; exact (by decide : ¬ (some 71 = some 67))
    have e3 : dtorsCallerName ++ 46 :: s ≠ selectorName := by
      intro h; have := congrArg (fun l => l[5]?) h; revert this; exact (by decide : ¬ (some 71 = some 67))
    have e4 : dtorsCallerName ++ 46 :: s ≠ dtorsCallerName := by
      intro h; have := congrArg List.length h; simp at this
    unfold isPhasarGenerated
    simp [e1, e2, e3, e4]
  have hnd := h2.nodup
  have hcaller := h2.caller
  rw [h2.ins] at hi hnd
  simp only [List.mem_append, List.mem_singleton] at hi
  rcases hi with (hi | hi) | hi
  · by_cases hr : registered m = []
    · rw [if_pos hr] at hi; cases hi
    · rw [if_neg hr, List.mem_singleton] at hi
      obtain ⟨_, g, hg, e1, e2, _⟩ := named_mem (h2.callerNamed hr)
      refine ⟨g, hg, e2.trans hi.symm, ?_⟩
      rw [e1, hcaller, if_neg hr, hi]
      simp [callerName, hcal]
  · by_cases hl : (collectGlobalDtors m).length + (if registered m = [] then 0 else 1) = 1
    · rw [if_pos hl] at hi; cases hi
    · rw [if_neg hl, List.mem_singleton] at hi
      obtain ⟨_, g, hg, e1, e2, _⟩ := named_mem (h2.cleanNamed hl)
      refine ⟨g, hg, e2.trans hi.symm, ?_⟩
      rw [e1, hcaller]
      have : isPhasarGenerated dtorModelName = true := by decide +kernel
      simp only [this, true_iff]
      by_cases hr : registered m = []
      · simp [hr]
      · rw [if_neg hr] at hnd ⊢
        rw [if_neg hl] at hnd
        intro e; injection e with e
        rw [hi] at e
        simp [e] at hnd
  · obtain ⟨_, g, hg, e1, e2, _⟩ := named_mem h2.modelNamed
    refine ⟨g, hg, e2.trans hi.symm, ?_⟩
    rw [e1, hcaller]
    have : isPhasarGenerated modelName = true := by decide +kernel
    simp only [this, true_iff]
    by_cases hr : registered m = []
    · simp [hr]
    · rw [if_neg hr] at hnd ⊢
      intro e; injection e with e
      rw [hi] at e
      simp [e] at hnd

/-- C63: the names.  `isPhasarGenerated` recognises these four names and no others; the caller of the registered destructors is
named after the part of the name of the module that follows the last slash. -/
theorem C63_names (lossless : Nat → Nat → Bool) :
    (∀ s, isPhasarGenerated s = true ↔ s = ascii "__psrCRuntimeGlobalCtorsModel" ∨ s = ascii "__psrCRuntimeGlobalDtorsModel" ∨
      s = ascii "__psrGlobalDtorsCaller" ∨ s = ascii "__psrCRuntimeUserEntrySelector") ∧
    (∀ m es b, Fresh m → Valid m es → buildIR lossless m es = some b → ∀ f, b.caller = some f → ∃ g ∈ b.mod.fns, g.id = f ∧
      ∃ t, g.name = ascii "__psrGlobalDtorsCaller." ++ t ∧ 47 ∉ t ∧ (m.name = t ∨ ∃ d, m.name = d ++ 47 :: t)) := by
  refine ⟨fun s => ?_, fun m es b hf hv hb f hc => ?_⟩
  · unfold isPhasarGenerated modelName dtorModelName dtorsCallerName selectorName
    constructor
    · intro h
      simp only [Bool.and_eq_true, Bool.or_eq_true, decide_eq_true_eq] at h
      rcases h with ⟨_, ((h | h) | h) | h⟩
      · exact .inl h
      · exact .inr (.inl h)
      · exact .inr (.inr (.inl h))
      · exact .inr (.inr (.inr h))
    · rintro (rfl | rfl | rfl | rfl) <;> decide +kernel
  · obtain ⟨sel, c, h2⟩ := C63.first hf hv hb
    rw [h2.caller] at hc
    by_cases hr : registered m = []
    · rw [if_pos hr] at hc; cases hc
    · rw [if_neg hr] at hc
      injection hc with hc
      obtain ⟨_, g, hg, e1, e2, _⟩ := named_mem (h2.callerNamed hr)
      refine ⟨g, hg, e2.trans hc, reducedName m.name, ?_, ?_, ?_⟩
      · rw [e1]
        have : ascii "__psrGlobalDtorsCaller." = dtorsCallerName ++ [46] := by decide +kernel
        rw [this]; simp [callerName]
      · intro h
        unfold reducedName at h
        rw [List.mem_reverse] at h
        have := List.all_takeWhile (p := fun c : Nat => decide (c ≠ 47)) (l := m.name.reverse)
        rw [List.all_eq_true] at this
        simpa using this _ h
      · have he := List.takeWhile_append_dropWhile (p := fun c : Nat => decide (c ≠ 47)) (l := m.name.reverse)
        unfold reducedName
        cases hd : m.name.reverse.dropWhile (fun c => decide (c ≠ 47)) with
        | nil =>
          rw [hd, List.append_nil] at he
          left; rw [he, List.reverse_reverse]
        | cons x d =>
          right
          have hx : x = 47 := by
            have := List.head?_dropWhile_not (fun c : Nat => decide (c ≠ 47)) m.name.reverse
            rw [hd] at this
            simpa using this
          rw [hd, hx] at he
          exact ⟨d.reverse, by have := congrArg List.reverse he; rw [List.reverse_reverse, List.reverse_append, List.reverse_cons, List.append_assoc] at this; exact this.symm⟩

/-- The program registers a destructor, so that there is a caller, and its module has a path for a name. -/
example : (buildIR (fun _ _ => true) C63.prog [0]).any (fun b => b.caller.isSome) = true := by decide +kernel

/-- C63, false: the caller of the registered destructors is generated but not recognised. -/
theorem C63_generated_false : ∃ m b f, Fresh m ∧ Valid m [0] ∧ buildIR (fun _ _ => true) m [0] = some b ∧ f ∈ b.inserted ∧
    ∀ g ∈ b.mod.fns, g.id = f → isPhasarGenerated g.name = false := by
  have hv := C63.prog_valid [0] (by decide) (by decide)
  obtain ⟨b, hb⟩ : ∃ b, buildIR (fun _ _ => true) C63.prog [0] = some b := Option.isSome_iff_exists.1 (by decide +kernel)
  refine ⟨C63.prog, b, 30, C63.prog_fresh, hv, hb, ?_⟩
  have : (buildIR (fun _ _ => true) C63.prog [0]).map (fun b => decide (30 ∈ b.inserted ∧ ∀ g ∈ b.mod.fns, g.id = 30 → isPhasarGenerated g.name = false)) =
      some true := by decide +kernel
  rw [hb] at this
  injection this with this
  exact of_decide_eq_true this

/-- The values of functions among the operands of a call. -/
def Kind.locals : Kind → List Nat
  | .call _ as => as.filterMap (fun a => match a with | .loc f _ _ => some f | .expr (.loc f _ _) _ => some f | _ => none)
  | _ => []

/-- C63, false: an argument registered with `__cxa_atexit` that is a value of a function becomes an operand in another, generated
one: the result is no valid LLVM code.  Here a function (1) registers the destructor 2 for its own argument. -/
theorem C63_local_false : ∃ m b, Fresh m ∧ Valid m [0] ∧ buildIR (fun _ _ => true) m [0] = some b ∧
    ∃ g ∈ b.mod.fns, ∃ blk ∈ g.kinds, ∃ k ∈ blk, ∃ f ∈ k.locals, f ≠ g.id := by
  let m : GMod := ⟨ascii "p", [⟨0, ascii "main", [], true, [[(10, .ret)]]⟩, ⟨1, ascii "reg", [2], true, [[(11, .ret)]]⟩, ⟨2, ascii "dtor", [2], true, []⟩],
    none, none, some [⟨true, [.fn 2 2, .loc 1 0 2, .const 0 2], ascii "reg"⟩], 12⟩
  have hf : Fresh m := ⟨by decide +kernel, by decide +kernel, by decide +kernel⟩
  have hv : Valid m [0] := C63.valid (by decide +kernel) (by decide +kernel) (by decide +kernel) (by decide +kernel) (by decide +kernel) (by decide)
  obtain ⟨b, hb⟩ : ∃ b, buildIR (fun _ _ => true) m [0] = some b := Option.isSome_iff_exists.1 (by decide +kernel)
  refine ⟨m, b, hf, hv, hb, ?_⟩
  have : (buildIR (fun _ _ => true) m [0]).map (fun b => decide (∃ g ∈ b.mod.fns, ∃ blk ∈ g.kinds, ∃ k ∈ blk, ∃ f ∈ k.locals, f ≠ g.id)) =
      some true := by decide +kernel
  rw [hb] at this
  injection this with this
  exact of_decide_eq_true this

/-- C63, false: a destructor registered for a part of a global variable, whose address is a constant expression, is called with
the address of the variable (20) itself. -/
theorem C63_gep_false : ∃ m b t, Fresh m ∧ Valid m [0] ∧ (m.atexit = some [⟨true, [.fn 1 2, .expr (.const 20 2) 2, .const 0 2], varInit⟩]) ∧
    buildIR (fun _ _ => true) m [0] = some b ∧ b.Runs t ∧ (1, [.const 20 2]) ∈ t ∧ (1, [.expr (.const 20 2) 2]) ∉ t := by
  let m : GMod := ⟨ascii "p", [⟨0, ascii "main", [], true, [[(10, .ret)]]⟩, ⟨1, ascii "dtor", [2], true, []⟩],
    none, none, some [⟨true, [.fn 1 2, .expr (.const 20 2) 2, .const 0 2], varInit⟩], 12⟩
  have hf : Fresh m := ⟨by decide +kernel, by decide +kernel, by decide +kernel⟩
  have hv : Valid m [0] := C63.valid (by decide +kernel) (by decide +kernel) (by decide +kernel) (by decide +kernel) (by decide +kernel) (by decide)
  obtain ⟨b, sel, c, h1, h2⟩ := build_first (lossless := fun _ _ => true) hf hv
  refine ⟨m, b, _, hf, hv, rfl, h1, (C63.runs_iff hf hv h2 (Grown.refl h2.grown.below) rfl rfl _).2
      ⟨0, by simp, ⟨0, ascii "main", [], true, [[(10, .ret)]]⟩, by decide +kernel, rfl⟩, ?_⟩
  have e1 : collectGlobalCtors m = [] := by decide +kernel
  have e2 : collectGlobalDtors m = [] := by decide +kernel
  have e3 : (registered m).reverse.filterMap (regEvent (fun _ _ => true) m) = [(1, [.const 20 2])] := by decide +kernel
  have e4 : entryEvents b.model ⟨0, ascii "main", [], true, [[(10, .ret)]]⟩ = [(0, [])] := rfl
  rw [e1, e2, e3, e4]
  exact (by decide +kernel : (1, [Opnd.const 20 2]) ∈ ([(0, []), (1, [.const 20 2])] : List Event) ∧
    (1, [Opnd.expr (.const 20 2) 2]) ∉ ([(0, []), (1, [.const 20 2])] : List Event))

/-! ### The database -/

/-- C63: the generated functions are entered into the database of the module: each of their instructions has an id that leads back
to it, also by its metadata, and the ids of all other values stay as they were. -/
theorem C63_database (lossless : Nat → Nat → Bool) (m : GMod) (es : List Nat) (hf : Fresh m) (hv : Valid m es) (pre : Bool) (gs : List Nat)
    (md : Val → Option Str) (hw : (⟨gs, m.fns.map view⟩ : DB.Module).Wf) :
    ∃ db b db', DB.construct pre ⟨gs, m.fns.map view⟩ md = some db ∧ buildModel lossless m db es = some (b, db') ∧
      (∀ f ∈ b.inserted, ∃ g, fnOf b.mod f = some g ∧ g.blocks ≠ [] ∧ ∀ blk ∈ g.blocks, ∀ i ∈ blk, ∃ k,
        DB.getInstructionId db' (.inst i.1) = some k ∧ DB.getValueFromId db' k = some (.inst i.1) ∧ db'.md (.inst i.1) = some (DB.toStr k)) ∧
      (∀ v k, DB.getInstructionId db v = some k → DB.getInstructionId db' v = some k ∧ DB.getValueFromId db' k = some v ∧ db'.md v = db.md v) := by
  obtain ⟨db, d1, d2, d3, _⟩ := DB.construct_ok pre _ md hw
  obtain ⟨b, sel, c, h1, h2⟩ := build_first (lossless := lossless) hf hv
  have hmod : db.mod.funs = m.fns.map view := by rw [d2]
  have hnd : db.idToInst.Nodup := by rw [d3.ids]; exact d3.wf.vals
  have hmap : db.instToId = db.idToInst.zipIdx := by rw [d3.map, d3.ids]
  have hnd' := first_nodup h2 hnd (db_below hf.below d3 hmod)
  obtain ⟨db', k1, k2, k3, k4, k5⟩ := insertInto_ok b.inserted h2.mem db _ rfl hmap hnd'
  have hval : ∀ k, DB.getValueFromId db' k = db'.idToInst[k]? := by
    intro k
    unfold DB.getValueFromId
    split
    · rfl
    · rw [List.getElem?_eq_none (by omega)]
  have hid : ∀ v k, DB.getInstructionId db' v = some k ↔ (db.idToInst ++ (b.inserted.map (instsOf b.mod)).flatten)[k]? = some v := by
    intro v k
    unfold DB.getInstructionId
    rw [k3, DB.lookup_zipIdx hnd']
    simp
  refine ⟨db, b, db', d1, by unfold buildModel; rw [h1, Option.bind_some, k1]; rfl, ?_, ?_⟩
  · intro f hi
    obtain ⟨g, hg⟩ := h2.mem f hi
    have hne : g.blocks ≠ [] := by
      have hk : ∀ ks, kindsOf b.mod f = some ks → ks ≠ [] → g.blocks ≠ [] := by
        intro ks hk hne e
        unfold kindsOf at hk
        rw [hg] at hk
        injection hk with hk
        refine hne ?_
        rw [← hk]; unfold GFn.kinds; rw [e]; rfl
      rw [h2.ins] at hi
      simp only [List.mem_append, List.mem_singleton] at hi
      rcases hi with (hi | hi) | hi
      · by_cases hr : registered m = []
        · rw [if_pos hr] at hi; cases hi
        · rw [if_neg hr, List.mem_singleton] at hi
          obtain ⟨_, ex, he⟩ := h2.shape.caller hr
          rw [← hi] at he
          exact hk _ he (by simp)
      · by_cases hl : (collectGlobalDtors m).length + (if registered m = [] then 0 else 1) = 1
        · rw [if_pos hl] at hi; cases hi
        · rw [if_neg hl, List.mem_singleton] at hi
          rcases h2.shape.clean with ⟨hr, p, hp⟩ | ⟨hr, hp, _⟩ | ⟨_, ex, he⟩
          · exact absurd (by simp [hr, hp]) hl
          · exact absurd (by simp [hr, hp]) hl
          · rw [← hi] at he
            exact hk _ he (by simp)
      · obtain ⟨_, bs, ex, e1, e2⟩ := h2.shape.model
        rw [← hi] at e2
        refine hk _ e2 ?_
        unfold modelBlocks at e1
        obtain ⟨cs, _, e1⟩ := Option.bind_eq_some_iff.1 e1
        obtain ⟨us, _, e1⟩ := Option.map_eq_some_iff.1 e1
        rw [← e1]
        split <;> simp
    refine ⟨g, hg, hne, fun blk hblk i hib => ?_⟩
    have hmem : Val.inst i.1 ∈ (b.inserted.map (instsOf b.mod)).flatten := by
      refine List.mem_flatten.2 ⟨instsOf b.mod f, List.mem_map_of_mem hi, ?_⟩
      unfold instsOf
      rw [hg, Option.map_some, Option.getD_some, view_insts]
      exact List.mem_map_of_mem (List.mem_map_of_mem (List.mem_flatten.2 ⟨blk, hblk, hib⟩))
    obtain ⟨k, hk⟩ := List.getElem?_of_mem hmem
    have hk' : (db.idToInst ++ (b.inserted.map (instsOf b.mod)).flatten)[db.idToInst.length + k]? = some (.inst i.1) := by
      rw [List.getElem?_append_right (by omega)]
      simpa using hk
    exact ⟨_, (hid _ _).2 hk', by rw [hval, k2]; exact hk', k4 k _ hk⟩
  · intro v k hk
    unfold DB.getInstructionId at hk
    rw [hmap, DB.lookup_zipIdx hnd] at hk
    have hk := hk.2
    rw [Nat.sub_zero] at hk
    have hk' : (db.idToInst ++ (b.inserted.map (instsOf b.mod)).flatten)[k]? = some v := by
      rw [List.getElem?_append_left (List.getElem?_eq_some_iff.1 hk).1]; exact hk
    exact ⟨(hid _ _).2 hk', by rw [hval, k2]; exact hk', k5 v (fun hm => (List.nodup_append.1 hnd').2.2 v (List.mem_of_getElem? hk) v hm rfl)⟩

/-- C63, false: the model cannot be built twice for a module and its database: the second time the assertion of
`insertFunction` fails. -/
theorem C63_twice_false (lossless : Nat → Nat → Bool) (m : GMod) (es es' : List Nat) (hf : Fresh m) (hv : Valid m es) (pre : Bool) (gs : List Nat)
    (md : Val → Option Str) (hw : (⟨gs, m.fns.map view⟩ : DB.Module).Wf) :
    ∃ db b db', DB.construct pre ⟨gs, m.fns.map view⟩ md = some db ∧ buildModel lossless m db es = some (b, db') ∧
      buildModel lossless b.mod db' es' = none := by
  obtain ⟨db, b, db', d1, h1, h2, _⟩ := C63_database lossless m es hf hv pre gs md hw
  refine ⟨db, b, db', d1, h1, ?_⟩
  unfold buildModel at h1
  obtain ⟨b0, hb, h1⟩ := Option.bind_eq_some_iff.1 h1
  obtain ⟨db0, hdb, e⟩ := Option.map_eq_some_iff.1 h1
  injection e with e1 e2
  subst e1 e2
  obtain ⟨sel, c, hfst⟩ := C63.first hf hv hb
  cases hb' : buildIR lossless b0.mod es' with
  | none => unfold buildModel; rw [hb']; rfl
  | some b' =>
    obtain ⟨k1, k2, _, k4⟩ := second hv hfst hb'
    -- an instruction of the model
    obtain ⟨g, hg, _, hids⟩ := h2 b0.model hfst.shape.model.1
    obtain ⟨e, he⟩ := List.exists_mem_of_ne_nil _ hv.some_entry
    obtain ⟨fe, hfe⟩ := hv.entries e he
    obtain ⟨g0, blk, q1, q2, q3⟩ := (C63.runs_iff hf hv hfst (Grown.refl hfst.grown.below) rfl rfl _).2 ⟨e, he, fe, hfe, rfl⟩
    rw [hg] at q1
    injection q1 with q1
    subst q1
    have hblk : ∃ B ∈ g.blocks, ∃ i, i ∈ B := by
      unfold GFn.kinds at q2
      cases hB : g.blocks with
      | nil => rw [hB] at q2; cases q2
      | cons B Bs =>
        rw [hB] at q2
        injection q2 with q2
        cases hB' : B with
        | nil => rw [hB'] at q2; rw [← q2] at q3; nomatch q3
        | cons i r => exact ⟨_, List.mem_cons_self, i, List.mem_cons_self⟩
    obtain ⟨B, hB, i, hi⟩ := hblk
    obtain ⟨k, hk, _⟩ := hids B hB i hi
    obtain ⟨g', ex, hg', hbl⟩ := k1.blocks _ _ hg
    have hins : ∃ fs, b'.inserted = fs ++ [b0.model] := by rw [k4, hfst.ins]; exact ⟨_, rfl⟩
    obtain ⟨fs, hfs⟩ := hins
    unfold buildModel
    rw [hb', Option.bind_some, hfs]
    have hl : db0.instToId.length ≤ db0.idToInst.length := by
      rw [hfst.ins, List.foldlM_append] at hdb
      obtain ⟨d1', _, hdb⟩ := Option.bind_eq_some_iff.1 hdb
      rw [List.foldlM_cons] at hdb
      obtain ⟨d2', hd2, hdb⟩ := Option.bind_eq_some_iff.1 hdb
      injection hdb with hdb
      subst hdb
      unfold insertInto at hd2
      obtain ⟨gx, _, hd2⟩ := Option.bind_eq_some_iff.1 hd2
      exact Nat.le_of_eq (insert_keep hd2).1
    rw [insertInto_twice hg' (v := .inst i.1) ?_ hl (by unfold DB.getInstructionId at hk; rw [hk]; rfl)]
    · rfl
    · rw [view_insts]
      refine List.mem_map_of_mem (List.mem_map_of_mem (List.mem_flatten.2 ⟨B, ?_, hi⟩))
      rw [hbl]
      exact List.mem_append_left _ hB

/-- The hypotheses of both hold of the program with two global variables, and the ids of its model follow those of the rest. -/
example : (⟨[7, 8], C63.prog.fns.map view⟩ : DB.Module).Wf := ⟨by decide +kernel, by decide +kernel, by decide +kernel⟩

example : ((DB.construct true ⟨[7, 8], C63.prog.fns.map view⟩ (fun _ => none)).bind (fun db =>
    (buildModel (fun _ _ => true) C63.prog db [0, 6]).map (fun p => (p.1.inserted, p.2.idToInst.length, DB.getInstructionId p.2 (.inst 31))))) =
      some ([30, 34, 38], 24, some 7) := by decide +kernel

/-! ### Entry points -/

/-- C63: the entry points found for a list of names are the functions with these names that have a body; for `__ALL__` they are
the functions with a body and a name that have external linkage or are called `main`. -/
theorem C63_entries (m : GMod) (names : List Str) (hu : ∀ g ∈ m.fns, ∀ g' ∈ m.fns, g.name = g'.name → g.name ≠ [] → g = g') (f : Nat) :
    f ∈ getEntryFunctions m names ↔ ∃ g ∈ m.fns, g.id = f ∧ g.blocks ≠ [] ∧ g.name ≠ [] ∧
      if names = [ascii "__ALL__"] then g.extern = true ∨ g.name = ascii "main" else g.name ∈ names := by
  have hn : ∀ g ∈ m.fns, g.name ≠ [] → fnNamed m g.name = some g := by
    intro g hg hne
    unfold fnNamed
    rw [if_neg hne]
    cases hf : m.fns.find? (fun f => f.name = g.name) with
    | none => exact absurd (by simp) (List.find?_eq_none.1 hf g hg)
    | some g' =>
      have h1 := List.mem_of_find?_eq_some hf
      have h2 := List.find?_some hf
      simp only [decide_eq_true_eq] at h2
      rw [hu g hg g' h1 h2.symm hne]
  unfold getEntryFunctions
  split
  · rw [List.mem_filterMap]
    constructor
    · rintro ⟨g, hg, h⟩
      rw [List.mem_filter] at hg
      have hp := of_decide_eq_true hg.2
      rw [hn g hg.1 hp.2.1] at h
      injection h with h
      exact ⟨g, hg.1, h, hp⟩
    · rintro ⟨g, hg, h, hp⟩
      exact ⟨g, List.mem_filter.2 ⟨hg, decide_eq_true hp⟩, by rw [hn g hg hp.2.1]; exact congrArg some h⟩
  · rw [List.mem_filterMap]
    constructor
    · rintro ⟨n, hn', h⟩
      obtain ⟨g, hg, h⟩ := Option.bind_eq_some_iff.1 h
      split at h
      · rename_i hb
        injection h with h
        unfold fnNamed at hg
        split at hg
        · cases hg
        · rename_i hne
          have e : g.name = n := by simpa using List.find?_some hg
          exact ⟨g, List.mem_of_find?_eq_some hg, h, hb, by rw [e]; exact hne, by rw [e]; exact hn'⟩
      · cases h
    · rintro ⟨g, hg, h, hb, hne, hm⟩
      exact ⟨g.name, hm, by rw [hn g hg hne, Option.bind_some, if_pos hb, h]⟩

example : (∀ g ∈ C63.prog.fns, ∀ g' ∈ C63.prog.fns, g.name = g'.name → g.name ≠ [] → g = g') ∧
    getEntryFunctions C63.prog [ascii "__ALL__"] = [0, 6] ∧ getEntryFunctions C63.prog [ascii "test", ascii "dtorG", ascii "none"] = [6] := by
  decide +kernel

end Phasar.Globals
