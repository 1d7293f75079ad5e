import Verif.Util.EnumStr
/-!
# Enumerations and their names: properties (C95)
-/
namespace Phasar.EnumStr

theorem C95.switch_mem {α : Type} (rows : List (String × α)) (d : α) (hn : (rows.map Prod.fst).Nodup) (s : String) (v : α) (h : (s, v) ∈ rows) :
    stringSwitch rows d s = v := by
  induction rows with
  | nil => cases h
  | cons r rows ih =>
    obtain ⟨k, w⟩ := r
    unfold stringSwitch
    rw [List.map_cons, List.nodup_cons] at hn
    rcases List.mem_cons.1 h with h | h
    · cases h; rw [if_pos rfl]
    · have : k ≠ s := fun e => hn.1 (List.mem_map.2 ⟨(s, v), h, e.symm⟩)
      rw [if_neg this]; exact ih hn.2 h

theorem C95.switch_not {α : Type} (rows : List (String × α)) (d : α) (s : String) (h : ∀ v, (s, v) ∉ rows) : stringSwitch rows d s = d := by
  induction rows with
  | nil => rfl
  | cons r rows ih =>
    obtain ⟨k, w⟩ := r
    unfold stringSwitch
    have : k ≠ s := fun e => h w (by rw [e]; exact List.mem_cons_self ..)
    rw [if_neg this]
    exact ih fun v hv => h v (List.mem_cons_of_mem _ hv)

/-- **C95.** For any table: a switch gives the value of the first case that matches, and the default if there is none. -/
theorem C95_switch {α : Type} (rows : List (String × α)) (d : α) (s : String) (v : α) :
    stringSwitch rows d s = v ↔
      (∃ l r, rows = l ++ (s, v) :: r ∧ ∀ w, (s, w) ∉ l) ∨ ((∀ w, (s, w) ∉ rows) ∧ v = d) := by
  induction rows with
  | nil =>
    unfold stringSwitch
    refine ⟨fun h => Or.inr ⟨fun w hw => (List.not_mem_nil hw).elim, h.symm⟩, ?_⟩
    rintro (⟨l, r, h, _⟩ | ⟨_, h⟩)
    · simp at h
    · exact h.symm
  | cons r rows ih =>
    obtain ⟨k, w⟩ := r
    unfold stringSwitch
    by_cases hk : k = s
    · subst hk
      rw [if_pos rfl]
      constructor
      · rintro rfl; exact Or.inl ⟨[], rows, rfl, by simp⟩
      · rintro (⟨l, r, h, hl⟩ | ⟨h, _⟩)
        · cases l with
          | nil => simp at h; exact h.1
          | cons x l => simp only [List.cons_append, List.cons.injEq] at h; exact absurd (by rw [← h.1]; simp) (hl w)
        · exact absurd (by simp) (h w)
    · rw [if_neg hk, ih]
      constructor
      · rintro (⟨l, r, h, hl⟩ | ⟨h, hd⟩)
        · refine Or.inl ⟨(k, w) :: l, r, by rw [h]; rfl, fun x hx => ?_⟩
          rcases List.mem_cons.1 hx with hx | hx
          · cases hx; exact hk rfl
          · exact hl x hx
        · refine Or.inr ⟨fun x hx => ?_, hd⟩
          rcases List.mem_cons.1 hx with hx | hx
          · cases hx; exact hk rfl
          · exact h x hx
      · rintro (⟨l, r, h, hl⟩ | ⟨h, hd⟩)
        · cases l with
          | nil => simp at h; exact absurd h.1.1 hk
          | cons x l =>
            simp only [List.cons_append, List.cons.injEq] at h
            exact Or.inl ⟨l, r, h.2, fun y hy => hl y (List.mem_cons_of_mem _ hy)⟩
        · exact Or.inr ⟨fun x hx => h x (List.mem_cons_of_mem _ hx), hd⟩

/-- Two rows for the same string: the first wins. -/
example : stringSwitch [("a", 1), ("b", 2), ("b", 3)] 0 "b" = 2 ∧ stringSwitch [("a", 1), ("b", 2), ("b", 3)] 0 "B" = 0 := by decide

theorem C95.exact {α : Type} [DecidableEq α] (rows : List (α × String × String)) (d : α)
    (hn : (rows.map (fun r => r.2.1) ++ rows.map (fun r => r.2.2)).Nodup) (hd : ∀ r ∈ rows, r.1 ≠ d) (s : String) (v : α) :
    (v ≠ d → (fromString rows d s = v ↔ ∃ n f, (v, n, f) ∈ rows ∧ (s = n ∨ s = f))) ∧
    (v = d → (fromString rows d s = v ↔ ∀ w n f, (w, n, f) ∈ rows → s ≠ n ∧ s ≠ f)) := by
  rw [List.nodup_append] at hn
  obtain ⟨hn1, hn2, hn3⟩ := hn
  have e1 : ((rows.map fun r => (r.2.1, r.1)).map Prod.fst) = rows.map (fun r => r.2.1) := by simp [Function.comp_def]
  have e2 : ((rows.map fun r => (r.2.2, r.1)).map Prod.fst) = rows.map (fun r => r.2.2) := by simp [Function.comp_def]
  have name : ∀ w n f, (w, n, f) ∈ rows → fromString rows d n = w := by
    intro w n f h
    have := C95.switch_mem _ d (e1 ▸ hn1) n w (List.mem_map.2 ⟨_, h, rfl⟩)
    unfold fromString
    simp only [this]
    rw [if_neg (hd _ h)]
  have flag : ∀ w n f, (w, n, f) ∈ rows → fromString rows d f = w := by
    intro w n f h
    have h1 := C95.switch_mem _ d (e2 ▸ hn2) f w (List.mem_map.2 ⟨_, h, rfl⟩)
    have h2 := C95.switch_not (rows.map fun r => (r.2.1, r.1)) d f (by
      intro x hx
      obtain ⟨r, hr, e⟩ := List.mem_map.1 hx
      cases e
      exact hn3 _ (List.mem_map.2 ⟨r, hr, rfl⟩) _ (List.mem_map.2 ⟨_, h, rfl⟩) rfl)
    unfold fromString
    simp only [h1, h2, if_true]
  have other : (∀ w n f, (w, n, f) ∈ rows → s ≠ n ∧ s ≠ f) → fromString rows d s = d := by
    intro h
    have h1 := C95.switch_not (rows.map fun r => (r.2.1, r.1)) d s (by
      intro x hx
      obtain ⟨⟨w, n, f⟩, hr, e⟩ := List.mem_map.1 hx
      cases e
      exact (h _ _ _ hr).1 rfl)
    have h2 := C95.switch_not (rows.map fun r => (r.2.2, r.1)) d s (by
      intro x hx
      obtain ⟨⟨w, n, f⟩, hr, e⟩ := List.mem_map.1 hx
      cases e
      exact (h _ _ _ hr).2 rfl)
    unfold fromString
    simp only [h1, h2, if_true]
  have some_row : fromString rows d s ≠ d → ∃ w n f, (w, n, f) ∈ rows ∧ (s = n ∨ s = f) := by
    intro h
    apply Classical.byContradiction
    intro hc
    apply h
    apply other
    intro w n f hr
    exact ⟨fun e => hc ⟨w, n, f, hr, Or.inl e⟩, fun e => hc ⟨w, n, f, hr, Or.inr e⟩⟩
  refine ⟨fun hv => ⟨fun h => ?_, ?_⟩, fun hv => ⟨fun h w n f hr => ?_, fun h => hv ▸ other h⟩⟩
  · obtain ⟨w, n, f, hr, hs⟩ := some_row (by rw [h]; exact hv)
    have : w = v := by
      rcases hs with rfl | rfl
      · rw [← h, name w _ f hr]
      · rw [← h, flag w n _ hr]
    exact ⟨n, f, this ▸ hr, hs⟩
  · rintro ⟨n, f, hr, rfl | rfl⟩
    · exact name v _ f hr
    · exact flag v n _ hr
  · rw [hv] at h
    constructor
    · rintro rfl; rw [name w _ f hr] at h; exact hd _ hr h
    · rintro rfl; rw [flag w n _ hr] at h; exact hd _ hr h

/-- Specification: name and flag of each value; `none` for the value that stands for an unknown string. -/
def C95.dfa : DataFlowAnalysisType → Option (String × String)
  | .None => none
  | .IFDSUninitializedVariables => some ("IFDSUninitializedVariables", "ifds-uninit")
  | .IFDSConstAnalysis => some ("IFDSConstAnalysis", "ifds-const")
  | .IFDSTaintAnalysis => some ("IFDSTaintAnalysis", "ifds-taint")
  | .IDEExtendedTaintAnalysis => some ("IDEExtendedTaintAnalysis", "ide-xtaint")
  | .IFDSTypeAnalysis => some ("IFDSTypeAnalysis", "ifds-type")
  | .IDECSTDIOTypeStateAnalysis => some ("IDECSTDIOTypeStateAnalysis", "ide-stdio-ts")
  | .IDEOpenSSLTypeStateAnalysis => some ("IDEOpenSSLTypeStateAnalysis", "ide-openssl-ts")
  | .IFDSSolverTest => some ("IFDSSolverTest", "ifds-solvertest")
  | .IDELinearConstantAnalysis => some ("IDELinearConstantAnalysis", "ide-lca")
  | .IDESolverTest => some ("IDESolverTest", "ide-solvertest")
  | .IDEInstInteractionAnalysis => some ("IDEInstInteractionAnalysis", "ide-iia")
  | .IntraMonoFullConstantPropagation => some ("IntraMonoFullConstantPropagation", "intra-mono-fca")
  | .IntraMonoSolverTest => some ("IntraMonoSolverTest", "intra-mono-solvertest")
  | .InterMonoSolverTest => some ("InterMonoSolverTest", "inter-mono-solvertest")
  | .InterMonoTaintAnalysis => some ("InterMonoTaintAnalysis", "inter-mono-taint")

theorem C95.dfa_rows (w : DataFlowAnalysisType) (n f : String) : C95.dfa w = some (n, f) ↔ (w, n, f) ∈ dfaRows := by
  have h1 : ∀ r ∈ dfaRows, C95.dfa r.1 = some r.2 := by decide +kernel
  refine ⟨?_, fun h => h1 _ h⟩
  cases w <;> simp only [C95.dfa, Option.some.injEq, Prod.mk.injEq, reduceCtorEq, false_implies] <;>
    (rintro ⟨rfl, rfl⟩; decide +kernel)

/-- **C95.** `DataFlowAnalysisType`: a string stands for a value iff it is the name or the flag of it; for `None` iff it is neither of any value; and
the name that is printed is read as the same value. -/
theorem C95_dfa (s : String) (v : DataFlowAnalysisType) :
    (v.toString = (C95.dfa v).elim "None" Prod.fst) ∧ toDataFlowAnalysisType (v.toString) = v ∧
    (toDataFlowAnalysisType s = v ↔ match C95.dfa v with
      | some (n, f) => s = n ∨ s = f
      | none => ∀ w n f, C95.dfa w = some (n, f) → s ≠ n ∧ s ≠ f) := by
  have hrow : ∀ w n f, C95.dfa w = some (n, f) ↔ (w, n, f) ∈ dfaRows := C95.dfa_rows
  refine ⟨by cases v <;> decide +kernel, by cases v <;> decide +kernel, ?_⟩
  have key := C95.exact dfaRows .None (by decide +kernel) (by decide +kernel) s v
  by_cases hv : v = .None
  · subst hv
    refine (key.2 rfl).trans ?_
    exact ⟨fun h w n f hw => h w n f ((hrow w n f).1 hw), fun h w n f hw => h w n f ((hrow w n f).2 hw)⟩
  · refine (key.1 hv).trans ?_
    cases hc : C95.dfa v with
    | none => revert hv hc; cases v <;> simp [C95.dfa]
    | some nf =>
      obtain ⟨n, f⟩ := nf
      constructor
      · rintro ⟨n', f', hm, h⟩
        have := (hrow v n' f').2 hm
        rw [hc] at this
        cases this
        exact h
      · intro h
        exact ⟨n, f, (hrow v n f).1 hc, h⟩

/-- Specification: name and flag of each value; `none` for the value that stands for an unknown string. -/
def C95.cga : CallGraphAnalysisType → Option (String × String)
  | .Invalid => none
  | .NORESOLVE => some ("NORESOLVE", "nores")
  | .CHA => some ("CHA", "cha")
  | .RTA => some ("RTA", "rta")
  | .DTA => some ("DTA", "dta")
  | .VTA => some ("VTA", "vta")
  | .OTF => some ("OTF", "otf")

theorem C95.cga_rows (w : CallGraphAnalysisType) (n f : String) : C95.cga w = some (n, f) ↔ (w, n, f) ∈ cgaRows := by
  have h1 : ∀ r ∈ cgaRows, C95.cga r.1 = some r.2 := by decide +kernel
  refine ⟨?_, fun h => h1 _ h⟩
  cases w <;> simp only [C95.cga, Option.some.injEq, Prod.mk.injEq, reduceCtorEq, false_implies] <;>
    (rintro ⟨rfl, rfl⟩; decide +kernel)

/-- **C95.** `CallGraphAnalysisType`: a string stands for a value iff it is the name or the flag of it; for `Invalid` iff it is neither of any value; and
the name that is printed is read as the same value. -/
theorem C95_cga (s : String) (v : CallGraphAnalysisType) :
    (v.toString = (C95.cga v).elim "Invalid" Prod.fst) ∧ toCallGraphAnalysisType (v.toString) = v ∧
    (toCallGraphAnalysisType s = v ↔ match C95.cga v with
      | some (n, f) => s = n ∨ s = f
      | none => ∀ w n f, C95.cga w = some (n, f) → s ≠ n ∧ s ≠ f) := by
  have hrow : ∀ w n f, C95.cga w = some (n, f) ↔ (w, n, f) ∈ cgaRows := C95.cga_rows
  refine ⟨by cases v <;> decide +kernel, by cases v <;> decide +kernel, ?_⟩
  have key := C95.exact cgaRows .Invalid (by decide +kernel) (by decide +kernel) s v
  by_cases hv : v = .Invalid
  · subst hv
    refine (key.2 rfl).trans ?_
    exact ⟨fun h w n f hw => h w n f ((hrow w n f).1 hw), fun h w n f hw => h w n f ((hrow w n f).2 hw)⟩
  · refine (key.1 hv).trans ?_
    cases hc : C95.cga v with
    | none => revert hv hc; cases v <;> simp [C95.cga]
    | some nf =>
      obtain ⟨n, f⟩ := nf
      constructor
      · rintro ⟨n', f', hm, h⟩
        have := (hrow v n' f').2 hm
        rw [hc] at this
        cases this
        exact h
      · intro h
        exact ⟨n, f, (hrow v n f).1 hc, h⟩

/-- Specification: name and flag of each value; `none` for the value that stands for an unknown string. -/
def C95.aa : AliasAnalysisType → Option (String × String)
  | .Invalid => none
  | .Basic => some ("Basic", "basic")
  | .CFLSteens => some ("CFLSteens", "cflsteens")
  | .CFLAnders => some ("CFLAnders", "cflanders")
  | .PointsTo => some ("PointsTo", "points-to")

theorem C95.aa_rows (w : AliasAnalysisType) (n f : String) : C95.aa w = some (n, f) ↔ (w, n, f) ∈ aaRows := by
  have h1 : ∀ r ∈ aaRows, C95.aa r.1 = some r.2 := by decide +kernel
  refine ⟨?_, fun h => h1 _ h⟩
  cases w <;> simp only [C95.aa, Option.some.injEq, Prod.mk.injEq, reduceCtorEq, false_implies] <;>
    (rintro ⟨rfl, rfl⟩; decide +kernel)

/-- **C95.** `AliasAnalysisType`: a string stands for a value iff it is the name or the flag of it; for `Invalid` iff it is neither of any value; and
the name that is printed is read as the same value. -/
theorem C95_aa (s : String) (v : AliasAnalysisType) :
    (v.toString = (C95.aa v).elim "Invalid" Prod.fst) ∧ toAliasAnalysisType (v.toString) = v ∧
    (toAliasAnalysisType s = v ↔ match C95.aa v with
      | some (n, f) => s = n ∨ s = f
      | none => ∀ w n f, C95.aa w = some (n, f) → s ≠ n ∧ s ≠ f) := by
  have hrow : ∀ w n f, C95.aa w = some (n, f) ↔ (w, n, f) ∈ aaRows := C95.aa_rows
  refine ⟨by cases v <;> decide +kernel, by cases v <;> decide +kernel, ?_⟩
  have key := C95.exact aaRows .Invalid (by decide +kernel) (by decide +kernel) s v
  by_cases hv : v = .Invalid
  · subst hv
    refine (key.2 rfl).trans ?_
    exact ⟨fun h w n f hw => h w n f ((hrow w n f).1 hw), fun h w n f hw => h w n f ((hrow w n f).2 hw)⟩
  · refine (key.1 hv).trans ?_
    cases hc : C95.aa v with
    | none => revert hv hc; cases v <;> simp [C95.aa]
    | some nf =>
      obtain ⟨n, f⟩ := nf
      constructor
      · rintro ⟨n', f', hm, h⟩
        have := (hrow v n' f').2 hm
        rw [hc] at this
        cases this
        exact h
      · intro h
        exact ⟨n, f, (hrow v n f).1 hc, h⟩

/-- Specification: name and flag of each value; `none` for the value that stands for an unknown string. -/
def C95.strat : AnalysisStrategy → Option (String × String)
  | .None => none
  | .WholeProgram => some ("WholeProgram", "WPA")
  | .DemandDriven => some ("DemandDriven", "DD")
  | .Incremental => some ("Incremental", "INC")
  | .ModuleWise => some ("ModuleWise", "MWA")
  | .Variational => some ("Variational", "VAR")

theorem C95.strat_rows (w : AnalysisStrategy) (n f : String) : C95.strat w = some (n, f) ↔ (w, n, f) ∈ stratRows := by
  have h1 : ∀ r ∈ stratRows, C95.strat r.1 = some r.2 := by decide +kernel
  refine ⟨?_, fun h => h1 _ h⟩
  cases w <;> simp only [C95.strat, Option.some.injEq, Prod.mk.injEq, reduceCtorEq, false_implies] <;>
    (rintro ⟨rfl, rfl⟩; decide +kernel)

/-- **C95.** `AnalysisStrategy`: a string stands for a value iff it is the name or the flag of it; for `None` iff it is neither of any value; and
the name that is printed is read as the same value. -/
theorem C95_strat (s : String) (v : AnalysisStrategy) :
    (v.toString = (C95.strat v).elim "None" Prod.fst) ∧ toAnalysisStrategy (v.toString) = v ∧
    (toAnalysisStrategy s = v ↔ match C95.strat v with
      | some (n, f) => s = n ∨ s = f
      | none => ∀ w n f, C95.strat w = some (n, f) → s ≠ n ∧ s ≠ f) := by
  have hrow : ∀ w n f, C95.strat w = some (n, f) ↔ (w, n, f) ∈ stratRows := C95.strat_rows
  refine ⟨by cases v <;> decide +kernel, by cases v <;> decide +kernel, ?_⟩
  have key := C95.exact stratRows .None (by decide +kernel) (by decide +kernel) s v
  by_cases hv : v = .None
  · subst hv
    refine (key.2 rfl).trans ?_
    exact ⟨fun h w n f hw => h w n f ((hrow w n f).1 hw), fun h w n f hw => h w n f ((hrow w n f).2 hw)⟩
  · refine (key.1 hv).trans ?_
    cases hc : C95.strat v with
    | none => revert hv hc; cases v <;> simp [C95.strat]
    | some nf =>
      obtain ⟨n, f⟩ := nf
      constructor
      · rintro ⟨n', f', hm, h⟩
        have := (hrow v n' f').2 hm
        rw [hc] at this
        cases this
        exact h
      · intro h
        exact ⟨n, f, (hrow v n f).1 hc, h⟩

/-- Specification: name and flag of each value; `none` for the value that stands for an unknown string. -/
def C95.snd : Soundness → Option (String × String)
  | .Invalid => none
  | .Sound => some ("Sound", "sound")
  | .Soundy => some ("Soundy", "soundy")
  | .Unsound => some ("Unsound", "unsound")

theorem C95.snd_rows (w : Soundness) (n f : String) : C95.snd w = some (n, f) ↔ (w, n, f) ∈ sndRows := by
  have h1 : ∀ r ∈ sndRows, C95.snd r.1 = some r.2 := by decide +kernel
  refine ⟨?_, fun h => h1 _ h⟩
  cases w <;> simp only [C95.snd, Option.some.injEq, Prod.mk.injEq, reduceCtorEq, false_implies] <;>
    (rintro ⟨rfl, rfl⟩; decide +kernel)

/-- **C95.** `Soundness`: a string stands for a value iff it is the name or the flag of it; for `Invalid` iff it is neither of any value; and
the name that is printed is read as the same value. -/
theorem C95_snd (s : String) (v : Soundness) :
    (v.toString = (C95.snd v).elim "Invalid" Prod.fst) ∧ toSoundness (v.toString) = v ∧
    (toSoundness s = v ↔ match C95.snd v with
      | some (n, f) => s = n ∨ s = f
      | none => ∀ w n f, C95.snd w = some (n, f) → s ≠ n ∧ s ≠ f) := by
  have hrow : ∀ w n f, C95.snd w = some (n, f) ↔ (w, n, f) ∈ sndRows := C95.snd_rows
  refine ⟨by cases v <;> decide +kernel, by cases v <;> decide +kernel, ?_⟩
  have key := C95.exact sndRows .Invalid (by decide +kernel) (by decide +kernel) s v
  by_cases hv : v = .Invalid
  · subst hv
    refine (key.2 rfl).trans ?_
    exact ⟨fun h w n f hw => h w n f ((hrow w n f).1 hw), fun h w n f hw => h w n f ((hrow w n f).2 hw)⟩
  · refine (key.1 hv).trans ?_
    cases hc : C95.snd v with
    | none => revert hv hc; cases v <;> simp [C95.snd]
    | some nf =>
      obtain ⟨n, f⟩ := nf
      constructor
      · rintro ⟨n', f', hm, h⟩
        have := (hrow v n' f').2 hm
        rw [hc] at this
        cases this
        exact h
      · intro h
        exact ⟨n, f, (hrow v n f).1 hc, h⟩

/-- **C95.** `SpecialMemberFunctionType`: printing and reading are inverse; all other strings are read as `None`. -/
theorem C95_smf (s : String) (v : SpecialMemberFunctionType) :
    toSpecialMemberFunctionType v.toString = v ∧ (v ≠ .None → (toSpecialMemberFunctionType s = v ↔ s = v.toString)) ∧
    v.toString ∈ ["None", "Constructor", "Destructor", "CopyConstructor", "MoveConstructor", "CopyAssignment", "MoveAssignment"] := by
  have h1 : ∀ v : SpecialMemberFunctionType, toSpecialMemberFunctionType v.toString = v := by intro v; cases v <;> decide +kernel
  refine ⟨h1 v, fun hv => ⟨fun h => ?_, fun h => h ▸ h1 v⟩, by cases v <;> decide +kernel⟩
  rcases (C95_switch _ _ _ _).1 h with ⟨l, r, e, _⟩ | ⟨_, e⟩
  · have hm : (s, v) ∈ smfRows.map fun r => (r.2, r.1) := by rw [e]; simp
    have h2 : ∀ x ∈ smfRows.map (fun r => (r.2, r.1)), x.1 = x.2.toString := by decide +kernel
    exact h2 _ hm
  · exact absurd e hv

/-- **C95.** `AliasResult`: whatever the string, it is read as `MayAlias`. -/
theorem C95_alias (s : String) : toAliasResult s = .MayAlias := rfl

/-- **C95.** False: that `toAliasResult` reads what `toString` prints: exactly one of the four values comes back. -/
theorem C95_alias_false (v : AliasResult) : toAliasResult v.toString = v ↔ v = .MayAlias := by
  rw [C95_alias]; exact eq_comm

/-- **C95.** No two values of an enumeration print alike. -/
theorem C95_distinct :
    (∀ v w : DataFlowAnalysisType, v.toString = w.toString → v = w) ∧ (∀ v w : CallGraphAnalysisType, v.toString = w.toString → v = w) ∧
    (∀ v w : AliasAnalysisType, v.toString = w.toString → v = w) ∧ (∀ v w : AnalysisStrategy, v.toString = w.toString → v = w) ∧
    (∀ v w : Soundness, v.toString = w.toString → v = w) ∧ (∀ v w : SpecialMemberFunctionType, v.toString = w.toString → v = w) ∧
    (∀ v w : AliasResult, v.toString = w.toString → v = w) ∧ (∀ v w : Bool, binaryToString v = binaryToString w → v = w) := by
  refine ⟨fun v w h => ?_, fun v w h => ?_, fun v w h => ?_, fun v w h => ?_, fun v w h => ?_, fun v w h => ?_, fun v w h => ?_,
    by decide⟩
  · rw [← (C95_dfa "" v).2.1, h, (C95_dfa "" w).2.1]
  · rw [← (C95_cga "" v).2.1, h, (C95_cga "" w).2.1]
  · rw [← (C95_aa "" v).2.1, h, (C95_aa "" w).2.1]
  · rw [← (C95_strat "" v).2.1, h, (C95_strat "" w).2.1]
  · rw [← (C95_snd "" v).2.1, h, (C95_snd "" w).2.1]
  · rw [← (C95_smf "" v).1, h, (C95_smf "" w).1]
  · revert h; cases v <;> cases w <;> decide

/-- Name and flag are both read; case matters. -/
example : toDataFlowAnalysisType "ide-lca" = .IDELinearConstantAnalysis ∧ toDataFlowAnalysisType "IDELinearConstantAnalysis" =
    .IDELinearConstantAnalysis ∧ toDataFlowAnalysisType "IDE-LCA" = .None ∧ toCallGraphAnalysisType "Cha" = .Invalid := by decide +kernel

end Phasar.EnumStr
