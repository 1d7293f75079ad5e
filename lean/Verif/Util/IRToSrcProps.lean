/-
C88: from LLVM values to the source code (LLVMIRToSrc.cpp).
-/
import Verif.Util.IRToSrc

namespace Phasar.IRToSrc

/-! ## Specification -/

/-- Specification: `d` is the first debug intrinsic among the users. -/
def C88.First (us : List (Option DbgIntr)) (d : DbgIntr) : Prop :=
  ∃ pre post, us = pre ++ some d :: post ∧ ∀ x ∈ pre, x = none

/-- Specification: the value is described by the debug intrinsic: it is the first one that uses the value, or, for an argument that no
metadata uses, the first one that uses the stack slot to which the argument is stored first. -/
def C88.Describes (v : Value) (d : DbgIntr) : Prop :=
  (∃ us, v.md = some us ∧ C88.First us d) ∨
  ∃ f pre us post, v = .arg f none (pre ++ .store true (some (some us)) :: post) ∧ (∀ md, .store true (some md) ∉ pre) ∧ C88.First us d

/-- Specification: the last component of a path. -/
def C88.Base (path base : Str) : Prop := '/' ∉ base ∧ (path = base ∨ ∃ d, path = d ++ '/' :: base)

/-! ## Lemmas -/

theorem C88.firstDbg_iff (us : List (Option DbgIntr)) (d : DbgIntr) : firstDbg us = some d ↔ C88.First us d := by
  unfold firstDbg
  induction us with
  | nil => simp [C88.First]
  | cons u us ih =>
    rw [List.findSome?_cons]
    cases u with
    | none =>
      simp only [id]
      rw [ih]
      constructor
      · rintro ⟨pre, post, rfl, h⟩
        exact ⟨none :: pre, post, rfl, by simpa using h⟩
      · rintro ⟨pre, post, e, h⟩
        cases pre with
        | nil => cases e
        | cons x pre => cases e; exact ⟨pre, post, rfl, fun x hx => h x (List.mem_cons_of_mem _ hx)⟩
    | some d' =>
      simp only [id, Option.some.injEq]
      constructor
      · rintro rfl; exact ⟨[], us, rfl, nofun⟩
      · rintro ⟨pre, post, e, h⟩
        cases pre with
        | nil => cases e; rfl
        | cons x pre => cases e; exact absurd (h _ (List.mem_cons_self ..)) nofun

theorem C88.firstStore_iff (us : List ArgUser) (d : DbgIntr) : firstStore us = some d ↔
    ∃ pre ms post, us = pre ++ .store true (some (some ms)) :: post ∧ (∀ md, .store true (some md) ∉ pre) ∧ C88.First ms d := by
  induction us with
  | nil => simp [firstStore]
  | cons u us ih =>
    by_cases h : ∃ md, u = .store true (some md)
    · obtain ⟨md, rfl⟩ := h
      simp only [firstStore]
      cases md with
      | none =>
        refine ⟨nofun, ?_⟩
        rintro ⟨pre, ms, post, e, h, _⟩
        cases pre with
        | nil => cases e
        | cons x pre => cases e; exact absurd (List.mem_cons_self ..) (h none)
      | some ms =>
        simp only [Option.bind_some]
        rw [C88.firstDbg_iff]
        constructor
        · exact fun h => ⟨[], ms, us, rfl, by simp, h⟩
        · rintro ⟨pre, ms', post, e, h, h'⟩
          cases pre with
          | nil => cases e; exact h'
          | cons x pre => cases e; exact absurd (List.mem_cons_self ..) (h (some ms))
    · have e : firstStore (u :: us) = firstStore us := by
        rw [firstStore]
        exact fun md e => h ⟨md, e⟩
      rw [e, ih]
      constructor
      · rintro ⟨pre, ms, post, rfl, h1, h2⟩
        refine ⟨u :: pre, ms, post, rfl, fun md hm => ?_, h2⟩
        rcases List.mem_cons.1 hm with hm | hm
        · exact h ⟨md, hm.symm⟩
        · exact h1 md hm
      · rintro ⟨pre, ms, post, e, h1, h2⟩
        cases pre with
        | nil => cases e; exact absurd ⟨_, rfl⟩ h
        | cons x pre => cases e; exact ⟨pre, ms, post, rfl, fun md hm => h1 md (List.mem_cons_of_mem _ hm), h2⟩

theorem C88.first_unique {us : List (Option DbgIntr)} {d d' : DbgIntr} (h : C88.First us d) (h' : C88.First us d') : d = d' := by
  rw [← C88.firstDbg_iff] at h h'
  exact Option.some.inj (h.symm.trans h')

/-- C88, debug intrinsics: the one found is the one that describes the value. -/
theorem C88_intrinsic (v : Value) (d : DbgIntr) : getDbgVarIntrinsic v = some d ↔ C88.Describes v d := by
  unfold getDbgVarIntrinsic C88.Describes
  cases hm : v.md with
  | some us =>
    simp only [Option.some.injEq, exists_eq_left']
    rw [C88.firstDbg_iff]
    refine ⟨.inl, ?_⟩
    rintro (h | ⟨f, pre, us', post, rfl, _⟩)
    · exact h
    · cases hm
  | none =>
    cases v with
    | arg f md users =>
      cases hm
      simp only
      rw [C88.firstStore_iff]
      constructor
      · rintro ⟨pre, ms, post, rfl, h1, h2⟩
        exact .inr ⟨f, pre, ms, post, rfl, h1, h2⟩
      · rintro (⟨_, h, _⟩ | ⟨f', pre, ms, post, e, h1, h2⟩)
        · cases h
        · cases e; exact ⟨pre, ms, post, rfl, h1, h2⟩
    | _ => simp

theorem C88.none_iff (v : Value) : getDbgVarIntrinsic v = none ↔ ∀ d, ¬C88.Describes v d := by
  rw [Option.eq_none_iff_forall_not_mem]
  exact forall_congr' fun d => not_congr (C88_intrinsic v d)

/-- C88, variables: a value has the name of the variable of the intrinsic that describes it, unless that is a `dbg.addr`; otherwise a global
variable has its own; all else has none. -/
theorem C88_name (v : Value) (n : Str) : getVarName v = n ↔
    (∃ d, C88.Describes v d ∧ d.kind ≠ .addr ∧ d.var.name = n) ∨
    ((∀ d, C88.Describes v d → d.kind = .addr) ∧
      ((∃ g m md, v = .gvar (some g) m md ∧ g.name = n) ∨ ((∀ g m md, v ≠ .gvar (some g) m md) ∧ n = []))) := by
  have glob : (match getDIGlobalVariable v with | some x => x.name | none => []) = n ↔
      ((∃ g m md, v = .gvar (some g) m md ∧ g.name = n) ∨ ((∀ g m md, v ≠ .gvar (some g) m md) ∧ n = [])) := by
    cases v with
    | gvar g m md => cases g <;> simp [getDIGlobalVariable, eq_comm]
    | _ => simp [getDIGlobalVariable, eq_comm]
  unfold getVarName getDILocalVariable
  cases hd : getDbgVarIntrinsic v with
  | none =>
    have h := (C88.none_iff v).1 hd
    simp only
    refine Iff.trans glob ?_
    constructor
    · exact fun h' => .inr ⟨fun d hd => absurd hd (h d), h'⟩
    · rintro (⟨d, h', _⟩ | ⟨_, h'⟩)
      · exact absurd h' (h d)
      · exact h'
  | some d =>
    have h := (C88_intrinsic v d).1 hd
    have hu : ∀ d', C88.Describes v d' → d' = d := fun d' h' =>
      Option.some.inj (((C88_intrinsic v d').2 h').symm.trans hd)
    simp only
    cases hk : d.kind with
    | addr =>
      simp only
      refine Iff.trans glob ?_
      constructor
      · exact fun h' => .inr ⟨fun d' hd' => by rw [hu d' hd']; exact hk, h'⟩
      · rintro (⟨d', h', h1, _⟩ | ⟨_, h'⟩)
        · rw [hu d' h'] at h1; exact absurd hk h1
        · exact h'
    | _ =>
      simp only
      constructor
      · exact fun h' => .inl ⟨d, h, by rw [hk]; decide, h'⟩
      · rintro (⟨d', h', _, h2⟩ | ⟨h', _⟩)
        · rw [hu d' h'] at h2; exact h2
        · exact absurd (h' d h) (by rw [hk]; decide)

/-- C88, locations: a value has the location of the intrinsic that describes it; an instruction that none describes its own; a function that
of its subprogram and a global variable that of its variable, in column 0. -/
theorem C88_location (v : Value) (l : DILoc) : getDebugLocation v = some l ↔
    (∃ d, C88.Describes v d ∧ d.loc = some l) ∨
    ((∀ d, ¬C88.Describes v d) ∧ ∃ f md, v = .inst f md (some l)) ∨
    ((∀ d, C88.Describes v d → d.loc = none) ∧
      ((∃ f md s, v = .fn f md ∧ f.sub = some s ∧ l = ⟨s.line, 0, s.file⟩) ∨
       ∃ g m md, v = .gvar (some g) m md ∧ l = ⟨g.line, 0, g.file⟩)) := by
  have rest : (match getDISubprogram v with
      | some s => some (⟨s.line, 0, s.file⟩ : DILoc)
      | none => match getDIGlobalVariable v with
        | some g => some ⟨g.line, 0, g.file⟩
        | none => none) = some l ↔
      ((∃ f md s, v = .fn f md ∧ f.sub = some s ∧ l = ⟨s.line, 0, s.file⟩) ∨
       ∃ g m md, v = .gvar (some g) m md ∧ l = ⟨g.line, 0, g.file⟩) := by
    cases v with
    | fn f md => cases hs : f.sub <;> simp [getDISubprogram, getDIGlobalVariable, hs, eq_comm]
    | gvar g m md => cases g <;> simp [getDISubprogram, getDIGlobalVariable, eq_comm]
    | _ => simp [getDISubprogram, getDIGlobalVariable]
  unfold getDebugLocation getDILocation
  cases hd : getDbgVarIntrinsic v with
  | none =>
    have h := (C88.none_iff v).1 hd
    have h0 : ¬ ∃ d, C88.Describes v d ∧ d.loc = some l := fun ⟨d, hd, _⟩ => h d hd
    have h1 : (∀ d, C88.Describes v d → d.loc = none) ↔ True := ⟨fun _ => trivial, fun _ d hd => absurd hd (h d)⟩
    have h2 : (∀ d, ¬C88.Describes v d) ↔ True := ⟨fun _ => trivial, fun _ => h⟩
    rw [h1, h2]
    simp only [h0, false_or, true_and]
    cases v with
    | inst f md loc => cases loc <;> simp [getDISubprogram, getDIGlobalVariable, eq_comm]
    | _ =>
      refine Iff.trans rest ⟨.inr, ?_⟩
      rintro (⟨_, _, h⟩ | h)
      · cases h
      · exact h
  | some d =>
    have h := (C88_intrinsic v d).1 hd
    have hu : ∀ d', C88.Describes v d' → d' = d := fun d' h' =>
      Option.some.inj (((C88_intrinsic v d').2 h').symm.trans hd)
    have h2 : ¬ ∀ d, ¬C88.Describes v d := fun h' => h' d h
    simp only
    cases hl : d.loc with
    | none =>
      have h0 : ¬ ∃ d, C88.Describes v d ∧ d.loc = some l := by
        rintro ⟨d', h', e⟩; rw [hu d' h', hl] at e; cases e
      have h1 : (∀ d, C88.Describes v d → d.loc = none) ↔ True :=
        ⟨fun _ => trivial, fun _ d' hd' => by rw [hu d' hd']; exact hl⟩
      rw [h1]
      simp only [h0, h2, false_or, false_and, true_and]
      exact rest
    | some l' =>
      have h0 : (∃ d, C88.Describes v d ∧ d.loc = some l) ↔ l' = l := by
        constructor
        · rintro ⟨d', h', e⟩; rw [hu d' h', hl] at e; exact Option.some.inj e
        · rintro rfl; exact ⟨d, h, hl⟩
      have h1 : ¬ ∀ d, C88.Describes v d → d.loc = none := fun h' => by have := h' d h; rw [hl] at this; cases this
      rw [h0]
      simp only [h1, h2, false_and, or_false, Option.some.injEq]

/-- C88: the line, the column, both together and the directory are those of the location. -/
theorem C88_agree (v : Value) :
    (∀ l, getDebugLocation v = some l → getLine v = l.line ∧ getColumn v = l.col ∧ getLineAndCol v = (l.line, l.col) ∧
      getDirectory v = (match l.file with | some d => d.dir | none => [])) ∧
    (getDebugLocation v = none → getLine v = 0 ∧ getColumn v = 0 ∧ getLineAndCol v = (0, 0) ∧ getDirectory v = []) := by
  unfold getDebugLocation getLine getColumn getLineAndCol getDirectory
  constructor
  · intro l h
    cases h1 : getDILocation v with
    | some x => rw [h1] at h; cases h; exact ⟨rfl, rfl, rfl, rfl⟩
    | none =>
      rw [h1] at h
      cases h2 : getDISubprogram v with
      | some x => rw [h2] at h; cases h; exact ⟨rfl, rfl, rfl, rfl⟩
      | none =>
        rw [h2] at h
        cases h3 : getDIGlobalVariable v with
        | some x => rw [h3] at h; cases h; exact ⟨rfl, rfl, rfl, rfl⟩
        | none => rw [h3] at h; cases h
  · intro h
    cases h1 : getDILocation v with
    | some x => rw [h1] at h; cases h
    | none =>
      rw [h1] at h
      cases h2 : getDISubprogram v with
      | some x => rw [h2] at h; cases h
      | none =>
        rw [h2] at h
        cases h3 : getDIGlobalVariable v with
        | some x => rw [h3] at h; cases h
        | none => exact ⟨rfl, rfl, rfl, rfl⟩

/-- C88, files, in part: functions and global variables that no intrinsic describes and instructions that no metadata uses have the file of
their location; arguments and instructions described by a `dbg.declare` or `dbg.value` have the file of the variable.  Missing:
instructions used by metadata that no intrinsic describes, or by a `dbg.addr`, which have a location and no file (`C88_file_false`). -/
theorem C88_file_partial (v : Value) :
    ((∀ f p us, v ≠ .arg f p us) → (∀ md, v ≠ .other md) → (∀ d, ¬C88.Describes v d) → (∀ f us l, v ≠ .inst f (some us) l) →
      getDIFile v = (getDebugLocation v).bind (·.file)) ∧
    (∀ d, C88.Describes v d → d.kind ≠ .addr → ((∃ f p us, v = .arg f p us) ∨ ∃ f p l, v = .inst f p l) → getDIFile v = d.var.file) := by
  constructor
  · intro h1 h2 h3 h4
    have hd := (C88.none_iff v).2 h3
    cases v with
    | fn f md => cases hs : f.sub <;> simp [getDIFile, getDebugLocation, getDILocation, hd, getDISubprogram, getDIGlobalVariable, hs]
    | gvar g m md => cases g <;> simp [getDIFile, getDebugLocation, getDILocation, hd, getDISubprogram, getDIGlobalVariable]
    | arg f p us => exact absurd rfl (h1 f p us)
    | inst f md l =>
      cases md with
      | some us => exact absurd rfl (h4 f us l)
      | none => cases l <;> simp [getDIFile, getDebugLocation, getDILocation, hd, getDISubprogram, getDIGlobalVariable]
    | other md => exact absurd rfl (h2 md)
  · intro d h hk hv
    have hd := (C88_intrinsic v d).2 h
    have hl : getDILocalVariable v = some d.var := by
      unfold getDILocalVariable
      rw [hd]
      cases hk' : d.kind with
      | addr => exact absurd hk' hk
      | _ => simp [hk']
    rcases hv with ⟨f, p, us, rfl⟩ | ⟨f, p, l, rfl⟩
    · unfold getDIFile
      simp [hl]
    · unfold getDIFile
      simp only
      cases p with
      | some us => simp [hl]
      | none => simp [getDbgVarIntrinsic, Value.md] at hd

/-- C88, paths: the path of a file is its name if that is absolute or there is no directory, and otherwise the directory, one separator and
the name. -/
theorem C88_path (d : DIFile) :
    (d.filename = [] → filePath d = []) ∧
    (∀ s, d.filename = '/' :: s → filePath d = '/' :: s) ∧
    (d.dir = [] → filePath d = d.filename) ∧
    (∀ c s p, d.filename = c :: s → c ≠ '/' → d.dir = p ++ ['/'] → filePath d = p ++ '/' :: c :: s) ∧
    (∀ c s p x, d.filename = c :: s → c ≠ '/' → d.dir = p ++ [x] → x ≠ '/' → filePath d = p ++ x :: '/' :: c :: s) := by
  unfold filePath
  refine ⟨fun h => ?_, fun s h => ?_, fun h => ?_, fun c s p h1 h2 h3 => ?_, fun c s p x h1 h2 h3 h4 => ?_⟩
  · simp [h]
  · simp [h, isAbsolute]
  · simp only [h, List.isEmpty_nil, Bool.not_true, Bool.false_and, Bool.false_eq_true, if_false]
    split
    · rename_i e; rw [List.isEmpty_iff.1 e]
    · rfl
  · simp [h1, h3, isAbsolute, h2, append]
  · simp [h1, h3, isAbsolute, h2, append, h4]

/-- C88: without a file of the debug information, the path is the source file name of the module, for functions, arguments and
instructions; the function and the module of a value are those that contain it. -/
theorem C88_context (v : Value) :
    (∀ d, getDIFile v = some d → getFilePath v = filePath d) ∧
    (∀ f, (∃ md, v = .fn f md) ∨ (∃ md us, v = .arg f md us) ∨ (∃ md l, v = .inst f md l) →
      (getDIFile v = none → getFilePath v = f.mod.sourceFile) ∧ getFunctionName v = f.name ∧ getModuleID v = f.mod.ident) ∧
    (∀ g m md, v = .gvar g m md → (getDIFile v = none → getFilePath v = []) ∧ getFunctionName v = [] ∧ getModuleID v = m.ident) ∧
    (∀ md, v = .other md → getFilePath v = [] ∧ getFunctionName v = [] ∧ getModuleID v = []) := by
  refine ⟨fun d h => by simp [getFilePath, h], ?_, ?_, ?_⟩
  · rintro f (⟨md, rfl⟩ | ⟨md, us, rfl⟩ | ⟨md, l, rfl⟩) <;> exact ⟨fun h => by simp [getFilePath, h], rfl, rfl⟩
  · rintro g m md rfl
    exact ⟨fun h => by simp [getFilePath, h], rfl, rfl⟩
  · rintro md rfl
    exact ⟨rfl, rfl, rfl⟩

/-! The source line -/

theorem C88.take_line {l : Str} (h : '\n' ∉ l) : takeLine l = l ∧ ∀ s, takeLine (l ++ '\n' :: s) = l := by
  induction l with
  | nil => exact ⟨rfl, fun s => rfl⟩
  | cons c l ih =>
    rw [List.mem_cons, not_or] at h
    have hc : c ≠ '\n' := Ne.symm h.1
    obtain ⟨h1, h2⟩ := ih h.2
    refine ⟨?_, fun s => ?_⟩
    · rw [takeLine, if_neg hc, h1]
    · rw [List.cons_append, takeLine, if_neg hc, h2]

theorem C88.ignore_line {l : Str} (h : '\n' ∉ l) : ignoreLine l = [] ∧ ∀ s, ignoreLine (l ++ '\n' :: s) = s := by
  induction l with
  | nil => exact ⟨rfl, fun s => rfl⟩
  | cons c l ih =>
    rw [List.mem_cons, not_or] at h
    have hc : c ≠ '\n' := Ne.symm h.1
    obtain ⟨h1, h2⟩ := ih h.2
    refine ⟨?_, fun s => ?_⟩
    · rw [ignoreLine, if_neg hc, h1]
    · rw [List.cons_append, ignoreLine, if_neg hc, h2]

theorem C88.ignore_nil (n : Nat) : ignoreLines n [] = [] := by
  induction n with
  | zero => rfl
  | succ n ih => exact ih

theorem C88.nth_line (ls : List Str) : ∀ (n : Nat), (∀ l ∈ ls, '\n' ∉ l) →
    takeLine (ignoreLines n (['\n'].intercalate ls)) = (ls[n]?).getD [] := by
  induction ls with
  | nil =>
    intro n _
    show takeLine (ignoreLines n []) = _
    rw [C88.ignore_nil]; rfl
  | cons l ls ih =>
    intro n h
    have hl := h l (List.mem_cons_self ..)
    have hr : ∀ l ∈ ls, '\n' ∉ l := fun x hx => h x (List.mem_cons_of_mem _ hx)
    cases ls with
    | nil =>
      have e : ['\n'].intercalate [l] = l := by simp [List.intercalate]
      rw [e]
      cases n with
      | zero => exact (C88.take_line hl).1
      | succ n => rw [ignoreLines, (C88.ignore_line hl).1, C88.ignore_nil]; rfl
    | cons l' ls =>
      have e : ['\n'].intercalate (l :: l' :: ls) = l ++ '\n' :: ['\n'].intercalate (l' :: ls) := by
        simp [List.intercalate]
      rw [e]
      cases n with
      | zero => exact (C88.take_line hl).2 _
      | succ n => rw [ignoreLines, (C88.ignore_line hl).2, ih n hr]; rfl

theorem C88.dropWhile_spec (P : Char → Bool) (s : Str) : ∃ p, s = p ++ s.dropWhile P ∧ (∀ c ∈ p, P c = true) ∧
    ∀ c, (s.dropWhile P).head? = some c → P c = false := by
  induction s with
  | nil => exact ⟨[], rfl, nofun, nofun⟩
  | cons x s ih =>
    cases h : P x with
    | true =>
      obtain ⟨p, h1, h2, h3⟩ := ih
      rw [List.dropWhile_cons_of_pos h]
      refine ⟨x :: p, by rw [List.cons_append, ← h1], ?_, h3⟩
      intro c hc
      rcases List.mem_cons.1 hc with rfl | hc
      · exact h
      · exact h2 c hc
    | false =>
      rw [List.dropWhile_cons_of_neg (by simp [h])]
      refine ⟨[], rfl, nofun, ?_⟩
      intro c hc
      cases hc
      exact h

/-- C88, trimming: white space is removed at both ends and nothing else. -/
theorem C88_trim (s : Str) : ∃ p q, s = p ++ trim s ++ q ∧ (∀ c ∈ p ++ q, c ∈ [' ', '\t', '\n', '\x0b', '\x0c', '\r']) ∧
    (∀ c, (trim s).head? = some c ∨ (trim s).getLast? = some c → c ∉ [' ', '\t', '\n', '\x0b', '\x0c', '\r']) := by
  have sp : ∀ c, isSpace c = true ↔ c ∈ [' ', '\t', '\n', '\x0b', '\x0c', '\r'] := by
    intro c; simp [isSpace, or_assoc]
  obtain ⟨p, h1, h2, h3⟩ := C88.dropWhile_spec isSpace s
  obtain ⟨q, k1, k2, k3⟩ := C88.dropWhile_spec isSpace (s.dropWhile isSpace).reverse
  have e : s.dropWhile isSpace = trim s ++ q.reverse := by
    have := congrArg List.reverse k1
    rw [List.reverse_reverse, List.reverse_append] at this
    exact this
  refine ⟨p, q.reverse, ?_, ?_, ?_⟩
  · rw [List.append_assoc, ← e]; exact h1
  · intro c hc
    rw [← sp]
    rcases List.mem_append.1 hc with hc | hc
    · exact h2 c hc
    · exact k2 c (List.mem_reverse.1 hc)
  · intro c hc
    rw [← sp, Bool.not_eq_true]
    rcases hc with hc | hc
    · apply h3 c
      rw [e]
      cases ht : trim s with
      | nil => rw [ht] at hc; cases hc
      | cons x t => rw [ht] at hc; cases hc; rfl
    · apply k3 c
      unfold trim at hc
      rw [List.getLast?_reverse] at hc
      exact hc

/-- C88, source lines: of a value at line `n + 1` of a file whose lines are `ls`, the line is the one with index `n`, or empty if the file
is shorter; of a value without line or without file it is empty. -/
theorem C88_source (fs : Str → Option Str) (v : Value) :
    (∀ (n : Nat) (ls : List Str), getLine v = n + 1 → fs (getFilePath v) = some (['\n'].intercalate ls) → (∀ l ∈ ls, '\n' ∉ l) →
      getSrcCode fs v false = (ls[n]?).getD [] ∧ getSrcCode fs v true = trim ((ls[n]?).getD [])) ∧
    (getLine v = 0 ∨ fs (getFilePath v) = none → ∀ t, getSrcCode fs v t = []) := by
  unfold getSrcCode
  constructor
  · intro n ls h1 h2 h3
    simp only [h1, h2, Nat.add_sub_cancel, gt_iff_lt, Nat.zero_lt_succ, if_true, C88.nth_line ls n h3, Bool.false_eq_true, if_false,
      and_self]
  · rintro (h | h) t
    · simp [h]
    · simp [h]

/-- C88, the information about a value has these parts. -/
theorem C88_info (fs : Str → Option Str) (demangle : Str → Str) (v : Value) :
    getSrcCodeInfo fs demangle v =
      { line := getSrcCode fs v true, file := getFilePath v, function := demangle (getFunctionName v), lineNo := (getLineAndCol v).1
        column := (getLineAndCol v).2 } := by
  have h : getLineAndCol v = (getLine v, getColumn v) := by
    cases hl : getDebugLocation v with
    | none => obtain ⟨h1, h2, h3, _⟩ := (C88_agree v).2 hl; rw [h1, h2, h3]
    | some l => obtain ⟨h1, h2, h3, _⟩ := (C88_agree v).1 l hl; rw [h1, h2, h3]
  rw [h]
  rfl

/-! JSON -/

/-- C88, JSON: reading back what was written gives all but the name of the function, which is lost. -/
theorem C88_json (i : Info) (h1 : i.lineNo < 2 ^ 32) (h2 : i.column < 2 ^ 32) :
    fromJson (toJson i) = some { i with function := [] } := by
  unfold fromJson toJson
  simp only [List.lookup, show (("sourceCodeFileName" : String) == "sourceCodeLine") = false from rfl,
    show (("line" : String) == "sourceCodeLine") = false from rfl, show (("line" : String) == "sourceCodeFileName") = false from rfl,
    show (("line" : String) == "sourceCodeFunctionName") = false from rfl, show (("column" : String) == "sourceCodeLine") = false from rfl,
    show (("column" : String) == "sourceCodeFileName") = false from rfl, show (("column" : String) == "line") = false from rfl,
    show (("column" : String) == "sourceCodeFunctionName") = false from rfl, show (("sourceCode" : String) == "sourceCodeLine") = false from rfl,
    show (("sourceCode" : String) == "sourceCodeFileName") = false from rfl, show (("sourceCode" : String) == "line") = false from rfl,
    show (("sourceCode" : String) == "sourceCodeFunctionName") = false from rfl, show (("sourceCode" : String) == "column") = false from rfl,
    beq_self_eq_true, JVal.toStr, JVal.toNum, Option.bind_eq_bind, Option.bind_some, Nat.mod_eq_of_lt h1, Nat.mod_eq_of_lt h2]
  rfl

/-- C88, JSON: an object is read iff it has the two texts and the two numbers, which wrap around at 32 bits, and no `sourceCode` that is no
text. -/
theorem C88_json_read (j : List (String × JVal)) (i : Info) : fromJson j = some i ↔
    j.lookup "sourceCodeLine" = some (.str i.line) ∧ j.lookup "sourceCodeFileName" = some (.str i.file) ∧
    (j.lookup "sourceCode" = some (.str i.function) ∨ (j.lookup "sourceCode" = none ∧ i.function = [])) ∧
    (∃ n, j.lookup "line" = some (.num n) ∧ i.lineNo = n % 2 ^ 32) ∧ (∃ n, j.lookup "column" = some (.num n) ∧ i.column = n % 2 ^ 32) := by
  obtain ⟨i1, i2, i3, i4, i5⟩ := i
  unfold fromJson
  rcases j.lookup "sourceCodeLine" with _ | _ | _
  · simp
  · rcases j.lookup "sourceCodeFileName" with _ | _ | _
    · simp
    · rcases j.lookup "line" with _ | _ | _
      · rcases j.lookup "sourceCode" with _ | _ | _ <;> simp [JVal.toStr]
      · rcases j.lookup "sourceCode" with _ | _ | _ <;> simp [JVal.toStr, JVal.toNum]
      · rcases j.lookup "column" with _ | _ | _
        · rcases j.lookup "sourceCode" with _ | _ | _ <;> simp [JVal.toStr, JVal.toNum]
        · rcases j.lookup "sourceCode" with _ | _ | _ <;> simp [JVal.toStr, JVal.toNum]
        · rcases j.lookup "sourceCode" with _ | _ | _ <;> simp [JVal.toStr, JVal.toNum, eq_comm]
          all_goals (constructor <;> (rintro ⟨h1, h2, h3, h4, h5⟩; exact ⟨h1, h2, h3, h4, h5⟩))
    · simp [JVal.toStr, JVal.toNum]
  · simp [JVal.toStr, JVal.toNum]

/-- C88, JSON: by `operator==`, what is read back is what was written; but by `equivalentWith` only if the function has no name. -/
theorem C88_json_eq (i j : Info) (h1 : i.lineNo < 2 ^ 32) (h2 : i.column < 2 ^ 32) (h : fromJson (toJson i) = some j) :
    i.eq j = true ∧ (i.equivalentWith j = true ↔ i.function = []) := by
  rw [C88_json i h1 h2] at h
  cases h
  refine ⟨by simp [Info.eq], ?_⟩
  unfold Info.equivalentWith
  simp only [bne_self_eq_false, Bool.false_or, Bool.or_false]
  constructor
  · intro h
    split at h
    · cases h
    · rename_i hn
      simpa using hn
  · intro h
    rw [h]
    simp only [bne_self_eq_false, Bool.false_eq_true, if_false]
    exact List.isSuffixOf_iff_suffix.2 (List.drop_suffix _ _)

/-- C88: `operator==` is an equivalence relation that ignores the function. -/
theorem C88_eq (a b : Info) : a.eq b = true ↔ { a with function := b.function } = b := by
  obtain ⟨a1, a2, a3, a4, a5⟩ := a
  obtain ⟨b1, b2, b3, b4, b5⟩ := b
  simp only [Info.eq, Bool.and_eq_true, beq_iff_eq, Info.mk.injEq, true_and]
  constructor
  · rintro ⟨⟨⟨h1, h2⟩, h3⟩, h4⟩; exact ⟨h3, h4, h1, h2⟩
  · rintro ⟨h3, h4, h1, h2⟩; exact ⟨⟨⟨h1, h2⟩, h3⟩, h4⟩

/-! Equivalence -/

theorem C88.findLastOf_spec (s : Str) :
    (findLastOf '/' s = none ↔ '/' ∉ s) ∧ ∀ n, findLastOf '/' s = some n → s[n]? = some '/' ∧ '/' ∉ s.drop (n + 1) := by
  induction s with
  | nil => simp [findLastOf]
  | cons x s ih =>
    obtain ⟨h1, h2⟩ := ih
    unfold findLastOf
    cases hf : findLastOf '/' s with
    | some n =>
      have hm : '/' ∈ s := by
        refine Decidable.not_not.1 fun h => ?_
        rw [h1.2 h] at hf; cases hf
      refine ⟨⟨nofun, fun h => absurd (List.mem_cons_of_mem _ hm) h⟩, ?_⟩
      intro m e
      cases e
      simpa using h2 n hf
    | none =>
      have hm := h1.1 hf
      simp only
      by_cases hx : x = '/'
      · rw [if_pos hx]
        refine ⟨⟨nofun, fun h => absurd (hx ▸ List.mem_cons_self ..) h⟩, ?_⟩
        intro m e
        cases e
        exact ⟨by rw [hx]; rfl, hm⟩
      · rw [if_neg hx]
        refine ⟨⟨fun _ => ?_, fun _ => rfl⟩, nofun⟩
        rw [List.mem_cons, not_or]
        exact ⟨Ne.symm hx, hm⟩

theorem C88.split_unique : ∀ {d d' s s' : Str}, '/' ∉ s → '/' ∉ s' → d ++ '/' :: s = d' ++ '/' :: s' → s = s' := by
  intro d
  induction d with
  | nil =>
    intro d' s s' h h' e
    cases d' with
    | nil => simpa using e
    | cons x d' =>
      simp only [List.nil_append, List.cons_append, List.cons.injEq] at e
      rw [e.2] at h
      exact absurd (List.mem_append_right _ (List.mem_cons_self ..)) h
  | cons x d ih =>
    intro d' s s' h h' e
    cases d' with
    | nil =>
      simp only [List.nil_append, List.cons_append, List.cons.injEq] at e
      rw [← e.2] at h'
      exact absurd (List.mem_append_right _ (List.mem_cons_self ..)) h'
    | cons y d' =>
      simp only [List.cons_append, List.cons.injEq] at e
      exact ih h h' e.2

/-- C88, equivalence: all but the file is the same, and the other file name ends in the last component of this file name, or, if this file
name has no separator, in what is behind its first character. -/
theorem C88_equivalent (a b : Info) : a.equivalentWith b = true ↔
    a.lineNo = b.lineNo ∧ a.column = b.column ∧ a.line = b.line ∧ a.function = b.function ∧
    ((∃ d base, a.file = d ++ '/' :: base ∧ '/' ∉ base ∧ base <:+ b.file) ∨ ('/' ∉ a.file ∧ a.file.tail <:+ b.file)) := by
  have key : (a.file.drop ((findLastOf '/' a.file).getD 0 + 1)).isSuffixOf b.file = true ↔
      ((∃ d base, a.file = d ++ '/' :: base ∧ '/' ∉ base ∧ base <:+ b.file) ∨ ('/' ∉ a.file ∧ a.file.tail <:+ b.file)) := by
    rw [List.isSuffixOf_iff_suffix]
    obtain ⟨h1, h2⟩ := C88.findLastOf_spec a.file
    cases hf : findLastOf '/' a.file with
    | none =>
      have hm := h1.1 hf
      simp only [Option.getD_none, Nat.zero_add, List.drop_one]
      constructor
      · exact fun h => .inr ⟨hm, h⟩
      · rintro (⟨d, base, e, _⟩ | ⟨_, h⟩)
        · rw [e] at hm; exact absurd (List.mem_append_right _ (List.mem_cons_self ..)) hm
        · exact h
    | some n =>
      obtain ⟨k1, k2⟩ := h2 n hf
      obtain ⟨hn, he⟩ := List.getElem?_eq_some_iff.1 k1
      have e : a.file = a.file.take n ++ '/' :: a.file.drop (n + 1) := by
        rw [← he, List.getElem_cons_drop hn, List.take_append_drop]
      simp only [Option.getD_some]
      constructor
      · exact fun h => .inl ⟨_, _, e, k2, h⟩
      · rintro (⟨d, base, e', hb, h⟩ | ⟨h, _⟩)
        · rw [e] at e'
          rw [C88.split_unique k2 hb e']; exact h
        · rw [h1.2 h] at hf; cases hf
  unfold Info.equivalentWith
  split
  · rename_i h
    simp only [Bool.or_eq_true, bne_iff_ne] at h
    refine ⟨nofun, ?_⟩
    rintro ⟨e1, e2, e3, e4, _⟩
    rcases h with ((h | h) | h) | h
    · exact absurd e1 h
    · exact absurd e2 h
    · exact absurd e3 h
    · exact absurd e4 h
  · rename_i h
    simp only [Bool.or_eq_true, bne_iff_ne, not_or, Decidable.not_not] at h
    rw [key]
    obtain ⟨⟨⟨e1, e2⟩, e3⟩, e4⟩ := h
    exact ⟨fun h => ⟨e1, e2, e3, e4, h⟩, fun h => h.2.2.2.2⟩

/-- C88, equivalence, in part: places that agree but for the directory of the file are equivalent; and equivalent places whose files have
last components of the same length agree so, if this file name has a separator.  Missing: that equivalent places agree so in general,
which is false (`C88_equivalent_false`). -/
theorem C88_equivalent_partial {a b : Info} {x y : Str} (hx : C88.Base a.file x) (hy : C88.Base b.file y) :
    (a.lineNo = b.lineNo → a.column = b.column → a.line = b.line → a.function = b.function → x = y → a.equivalentWith b = true) ∧
    (a.equivalentWith b = true → '/' ∈ a.file → x.length = y.length → x = y) := by
  constructor
  · rintro h1 h2 h3 h4 rfl
    refine (C88_equivalent a b).2 ⟨h1, h2, h3, h4, ?_⟩
    have hb : x <:+ b.file := by
      rcases hy.2 with e | ⟨d, e⟩
      · rw [e]; exact List.suffix_refl _
      · rw [e]; exact ⟨d ++ ['/'], by simp⟩
    rcases hx.2 with e | ⟨d, e⟩
    · exact .inr ⟨e ▸ hx.1, e ▸ (List.tail_suffix _).trans hb⟩
    · exact .inl ⟨d, x, e, hx.1, hb⟩
  · intro h hm hl
    obtain ⟨_, _, _, _, h | ⟨h, _⟩⟩ := (C88_equivalent a b).1 h
    · obtain ⟨d, base, e, hb, hs⟩ := h
      have : base = x := by
        rcases hx.2 with e' | ⟨d', e'⟩
        · rw [e'] at hm; exact absurd hm hx.1
        · exact C88.split_unique hb hx.1 (e.symm.trans e')
      subst this
      have hy' : y <:+ b.file := by
        rcases hy.2 with e | ⟨d, e⟩
        · rw [e]; exact List.suffix_refl _
        · rw [e]; exact ⟨d ++ ['/'], by simp⟩
      exact (List.suffix_of_suffix_length_le hs hy' (Nat.le_of_eq hl)).eq_of_length hl
    · exact absurd hm h

/-! ## Examples and findings -/

/-- A module `main.c`, a function of `a.h`, a location in it. -/
def C88.exMod : Mod := ⟨"main.c".toList, "main.ll".toList⟩
def C88.exFile : DIFile := ⟨"a.h".toList, "/src".toList⟩
def C88.exLoc : DILoc := ⟨2, 7, some C88.exFile⟩
def C88.exFn : Fn := ⟨"f".toList, C88.exMod, some ⟨1, some C88.exFile⟩⟩
def C88.exDecl : DbgIntr := ⟨.declare, ⟨"x".toList, some C88.exFile⟩, some C88.exLoc⟩
def C88.exFs (p : Str) : Option Str :=
  if p = "/src/a.h".toList then some "int f(int x) {\n  return x;\n}\n".toList
  else if p = "main.c".toList then some "#include \"a.h\"\nint main() { return f(1); }".toList
  else none

/-- An argument is described by the `dbg.declare` of its stack slot, which gives its name, location and file. -/
example : C88.Describes (.arg C88.exFn none [.other, .store true (some (some [none, some C88.exDecl]))]) C88.exDecl ∧
    getVarName (.arg C88.exFn none [.other, .store true (some (some [none, some C88.exDecl]))]) = "x".toList ∧
    getDebugLocation (.arg C88.exFn none [.other, .store true (some (some [none, some C88.exDecl]))]) = some C88.exLoc := by
  have h : C88.Describes (.arg C88.exFn none [.other, .store true (some (some [none, some C88.exDecl]))]) C88.exDecl :=
    (C88_intrinsic _ _).1 (by decide)
  exact ⟨h, (C88_name _ _).2 (.inl ⟨_, h, by decide, rfl⟩), (C88_location _ _).2 (.inl ⟨_, h, rfl⟩)⟩

/-- The hypotheses of `C88_file_partial` and `C88_source`: an instruction at `a.h:2`. -/
example : getDIFile (.inst C88.exFn none (some C88.exLoc)) = some C88.exFile ∧
    getSrcCode C88.exFs (.inst C88.exFn none (some C88.exLoc)) true = "return x;".toList := by
  refine ⟨((C88_file_partial (.inst C88.exFn none (some C88.exLoc))).1 nofun nofun (fun d h => ?_) nofun).trans rfl, ?_⟩
  · have := (C88_intrinsic _ _).2 h; cases this
  · rw [((C88_source C88.exFs _).1 1 ["int f(int x) {".toList, "  return x;".toList, "}".toList, []] rfl (by decide +kernel) (by decide)).2]
    decide

example : filePath C88.exFile = "/src/a.h".toList := (C88_path C88.exFile).2.2.2.2 'a' ".h".toList "/sr".toList 'c' rfl (by decide) rfl (by decide)

example : fromJson (toJson ⟨"x".toList, "a.c".toList, "main".toList, 3, 4⟩) = some ⟨"x".toList, "a.c".toList, [], 3, 4⟩ :=
  C88_json _ (by decide) (by decide)

example : Info.equivalentWith ⟨[], "/a/x.c".toList, [], 1, 1⟩ ⟨[], "/b/x.c".toList, [], 1, 1⟩ = true :=
  (C88_equivalent_partial (x := "x.c".toList) (y := "x.c".toList) ⟨by decide, .inr ⟨"/a".toList, rfl⟩⟩ ⟨by decide, .inr ⟨"/b".toList, rfl⟩⟩).1
    rfl rfl rfl rfl rfl

/-- C88, finding: an instruction used by metadata that is no debug intrinsic has a location (`a.h:2`) but no file; the path is then that of
the module and the source line is taken from another file (LLVMIRToSrc.cpp:182-190). -/
theorem C88_file_false : ∃ v l, getDebugLocation v = some l ∧ l.file = some C88.exFile ∧ getDIFile v = none ∧
    getFilePath v = "main.c".toList ∧ getSrcCode C88.exFs v true = "int main() { return f(1); }".toList :=
  ⟨.inst C88.exFn (some [none]) (some C88.exLoc), C88.exLoc, by decide, rfl, by decide, by decide, by decide +kernel⟩

/-- C88, finding: the name of the function does not survive JSON: `sourceCodeFunctionName` is written and `sourceCode` is read
(LLVMIRToSrc.cpp:310, 320). -/
theorem C88_json_false : ∃ i j, fromJson (toJson i) = some j ∧ i.function ≠ j.function ∧ i.equivalentWith j = false :=
  ⟨⟨"x".toList, "a.c".toList, "main".toList, 3, 4⟩, ⟨"x".toList, "a.c".toList, [], 3, 4⟩, C88_json _ (by decide) (by decide), by decide,
    by decide⟩

/-- C88, finding: `equivalentWith` is not symmetric, and files with different names are equivalent: `x.c` to `yx.c`, and, without a
separator, `main.c` to `rain.c`, because the first character is skipped (LLVMIRToSrc.cpp:295-304). -/
theorem C88_equivalent_false :
    (∃ (a b : Info) (x y : Str), C88.Base a.file x ∧ C88.Base b.file y ∧ x ≠ y ∧ a.equivalentWith b = true ∧ b.equivalentWith a = false) ∧
    (∃ (a b : Info) (x y : Str), C88.Base a.file x ∧ C88.Base b.file y ∧ x ≠ y ∧ x.length = y.length ∧ a.equivalentWith b = true) :=
  ⟨⟨⟨[], "/a/x.c".toList, [], 1, 1⟩, ⟨[], "/a/yx.c".toList, [], 1, 1⟩, "x.c".toList, "yx.c".toList, ⟨by decide, .inr ⟨"/a".toList, rfl⟩⟩,
    ⟨by decide, .inr ⟨"/a".toList, rfl⟩⟩, by decide, by decide, by decide⟩,
   ⟨⟨[], "main.c".toList, [], 1, 1⟩, ⟨[], "rain.c".toList, [], 1, 1⟩, "main.c".toList, "rain.c".toList, ⟨by decide, .inl rfl⟩,
    ⟨by decide, .inl rfl⟩, by decide, rfl, by decide⟩⟩

end Phasar.IRToSrc
