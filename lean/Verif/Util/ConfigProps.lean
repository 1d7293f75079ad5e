import Verif.Util.Config
/-!
# The configuration files: properties (C94)
-/
namespace Phasar.Config

/-- Specification: `l` is a line of `s` that is not empty. -/
def C94.IsLine (s l : List Char) : Prop :=
  l ≠ [] ∧ '\n' ∉ l ∧ ∃ a b, s = a ++ l ++ b ∧ (a = [] ∨ ∃ a', a = a' ++ ['\n']) ∧ (b = [] ∨ ∃ b', b = '\n' :: b')

/-- Specification: `l` holds two slashes in a row. -/
def C94.HasComment (l : List Char) : Prop := ∃ a b, l = a ++ '/' :: '/' :: b

/-- Specification: `p` is what is before the comment of the line `l`: all if there is none. -/
def C94.IsCode (l p : List Char) : Prop :=
  (p = l ∧ ¬ C94.HasComment l) ∨ ((∃ b, l = p ++ '/' :: '/' :: b) ∧ ¬ C94.HasComment (p ++ ['/']))

/-- Specification: white space, see `isSpace`. -/
def C94.Blank (l : List Char) : Prop := ∀ c ∈ l, c ∈ [' ', '\t', '\n', '\x0b', '\x0c', '\r']

/-- Specification: `x` is `p` without the white space at both ends. -/
def C94.IsTrim (p x : List Char) : Prop :=
  ∃ a b, p = a ++ x ++ b ∧ C94.Blank a ∧ C94.Blank b ∧ (∀ c y, x = c :: y → ¬ C94.Blank [c]) ∧ (∀ c y, x = y ++ [c] → ¬ C94.Blank [c])

theorem C94.space_iff (c : Char) : isSpace c = true ↔ c ∈ [' ', '\t', '\n', '\x0b', '\x0c', '\r'] := by
  simp [isSpace, or_assoc]

/-! ## Lines -/

theorem C94.takeWhile_mem {p : Char → Bool} {l : List Char} {c : Char} (h : c ∈ l.takeWhile p) : p c = true := by
  induction l with
  | nil => simp at h
  | cons d l ih =>
    rw [List.takeWhile_cons] at h
    split at h
    · rcases List.mem_cons.1 h with rfl | h
      · assumption
      · exact ih h
    · cases h

theorem C94.dropWhile_eq {p : Char → Bool} (l : List Char) : ∃ a, l = a ++ l.dropWhile p ∧ ∀ c ∈ a, p c = true :=
  ⟨l.takeWhile p, (List.takeWhile_append_dropWhile).symm, fun _ h => C94.takeWhile_mem h⟩

theorem C94.dropWhile_head {p : Char → Bool} (l : List Char) (c : Char) (y : List Char) (h : l.dropWhile p = c :: y) : p c = false := by
  induction l with
  | nil => simp at h
  | cons d l ih =>
    rw [List.dropWhile_cons] at h
    split at h
    · exact ih h
    · cases h; simp_all

theorem C94.line_skip (s l : List Char) : C94.IsLine ('\n' :: s) l ↔ C94.IsLine s l := by
  constructor
  · rintro ⟨h1, h2, a, b, h, ha, hb⟩
    cases a with
    | nil =>
      cases l with
      | nil => exact absurd rfl h1
      | cons c l => simp at h; simp [← h.1] at h2
    | cons c a =>
      simp only [List.cons_append, List.cons.injEq] at h
      refine ⟨h1, h2, a, b, h.2, ?_, hb⟩
      rcases ha with ha | ⟨a', ha⟩
      · cases ha
      · cases a' with
        | nil => simp at ha; exact Or.inl ha.2
        | cons d a' => simp at ha; exact Or.inr ⟨a', ha.2⟩
  · rintro ⟨h1, h2, a, b, h, ha, hb⟩
    refine ⟨h1, h2, '\n' :: a, b, by simp [h], Or.inr ?_, hb⟩
    rcases ha with rfl | ⟨a', rfl⟩
    · exact ⟨[], rfl⟩
    · exact ⟨'\n' :: a', rfl⟩

theorem C94.line_skips (d s l : List Char) (hd : ∀ c ∈ d, c = '\n') : C94.IsLine (d ++ s) l ↔ C94.IsLine s l := by
  induction d with
  | nil => exact Iff.rfl
  | cons c d ih =>
    rw [hd c (by simp), List.cons_append, C94.line_skip]
    exact ih fun x hx => hd x (by simp [hx])

theorem C94.line_unique {t r l b : List Char} (h : t ++ r = l ++ b) (ht : '\n' ∉ t) (hl : '\n' ∉ l)
    (hr : r = [] ∨ ∃ r', r = '\n' :: r') (hb : b = [] ∨ ∃ b', b = '\n' :: b') : l = t := by
  induction t generalizing l with
  | nil =>
    cases l with
    | nil => rfl
    | cons c l =>
      rcases hr with rfl | ⟨r', rfl⟩
      · simp at h
      · simp at h; simp [← h.1] at hl
  | cons x t ih =>
    cases l with
    | nil =>
      rcases hb with rfl | ⟨b', rfl⟩
      · simp at h
      · simp at h; simp [h.1] at ht
    | cons c l =>
      simp only [List.cons_append, List.cons.injEq] at h
      rw [ih h.2 (fun x => ht (by simp [x])) (fun x => hl (by simp [x])), h.1]

theorem C94.line_tok (t r l : List Char) (h0 : t ≠ []) (ht : '\n' ∉ t) (hr : r = [] ∨ ∃ r', r = '\n' :: r') :
    C94.IsLine (t ++ r) l ↔ l = t ∨ C94.IsLine r l := by
  constructor
  · rintro ⟨h1, h2, a, b, h, ha, hb⟩
    rcases ha with rfl | ⟨a', rfl⟩
    · exact Or.inl (C94.line_unique (by simpa using h) ht h2 hr hb)
    · right
      rw [List.append_assoc _ l b] at h
      rcases List.append_eq_append_iff.1 h with ⟨c, h3, h4⟩ | ⟨c, h3, h4⟩
      · refine ⟨h1, h2, c, b, by rw [h4]; simp, ?_, hb⟩
        rcases List.eq_nil_or_concat c with rfl | ⟨c', x, rfl⟩
        · exact Or.inl rfl
        · right
          rw [List.concat_eq_append, ← List.append_assoc] at h3
          obtain ⟨_, h5⟩ := List.append_inj' h3 rfl
          cases h5
          exact ⟨c', by simp⟩
      · exact absurd (by rw [h3]; simp) ht
  · rintro (rfl | ⟨h1, h2, a, b, h, ha, hb⟩)
    · exact ⟨h0, ht, [], r, by simp, Or.inl rfl, hr⟩
    · rcases ha with rfl | ⟨a', rfl⟩
      · cases l with
        | nil => exact absurd rfl h1
        | cons c l =>
          rcases hr with rfl | ⟨r', rfl⟩
          · simp at h
          · simp at h; simp [← h.1] at h2
      · exact ⟨h1, h2, t ++ (a' ++ ['\n']), b, by simp [h], Or.inr ⟨t ++ a', by simp⟩, hb⟩

theorem C94.split_iff (n : Nat) (s l : List Char) (hn : s.length ≤ n) : l ∈ splitString s ↔ C94.IsLine s l := by
  induction n generalizing s with
  | zero =>
    have : s = [] := List.eq_nil_of_length_eq_zero (by omega)
    subst this
    unfold splitString
    rw [dif_pos (show (getToken []).1 = [] from rfl)]
    refine ⟨fun h => (List.not_mem_nil h).elim, ?_⟩
    rintro ⟨h1, _, a, b, h, _⟩
    simp at h
    exact absurd h.2.1 h1
  | succ n ih =>
    obtain ⟨d, hd, hd1⟩ := C94.dropWhile_eq (p := (· == '\n')) s
    have hlt := getToken_lt s
    have ht := fun c y => C94.dropWhile_head (p := (· == '\n')) s c y
    have hline : C94.IsLine s l ↔ C94.IsLine (s.dropWhile (· == '\n')) l := by
      conv => lhs; rw [hd]
      exact C94.line_skips _ _ _ fun c hc => by simpa using hd1 c hc
    rw [hline]
    unfold splitString
    have e1 : (getToken s).1 = (s.dropWhile (· == '\n')).takeWhile (· != '\n') := rfl
    have e2 : (getToken s).2 = (s.dropWhile (· == '\n')).dropWhile (· != '\n') := rfl
    have hr := fun c y => C94.dropWhile_head (p := (· != '\n')) (s.dropWhile (· == '\n')) c y
    have hm : '\n' ∉ (getToken s).1 := fun x => by
      rw [e1] at x
      have := C94.takeWhile_mem x
      simp at this
    have hs : s.dropWhile (· == '\n') = (getToken s).1 ++ (getToken s).2 := by
      rw [e1, e2, List.takeWhile_append_dropWhile]
    rw [← e2] at hr
    generalize s.dropWhile (· == '\n') = s' at *
    generalize getToken s = tr at *
    obtain ⟨t, r⟩ := tr
    simp only at *
    have hr' : r = [] ∨ ∃ r', r = '\n' :: r' := by
      cases r with
      | nil => exact Or.inl rfl
      | cons c r => have := hr c r rfl; simp at this; exact Or.inr ⟨r, by rw [this]⟩
    rw [hs]
    by_cases h0 : t = []
    · subst h0
      simp only [dite_true, List.not_mem_nil, List.nil_append, false_iff]
      rcases hr' with rfl | ⟨r', rfl⟩
      · rintro ⟨h1, _, a, b, h, _⟩
        simp at h
        exact h1 h.2.1
      · have := ht '\n' r' (by rw [hs]; rfl)
        simp at this
    · rw [C94.line_tok t r l h0 hm hr']
      simp only [h0, dite_false, List.mem_cons]
      rw [ih r (by have := hlt h0; omega)]

/-! ## Comments -/

theorem C94.cut_code (l : List Char) : C94.IsCode l (cutComment l) := by
  have short : ∀ c, ¬ C94.HasComment [c] := by
    rintro c ⟨a, b, h⟩
    have := congrArg List.length h
    simp at this; omega
  induction l with
  | nil =>
    refine Or.inl ⟨rfl, ?_⟩
    rintro ⟨a, b, h⟩
    simp at h
  | cons c l ih =>
    cases l with
    | nil => exact Or.inl ⟨rfl, short c⟩
    | cons d cs =>
      unfold cutComment
      by_cases h : c = '/' ∧ d = '/'
      · rw [if_pos h, h.1, h.2]
        exact Or.inr ⟨⟨cs, rfl⟩, short '/'⟩
      · rw [if_neg h]
        rcases ih with ⟨h1, h2⟩ | ⟨⟨b, h1⟩, h2⟩
        · refine Or.inl ⟨by rw [h1], ?_⟩
          rintro ⟨a, b, h3⟩
          cases a with
          | nil => simp at h3; exact h ⟨h3.1, h3.2.1⟩
          | cons x a => simp only [List.cons_append, List.cons.injEq] at h3; exact h2 ⟨a, b, h3.2⟩
        · refine Or.inr ⟨⟨b, by rw [List.cons_append, ← h1]⟩, ?_⟩
          rintro ⟨a, b', h3⟩
          cases a with
          | nil =>
            generalize cutComment (d :: cs) = p at *
            cases p with
            | nil => simp at h1 h3; exact h ⟨h3.1, h1.1⟩
            | cons e p => simp at h1 h3; exact h ⟨h3.1, h1.1.trans h3.2.1⟩
          | cons x a => simp only [List.cons_append, List.cons.injEq] at h3; exact h2 ⟨a, b', h3.2⟩

theorem C94.code_lt {p q b b' : List Char} (h : p ++ '/' :: '/' :: b = q ++ '/' :: '/' :: b') (hq : ¬ C94.HasComment (q ++ ['/']))
    (c : List Char) (hc : q = p ++ c) : p = q := by
  subst hc
  rw [List.append_assoc, List.append_cancel_left_eq] at h
  cases c with
  | nil => simp
  | cons x c =>
    cases c with
    | nil => simp at h; exact absurd ⟨p, [], by simp [← h.1]⟩ hq
    | cons y c => simp at h; exact absurd ⟨p, c ++ ['/'], by simp [← h.1, ← h.2.1]⟩ hq

theorem C94.code_iff (l p : List Char) : C94.IsCode l p ↔ p = cutComment l := by
  constructor
  · intro h
    have hc := C94.cut_code l
    generalize cutComment l = q at *
    rcases h with ⟨h1, h2⟩ | ⟨⟨b, h1⟩, h2⟩ <;> rcases hc with ⟨h3, h4⟩ | ⟨⟨b', h3⟩, h4⟩
    · rw [h1, h3]
    · exact absurd ⟨q, b', h3⟩ h2
    · exact absurd ⟨p, b, h1⟩ h4
    · have h5 := h1.symm.trans h3
      rcases List.append_eq_append_iff.1 h5 with ⟨c, h6, _⟩ | ⟨c, h6, _⟩
      · exact C94.code_lt h5 h4 c h6
      · exact (C94.code_lt h5.symm h2 c h6).symm
  · rintro rfl; exact C94.cut_code l

/-! ## White space -/

theorem C94.blank_iff (l : List Char) : C94.Blank l ↔ ∀ c ∈ l, isSpace c = true :=
  ⟨fun h c hc => (C94.space_iff c).2 (h c hc), fun h c hc => (C94.space_iff c).1 (h c hc)⟩

theorem C94.blank_one (c : Char) : C94.Blank [c] ↔ isSpace c = true := by
  rw [C94.blank_iff]; simp

theorem C94.drop_blank {a l : List Char} (ha : C94.Blank a) : (a ++ l).dropWhile isSpace = l.dropWhile isSpace :=
  List.dropWhile_append_of_pos ((C94.blank_iff a).1 ha)

theorem C94.trim_iff (p x : List Char) : C94.IsTrim p x ↔ x = trim p := by
  constructor
  · rintro ⟨a, b, rfl, ha, hb, h1, h2⟩
    have hb' : C94.Blank b.reverse := fun c hc => hb c (by simpa using hc)
    unfold trim
    rw [List.append_assoc, C94.drop_blank ha]
    cases x with
    | nil =>
      have h3 : b.dropWhile isSpace = [] := by
        have := C94.drop_blank (l := []) hb
        simpa using this
      simp [h3]
    | cons c y =>
      have h3 : isSpace c = false := by
        cases hs : isSpace c with
        | false => rfl
        | true => exact absurd ((C94.blank_one c).2 hs) (h1 c y rfl)
      have h4 : (c :: y ++ b).dropWhile isSpace = c :: y ++ b := by
        rw [List.cons_append, List.dropWhile_cons, h3]; simp
      rw [h4, List.reverse_append, C94.drop_blank hb']
      rcases List.eq_nil_or_concat (c :: y) with h5 | ⟨y', e, h5⟩
      · cases h5
      · rw [List.concat_eq_append] at h5
        have h6 : isSpace e = false := by
          cases hs : isSpace e with
          | false => rfl
          | true => exact absurd ((C94.blank_one e).2 hs) (h2 e y' h5)
        rw [h5, List.reverse_append]
        simp [h6]
  · rintro rfl
    obtain ⟨a, ha, ha1⟩ := C94.dropWhile_eq (p := isSpace) p
    obtain ⟨b, hb, hb1⟩ := C94.dropWhile_eq (p := isSpace) (p.dropWhile isSpace).reverse
    have hm : p.dropWhile isSpace = trim p ++ b.reverse := by
      have := congrArg List.reverse hb
      simpa [trim] using this
    refine ⟨a, b.reverse, ?_, (C94.blank_iff _).2 ha1, (C94.blank_iff _).2 fun c hc => hb1 c (by simpa using hc), ?_, ?_⟩
    · rw [List.append_assoc, ← hm]; exact ha
    · intro c y hx hs
      have h1 := C94.dropWhile_head (p := isSpace) p c (y ++ b.reverse) (by rw [hm, hx]; rfl)
      rw [(C94.blank_one c).1 hs] at h1; cases h1
    · intro c y hx hs
      have h1 := C94.dropWhile_head (p := isSpace) (p.dropWhile isSpace).reverse c y.reverse (by
        have := congrArg List.reverse hx
        simpa [trim] using this)
      rw [(C94.blank_one c).1 hs] at h1; cases h1

/-! ## Properties -/

/-- **C94.** The names read from a file are, for each line that is not empty, what is before the first `//`, without the white space at
both ends. -/
theorem C94_parse (text x : List Char) :
    x ∈ parse text ↔ ∃ l p, C94.IsLine text l ∧ C94.IsCode l p ∧ C94.IsTrim p x := by
  unfold parse
  rw [List.mem_map]
  constructor
  · rintro ⟨l, hl, rfl⟩
    exact ⟨l, cutComment l, (C94.split_iff _ text l (Nat.le_refl _)).1 hl, (C94.code_iff _ _).2 rfl, (C94.trim_iff _ _).2 rfl⟩
  · rintro ⟨l, p, hl, hp, hx⟩
    rw [C94.code_iff] at hp
    rw [C94.trim_iff] at hx
    exact ⟨l, (C94.split_iff _ text l (Nat.le_refl _)).2 hl, by rw [hx, hp]⟩

/-- **C94.** The empty name is among the names of a file iff some line has only white space, or only white space before a comment. -/
theorem C94_empty (text : List Char) :
    [] ∈ parse text ↔ ∃ l p, C94.IsLine text l ∧ C94.IsCode l p ∧ C94.Blank p := by
  rw [C94_parse]
  constructor
  · rintro ⟨l, p, hl, hp, a, b, h, ha, hb, _⟩
    refine ⟨l, p, hl, hp, fun c hc => ?_⟩
    rw [h] at hc
    rcases (by simpa using hc : c ∈ a ∨ c ∈ b) with h1 | h1
    · exact ha c h1
    · exact hb c h1
  · rintro ⟨l, p, hl, hp, hb⟩
    exact ⟨l, p, hl, hp, p, [], by simp, hb, (fun c hc => by cases hc), by simp, by simp⟩

/-- **C94.** False: that only names of functions are read: a line with a comment gives the empty name. -/
theorem C94_empty_false : [] ∈ parse "puts\n// output\ngets // input\n".toList := by
  refine (C94_empty _).2 ⟨"// output".toList, [], ⟨by decide, by decide, "puts\n".toList, "\ngets // input\n".toList, by decide,
    Or.inr ⟨"puts".toList, by decide⟩, Or.inr ⟨"gets // input\n".toList, by decide⟩⟩, Or.inr ⟨⟨" output".toList, by decide⟩, ?_⟩,
    fun c hc => by cases hc⟩
  rintro ⟨a, b, h⟩
  have := congrArg List.length h
  simp at this; omega

/-- **C94.** False: that a line that lists a function makes it special: line 2 of `config/glibc_function_list_v1-04.05.17.conf` gives the
name `*sbrk`, which no function has, and not `sbrk`.  (Lines 1 and 3, for `pthread_getspecific` and `sem_open`, are alike.) -/
theorem C94_star_false :
    parse "*sbrk   //input is the new address for programm break. first position after data segment. returns 0 or 1".toList =
      ["*sbrk".toList] := by
  unfold parse splitString
  rw [dif_neg (by decide +kernel)]
  unfold splitString
  rw [dif_pos (by decide +kernel)]
  decide +kernel

/-- **C94.** A name is special iff it is an allocation operator of C++, or comes from one of the two files: from the file in the local
directory, if there is one, else from that in the global directory; if that cannot be read, the name is the default. -/
theorem C94_names (fs : FS) (localDir : Option String) (globalDir : String) (x : List Char) :
    x ∈ specialNames fs localDir globalDir ↔
      x ∈ ["_Znwm".toList, "_Znam".toList, "_ZdlPv".toList, "_ZdaPv".toList] ∨
      ∃ file dflt, (file, dflt) ∈ [("glibc_function_list_v1-04.05.17.conf", "_exit"),
          ("llvm_intrinsics_function_list_v1-04.05.17.conf", "llvm.va_start")] ∧
        ∃ path, ((∃ d, localDir = some d ∧ fs.exist (d ++ file) = true ∧ path = d ++ file) ∨
            ((∀ d, localDir = some d → fs.exist (d ++ file) = false) ∧ path = globalDir ++ file)) ∧
          ((fs.read path = none ∧ x = dflt.toList) ∨
            ∃ t l p, fs.read path = some t ∧ C94.IsLine t l ∧ C94.IsCode l p ∧ C94.IsTrim p x) := by
  have key : ∀ (file dflt : String), x ∈ load fs localDir globalDir file dflt.toList ↔
      ∃ path, ((∃ d, localDir = some d ∧ fs.exist (d ++ file) = true ∧ path = d ++ file) ∨
            ((∀ d, localDir = some d → fs.exist (d ++ file) = false) ∧ path = globalDir ++ file)) ∧
          ((fs.read path = none ∧ x = dflt.toList) ∨
            ∃ t l p, fs.read path = some t ∧ C94.IsLine t l ∧ C94.IsCode l p ∧ C94.IsTrim p x) := by
    intro file dflt
    have one : ∀ path, (x ∈ (match fs.read path with | some t => parse t | none => [dflt.toList])) ↔
        ((fs.read path = none ∧ x = dflt.toList) ∨
            ∃ t l p, fs.read path = some t ∧ C94.IsLine t l ∧ C94.IsCode l p ∧ C94.IsTrim p x) := by
      intro path
      cases fs.read path with
      | none => simp
      | some t => simp [C94_parse]
    unfold load readConfigFile
    cases localDir with
    | none =>
      refine (one (globalDir ++ file)).trans ⟨fun h => ⟨_, Or.inr ⟨by simp, rfl⟩, h⟩, ?_⟩
      rintro ⟨path, ⟨d, h, _⟩ | ⟨_, rfl⟩, h1⟩
      · cases h
      · exact h1
    | some d =>
      cases he : fs.exist (d ++ file) with
      | true =>
        simp only [he, if_true]
        refine (one (d ++ file)).trans ⟨fun h => ⟨_, Or.inl ⟨d, rfl, he, rfl⟩, h⟩, ?_⟩
        rintro ⟨path, ⟨d', h, _, rfl⟩ | ⟨h, _⟩, h1⟩
        · cases h; exact h1
        · have := h d rfl; rw [he] at this; cases this
      | false =>
        simp only [he, Bool.false_eq_true, if_false]
        refine (one (globalDir ++ file)).trans ⟨fun h => ⟨_, Or.inr ⟨fun d' h' => by cases h'; exact he, rfl⟩, h⟩, ?_⟩
        rintro ⟨path, ⟨d', h, h2, _⟩ | ⟨_, rfl⟩, h1⟩
        · cases h; rw [he] at h2; cases h2
        · exact h1
  unfold specialNames
  rw [List.mem_append, List.mem_append, key, key, or_comm]
  refine or_congr Iff.rfl ?_
  constructor
  · rintro (h | h)
    · exact ⟨_, _, by simp [glibcFile], h⟩
    · exact ⟨_, _, List.mem_cons_of_mem _ (List.mem_cons_self ..), h⟩
  · rintro ⟨file, dflt, hm, h⟩
    simp only [List.mem_cons, List.not_mem_nil, or_false, Prod.mk.injEq] at hm
    rcases hm with ⟨rfl, rfl⟩ | ⟨rfl, rfl⟩
    · exact Or.inl h
    · exact Or.inr h

/-- Two names, a blank line, a line that is not blank but for a comment. -/
example : "gets".toList ∈ parse "puts\n\n\tgets // input\n".toList := by
  refine (C94_parse _ _).2 ⟨"\tgets // input".toList, "\tgets ".toList, ⟨by decide, by decide, "puts\n\n".toList, "\n".toList, by decide,
    Or.inr ⟨"puts\n".toList, by decide⟩, Or.inr ⟨[], by decide⟩⟩, (C94.code_iff _ _).2 (by decide), (C94.trim_iff _ _).2 (by decide)⟩

/-- The local directory has a list for the C library only; the other list is nowhere. -/
def C94.fs : FS where
  exist p := p == "/h/glibc_function_list_v1-04.05.17.conf"
  read p := if p == "/h/glibc_function_list_v1-04.05.17.conf" then some "puts\n".toList else none

example : "puts".toList ∈ specialNames C94.fs (some "/h/") "/g/" ∧ "llvm.va_start".toList ∈ specialNames C94.fs (some "/h/") "/g/" ∧
    "_exit".toList ∉ specialNames C94.fs (some "/h/") "/g/" := by
  have h : parse "puts\n".toList = ["puts".toList] := by
    unfold parse splitString; rw [dif_neg (by decide)]; unfold splitString; rw [dif_pos (by decide)]; decide
  have e : specialNames C94.fs (some "/h/") "/g/" = parse "puts\n".toList ++ ["llvm.va_start".toList] ++
      ["_Znwm".toList, "_Znam".toList, "_ZdlPv".toList, "_ZdaPv".toList] := by rfl
  rw [e, h]
  decide

end Phasar.Config
