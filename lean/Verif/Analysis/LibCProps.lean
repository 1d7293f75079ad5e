import Verif.Analysis.LibSummaryProps
import Verif.Analysis.LibCTable
/-!
# The summary of the C library: properties (C92)
-/
namespace Phasar.LibSummary
open Phasar

theorem C92.added_adds {K : Type} (l : List (K × Nat × Fact)) :
    added (l.map fun r => Op.add r.1 r.2.1 r.2.2) = l.map fun r => r.2.2 := by
  induction l with
  | nil => rfl
  | cons a l ih => simpa [added] using ih

theorem C92.told_adds {K : Type} [DecidableEq K] (l : List (K × Nat × Fact)) (f : K) (i : Nat) :
    told (l.map fun r => Op.add r.1 r.2.1 r.2.2) f i =
      (match l.filter (fun r => decide (r.1 = f ∧ r.2.1 = i)) with
        | [] => none
        | r => some (r.map fun r => r.2.2)) := by
  have h : (l.map fun r => Op.add r.1 r.2.1 r.2.2).filter (Op.about f i) =
      (l.filter fun r => decide (r.1 = f ∧ r.2.1 = i)).map fun r => Op.add r.1 r.2.1 r.2.2 := by
    rw [List.filter_map]; rfl
  unfold told
  rw [h]
  cases l.filter (fun r => decide (r.1 = f ∧ r.2.1 = i)) with
  | nil => rfl
  | cons a r => simp [C92.added_adds]

/-- **C92.** The summary of the C library holds a fact for a parameter of a function iff `createLibCSummary` adds it: no entry hides
another. -/
theorem C92_libc (f : String) (i : Nat) (x : Fact) :
    (∃ s, (getFactsForFunction libc f).get i = some s ∧ x ∈ s) ↔ (f, i, x) ∈ calls := by
  have h : (getFactsForFunction libc f).get i = told (calls.map fun r => Op.add r.1 r.2.1 r.2.2) f i := by
    rw [← C92_facts]
    show (((run _).get f).getD []).get i = _
    cases (run (calls.map fun r => Op.add r.1 r.2.1 r.2.2)).get f <;> simp
  rw [h, C92.told_adds]
  have hm : ∀ r, r ∈ calls.filter (fun r => decide (r.1 = f ∧ r.2.1 = i)) ↔ r ∈ calls ∧ r.1 = f ∧ r.2.1 = i := by
    intro r; simp [List.mem_filter]
  generalize calls.filter (fun r => decide (r.1 = f ∧ r.2.1 = i)) = l at hm
  cases l with
  | nil =>
    constructor
    · rintro ⟨s, hs, _⟩; cases hs
    · intro hc
      have := (hm (f, i, x)).2 ⟨hc, rfl, rfl⟩
      cases this
  | cons a l =>
    constructor
    · rintro ⟨s, hs, hx⟩
      cases hs
      obtain ⟨r, hr, rfl⟩ := List.mem_map.1 hx
      obtain ⟨h1, rfl, rfl⟩ := (hm r).1 hr
      exact h1
    · intro hc
      exact ⟨_, rfl, List.mem_map.2 ⟨(f, i, x), (hm _).2 ⟨hc, rfl, rfl⟩, rfl⟩⟩

example : ("strcpy", 1, Fact.param 0) ∈ calls := by decide +kernel

/-- **C92.** A function is known to the summary of the C library iff it has an entry. -/
theorem C92_libc_known (f : String) : contains libc f = true ↔ ∃ i x, (f, i, x) ∈ calls := by
  rw [libc, C92_known]
  constructor
  · rintro ⟨o, ho, h⟩
    obtain ⟨r, hr, rfl⟩ := List.mem_map.1 ho
    cases h
    exact ⟨r.2.1, r.2.2, hr⟩
  · rintro ⟨i, x, h⟩
    exact ⟨_, List.mem_map.2 ⟨_, h, rfl⟩, rfl⟩

/-- **C92.** False: that `getDataFlowFacts` of the summary of the C library is defined.  `strcpy` is known, but nothing is said about a
parameter 2, nor about the parameter 2 of `memcpy`, which exists. -/
theorem C92_get_false :
    (∃ x, ("strcpy", 1, x) ∈ calls) ∧ getDataFlowFacts libc "strcpy" 2 = none ∧ getDataFlowFacts libc "memcpy" 2 = none := by
  refine ⟨⟨.param 0, by decide +kernel⟩, ?_, ?_⟩
  · rw [libc, (C92_get _ _ _).2 ((C92_known _ _).1 ((C92_libc_known "strcpy").2 ⟨1, .param 0, by decide +kernel⟩)), C92.told_adds]
    have : calls.filter (fun r => decide (r.1 = "strcpy" ∧ r.2.1 = 2)) = [] := by decide +kernel
    rw [this]
  · rw [libc, (C92_get _ _ _).2 ((C92_known _ _).1 ((C92_libc_known "memcpy").2 ⟨1, .param 0, by decide +kernel⟩)), C92.told_adds]
    have : calls.filter (fun r => decide (r.1 = "memcpy" ∧ r.2.1 = 2)) = [] := by decide +kernel
    rw [this]

/-- **C92.** The entries that say nothing (a parameter flows to itself) are exactly these. -/
theorem C92_libc_noop (f : String) (i : Nat) : (f, i, Fact.param i) ∈ calls ↔ (f, i) ∈
    [("argz_replace", 0), ("fstat64", 0), ("getpeername", 0), ("hasmntopt", 0), ("lsearch", 0), ("mount", 0),
    ("pread", 0), ("pread64", 0), ("realpath", 0), ("scandir", 0), ("sem_getvalue", 0), ("snprintf", 1),
    ("swapcontext", 0), ("truncate", 0), ("wcstoimax", 0)] := by
  have h : (calls.filter fun r => decide (r.2.2 = Fact.param r.2.1)).map (fun r => (r.1, r.2.1)) =
      [("argz_replace", 0), ("fstat64", 0), ("getpeername", 0), ("hasmntopt", 0), ("lsearch", 0), ("mount", 0),
      ("pread", 0), ("pread64", 0), ("realpath", 0), ("scandir", 0), ("sem_getvalue", 0), ("snprintf", 1),
      ("swapcontext", 0), ("truncate", 0), ("wcstoimax", 0)] := by
    decide +kernel
  have h1 : (f, i, Fact.param i) ∈ calls ↔
      (f, i) ∈ (calls.filter fun r => decide (r.2.2 = Fact.param r.2.1)).map (fun r => (r.1, r.2.1)) := by
    simp only [List.mem_map, List.mem_filter, decide_eq_true_eq]
    constructor
    · intro h; exact ⟨_, ⟨h, rfl⟩, rfl⟩
    · rintro ⟨⟨a, b, c⟩, ⟨h1, h2⟩, h3⟩
      obtain ⟨rfl, rfl⟩ := Prod.mk.inj h3
      have h4 : c = Fact.param b := h2
      rw [← h4]; exact h1
  rw [h1, h]

/-! ## Variants for `float` and `long double` -/

/-- The mathematical functions of the table with their variants for `float` and `long double` that agree. -/
def C92.agree : List (String × String × String) := [
  ("acos", "acosf", "acosl"), ("acosh", "acoshf", "acoshl"), ("asin", "asinf", "asinl"), ("asinh", "asinhf", "asinhl"),
  ("atan", "atanf", "atanl"), ("atan2", "atan2f", "atan2l"), ("atanh", "atanhf", "atanhl"), ("cbrt", "cbrtf", "cbrtl"),
  ("ceil", "ceilf", "ceill"), ("cos", "cosf", "cosl"), ("cosh", "coshf", "coshl"), ("erf", "erff", "erfl"),
  ("exp", "expf", "expl"), ("exp10", "exp10f", "exp10l"), ("exp2", "exp2f", "exp2l"), ("expm1", "expm1f", "expm1l"),
  ("fabs", "fabsf", "fabsl"), ("fdim", "fdimf", "fdiml"), ("floor", "floorf", "floorl"), ("fma", "fmaf", "fmal"),
  ("fmax", "fmaxf", "fmaxl"), ("fmin", "fminf", "fminl"), ("fmod", "fmodf", "fmodl"), ("frexp", "frexpf", "frexpl"),
  ("hypot", "hypotf", "hypotl"), ("ilogb", "ilogbf", "ilogbl"), ("j0", "j0f", "j0l"), ("j1", "j1f", "j1l"),
  ("jn", "jnf", "jnl"), ("llround", "llroundf", "llroundl"), ("log", "logf", "logl"), ("log10", "log10f", "log10l"),
  ("log1p", "log1pf", "log1pl"), ("log2", "log2f", "log2l"), ("logb", "logbf", "logbl"), ("lrint", "lrintf", "lrintl"),
  ("lround", "lroundf", "lroundl"), ("modf", "modff", "modfl"), ("nearbyint", "nearbyintf", "nearbyintl"),
  ("nexttoward", "nexttowardf", "nexttowardl"), ("pow", "powf", "powl"), ("remainder", "remainderf", "remainderl"),
  ("rint", "rintf", "rintl"), ("round", "roundf", "roundl"), ("scalbn", "scalbnf", "scalbnl"), ("sin", "sinf", "sinl"),
  ("sinh", "sinhf", "sinhl"), ("sincos", "sincosf", "sincosl"), ("sqrt", "sqrtf", "sqrtl"), ("tan", "tanf", "tanl"),
  ("tanh", "tanhf", "tanhl"), ("tgamma", "tgammaf", "tgammal"), ("trunc", "truncf", "truncl"), ("y0", "y0f", "y0l"),
  ("y1", "y1f", "y1l"), ("yn", "ynf", "ynl"), ("fminmag", "fminmagf", "fminmagl"), ("drem", "dremf", "dreml"),
  ("gamma", "gammaf", "gammal"), ("significand", "significandf", "significandl"), ("cabs", "cabsf", "cabsl"),
  ("cacos", "cacosf", "cacosl"), ("cacosh", "cacoshf", "cacoshl"), ("carg", "cargf", "cargl"),
  ("casin", "casinf", "casinl"), ("casinh", "casinhf", "casinhl"), ("catan", "catanf", "catanl"),
  ("catanh", "catanhf", "catanhl"), ("ccos", "ccosf", "ccosl"), ("ccosh", "ccoshf", "ccoshl"), ("cexp", "cexpf", "cexpl"),
  ("cimag", "cimagf", "cimagl"), ("clog", "clogf", "clogl"), ("clog10", "clog10f", "clog10l"), ("conj", "conjf", "conjl"),
  ("cpow", "cpowf", "cpowl"), ("creal", "crealf", "creall"), ("csin", "csinf", "csinl"), ("csinh", "csinhf", "csinhl"),
  ("csqrt", "csqrtf", "csqrtl"), ("ctan", "ctanf", "ctanl"), ("ctanh", "ctanhf", "ctanhl"),
  ("nextup", "nextupf", "nextupl"), ("nextdown", "nextdownf", "nextdownl"), ("getpayload", "getpayloadf", "getpayloadl"),
  ("setpayload", "setpayloadf", "setpayloadl"), ("setpayloadsig", "setpayloadsigf", "setpayloadsigl"),
  ("fromfp", "fromfpf", "fromfpl"), ("ufromfp", "ufromfpf", "ufromfpl"), ("fromfpx", "fromfpxf", "fromfpxl"),
  ("ufromfpx", "ufromfpxf", "ufromfpxl"), ("roundeven", "roundevenf", "roundevenl"), ("llogb", "llogbf", "llogbl"),
  ("finite", "finitef", "finitel")]

/-- Those that do not agree. -/
def C92.differ : List (String × String × String) := [
  ("copysign", "copysignf", "copysignl"), ("erfc", "erfcf", "erfcl"), ("ldexp", "ldexpf", "ldexpl"),
  ("lgamma_r", "lgammaf_r", "lgammal_r"), ("llrint", "llrintf", "llrintl"), ("nextafter", "nextafterf", "nextafterl"),
  ("pow10", "pow10f", "pow10l"), ("scalb", "scalbf", "scalbl"), ("scalbln", "scalblnf", "scalblnl"),
  ("fmaxmag", "fmaxmagf", "fmaxmagl"), ("cproj", "cprojf", "cprojl")]

/-- The entries of a function. -/
def C92.rows (f : String) : List (Nat × Fact) := (calls.filter fun r => decide (r.1 = f)).map Prod.snd

theorem C92.mem_rows (f : String) (i : Nat) (x : Fact) : (i, x) ∈ C92.rows f ↔ (f, i, x) ∈ calls := by
  unfold C92.rows
  simp only [List.mem_map, List.mem_filter, decide_eq_true_eq]
  constructor
  · rintro ⟨⟨a, b⟩, ⟨h1, h2⟩, h3⟩
    cases h2; cases h3; exact h1
  · intro h; exact ⟨_, ⟨h, rfl⟩, rfl⟩

/-- Same entries. -/
def C92.same (f g : String) : Bool :=
  (C92.rows f).all (fun r => decide (r ∈ C92.rows g)) && (C92.rows g).all fun r => decide (r ∈ C92.rows f)

theorem C92.same_iff (f g : String) : C92.same f g = true ↔ ∀ i x, (f, i, x) ∈ calls ↔ (g, i, x) ∈ calls := by
  unfold C92.same
  simp only [Bool.and_eq_true, List.all_eq_true, decide_eq_true_eq, ← C92.mem_rows]
  constructor
  · intro h i x; exact ⟨h.1 _, h.2 _⟩
  · intro h; exact ⟨fun r hr => (h r.1 r.2).1 hr, fun r hr => (h r.1 r.2).2 hr⟩

theorem C92.agree_all (t : String × String × String) (ht : t ∈ C92.agree) :
    C92.rows t.1 ≠ [] ∧ C92.same t.1 t.2.1 = true ∧ C92.same t.1 t.2.2 = true := by
  revert t
  decide +kernel

theorem C92.differ_all (t : String × String × String) (ht : t ∈ C92.differ) :
    C92.rows t.1 ≠ [] ∧ ¬ (C92.same t.1 t.2.1 = true ∧ C92.same t.1 t.2.2 = true) := by
  revert t
  decide +kernel

theorem C92.rows_ne (f : String) (h : C92.rows f ≠ []) : ∃ i x, (f, i, x) ∈ calls := by
  obtain ⟨r, hr⟩ := List.exists_mem_of_ne_nil _ h
  exact ⟨r.1, r.2, (C92.mem_rows _ _ _).1 hr⟩

/-- **C92.** The `float` and `long double` variants of 94 mathematical functions have the entries of the `double` version, and there
are some.  (Missing: the functions of `C92_libc_variants_false`.) -/
theorem C92_libc_variants_partial (t : String × String × String) (ht : t ∈ C92.agree) : (∃ i x, (t.1, i, x) ∈ calls) ∧
    (∀ i x, (t.1, i, x) ∈ calls ↔ (t.2.1, i, x) ∈ calls) ∧ (∀ i x, (t.1, i, x) ∈ calls ↔ (t.2.2, i, x) ∈ calls) := by
  obtain ⟨h1, h2, h3⟩ := C92.agree_all t ht
  exact ⟨C92.rows_ne _ h1, (C92.same_iff _ _).1 h2, (C92.same_iff _ _).1 h3⟩

/-- **C92.** False: that all variants have the entries of the `double` version: 11 functions differ. -/
theorem C92_libc_variants_false (t : String × String × String) (ht : t ∈ C92.differ) : (∃ i x, (t.1, i, x) ∈ calls) ∧
    ¬ ((∀ i x, (t.1, i, x) ∈ calls ↔ (t.2.1, i, x) ∈ calls) ∧ (∀ i x, (t.1, i, x) ∈ calls ↔ (t.2.2, i, x) ∈ calls)) := by
  obtain ⟨h1, h2⟩ := C92.differ_all t ht
  exact ⟨C92.rows_ne _ h1, fun h => h2 ⟨(C92.same_iff _ _).2 h.1, (C92.same_iff _ _).2 h.2⟩⟩

/-! ## Strings -/

/-- Functions that write their second argument to their first and return (a pointer into) the first. -/
def C92.copies : List String := [
  "strcpy", "strncpy", "strcat", "strncat", "stpcpy", "stpncpy", "memmove", "wcscpy", "wcsncpy", "wcscat", "wcsncat",
  "wcpcpy", "wcpncpy", "wmemcpy", "wmemmove", "wmempcpy", "memset"]

/-- Functions whose result comes from their first argument. -/
def C92.finds : List String := [
  "strdup", "strndup", "wcsdup", "strtok", "strtok_r", "strsep", "strrchr", "strchrnul", "index", "rindex", "memchr",
  "memrchr", "rawmemchr", "strstr", "memmem", "strpbrk", "wcschr", "wcsrchr", "wcsstr", "wcspbrk", "wmemchr", "basename",
  "dirname", "toupper", "tolower", "towupper", "towlower", "toascii"]

/-- Functions that read a number: the result and the end pointer come from the first argument. -/
def C92.numbers : List String := [
  "strtol", "strtoul", "strtoll", "strtoull", "strtod", "strtof", "strtold", "strtoimax", "strtoumax", "wcstol", "wcstoul",
  "wcstoll", "wcstoull", "wcstod", "wcstof", "wcstold", "wcstoumax"]

theorem C92.rows_exact (fs : List String) (l : List (Nat × Fact))
    (h : fs.all (fun f => (C92.rows f).all (fun r => decide (r ∈ l)) && l.all fun r => decide (r ∈ C92.rows f)) = true)
    (f : String) (hf : f ∈ fs) (i : Nat) (x : Fact) : (f, i, x) ∈ calls ↔ (i, x) ∈ l := by
  have h1 := List.all_eq_true.1 h f hf
  simp only [Bool.and_eq_true, List.all_eq_true, decide_eq_true_eq] at h1
  rw [← C92.mem_rows]
  exact ⟨h1.1 _, h1.2 _⟩

/-- **C92.** The entries of functions that copy, of functions that search or convert, and of functions that read a number. -/
theorem C92_libc_strings (f : String) (i : Nat) (x : Fact) :
    (f ∈ C92.copies → ((f, i, x) ∈ calls ↔ (i, x) ∈ [(1, Fact.param 0), (0, Fact.ret)])) ∧
    (f ∈ C92.finds → ((f, i, x) ∈ calls ↔ (i, x) ∈ [(0, Fact.ret)])) ∧
    (f ∈ C92.numbers → ((f, i, x) ∈ calls ↔ (i, x) ∈ [(0, Fact.param 1), (0, Fact.ret)])) :=
  ⟨fun h => C92.rows_exact _ _ (by decide +kernel) f h i x, fun h => C92.rows_exact _ _ (by decide +kernel) f h i x,
    fun h => C92.rows_exact _ _ (by decide +kernel) f h i x⟩

/-- **C92.** False: that the table is complete for such functions: these have no entry, although `strrchr`, `strtol` and others have. -/
theorem C92_libc_missing_false (f : String) (hf : f ∈ ["strchr", "strcasestr", "atoi", "atol", "atoll", "atof", "wcschrnul", "sprintf"]) :
    contains libc f = false := by
  have h : ∀ f ∈ ["strchr", "strcasestr", "atoi", "atol", "atoll", "atof", "wcschrnul", "sprintf"],
      ∀ r ∈ calls, r.1 ≠ f := by decide +kernel
  cases hc : contains libc f with
  | false => rfl
  | true =>
    obtain ⟨i, x, hx⟩ := (C92_libc_known f).1 hc
    exact absurd rfl (h f hf _ hx)

/-- **C92.** A copying function lets a tainted source flow to its destination, exactly: what holds after the call are the source and
the destination.  So it is false that the returned pointer, which is the destination, is tainted as well: the entries are not
followed transitively. -/
theorem C92_libc_copy_false {V : Type} [DecidableEq V] (f : String) (hf : f ∈ C92.copies) (cs dst src : V) (rest : List V) (n : Nat)
    (hn : 2 ≤ n) (hd : dst ≠ src) :
    ∃ r, libFlow (getFactsForFunction libc f) cs (dst :: src :: rest) n src = some r ∧ ∀ y, y ∈ r ↔ y = src ∨ y = dst := by
  have he : ∀ j s, (dst :: src :: rest)[j]? = some src → (getFactsForFunction libc f).get j = some s →
      ∀ x, x ∈ s → j = 1 ∧ x = .param 0 := by
    intro j s hj hs x hx
    have hc := ((C92_libc_strings f j x).1 hf).1 ((C92_libc f j x).1 ⟨s, hs, hx⟩)
    simp only [List.mem_cons, List.not_mem_nil, or_false, Prod.mk.injEq] at hc
    rcases hc with h | ⟨rfl, _⟩
    · exact h
    · exact absurd (by simpa using hj) hd
  cases h : libFlow (getFactsForFunction libc f) cs (dst :: src :: rest) n src with
  | none =>
    obtain ⟨j, _, hj, s, hs, k, hk, hl⟩ := (C92_flow _ _ _ _ _).1.1 h
    have h1 := (he j s hj hs _ hk).2
    cases h1
    simp at hl
  | some r =>
    refine ⟨r, rfl, fun y => ((C92_flow _ _ _ _ _).2 r h y).trans (or_congr Iff.rfl ?_)⟩
    constructor
    · rintro ⟨j, _, hj, s, hs, ⟨k, hk, hy⟩ | ⟨hr, _⟩⟩
      · have h1 := (he j s hj hs _ hk).2
        cases h1
        exact (by simpa using hy : dst = y).symm
      · cases (he j s hj hs _ hr).2
    · rintro rfl
      obtain ⟨s, hs, hx⟩ := (C92_libc f 1 (.param 0)).2 (((C92_libc_strings f 1 (.param 0)).1 hf).2 (by simp))
      exact ⟨1, by omega, rfl, s, hs, Or.inl ⟨0, hx, rfl⟩⟩

/-- `p = strncpy(dst, src, n)`. -/
example : "strncpy" ∈ C92.copies ∧ 2 ≤ 3 ∧ (10 : Nat) ≠ 11 := by decide +kernel

/-! ## Printing and scanning -/

/-- **C92.** False: that `snprintf(buf, n, format, a)` lets its format or its arguments flow to the buffer: no fact but `buf` itself
leads to `buf`, for all values and whatever the number of arguments. -/
theorem C92_libc_snprintf_false {V : Type} [DecidableEq V] (cs buf n fmt : V) (rest : List V) (src : V)
    (hcs : cs ≠ buf) (hn : n ≠ buf) (hfmt : fmt ≠ buf) (hrest : buf ∉ rest) (hs : src ≠ buf) (r : List V)
    (h : libFlow (getFactsForFunction libc "snprintf") cs (buf :: n :: fmt :: rest) 3 src = some r) : buf ∉ r := by
  intro hb
  rcases ((C92_flow _ _ _ _ _).2 r h buf).1 hb with h1 | ⟨j, hj, hsrc, s, hs', h2⟩
  · exact hs h1.symm
  · rcases h2 with ⟨k, hk, hkb⟩ | ⟨_, h3⟩
    · have hc := (C92_libc "snprintf" j (.param k)).1 ⟨s, hs', hk⟩
      have hk0 : k ≠ 0 := by
        rintro rfl
        have : ∀ r ∈ calls, r.1 = "snprintf" → r.2.2 ≠ Fact.param 0 := by decide +kernel
        exact this _ hc rfl rfl
      match k, hk0, hkb with
      | 1, _, h => exact hn (by simpa using h)
      | 2, _, h => exact hfmt (by simpa using h)
      | k + 3, _, h => exact hrest (List.mem_of_getElem? (i := k) (by simpa using h))
    · exact hcs h3.symm

/-- `snprintf(1, 2, 3, 4)` with a tainted format: the flow is defined. -/
example : ∃ r, libFlow (getFactsForFunction libc "snprintf") 100 [1, 2, 3, 4] 3 3 = some r ∧ 3 ∈ r ∧ 1 ∉ r := by
  cases h : libFlow (getFactsForFunction libc "snprintf") 100 [1, 2, 3, 4] 3 3 with
  | none =>
    obtain ⟨j, hj, h1, s, hs, k, hk, _⟩ := (C92_flow _ _ _ _ _).1.1 h
    have hc := (C92_libc "snprintf" j (.param k)).1 ⟨s, hs, hk⟩
    have h2 : ∀ r ∈ calls, r.1 = "snprintf" → r.2.1 = 1 := by decide +kernel
    have hj1 : j = 1 := h2 _ hc rfl
    subst hj1
    simp at h1
  | some r =>
    exact ⟨r, rfl, ((C92_flow _ _ _ _ _).2 r h 3).2 (Or.inl rfl),
      C92_libc_snprintf_false 100 1 2 3 [4] 3 (by decide) (by decide) (by decide) (by decide) (by decide) r h⟩

/-- **C92.** False: that the flow of a summary is defined for every call: `snprintf(buf, n, format)` with a tainted size,
`fscanf(file, format)` with a tainted file, `sscanf(text, format)` with a tainted text: argument 3 or 2 does not exist. -/
theorem C92_libc_flow_false {V : Type} [DecidableEq V] (cs a b c : V) :
    libFlow (getFactsForFunction libc "snprintf") cs [a, b, c] 3 b = none ∧
    libFlow (getFactsForFunction libc "fscanf") cs [a, b] 2 a = none ∧
    libFlow (getFactsForFunction libc "sscanf") cs [a, b] 2 a = none := by
  refine ⟨(C92_flow _ _ _ _ _).1.2 ⟨1, by omega, rfl, ?_⟩, (C92_flow _ _ _ _ _).1.2 ⟨0, by omega, rfl, ?_⟩,
    (C92_flow _ _ _ _ _).1.2 ⟨0, by omega, rfl, ?_⟩⟩
  · obtain ⟨s, h1, h2⟩ := (C92_libc "snprintf" 1 (.param 3)).2 (by decide +kernel)
    exact ⟨s, h1, 3, h2, by simp⟩
  · obtain ⟨s, h1, h2⟩ := (C92_libc "fscanf" 0 (.param 2)).2 (by decide +kernel)
    exact ⟨s, h1, 2, h2, by simp⟩
  · obtain ⟨s, h1, h2⟩ := (C92_libc "sscanf" 0 (.param 2)).2 (by decide +kernel)
    exact ⟨s, h1, 2, h2, by simp⟩

end Phasar.LibSummary
