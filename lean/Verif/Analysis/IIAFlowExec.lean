import Verif.Analysis.IIAFlowRun
/-!
# The instruction interaction analysis: executions that keep track of labels

Executions of the program that keep, for every value of every activation, the labels of all instructions it has met.  Nothing in
the analysed code corresponds to this file; it says what the reported labels are meant to approximate, without the chains of
`Verif.Analysis.IIAFlow`.  Memory is accessed by name only: a load or store uses an alloca of the same activation or a global
variable (accesses through other pointers have no execution here, and the analysis is not sound for them, `C74_alias_false`).
-/
set_option linter.unusedSectionVars false
set_option linter.unusedSimpArgs false
namespace Phasar.IIA
open Phasar JoinLat IDE Prog

/-- The labels of all values in scope; those of an alloca or a global variable are the labels of what is stored there.  `none`:
the value does not exist (yet). -/
abbrev Shadow := Val → Option Nat

/-- An execution: pending calls with the labels at the call, the statement, the labels. -/
structure XConf where
  stk : List (Nat × Shadow)
  n : Nat
  sh : Shadow

/-- One value changes. -/
def Shadow.set (sh : Shadow) (x : Val) (s : Option Nat) : Shadow := fun y => if y = x then s else sh y

/-- Constants that are no global variables have no labels. -/
def Shadow.of (sh : Shadow) : Val → Option Nat
  | .data _ | .other _ => some 0
  | x => sh x

/-- All labels of some values. -/
def Shadow.all (sh : Shadow) (os : List Val) : Nat := os.foldr (fun o s => (sh.of o).getD 0 ||| s) 0

namespace Prog
variable (p : Prog)

/-- Memory that is accessed by name. -/
def Named (ptr : Val) : Prop := (∃ m, ptr = .inst m ∧ p.inst m = .alloca) ∨ ∃ g, ptr = .global g

/-- What a statement that is not a call does to the labels.  `pick n` are the sets of operands that the instruction `n` may read
at once: for a phi node each single operand, for other instructions all operands. -/
inductive Eff (pick : Nat → List Val → Prop) (n : Nat) (sh : Shadow) : Shadow → Prop
  | alloca : p.inst n = .alloca → Eff pick n sh (sh.set (.inst n) (some (p.gen n)))
  | load {ptr s} : p.inst n = .load ptr → p.Named ptr → sh.of ptr = some s → Eff pick n sh (sh.set (.inst n) (some (s ||| p.gen n)))
  | store {v ptr s} : p.inst n = .store v ptr → p.Named ptr → sh.of v = some s → Eff pick n sh (sh.set ptr (some (s ||| p.gen n)))
  | op {ops os} : p.inst n = .op ops → pick n os → (∀ o ∈ os, (sh.of o).isSome) →
      Eff pick n sh (sh.set (.inst n) (some (sh.all os ||| p.gen n)))
  | br {c is} : p.inst n = .br c is → Eff pick n sh sh
  | ret {v} : p.inst n = .ret v → Eff pick n sh sh

/-- The labels at the start of an entry point. -/
def startSh (f : Nat) : Shadow
  | .arg k => if k ∈ p.params f then some 0 else none
  | .global g => if g ∈ p.globals then some (p.genG g) else none
  | _ => none

/-- The labels at the start of a called function: parameters have those of the arguments. -/
def enterSh (n g : Nat) (sh : Shadow) : Shadow
  | .arg k => match ((p.params g).zip (p.args n)).find? (fun x => x.1 == k) with
    | some (_, a) => sh.of a
    | none => none
  | .global k => sh (.global k)
  | _ => none

/-- The labels after a call from which the execution returns: the result has the labels of the returned value, a constant those
of the return instruction; the arguments have met the call. -/
def retSh (c e : Nat) (shc sh : Shadow) : Shadow := fun x =>
  if x = .inst c then match p.retVal e with
    | some rv => if rv.isData then some (p.gen e) else sh.of rv
    | none => none
  else if x.isConst then sh x
  else if x ∈ p.args c then (shc x).map (· ||| p.gen c)
  else shc x

/-- The labels after a call of a library function. -/
def libSh (n g : Nat) (sh : Shadow) : Shadow := fun x =>
  if x = .inst n ∧ p.voidRet g = false then some (p.gen n)
  else if x ∈ p.args n then (sh x).map (· ||| p.gen n)
  else sh x

/-- The executions. -/
inductive Exec (pick : Nat → List Val → Prop) : XConf → Prop
  | start {f sp} : f ∈ p.entries → sp ∈ p.icf.starts f → Exec pick ⟨[], sp, p.startSh f⟩
  | normal {stk n n' sh sh'} : Exec pick ⟨stk, n, sh⟩ → p.icf.isCall n = false → n' ∈ p.icf.succs n → p.Eff pick n sh sh' →
      Exec pick ⟨stk, n', sh'⟩
  | enter {stk n g sp sh} : Exec pick ⟨stk, n, sh⟩ → p.icf.isCall n = true → g ∈ p.icf.callees n → sp ∈ p.icf.starts g →
      p.Entered g → Exec pick ⟨(n, sh) :: stk, sp, p.enterSh n g sh⟩
  | ret {stk c shc e sh r} : Exec pick ⟨(c, shc) :: stk, e, sh⟩ → p.icf.isCall e = false → p.icf.isExit e = true →
      r ∈ p.icf.retSites c → Exec pick ⟨stk, r, p.retSh c e shc sh⟩
  | lib {stk n g sh r} : Exec pick ⟨stk, n, sh⟩ → p.icf.isCall n = true → g ∈ p.icf.callees n → ¬ p.Entered g →
      r ∈ p.icf.retSites n → Exec pick ⟨stk, r, p.libSh n g sh⟩

/-- What is needed so that no label is lost; the theorems `C74_…_false` show what happens without it. -/
structure Simple (pick : Nat → List Val → Prop) : Prop where
  /-- Every instruction reads something that is not a constant, and not itself. -/
  op : ∀ n ops os, p.inst n = .op ops → pick n os → (∀ o ∈ os, o ∈ ops) ∧ .inst n ∉ os ∧ ∃ o ∈ os, o.isConst = false
  /-- Memory that is accessed by name is its only alias. -/
  alias : ∀ n, (∀ ptr, p.inst n = .load ptr → p.Named ptr → ∀ y ∈ p.pts n, y = ptr) ∧
    ∀ v ptr, p.inst n = .store v ptr → p.Named ptr → ∀ y ∈ p.pts n, y = ptr
  /-- Neither functions nor addresses of the memory itself are stored, and functions are not returned. -/
  store : ∀ n v ptr, p.inst n = .store v ptr → v ≠ ptr ∧ ∀ k, v ≠ .other k
  ret : ∀ e k, p.retVal e ≠ some (.other k)
  /-- Arguments are not constants. -/
  args : ∀ n, p.icf.isCall n = true → ∀ a ∈ p.args n, a.isConst = false
  /-- No structures are returned in memory. -/
  sret : (∀ n, p.sretCall n = false) ∧ ∀ g, p.sretFn g = false
  /-- Library functions and others are not called by the same statement. -/
  lib : ∀ n g, g ∈ p.icf.callees n → ¬ p.Entered g → p.onlyDecls n = true ∨ p.heapCall n = true

end Prog

variable {p : Prog} {pick : Nat → List Val → Prop}

/-- The label `i` is among the labels; unknown labels may contain it. -/
def Has (i : Nat) (l : Labels) : Prop := l = .bottom ∨ ∃ s, l = .set s ∧ s.testBit i = true

theorem has_join (i : Nat) (a b : Labels) : Has i (joinImpl a b) ↔ Has i a ∨ Has i b := by
  cases a <;> cases b <;> simp [Has, joinImpl]

/-- All labels of the execution are brought by chains. -/
def Told (p : Prog) (stk : List Nat) (n : Nat) (sh : Shadow) : Prop :=
  ∀ x s, sh x = some s → (∃ v, p.Prov stk n x v) ∧ ∀ i, s.testBit i = true → ∃ v, p.Prov stk n x v ∧ Has i v

/-- The same for the pending calls. -/
inductive ToldStk (p : Prog) : List (Nat × Shadow) → Prop
  | nil : ToldStk p []
  | cons {c sh stk} : ToldStk p stk → p.At (stk.map (·.1)) c → p.icf.isCall c = true → Told p (stk.map (·.1)) c sh →
      ToldStk p ((c, sh) :: stk)

theorem Told.keep {stk : List Nat} {n n' : Nat} {sh : Shadow} (h : Told p stk n sh) (hc : p.icf.isCall n = false)
    (hn : n' ∈ p.icf.succs n) {x : Val} (hx : x ∉ p.targets n) {s : Nat} (hs : sh x = some s) :
    (∃ v, p.Prov stk n' x v) ∧ ∀ i, s.testBit i = true → ∃ v, p.Prov stk n' x v ∧ Has i v := by
  obtain ⟨⟨v, hv⟩, h2⟩ := h x s hs
  refine ⟨⟨_, .pass hv hc hn (.keep hx)⟩, fun i hi => ?_⟩
  obtain ⟨v, hv, hh⟩ := h2 i hi
  exact ⟨_, .pass hv hc hn (.keep hx), (has_join i _ _).2 (.inl hh)⟩

theorem Told.set {stk : List Nat} {n' : Nat} {sh : Shadow} {y : Val} {t : Nat}
    (hk : ∀ x s, x ≠ y → sh x = some s → (∃ v, p.Prov stk n' x v) ∧ ∀ i, s.testBit i = true → ∃ v, p.Prov stk n' x v ∧ Has i v)
    (hy : (∃ v, p.Prov stk n' y v) ∧ ∀ i, t.testBit i = true → ∃ v, p.Prov stk n' y v ∧ Has i v) :
    Told p stk n' (sh.set y (some t)) := by
  intro x s hs
  unfold Shadow.set at hs
  split at hs
  · rename_i he
    subst he; cases hs; exact hy
  · rename_i he; exact hk x s he hs

theorem has_set {i s : Nat} (h : s.testBit i = true) : Has i (.set s) := .inr ⟨s, rfl, h⟩

/-- A value that exists and takes over labels. -/
theorem Told.pass {stk : List Nat} {n n' : Nat} {sh : Shadow} (h : Told p stk n sh) (hc : p.icf.isCall n = false)
    (hn : n' ∈ p.icf.succs n) {x y : Val} {g : Nat} (hp : p.Pass n x y g) {s : Nat} (hs : sh x = some s) :
    (∃ v, p.Prov stk n' y v) ∧ ∀ i, (s ||| g).testBit i = true → ∃ v, p.Prov stk n' y v ∧ Has i v := by
  obtain ⟨⟨v, hv⟩, h2⟩ := h x s hs
  refine ⟨⟨_, .pass hv hc hn hp⟩, fun i hi => ?_⟩
  rw [Nat.testBit_or, Bool.or_eq_true] at hi
  rcases hi with hi | hi
  · obtain ⟨v, hv, hh⟩ := h2 i hi
    exact ⟨_, .pass hv hc hn hp, (has_join i _ _).2 (.inl hh)⟩
  · exact ⟨_, .pass hv hc hn hp, (has_join i _ _).2 (.inr (has_set hi))⟩

theorem named_of {p : Prog} {ptr : Val} (h : p.Named ptr) (sh : Shadow) : sh.of ptr = sh ptr := by
  rcases h with ⟨m, rfl, _⟩ | ⟨g, rfl⟩ <;> rfl

theorem all_bit {sh : Shadow} {i : Nat} : ∀ {os : List Val}, (sh.all os).testBit i = true →
    ∃ o ∈ os, ((sh.of o).getD 0).testBit i = true
  | [], h => by simp [Shadow.all] at h
  | o :: os, h => by
    rw [show sh.all (o :: os) = (sh.of o).getD 0 ||| sh.all os from rfl, Nat.testBit_or, Bool.or_eq_true] at h
    rcases h with h | h
    · exact ⟨o, List.mem_cons_self, h⟩
    · obtain ⟨o', ho, h⟩ := all_bit h
      exact ⟨o', List.mem_cons_of_mem _ ho, h⟩

/-- One statement. -/
theorem told_eff (hs : p.Simple pick) {stk : List Nat} {n n' : Nat} {sh sh' : Shadow} (hat : p.At stk n)
    (h : Told p stk n sh) (hc : p.icf.isCall n = false) (hn : n' ∈ p.icf.succs n) (he : p.Eff pick n sh sh') :
    Told p stk n' sh' := by
  cases he with
  | alloca hi =>
    have ht : p.targets n = [] := by simp [Prog.targets, hi]
    refine Told.set (fun x s _ hx => h.keep hc hn (by rw [ht]; simp) hx) ?_
    exact ⟨⟨_, .fresh hat hc hn (.alloca hi)⟩, fun i hb => ⟨_, .fresh hat hc hn (.alloca hi), has_set hb⟩⟩
  | @load ptr s hi hnm hv =>
    have ht : p.targets n = [] := by simp [Prog.targets, hi]
    refine Told.set (fun x s _ hx => h.keep hc hn (by rw [ht]; simp) hx) ?_
    rw [named_of hnm] at hv
    refine h.pass hc hn (.read (by simp [Prog.reads, hi]) ?_) hv
    rintro rfl
    rcases hnm with ⟨m, hm, ha⟩ | ⟨g, hg⟩
    · cases hm; rw [ha] at hi; cases hi
    · cases hg
  | @store v ptr s hi hnm hv =>
    have ht : ∀ x, x ∈ p.targets n ↔ x = ptr := by
      intro x
      simp only [Prog.targets, hi, List.mem_cons]
      refine ⟨?_, .inl⟩
      rintro (h | h)
      · exact h
      · split at h
        · simp at h
        · exact (hs.alias n).2 v ptr hi hnm x h
    refine Told.set (fun x s hne hx => h.keep hc hn (fun hm => hne ((ht x).1 hm)) hx) ?_
    have hw : ∀ {t}, sh v = some t → (∃ v, p.Prov stk n' ptr v) ∧
        ∀ i, (t ||| p.gen n).testBit i = true → ∃ v, p.Prov stk n' ptr v ∧ Has i v := fun hv =>
      h.pass hc hn (.write hi (fun hm => (hs.store n v ptr hi).1 ((ht v).1 hm)) ((ht ptr).2 rfl)) hv
    cases v with
    | other k => exact absurd rfl ((hs.store n _ ptr hi).2 k)
    | data k =>
      cases hv
      have hf : p.Prov stk n' ptr (.set (p.gen n)) := .fresh hat hc hn (.store hi rfl ((ht ptr).2 rfl))
      refine ⟨⟨_, hf⟩, fun i hb => ⟨_, hf, has_set ?_⟩⟩
      simpa using hb
    | zero => exact hw hv
    | inst m => exact hw hv
    | arg k => exact hw hv
    | global g => exact hw hv
  | @op ops os hi hp hd =>
    have ht : p.targets n = [] := by simp [Prog.targets, hi]
    refine Told.set (fun x s _ hx => h.keep hc hn (by rw [ht]; simp) hx) ?_
    obtain ⟨h1, h2, o, ho, hoc⟩ := hs.op n ops os hi hp
    have hr : ∀ o ∈ os, p.Pass n o (.inst n) (p.gen n) := fun o ho =>
      .read (by simp [Prog.reads, Prog.operands, hi]; exact h1 o ho) (fun e => h2 (e ▸ ho))
    have hof : ∀ o, o.isConst = false → sh.of o = sh o := by
      intro o ho; cases o <;> first | rfl | cases ho
    obtain ⟨s, hos⟩ := Option.isSome_iff_exists.1 (hd o ho)
    rw [hof o hoc] at hos
    have hbase := h.pass hc hn (hr o ho) hos
    refine ⟨hbase.1, fun i hb => ?_⟩
    rw [Nat.testBit_or, Bool.or_eq_true] at hb
    rcases hb with hb | hb
    · obtain ⟨o', ho', hb⟩ := all_bit hb
      have : ∃ t, sh o' = some t ∧ t.testBit i = true := by
        cases hso : sh.of o' with
        | none => rw [hso] at hb; simp at hb
        | some t =>
          rw [hso] at hb
          have hso' : sh.of o' = sh o' := by
            cases o' with
            | data => cases hso; simp at hb
            | other => cases hso; simp at hb
            | _ => rfl
          exact ⟨t, hso' ▸ hso, hb⟩
      obtain ⟨t, ht, hb⟩ := this
      exact (h.pass hc hn (hr o' ho') ht).2 i (by rw [Nat.testBit_or, hb]; rfl)
    · exact hbase.2 i (by rw [Nat.testBit_or, hb, Bool.or_true])
  | br hi =>
    have ht : p.targets n = [] := by simp [Prog.targets, hi]
    exact fun x s hx => h.keep hc hn (by rw [ht]; simp) hx
  | ret hi =>
    have ht : p.targets n = [] := by simp [Prog.targets, hi]
    exact fun x s hx => h.keep hc hn (by rw [ht]; simp) hx

theorem find_zip {A B : Type} [BEq A] [LawfulBEq A] {k : A} {b : B} {a : A} : ∀ {l : List A} {m : List B},
    (l.zip m).find? (fun x => x.1 == k) = some (a, b) → a = k ∧ ∃ i : Nat, l[i]? = some k ∧ m[i]? = some b
  | [], _, h => by simp at h
  | _ :: _, [], h => by simp at h
  | x :: l, y :: m, h => by
    rw [List.zip_cons_cons, List.find?_cons] at h
    split at h
    · rename_i he
      cases h
      have : a = k := eq_of_beq he
      exact ⟨this, 0, by simp [this], by simp⟩
    · obtain ⟨h1, i, h2, h3⟩ := find_zip h
      exact ⟨h1, i + 1, by simpa using h2, by simpa using h3⟩

theorem told_over {stk : List Nat} {n r : Nat} {sh : Shadow} (h : Told p stk n sh) (hc : p.icf.isCall n = true)
    (hr : r ∈ p.icf.retSites n) {x : Val} (hx : p.heapCall n = true ∨ p.onlyDecls n = true ∨ x.isConst = false) {s : Nat}
    (hs : (if x ∈ p.args n then (sh x).map (· ||| p.gen n) else sh x) = some s) :
    (∃ v, p.Prov stk r x v) ∧ ∀ i, s.testBit i = true → ∃ v, p.Prov stk r x v ∧ Has i v := by
  split at hs
  · rename_i hm
    obtain ⟨t, ht, rfl⟩ := Option.map_eq_some_iff.1 hs
    obtain ⟨⟨v, hv⟩, h2⟩ := h x t ht
    have ho : ∀ {v}, p.Prov stk n x v → p.Prov stk r x (joinImpl v (.set (p.gen n))) := fun {v} hv => by
      have := Prov.over hv hc hr hx
      rwa [if_pos hm] at this
    refine ⟨⟨_, ho hv⟩, fun i hb => ?_⟩
    rw [Nat.testBit_or, Bool.or_eq_true] at hb
    rcases hb with hb | hb
    · obtain ⟨v, hv, hh⟩ := h2 i hb
      exact ⟨_, ho hv, (has_join i _ _).2 (.inl hh)⟩
    · exact ⟨_, ho hv, (has_join i _ _).2 (.inr (has_set hb))⟩
  · rename_i hm
    obtain ⟨⟨v, hv⟩, h2⟩ := h x s hs
    have ho : ∀ {v}, p.Prov stk n x v → p.Prov stk r x v := fun {v} hv => by
      have := Prov.over hv hc hr hx
      rwa [if_neg hm] at this
    refine ⟨⟨_, ho hv⟩, fun i hb => ?_⟩
    obtain ⟨v, hv, hh⟩ := h2 i hb
    exact ⟨_, ho hv, hh⟩

/-- All labels that an execution keeps are brought by chains. -/
theorem told_exec (hs : p.Simple pick) {a : XConf} (h : p.Exec pick a) :
    p.At (a.stk.map (·.1)) a.n ∧ Told p (a.stk.map (·.1)) a.n a.sh ∧ ToldStk p a.stk := by
  induction h with
  | @start f sp hf hsp =>
    refine ⟨.start hf hsp, ?_, .nil⟩
    intro x s hx
    cases x <;> simp only [Prog.startSh, reduceCtorEq] at hx
    · split at hx
      · rename_i hk; cases hx
        exact ⟨⟨_, .param hf hsp hk⟩, fun i hi => by simp at hi⟩
      · cases hx
    · split at hx
      · rename_i hk; cases hx
        exact ⟨⟨_, .glob hf hsp hk⟩, fun i hi => ⟨_, .glob hf hsp hk, has_set hi⟩⟩
      · cases hx
  | normal _ hc hn he ih => exact ⟨.normal ih.1 hc hn, told_eff hs ih.1 ih.2.1 hc hn he, ih.2.2⟩
  | @enter stk n g sp sh _ hc hg hsp hen ih =>
    refine ⟨.enter ih.1 hc hg hsp, ?_, .cons ih.2.2 ih.1 hc ih.2.1⟩
    intro x s hx
    cases x with
    | arg k =>
      simp only [Prog.enterSh] at hx
      split at hx
      · rename_i b a hf
        obtain ⟨_, i, h1, h2⟩ := find_zip hf
        have hnc := hs.args n hc a (List.mem_of_getElem? h2)
        have hof : sh.of a = sh a := by cases a <;> first | rfl | cases hnc
        rw [hof] at hx
        obtain ⟨⟨v, hv⟩, h3⟩ := ih.2.1 a s hx
        have ht : ∀ {v}, p.Prov (stk.map (·.1)) n a v → p.Prov (n :: stk.map (·.1)) sp (.arg k) v := fun hv =>
          .toParam hv hc hg hsp hen h1 h2 (by rw [hs.sret.2 g]; simp) (by rw [hs.sret.1 n]; simp)
        refine ⟨⟨v, ht hv⟩, fun i hb => ?_⟩
        obtain ⟨v, hv, hh⟩ := h3 i hb
        exact ⟨v, ht hv, hh⟩
      · cases hx
    | global k =>
      obtain ⟨⟨v, hv⟩, h3⟩ := ih.2.1 (.global k) s hx
      refine ⟨⟨v, .toGlob hv hc hg hsp hen rfl⟩, fun i hb => ?_⟩
      obtain ⟨v, hv, hh⟩ := h3 i hb
      exact ⟨v, .toGlob hv hc hg hsp hen rfl, hh⟩
    | zero => cases hx
    | inst => cases hx
    | other => cases hx
    | data => cases hx
  | @ret stk c shc e sh r _ hc hx hr ih =>
    obtain ⟨hat, ht, hst⟩ := ih
    cases hst with
    | cons hst hatc hcc htc =>
      refine ⟨.ret hat hc hx hr, ?_, hst⟩
      intro x s hxs
      dsimp only at hxs
      unfold Prog.retSh at hxs
      split at hxs
      · rename_i hxe; subst hxe
        split at hxs
        · rename_i rv hrv
          by_cases hd : rv.isData = true
          · rw [if_pos hd] at hxs; cases hxs
            have := Prov.fromConst hat hc hx hr hrv hd
            exact ⟨⟨_, this⟩, fun i hb => ⟨_, this, has_set hb⟩⟩
          · rw [if_neg hd] at hxs
            have hof : sh.of rv = sh rv := by
              cases rv with
              | data => exact absurd rfl hd
              | other k => exact absurd hrv (hs.ret e k)
              | _ => rfl
            rw [hof] at hxs
            obtain ⟨⟨v, hv⟩, h3⟩ := ht rv s hxs
            refine ⟨⟨v, .fromRet hv hc hx hr hrv⟩, fun i hb => ?_⟩
            obtain ⟨v, hv, hh⟩ := h3 i hb
            exact ⟨v, .fromRet hv hc hx hr hrv, hh⟩
        · cases hxs
      · split at hxs
        · rename_i hco
          obtain ⟨⟨v, hv⟩, h3⟩ := ht x s hxs
          refine ⟨⟨v, .fromGlob hv hc hx hr hco⟩, fun i hb => ?_⟩
          obtain ⟨v, hv, hh⟩ := h3 i hb
          exact ⟨v, .fromGlob hv hc hx hr hco, hh⟩
        · rename_i hco
          exact told_over htc hcc hr (.inr (.inr (by simpa using hco))) hxs
  | @lib stk n g sh r _ hc hg hne hr ih =>
    obtain ⟨hat, ht, hst⟩ := ih
    refine ⟨.over hat hc hr, ?_, hst⟩
    have hl := hs.lib n g hg hne
    intro x s hxs
    dsimp only at hxs
    unfold Prog.libSh at hxs
    split at hxs
    · rename_i hxe
      obtain ⟨rfl, hv⟩ := hxe
      cases hxs
      by_cases hh : p.heapCall n = true
      · have := Prov.heapNew hat hc hr hh
        exact ⟨⟨_, this⟩, fun i hb => ⟨_, this, has_set hb⟩⟩
      · have : p.Opaque n := by
          refine ⟨by simpa using hh, hl.resolve_right hh, ?_⟩
          unfold Prog.allVoid
          rw [← Bool.not_eq_true, List.all_eq_true]
          exact fun h => by rw [h g hg] at hv; cases hv
        have := Prov.unknown hat hc hr this
        exact ⟨⟨_, this⟩, fun i _ => ⟨_, this, .inl rfl⟩⟩
    · refine told_over ht hc hr ?_ hxs
      rcases hl with h | h
      · exact .inr (.inl h)
      · exact .inl h

end Phasar.IIA
