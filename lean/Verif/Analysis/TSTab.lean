import Verif.Analysis.TSSem
import Verif.IDE.Table
/-!
# Example programs for the typestate analysis

Programs given by tables, a check of the requirements on programs (`WF`), and a check of the requirement on the alias information
(`AliasOk`) for programs with finitely many arrangements of pending calls and variables.  Nothing in the analysed code corresponds to
this file.
-/
set_option linter.unusedSectionVars false

namespace Phasar.TypeState
open Phasar IDE

/-- A function: parameters, declaration or not, name, variable arguments and the `va_list`s. -/
structure FRow where
  params : List Nat := []
  decl : Bool := false
  name : String := ""
  varArg : Bool := false
  vaLists : List Nat := []

/-- A program: statements, values that are no statements with their type, functions, alias sets, global variables, and the
description of the type state. -/
structure Tab (S : Type) where
  rows : List (Row × Inst × Ty)
  vals : List (Nat × Ty) := []
  funs : List FRow
  alias : List (Nat × List Nat)
  globals : List Nat := []
  typeName : String
  desc : Desc S
  isAPI : String → Bool
  error : S

namespace Tab
variable {S : Type} [DecidableEq S] (t : Tab S)

/-- The operands of an instruction. -/
def ops : Inst → List Nat
  | .load k => [k]
  | .store v k => [v, k]
  | .gep k => [k]
  | .call as => as
  | .ret (some v) => [v]
  | _ => []

/-- The instruction at `n`. -/
def inst (n : Nat) : Inst := (t.rows[n]?.map fun r => r.2.1).getD .other
/-- The function `f`. -/
def fn (f : Nat) : FRow := t.funs[f]?.getD {}

/-- The program of a table. -/
def prog : Prog S where
  inst := t.inst
  icf := tabICFG (t.rows.map Prod.fst)
  ty := fun k => match t.rows[k]? with
    | some r => r.2.2
    | none => (t.vals.lookup k).getD (.other "i32")
  users := fun k => (List.range t.rows.length).filter fun n => (ops (t.inst n)).contains k
  isGlobal := fun k => t.globals.contains k
  params := fun f => (t.fn f).params
  sret := fun _ => false
  isDecl := fun f => (t.fn f).decl
  isVarArg := fun f => (t.fn f).varArg
  vaLists := fun f => (t.fn f).vaLists
  name := fun f => (t.fn f).name
  alias := fun k => (t.alias.lookup k).getD [k]
  entries := [0]
  typeName := t.typeName
  desc := t.desc
  isAPI := t.isAPI
  error := t.error

/-- The requirements of `WF` for the rows of the table. -/
def wfOk : Bool :=
  let p := t.prog
  tabOk (t.rows.map Prod.fst) &&
  t.funs.all (fun f => decide f.params.Nodup && (!f.varArg || f.decl || !f.vaLists.isEmpty)) &&
  ((List.range t.rows.length).all fun n =>
    !(p.params (p.icf.funOf n)).contains n &&
    match p.inst n with
    | .load k => k != n
    | .store v k => v != k && !(p.params (p.icf.funOf n)).contains k &&
        (!p.matching n || ((p.alias k).contains k && match p.inst k with | .load _ => false | _ => true))
    | .call as => (p.icf.callees n).all fun f => p.isAPI (p.name f) || p.isDecl f || as.length == (p.params f).length
    | _ => true) &&
  ((List.range t.rows.length).all fun n => (p.icf.callees n).all fun f => !p.isAPI (p.name f) || p.icf.callees n == [f]) &&
  (p.icf.starts (p.icf.funOf 0)).contains 0

variable {t}

theorem inst_ge {n : Nat} (h : ¬ n < t.rows.length) : t.inst n = .other := by
  unfold inst; rw [List.getElem?_eq_none (by omega)]; rfl

theorem fn_all {P : FRow → Prop} (h : ∀ f ∈ t.funs, P f) (hd : P {}) (f : Nat) : P (t.fn f) := by
  unfold fn
  cases hf : t.funs[f]? with
  | none => exact hd
  | some r => exact h r (List.mem_of_getElem? hf)

theorem row_ge {n : Nat} (h : ¬ n < t.rows.length) : tabRow (t.rows.map Prod.fst) n = { fn := n } :=
  tabRow_ge (by rwa [List.length_map])

theorem wf (h : t.wfOk = true) (hapi : ∀ s, t.desc.isFactory s = true ∨ t.desc.isConsuming s = true → t.isAPI s = true)
    (hlen : t.funs.length ≤ t.rows.length) : t.prog.WF := by
  unfold wfOk at h
  simp only [Bool.and_eq_true] at h
  obtain ⟨⟨⟨⟨h1, h2⟩, h3⟩, h4⟩, h5⟩ := h
  rw [List.all_eq_true] at h2 h3 h4
  have hf := fun f hf => by
    have := h2 f hf
    rw [Bool.and_eq_true] at this
    exact this
  have hin : ∀ n, t.prog.inst n ≠ .other → n < t.rows.length := by
    intro n hn
    apply Decidable.byContradiction
    intro hlt
    exact hn (inst_ge hlt)
  have hrow := fun n (hn : n < t.rows.length) => by
    have := h3 n (List.mem_range.2 hn)
    rw [Bool.and_eq_true] at this
    exact this
  refine ⟨tabICFG_wfv h1, fun f => ?_, fun _ => rfl, fun n => ?_, fun n v k hi => ?_, fun f => ?_, fun n as hi f hfc ha hd => ?_, hapi,
    fun n f hfc ha => ?_, fun n hi => ?_, fun n v hi => ?_, fun n v k hi hm => ?_, fun sp hsp => ?_⟩
  · exact fn_all (P := fun f => f.params.Nodup) (fun f hf' => of_decide_eq_true (hf f hf').1) (by decide) f
  · by_cases hn : n < t.rows.length
    · simpa using (hrow n hn).1
    · have : t.prog.icf.funOf n = n := by
        show (tabRow _ n).fn = n
        rw [row_ge hn]
      rw [this]
      show n ∉ (t.fn n).params
      unfold fn
      rw [List.getElem?_eq_none (by omega)]
      exact List.not_mem_nil
  · have := (hrow n (hin n (by rw [hi]; nofun))).2
    rw [hi] at this
    simp only [Bool.and_eq_true] at this
    simpa using this.1.2
  · refine fn_all (P := fun f => f.varArg = true → f.decl = false → f.vaLists ≠ []) (fun f hf' hv hd => ?_) (by decide) f
    have := (hf f hf').2
    rw [hv, hd] at this
    simpa using this
  · have := (hrow n (hin n (by rw [hi]; nofun))).2
    rw [hi] at this
    have := List.all_eq_true.1 this f hfc
    rw [ha, hd] at this
    simpa using this
  · by_cases hn : n < t.rows.length
    · have := List.all_eq_true.1 (h4 n (List.mem_range.2 hn)) f hfc
      rw [ha] at this
      simpa using this
    · have : t.prog.icf.callees n = [] := by
        show ((tabRow _ n).call.getD ([], [])).1 = []
        rw [row_ge hn]; rfl
      rw [this] at hfc; cases hfc
  · have := (hrow n (hin n (by rw [hi]; nofun))).2
    rw [hi] at this
    simp at this
  · have := (hrow n (hin n (by rw [hi]; nofun))).2
    rw [hi] at this
    simp at this
  · have hn := hin n (by rw [hi]; nofun)
    have := (hrow n hn).2
    rw [hi] at this
    simp only [Bool.and_eq_true, hm, Bool.not_true, Bool.false_or] at this
    refine ⟨by simpa using this.2.1, List.mem_filter.2 ⟨List.mem_range.2 hn, ?_⟩, fun q hq => ?_⟩
    · have hi' : t.inst n = .store v k := hi
      rw [hi']; simp [ops]
    · have := this.2.2
      rw [hq] at this
      cases this
  · have : sp = 0 := List.mem_singleton.1 hsp
    subst this
    simpa using h5

end Tab

/-! ### Reachable arrangements -/

/-- What the variables point to, as a list. -/
abbrev Env := List (Nat × Nat)

/-- Pending calls, statement, variables and number of objects. -/
structure Arr where
  stk : List (Nat × Env)
  n : Nat
  env : Env
  next : Nat
deriving DecidableEq, Repr

/-- The list gives what the variables point to. -/
def EnvOf (e : Env) (loc : Nat → Option Nat) : Prop := ∀ k, loc k = e.lookup k

/-- Assignment. -/
def Env.set (e : Env) (k : Nat) (x : Option Nat) : Env := (x.map fun o => (k, o)).toList ++ e.filter fun q => q.1 != k

theorem lookup_filter (e : Env) (q : Nat → Bool) (k : Nat) :
    (e.filter fun x => q x.1).lookup k = if q k then e.lookup k else none := by
  induction e with
  | nil => simp
  | cons x e ih =>
    obtain ⟨a, o⟩ := x
    rw [List.filter_cons, List.lookup_cons]
    by_cases ha : k = a
    · subst ha
      cases hq : q k <;> simp [ih, hq]
    · have : (k == a) = false := by simpa using ha
      rw [this]
      split
      · rw [List.lookup_cons, this]; exact ih
      · exact ih

theorem EnvOf.set {e : Env} {loc : Nat → Option Nat} (h : EnvOf e loc) (k : Nat) {x y : Option Nat} (hx : x = y) :
    EnvOf (e.set k x) (upd loc k y) := by
  subst hx
  intro j
  have hf := lookup_filter e (fun i => i != k) j
  unfold upd Env.set
  cases x with
  | none =>
    show _ = (e.filter fun q => q.1 != k).lookup j
    rw [hf]
    by_cases hj : j = k
    · simp [hj]
    · simp [hj, h j]
  | some o =>
    show _ = ((k, o) :: e.filter fun q => q.1 != k).lookup j
    rw [List.lookup_cons, hf]
    by_cases hj : j = k
    · simp [hj]
    · have : (j == k) = false := by simpa using hj
      simp [hj, this, h j]

namespace Prog
variable {S : Type} [DecidableEq S] (p : Prog S)

theorem envOf_forget {e : Env} {loc : Nat → Option Nat} (h : EnvOf e loc) (keep : Nat → Nat → Bool) (n : Nat) :
    EnvOf (e.filter fun q => keep n q.1) (forget keep n loc) := by
  intro k
  rw [lookup_filter e (keep n)]
  unfold Prog.forget
  split
  · exact h k
  · rfl

/-- The variables of the called function. -/
def bindEnv (f : Nat) (as : List Nat) (e : Env) : Env :=
  ((p.params f).zip as).filterMap fun q => (e.lookup q.2).map fun o => (q.1, o)

theorem bind_aux {ps as : List Nat} {e : Env} {loc : Nat → Option Nat} (h : EnvOf e loc) (hn : ps.Nodup) (k : Nat) :
    ((ps.idxOf? k).bind fun i => as[i]?.bind loc) =
      ((ps.zip as).filterMap fun q => (e.lookup q.2).map fun o => (q.1, o)).lookup k := by
  induction ps generalizing as with
  | nil => simp
  | cons q ps ih =>
    rw [List.nodup_cons] at hn
    cases as with
    | nil =>
      cases (q :: ps).idxOf? k <;> simp
    | cons a as =>
      rw [List.zip_cons_cons, List.filterMap_cons, List.idxOf?_cons]
      have ih := ih (as := as) hn.2
      by_cases hq : q = k
      · subst hq
        simp only [beq_self_eq_true, if_true, Option.bind_some, List.getElem?_cons_zero]
        rw [h a]
        cases he : e.lookup a with
        | some o => simp
        | none =>
          simp only [Option.map_none]
          rw [← ih]
          have : ps.idxOf? q = none := List.idxOf?_eq_none_iff.2 hn.1
          rw [this]; rfl
      · have hq1 : (q == k) = false := by simpa using hq
        have hq2 : (k == q) = false := by simpa using fun h => hq h.symm
        rw [hq1]
        have : ((if false = true then some 0 else (ps.idxOf? k).map (· + 1)).bind fun i => (a :: as)[i]?.bind loc) =
            (ps.idxOf? k).bind fun i => as[i]?.bind loc := by
          cases ps.idxOf? k <;> simp
        rw [this, ih]
        cases he : e.lookup a with
        | some o => rw [Option.map_some, List.lookup_cons, hq2]
        | none => simp

theorem envOf_bind {f : Nat} {as : List Nat} {e : Env} {loc : Nat → Option Nat} (h : EnvOf e loc) (hn : (p.params f).Nodup) :
    EnvOf (p.bindEnv f as e) (p.bind f as loc) := fun k => bind_aux h hn k

/-- The arrangement of a state. -/
structure Fits (a : Arr) (t : CState S) : Prop where
  n : t.n = a.n
  env : EnvOf a.env t.loc
  next : t.next = a.next
  len : a.stk.length = t.stk.length
  stk : ∀ (i : Nat) (x : Nat × Env) (y : Nat × (Nat → Option Nat)), a.stk[i]? = some x → t.stk[i]? = some y → x.1 = y.1 ∧ EnvOf x.2 y.2

/-- What a statement other than a call does: variables and number of objects. -/
def effects (n : Nat) (e : Env) (nx : Nat) : Env × Nat :=
  match p.inst n with
  | .alloca _ => if p.matching n then (e.set n (some nx), nx + 1) else (e.set n none, nx)
  | .load k => if p.matching n then (e.set n (e.lookup k), nx) else (e.set n none, nx)
  | .store v k => if p.matching n then (e.set k (e.lookup v), nx) else (e.set k none, nx)
  | _ => (e.set n none, nx)

/-- All arrangements behind one step (and possibly more). -/
def nexts (keep : Nat → Nat → Bool) (a : Arr) : List Arr :=
  let go := fun (stk : List (Nat × Env)) (e : Env) (nx : Nat) (n : Nat) => Arr.mk stk n (e.filter fun q => keep n q.1) nx
  if p.icf.isCall a.n then
    (match p.inst a.n with
      | .call as => (p.icf.callees a.n).flatMap fun f =>
          if p.isAPI (p.name f) || p.isDecl f then [] else
            (p.icf.starts f).map fun sp => go ((a.n, a.env) :: a.stk) (p.bindEnv f as a.env) a.next sp
      | _ => []) ++
    (match p.icf.callees a.n with
      | [f] => if p.desc.isFactory (p.name f) then
          (p.icf.retSites a.n).map fun r => go a.stk (a.env.set a.n (some a.next)) (a.next + 1) r
        else []
      | _ => []) ++
    (if (p.icf.callees a.n).all p.isDecl then (p.icf.retSites a.n).map fun r => go a.stk (a.env.set a.n none) a.next r else [])
  else
    (p.icf.succs a.n).map (fun n' => go a.stk (p.effects a.n a.env a.next).1 (p.effects a.n a.env a.next).2 n') ++
    (match a.stk, p.inst a.n with
      | (c, e) :: stk, .ret v => (p.icf.retSites c).map fun r => go stk (e.set c (v.bind fun k => a.env.lookup k)) a.next r
      | _, _ => [])

variable {p}

theorem effects_fits {n nx nx' : Nat} {e : Env} {loc loc' : Nat → Option Nat} {st st' : Nat → S} (h : EnvOf e loc)
    (he : p.Effect n loc st nx loc' st' nx') : EnvOf (p.effects n e nx).1 loc' ∧ nx' = (p.effects n e nx).2 := by
  unfold effects
  cases he with
  | alloca t hi hm => simp only [hi, hm, if_true]; exact ⟨h.set _ rfl, by trivial⟩
  | load k hi hm => simp only [hi, hm, if_true]; exact ⟨h.set _ (h k).symm, by trivial⟩
  | store v k hi hm => simp only [hi, hm, if_true]; exact ⟨h.set _ (h v).symm, by trivial⟩
  | storeOther v k hi hm => simp only [hi, hm]; exact ⟨h.set _ rfl, rfl⟩
  | other h1 h2 =>
    cases hi : p.inst n with
    | alloca t => simp only [h2 (.inl ⟨t, hi⟩)]; exact ⟨h.set _ rfl, rfl⟩
    | load k => simp only [h2 (.inr ⟨k, hi⟩)]; exact ⟨h.set _ rfl, rfl⟩
    | store v k => exact absurd hi (h1 v k)
    | _ => exact ⟨h.set _ rfl, rfl⟩

theorem nexts_fits (hn : ∀ f, (p.params f).Nodup) {keep : Nat → Nat → Bool} {a : Arr} {s t : CState S} (hf : Fits a s)
    (h : p.CStep keep s t) : ∃ b ∈ p.nexts keep a, Fits b t := by
  obtain ⟨f1, f2, f3, f4, f5⟩ := hf
  obtain ⟨astk, an, aenv, anx⟩ := a
  cases h with
  | @normal stk n loc st nx n' loc' st' nx' hc hn' he =>
    subst f1 f3
    obtain ⟨e1, e2⟩ := effects_fits f2 he
    unfold nexts
    simp only [hc, Bool.false_eq_true, if_false]
    refine ⟨_, List.mem_append_left _ (List.mem_map.2 ⟨n', hn', rfl⟩), ?_⟩
    exact ⟨rfl, envOf_forget e1 keep n', e2, f4, f5⟩
  | @call stk n loc st nx as f sp hc hi hf ha hd hsp =>
    subst f1 f3
    unfold nexts
    simp only [hc, if_true, hi]
    refine ⟨⟨(n, aenv) :: astk, sp, (p.bindEnv f as aenv).filter fun q => keep sp q.1, nx⟩,
      List.mem_append_left _ (List.mem_append_left _ (List.mem_flatMap.2 ⟨f, hf, ?_⟩)), ?_⟩
    · simp only [ha, hd]
      exact List.mem_map.2 ⟨sp, hsp, rfl⟩
    · refine ⟨rfl, envOf_forget (envOf_bind p f2 (hn f)) keep sp, rfl, by simpa using f4, fun i x y hx hy => ?_⟩
      cases i with
      | zero => cases hx; cases hy; exact ⟨rfl, f2⟩
      | succ i => exact f5 i x y hx hy
  | @ret stk c locc n loc st nx r v hc hex hi hr =>
    subst f1 f3
    unfold nexts
    simp only [hc, Bool.false_eq_true, if_false, hi]
    cases astk with
    | nil => cases f4
    | cons x astk =>
      obtain ⟨c', e⟩ := x
      obtain ⟨h1, h2⟩ := f5 0 _ _ rfl rfl
      simp only at h1 h2
      subst h1
      refine ⟨_, List.mem_append_right _ (List.mem_map.2 ⟨r, hr, rfl⟩), ?_⟩
      refine ⟨rfl, envOf_forget (h2.set c' ?_) keep r, rfl, by simpa using f4, fun i x y hx hy => f5 (i + 1) x y hx hy⟩
      cases v with
      | none => rfl
      | some k => exact (f2 k).symm
  | @factory stk n loc st nx as f r s' hc hi hf hfac hs hr =>
    subst f1 f3
    unfold nexts
    simp only [hc, if_true, hf, hfac]
    refine ⟨_, List.mem_append_left _ (List.mem_append_right _ (List.mem_map.2 ⟨r, hr, rfl⟩)), ?_⟩
    exact ⟨rfl, envOf_forget (f2.set n rfl) keep r, rfl, f4, f5⟩
  | @consume stk n loc st nx as f r i a o s' hc hi hf hd _ _ _ _ _ _ hr =>
    subst f1 f3
    unfold nexts
    simp only [hc, if_true]
    refine ⟨⟨astk, r, (aenv.set n none).filter fun q => keep r q.1, nx⟩, List.mem_append_right _ ?_, ?_⟩
    · rw [if_pos (by simp [hf, hd])]; exact List.mem_map.2 ⟨r, hr, rfl⟩
    · exact ⟨rfl, envOf_forget (f2.set n rfl) keep r, rfl, f4, f5⟩
  | @consumeOther stk n loc st nx as f r i a hc hi hf hd _ _ _ _ _ hr =>
    subst f1 f3
    unfold nexts
    simp only [hc, if_true]
    refine ⟨⟨astk, r, (aenv.set n none).filter fun q => keep r q.1, nx⟩, List.mem_append_right _ ?_, ?_⟩
    · rw [if_pos (by simp [hf, hd])]; exact List.mem_map.2 ⟨r, hr, rfl⟩
    · exact ⟨rfl, envOf_forget (f2.set n rfl) keep r, rfl, f4, f5⟩
  | @extern stk n loc st nx as r hc hi hne hall hr =>
    subst f1 f3
    unfold nexts
    simp only [hc, if_true]
    refine ⟨⟨astk, r, (aenv.set n none).filter fun q => keep r q.1, nx⟩, List.mem_append_right _ ?_, ?_⟩
    · rw [if_pos (List.all_eq_true.2 fun g hg => (hall g hg).1)]; exact List.mem_map.2 ⟨r, hr, rfl⟩
    · exact ⟨rfl, envOf_forget (f2.set n rfl) keep r, rfl, f4, f5⟩

/-- A set of arrangements that contains the initial ones and is closed under steps. -/
theorem reached_fits (hn : ∀ f, (p.params f).Nodup) {keep : Nat → Nat → Bool} {as : List Arr}
    (hclosed : ∀ a ∈ as, ∀ b ∈ p.nexts keep a, b ∈ as) (h0 : ∀ sp ∈ p.entries, (⟨[], sp, [], 0⟩ : Arr) ∈ as) {t : CState S}
    (h : p.Reached keep t) : ∃ a ∈ as, Fits a t := by
  obtain ⟨s, ⟨h1, h2, h3, h4⟩, h⟩ := h
  induction h with
  | refl => exact ⟨_, h0 _ h2, rfl, h3, h4, by rw [h1]; rfl, fun i x y hx => by cases hx⟩
  | tail _ hst ih =>
    obtain ⟨a, ha, hf⟩ := ih
    obtain ⟨b, hb, hf⟩ := nexts_fits hn hf hst
    exact ⟨b, hclosed a ha b hb, hf⟩

/-- The requirements of `AliasOk` for one variable at a call. -/
def aliasVar (p : Prog S) (a : Arr) (k : Nat) : Bool :=
  let pass := fun x => (p.args a.n).contains x && a.env.lookup x == a.env.lookup k
  (match p.icf.callees a.n with
    | [f] => !p.desc.isConsuming (p.name f) || (match p.desc.consumerParamIdx (p.name f) with
      | [i] => (match (p.args a.n)[i]? with
        | some x => (p.aliasesAndAllocas x).contains k == (a.env.lookup x == a.env.lookup k)
        | none => true)
      | _ => true)
    | _ => true) &&
  (p.icf.callees a.n).all fun f => p.isAPI (p.name f) || p.isDecl f ||
    ((!(p.args a.n).any pass || (p.args a.n).any fun x => pass x && (k == x || (p.relAllocas x).contains k)) &&
     (p.args a.n).all fun x => !p.matching x || !(p.aliasesAndAllocas x).contains k || (p.args a.n).any pass)

/-- The requirements of `AliasOk` for an arrangement. -/
def aliasRow (p : Prog S) (keep : Nat → Nat → Bool) (a : Arr) : Bool :=
  (p.icf.retSites a.n).all fun r => a.env.all fun q => q.1 == a.n || !keep r q.1 || p.aliasVar a q.1

theorem mem_of_lookup {X : Type} {e : List (Nat × X)} {k : Nat} {o : X} (h : e.lookup k = some o) : (k, o) ∈ e := by
  induction e with
  | nil => cases h
  | cons x e ih =>
    rw [List.lookup_cons] at h
    split at h
    · rename_i hk
      cases h
      rw [eq_of_beq hk]; exact List.mem_cons_self
    · exact List.mem_cons_of_mem _ (ih h)

theorem alias_ok (hn : ∀ f, (p.params f).Nodup) {keep : Nat → Nat → Bool} {as : List Arr}
    (hclosed : ∀ a ∈ as, ∀ b ∈ p.nexts keep a, b ∈ as) (h0 : ∀ sp ∈ p.entries, (⟨[], sp, [], 0⟩ : Arr) ∈ as)
    (hal : ∀ a ∈ as, p.aliasRow keep a = true) : p.AliasOk keep := by
  have key : ∀ t, p.Reached keep t → ∃ a, Fits a t ∧ ∀ r ∈ p.icf.retSites t.n, ∀ k o, k ≠ t.n → keep r k = true →
      t.loc k = some o → p.aliasVar a k = true := by
    intro t ht
    obtain ⟨a, ha, hf⟩ := reached_fits hn hclosed h0 ht
    refine ⟨a, hf, fun r hr k o hk hke hl => ?_⟩
    rw [hf.env k] at hl
    rw [hf.n] at hr hk
    have := List.all_eq_true.1 (List.all_eq_true.1 (hal a ha) r hr) _ (mem_of_lookup hl)
    simpa [hk, hke] using this
  have hplain : ∀ t, p.Reached keep t → ∀ f ∈ p.icf.callees t.n, p.isAPI (p.name f) = false → p.isDecl f = false →
      ∀ r ∈ p.icf.retSites t.n, ∀ k o, k ≠ t.n → keep r k = true → t.loc k = some o →
      ∃ a, Fits a t ∧ (let pass := fun x => (p.args a.n).contains x && a.env.lookup x == a.env.lookup k
      ((!(p.args a.n).any pass || (p.args a.n).any fun x => pass x && (k == x || (p.relAllocas x).contains k)) &&
     (p.args a.n).all fun x => !p.matching x || !(p.aliasesAndAllocas x).contains k || (p.args a.n).any pass) = true) := by
    intro t ht f hf ha hd r hr k o hk hke hl
    obtain ⟨a, hfit, h⟩ := key t ht
    refine ⟨a, hfit, ?_⟩
    have := h r hr k o hk hke hl
    unfold aliasVar at this
    simp only [Bool.and_eq_true] at this
    have := List.all_eq_true.1 this.2 f (by rw [← hfit.n]; exact hf)
    rw [ha, hd] at this
    simpa only [Bool.false_or] using this
  have hpass : ∀ {t : CState S} {a : Arr} {k o x : Nat}, Fits a t → t.loc k = some o →
      (p.Passes t.n t.loc o x ↔ ((p.args a.n).contains x && a.env.lookup x == a.env.lookup k) = true) := by
    intro t a k o x hf hl
    unfold Passes
    rw [hf.n, hf.env x, ← hl, hf.env k]
    simp
  refine ⟨fun t ht f i x hc hcon hidx hx r hr k o hk hke hl => ?_, fun t ht f hf ha hd r hr k o hk hke hl hp => ?_,
    fun t ht f hf ha hd r hr k o x hk hke hl hx hm hkx => ?_⟩
  · obtain ⟨a, hfit, h⟩ := key t ht
    have := h r hr k o hk hke hl
    unfold aliasVar at this
    rw [hfit.n] at hc hx
    simp only [hc, hcon, hidx, hx, Bool.not_true, Bool.false_or, Bool.and_eq_true] at this
    have h1 := eq_of_beq this.1
    rw [hfit.env x, ← hl, hfit.env k]
    rw [← List.contains_iff_mem, h1, beq_iff_eq]
  · obtain ⟨a, hfit, h⟩ := hplain t ht f hf ha hd r hr k o hk hke hl
    simp only [Bool.and_eq_true] at h
    obtain ⟨x, hx⟩ := hp
    have hany : ((p.args a.n).any fun x => (p.args a.n).contains x && a.env.lookup x == a.env.lookup k) = true :=
      List.any_eq_true.2 ⟨x, by rw [← hfit.n]; exact hx.1, (hpass hfit hl).1 hx⟩
    have h1 := h.1
    rw [hany] at h1
    simp only [Bool.not_true, Bool.false_or] at h1
    obtain ⟨y, _, hy⟩ := List.any_eq_true.1 h1
    rw [Bool.and_eq_true] at hy
    refine ⟨y, (hpass hfit hl).2 hy.1, ?_⟩
    simpa using hy.2
  · obtain ⟨a, hfit, h⟩ := hplain t ht f hf ha hd r hr k o hk hke hl
    simp only [Bool.and_eq_true] at h
    rw [hfit.n] at hx
    have := List.all_eq_true.1 h.2 x hx
    rw [hm, List.contains_iff_mem.2 hkx] at this
    simp only [Bool.not_true, Bool.false_or] at this
    obtain ⟨y, _, hy⟩ := List.any_eq_true.1 this
    exact ⟨y, (hpass hfit hl).2 hy⟩

/-- The arrangements that are reached in at most `fuel` rounds. -/
def arrs (p : Prog S) (keep : Nat → Nat → Bool) : Nat → List Arr → List Arr → List Arr
  | 0, _, acc => acc
  | fuel + 1, todo, acc =>
    let new := (todo.flatMap (p.nexts keep)).eraseDups.filter fun b => !acc.contains b
    arrs p keep fuel new (acc ++ new)

end Prog
end Phasar.TypeState
