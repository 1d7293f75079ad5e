import Verif.CFG.Globals
/-! # Lemmas about the model of `GlobalCtorsDtorsModel` -/
namespace Phasar.Globals

open Phasar.StringID (Str ascii)

/-! ### Order of the maps -/

theorem emplace_mem {lt : Nat → Nat → Bool} {p f : Nat} {L : List (Nat × Nat)} {x : Nat × Nat} :
    x ∈ emplace lt p f L ↔ x = (p, f) ∨ x ∈ L := by
  induction L with
  | nil => simp [emplace]
  | cons d L ih =>
    obtain ⟨q, g⟩ := d
    unfold emplace
    split
    · simp
    · simp only [List.mem_cons, ih]
      constructor
      · rintro (h | h | h) <;> simp [h]
      · rintro (h | h | h) <;> simp [h]

theorem emplace_ordered {lt : Nat → Nat → Bool} {le : Nat → Nat → Prop} (hlt : ∀ a b, lt a b = true ↔ ¬ le b a)
    (htr : ∀ a b c, le a b → le b c → le a c) (hto : ∀ a b, le a b ∨ le b a) {ds L : List (Nat × Nat)} (h : Ordered le ds L) (p f : Nat) :
    Ordered le (ds ++ [(p, f)]) (emplace lt p f L) := by
  have hrefl : ∀ a, le a a := fun a => (hto a a).elim id id
  constructor
  · have := h.1
    clear h
    induction L with
    | nil => simp [emplace]
    | cons d L ih =>
      obtain ⟨q, g⟩ := d
      have hc := List.pairwise_cons.1 this
      unfold emplace
      split
      · rename_i hl
        have hpq : le p q := (hto p q).elim id (fun h => absurd h ((hlt p q).1 hl))
        refine List.pairwise_cons.2 ⟨fun x hx => ?_, this⟩
        rcases List.mem_cons.1 hx with e | hx
        · rw [e]; exact hpq
        · exact htr _ _ _ hpq (hc.1 x hx)
      · rename_i hl
        have hqp : le q p := Classical.byContradiction (fun hn => hl ((hlt p q).2 hn))
        refine List.pairwise_cons.2 ⟨fun x hx => ?_, ih hc.2⟩
        rcases emplace_mem.1 hx with e | hx
        · rw [e]; exact hqp
        · exact hc.1 x hx
  · intro k
    rw [List.filter_append, ← h.2 k]
    have hs := h.1
    clear h
    induction L with
    | nil => simp [emplace]
    | cons d L ih =>
      obtain ⟨q, g⟩ := d
      have hc := List.pairwise_cons.1 hs
      unfold emplace
      split
      · rename_i hl
        have hnone : p = k → ((q, g) :: L).filter (fun d => decide (d.1 = k)) = [] := by
          intro e
          refine List.filter_eq_nil_iff.2 (fun x hx => ?_)
          have hq := (hlt p q).1 hl
          have : x.1 ≠ k := by
            rcases List.mem_cons.1 hx with ex | hx
            · rw [ex, ← e]; intro e2; exact hq (by show le q p; rw [show q = p from e2]; exact hrefl p)
            · intro e2
              have := hc.1 x hx
              exact hq (by rw [e, ← e2]; exact this)
          simpa using this
        rcases Classical.em (p = k) with e | e
        · rw [hnone e, List.filter_cons_of_pos (by simp [e]), hnone e]
          simp [e]
        · rw [List.filter_cons_of_neg (by simp [e])]
          simp [e]
      · rw [List.filter_cons, List.filter_cons, ih hc.2]
        split <;> simp

theorem insertGtors_ordered {lt : Nat → Nat → Bool} {le : Nat → Nat → Prop} (hlt : ∀ a b, lt a b = true ↔ ¬ le b a)
    (htr : ∀ a b c, le a b → le b c → le a c) (hto : ∀ a b, le a b ∨ le b a) (v : Option (List (Option Desc))) :
    Ordered le (declared v) (insertGtors lt v) := by
  cases v with
  | none => exact ⟨List.Pairwise.nil, fun p => rfl⟩
  | some ds =>
    unfold insertGtors declared
    simp only [Option.getD_some]
    have key : ∀ (ds : List (Option Desc)) (pre L : List (Nat × Nat)), Ordered le pre L →
        Ordered le (pre ++ ds.filterMap (fun d => d.bind (fun e => e.prio.bind (fun p => e.fn.map (fun f => (p, f))))))
          (ds.foldl (gtorStep lt) L) := by
      intro ds
      induction ds with
      | nil => intro pre L h; simpa using h
      | cons d ds ih =>
        intro pre L h
        match d with
        | none => simpa [gtorStep] using ih pre L h
        | some ⟨none, none⟩ => simpa [gtorStep] using ih pre L h
        | some ⟨none, some p⟩ => simpa [gtorStep] using ih pre L h
        | some ⟨some f, none⟩ => simpa [gtorStep] using ih pre L h
        | some ⟨some f, some p⟩ =>
          have := ih (pre ++ [(p, f)]) (emplace lt p f L) (emplace_ordered hlt htr hto h p f)
          simpa [gtorStep] using this
    simpa using key ds [] [] ⟨List.Pairwise.nil, fun p => rfl⟩

theorem Ordered.mem {le : Nat → Nat → Prop} {ds L : List (Nat × Nat)} (h : Ordered le ds L) {d : Nat × Nat} : d ∈ L ↔ d ∈ ds := by
  have := h.2 d.1
  constructor
  · intro hm
    have : d ∈ ds.filter (fun e => decide (e.1 = d.1)) := by rw [← this]; simp [hm]
    exact (List.mem_filter.1 this).1
  · intro hm
    have : d ∈ L.filter (fun e => decide (e.1 = d.1)) := by rw [this]; simp [hm]
    exact (List.mem_filter.1 this).1

theorem ctors_ordered (m : GMod) : Ordered (· ≤ ·) (declared m.ctors) (collectGlobalCtors m) :=
  insertGtors_ordered (lt := fun a b => decide (a < b)) (le := (· ≤ ·)) (fun a b => by simp) (fun _ _ _ => Nat.le_trans) Nat.le_total _

theorem dtors_ordered (m : GMod) : Ordered (· ≥ ·) (declared m.dtors) (collectGlobalDtors m) :=
  insertGtors_ordered (lt := fun a b => decide (b < a)) (le := (· ≥ ·)) (fun a b => by simp) (fun _ _ _ h1 h2 => Nat.le_trans h2 h1) (fun a b => Nat.le_total b a) _

theorem emplace_last (f : Nat) (L : List (Nat × Nat)) : emplace (fun a b => decide (b < a)) 0 f L = L ++ [(0, f)] := by
  induction L with
  | nil => rfl
  | cons d L ih => simp [emplace, ih]

/-! ### Registered destructors -/

theorem regStep_ok {u : User} (h : u.call = true → 2 ≤ u.args.length) (p : List (Nat × Opnd) × List (Nat × Opnd)) :
    regStep p u = some (if varInit <:+: u.inName then (p.1 ++ u.reg.toList, p.2) else (p.1, p.2 ++ u.reg.toList)) := by
  unfold regStep User.reg
  cases hc : u.call with
  | false => simp
  | true =>
    have hl := h hc
    match ha : u.args with
    | [] => rw [ha] at hl; simp at hl
    | [a] => rw [ha] at hl; simp at hl
    | a :: b :: r =>
      simp only [Bool.not_true, Bool.false_eq_true, if_false, List.getElem?_cons_zero, List.getElem?_cons_succ]
      cases stripExpr a <;> simp only [Option.toList_some, Option.toList_none, List.append_nil, ite_self]
      split <;> rfl

theorem collectRegistered_ok {m : GMod} (h : ∀ u ∈ m.atexit.getD [], u.call = true → 2 ≤ u.args.length) :
    collectRegistered m = some (registered m) := by
  unfold collectRegistered registered
  cases hm : m.atexit with
  | none => rfl
  | some us =>
    rw [hm] at h
    simp only [Option.getD_some] at h ⊢
    have key : ∀ (us : List User), (∀ u ∈ us, u.call = true → 2 ≤ u.args.length) → ∀ p, us.foldlM regStep p =
        some (p.1 ++ (us.filter (fun u => decide (varInit <:+: u.inName))).filterMap User.reg,
          p.2 ++ (us.filter (fun u => decide (¬ varInit <:+: u.inName))).filterMap User.reg) := by
      intro us
      induction us with
      | nil => intro _ p; simp
      | cons u us ih =>
        intro h p
        rw [List.foldlM_cons, regStep_ok (h u List.mem_cons_self)]
        show us.foldlM regStep _ = _
        rw [ih (fun v hv => h v (List.mem_cons_of_mem _ hv))]
        by_cases hi : varInit <:+: u.inName
        · simp only [hi, if_true, List.filter_cons, decide_true, not_true, decide_false, Bool.false_eq_true, if_false]
          cases hr : u.reg <;> simp [hr]
        · simp only [hi, if_false, List.filter_cons, decide_false, not_false_eq_true, decide_true, if_true, Bool.false_eq_true]
          cases hr : u.reg <;> simp [hr]
    rw [key us h]
    simp

/-! ### Changes of the module -/

/-- Name and parameters of a function. -/
def sig (m : GMod) (f : Nat) : Option (Str × List Nat) := (fnOf m f).map (fun g => (g.name, g.params))

/-- The blocks of a function. -/
def kindsOf (m : GMod) (f : Nat) : Option (List (List Kind)) := (fnOf m f).map GFn.kinds

theorem number_kinds (bs : List (List Kind)) : ∀ n, (number n bs).map (fun b => b.map Prod.snd) = bs := by
  induction bs with
  | nil => intro n; rfl
  | cons b bs ih =>
    intro n
    simp only [number, List.map_cons, ih, List.map_map]
    congr 1
    have : (Prod.snd ∘ fun p : Kind × Nat => (p.2, p.1)) = Prod.fst := rfl
    rw [this, List.zipIdx_map_fst]

theorem fnOf_addBlocks (m : GMod) (f : Nat) (bs : List (List Kind)) (x : Nat) :
    fnOf (addBlocks m f bs) x = (fnOf m x).map (fun g => if g.id = f then { g with blocks := g.blocks ++ number m.next bs } else g) := by
  unfold fnOf addBlocks
  simp only [List.find?_map]
  congr 1
  congr 1
  funext g
  simp only [Function.comp]
  split <;> rfl

theorem fnOf_id {m : GMod} {x : Nat} {g : GFn} (h : fnOf m x = some g) : g.id = x := by
  have := List.find?_some h
  simpa using this

theorem sig_addBlocks (m : GMod) (f : Nat) (bs : List (List Kind)) (x : Nat) : sig (addBlocks m f bs) x = sig m x := by
  unfold sig
  rw [fnOf_addBlocks, Option.map_map]
  congr 1
  funext g
  simp only [Function.comp]
  split <;> rfl

theorem kinds_addBlocks (m : GMod) (f : Nat) (bs : List (List Kind)) (x : Nat) :
    kindsOf (addBlocks m f bs) x = if x = f then (kindsOf m x).map (· ++ bs) else kindsOf m x := by
  unfold kindsOf
  rw [fnOf_addBlocks]
  cases h : fnOf m x with
  | none => simp
  | some g =>
    have := fnOf_id h
    simp only [Option.map_some, this]
    split
    · rename_i e
      simp [GFn.kinds, number_kinds]
    · rfl

theorem fnNamed_addBlocks (m : GMod) (f : Nat) (bs : List (List Kind)) (n : Str) :
    (fnNamed (addBlocks m f bs) n).map (fun g => (g.id, g.params)) = (fnNamed m n).map (fun g => (g.id, g.params)) := by
  unfold fnNamed addBlocks
  split
  · rfl
  · simp only [List.find?_map]
    have : ((fun g : GFn => decide (g.name = n)) ∘ fun g => if g.id = f then { g with blocks := g.blocks ++ number m.next bs } else g)
        = fun g => decide (g.name = n) := by
      funext g
      simp only [Function.comp]
      split <;> rfl
    rw [this, Option.map_map]
    congr 1
    funext g
    simp only [Function.comp]
    split <;> rfl

/-- Everything is below `next`. -/
structure Below (m : GMod) : Prop where
  ids : ∀ g ∈ m.fns, g.id < m.next
  insts : ∀ g ∈ m.fns, ∀ b ∈ g.blocks, ∀ p ∈ b, p.1 < m.next

theorem Below.fresh {m : GMod} (h : Below m) {x : Nat} (hx : m.next ≤ x) : fnOf m x = none := by
  unfold fnOf
  refine List.find?_eq_none.2 (fun g hg => ?_)
  have := h.ids g hg
  have : g.id ≠ x := by omega
  simpa using this

theorem number_ids (bs : List (List Kind)) : ∀ n, ∀ b ∈ number n bs, ∀ p ∈ b, n ≤ p.1 ∧ p.1 < n + bs.flatten.length := by
  induction bs with
  | nil => intro n b hb; cases hb
  | cons c bs ih =>
    intro n b hb p hp
    simp only [number, List.mem_cons] at hb
    simp only [List.flatten_cons, List.length_append]
    rcases hb with e | hb
    · rw [e, List.mem_map] at hp
      obtain ⟨q, hq, e⟩ := hp
      obtain ⟨q1, q2⟩ := q
      have := List.mem_zipIdx hq
      rw [← e]
      simp only
      omega
    · have := ih _ b hb p hp
      omega

theorem Below.addBlocks {m : GMod} (h : Below m) (f : Nat) (bs : List (List Kind)) : Below (addBlocks m f bs) := by
  constructor
  · intro g hg
    simp only [Globals.addBlocks, List.mem_map] at hg ⊢
    obtain ⟨g', hg', e⟩ := hg
    have := h.ids g' hg'
    have : g.id = g'.id := by rw [← e]; split <;> rfl
    omega
  · intro g hg b hb p hp
    simp only [Globals.addBlocks, List.mem_map] at hg ⊢
    obtain ⟨g', hg', e⟩ := hg
    by_cases hf : g'.id = f
    · rw [if_pos hf] at e
      rw [← e] at hb
      rcases List.mem_append.1 hb with hb | hb
      · have := h.insts g' hg' b hb p hp; omega
      · exact (number_ids bs _ b hb p hp).2
    · rw [if_neg hf] at e
      rw [← e] at hb
      have := h.insts g' hg' b hb p hp; omega

/-- What `getOrInsertFunction` does for a new name. -/
structure Added (m m' : GMod) (x : Nat) (name : Str) (params : List Nat) : Prop where
  id : x = m.next
  next : m'.next = m.next + 1
  fns : m'.fns = m.fns ++ [⟨x, name, params, true, []⟩]
  rest : m'.name = m.name ∧ m'.ctors = m.ctors ∧ m'.dtors = m.dtors ∧ m'.atexit = m.atexit

theorem getOrInsert_new {m : GMod} {name : Str} (params : List Nat) (hn : ∀ g ∈ m.fns, g.name ≠ name) :
    ∃ m', getOrInsert m name params = some (m', m.next) ∧ Added m m' m.next name params := by
  have : fnNamed m name = none := by
    unfold fnNamed
    split
    · rfl
    · exact List.find?_eq_none.2 (fun g hg => by simpa using hn g hg)
  unfold getOrInsert
  rw [this]
  exact ⟨_, rfl, ⟨rfl, rfl, rfl, rfl, rfl, rfl, rfl⟩⟩

theorem Added.below {m m' : GMod} {x : Nat} {name : Str} {params : List Nat} (h : Added m m' x name params) (hb : Below m) : Below m' := by
  constructor
  · intro g hg
    rw [h.fns, List.mem_append] at hg
    rw [h.next]
    rcases hg with hg | hg
    · have := hb.ids g hg; omega
    · simp at hg; rw [hg]; simp [h.id]
  · intro g hg b hbb p hp
    rw [h.fns, List.mem_append] at hg
    rw [h.next]
    rcases hg with hg | hg
    · have := hb.insts g hg b hbb p hp; omega
    · simp at hg; rw [hg] at hbb; cases hbb

theorem Added.fnOf {m m' : GMod} {x : Nat} {name : Str} {params : List Nat} (h : Added m m' x name params) (hb : Below m) (y : Nat) :
    fnOf m' y = if y = x then some ⟨x, name, params, true, []⟩ else Globals.fnOf m y := by
  have hx := hb.fresh (x := x) (by rw [h.id]; omega)
  unfold Globals.fnOf at hx ⊢
  rw [h.fns, List.find?_append]
  split
  · rename_i e
    rw [e, hx]; simp
  · rename_i e
    cases List.find? (fun g : GFn => decide (g.id = y)) m.fns with
    | some g => rfl
    | none => simp [show ¬ x = y from fun h => e h.symm]

theorem Added.sig {m m' : GMod} {x : Nat} {name : Str} {params : List Nat} (h : Added m m' x name params) (hb : Below m) (y : Nat) :
    sig m' y = if y = x then some (name, params) else Globals.sig m y := by
  unfold Globals.sig
  rw [h.fnOf hb]
  split <;> rfl

theorem Added.kinds {m m' : GMod} {x : Nat} {name : Str} {params : List Nat} (h : Added m m' x name params) (hb : Below m) (y : Nat) :
    kindsOf m' y = if y = x then some [] else Globals.kindsOf m y := by
  unfold Globals.kindsOf
  rw [h.fnOf hb]
  split <;> rfl

/-! ### Executions -/

variable {gen : Nat → Option (List (List Kind))} {bs : List (List Kind)} {r : List Kind} {t : List Event}

theorem run_ret : Run gen bs (.ret :: r) t ↔ t = [] := by
  constructor
  · intro h; cases h; rfl
  · rintro rfl; exact .ret

theorem run_unreachable : ¬ Run gen bs (.unreachable :: r) t := fun h => by cases h

theorem run_ext {f : Nat} {as : List Opnd} (hf : gen f = none) :
    Run gen bs (.call f as :: r) t ↔ ∃ t', t = (f, as) :: t' ∧ Run gen bs r t' := by
  constructor
  · intro h
    cases h with
    | ext _ h => exact ⟨_, rfl, h⟩
    | int h => rw [hf] at h; cases h
  · rintro ⟨t', rfl, h⟩; exact .ext hf h

theorem run_exts (ks : List Event) (hf : ∀ k ∈ ks, gen k.1 = none) : ∀ {t},
    Run gen bs (ks.map (fun k => .call k.1 k.2) ++ r) t ↔ ∃ t', t = ks ++ t' ∧ Run gen bs r t' := by
  induction ks with
  | nil => intro t; simp
  | cons k ks ih =>
    intro t
    rw [List.map_cons, List.cons_append, run_ext (hf k List.mem_cons_self)]
    constructor
    · rintro ⟨t', rfl, h⟩
      obtain ⟨t'', rfl, h'⟩ := (ih (fun k hk => hf k (List.mem_cons_of_mem _ hk))).1 h
      exact ⟨t'', rfl, h'⟩
    · rintro ⟨t', rfl, h⟩
      exact ⟨ks ++ t', rfl, (ih (fun k hk => hf k (List.mem_cons_of_mem _ hk))).2 ⟨t', rfl, h⟩⟩

theorem run_int {f : Nat} {as : List Opnd} {b : List Kind} {bs' : List (List Kind)} (hf : gen f = some (b :: bs')) :
    Run gen bs (.call f as :: r) t ↔ ∃ t1 t2, t = t1 ++ t2 ∧ Run gen (b :: bs') b t1 ∧ Run gen bs r t2 := by
  constructor
  · intro h
    cases h with
    | ext h => rw [hf] at h; cases h
    | int h1 h2 h3 h4 =>
      rw [hf] at h1; injection h1 with h1; subst h1
      injection h2 with h2; subst h2
      exact ⟨_, _, rfl, h3, h4⟩
  · rintro ⟨t1, t2, rfl, h1, h2⟩
    exact .int hf rfl h1 h2

theorem run_br {k : Nat} {b : List Kind} (h : bs[k]? = some b) : Run gen bs (.br k :: r) t ↔ Run gen bs b t := by
  constructor
  · intro hr
    cases hr with
    | br h1 h2 => rw [h] at h1; injection h1 with h1; subst h1; exact h2
  · exact .br h

theorem run_switch {cs : List (Nat × Nat)} {d : Nat} (hd : bs[d]? = some [.unreachable]) :
    Run gen bs (.switch cs d :: r) t ↔ ∃ i k b, cs.lookup i = some k ∧ bs[k]? = some b ∧ Run gen bs b t := by
  constructor
  · intro hr
    cases hr with
    | switch h1 h2 h3 => exact ⟨_, _, _, h1, h2, h3⟩
    | default h1 h2 h3 => rw [hd] at h2; injection h2 with h2; subst h2; exact absurd h3 run_unreachable
  · rintro ⟨i, k, b, h1, h2, h3⟩
    exact .switch h1 h2 h3

end Phasar.Globals
