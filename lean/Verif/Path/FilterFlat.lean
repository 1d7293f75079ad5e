import Verif.Path.FilterStack
import Verif.Path.FilterInv
/-!
# Lemmas about the enumeration of paths
-/
namespace Phasar.PathFilter
open Phasar Dag
set_option linter.unusedSectionVars false

variable {N C M : Type} [DecidableEq N]

/-- The constraints of the steps of a path. -/
def cons (con : Constr N C) (l : List (N × N)) : List C := l.filterMap fun e => (con e.1 e.2).map (·.1)

theorem cons_append (con : Constr N C) (l l' : List (N × N)) : cons con (l ++ l') = cons con l ++ cons con l' := List.filterMap_append

theorem cons_iff {con : Constr N C} {holds : M → C → Prop} {m : M} {p : List N} :
    (∀ c ∈ cons con (pairs p), holds m c) ↔ Feasible con holds m p := by
  unfold cons Feasible
  constructor
  · intro h q hq c hc
    exact h c.1 (List.mem_filterMap.2 ⟨q, hq, by rw [hc]; rfl⟩)
  · intro h c hc
    obtain ⟨q, hq, hc⟩ := List.mem_filterMap.1 hc
    cases hx : con q.1 q.2 with
    | none => rw [hx] at hc; cases hc
    | some d => rw [hx] at hc; cases hc; exact h q hq d hx

/-- The state of the constraint filter but for what it remembers of atoms and the model. -/
structure CfOk (con : Constr N C) (add : C) (q : List N) (s : CPF C) : Prop where
  asserts : s.asserts = add :: cons con (pairs q)
  zero : ∀ n ∈ s.numAtoms, n = 0
  ne : s.numAtoms ≠ []
  need : s.need = false

/-- The state when the path `q` has been read. -/
structure Ok (j : Job N C) (add : C) (q : List N) (st : PSt N C) : Prop where
  path : st.path = q
  prev : st.prev = q.getLast?
  cs : CsOk st.cs (run j.p (some []) (pairs q))
  cf : CfOk j.con add q st.cf

/-- What a later state keeps until the destructors run. -/
structure Grown (st st' : PSt N C) : Prop where
  owner : ∃ ext, st'.cs.owner = st.cs.owner ++ ext
  safe : st'.cs.safe = st.cs.safe
  asserts : ∃ ext, st'.cf.asserts = st.cf.asserts ++ ext
  levels : st'.cf.levels = st.cf.levels
  num : st'.cf.numAtoms = st.cf.numAtoms
  path : ∃ ext, st'.path = st.path ++ ext

theorem Grown.refl (st : PSt N C) : Grown st st := ⟨⟨[], by simp⟩, rfl, ⟨[], by simp⟩, rfl, rfl, ⟨[], by simp⟩⟩

theorem Grown.trans {a b c : PSt N C} (h : Grown a b) (h' : Grown b c) : Grown a c := by
  obtain ⟨⟨e1, h1⟩, h2, ⟨e3, h3⟩, h4, h5, ⟨e6, h6⟩⟩ := h
  obtain ⟨⟨f1, g1⟩, g2, ⟨f3, g3⟩, g4, g5, ⟨f6, g6⟩⟩ := h'
  exact ⟨⟨e1 ++ f1, by rw [g1, h1]; simp⟩, g2.trans h2, ⟨e3 ++ f3, by rw [g3, h3]; simp⟩, g4.trans h4, g5.trans h5,
    ⟨e6 ++ f6, by rw [g6, h6]; simp⟩⟩

variable {j : Job N C} {add : C}

theorem cfSave_ok {q : List N} {s : CPF C} (h : CfOk j.con add q s) (a b : N) (hq : q.getLast? = some a) :
    CfOk j.con add (q ++ [b]) (s.saveEdge j.con a b) ∧ (∃ ext, (s.saveEdge j.con a b).asserts = s.asserts ++ ext) ∧
      (s.saveEdge j.con a b).levels = s.levels ∧ (s.saveEdge j.con a b).numAtoms = s.numAtoms := by
  rcases List.eq_nil_or_concat q with rfl | ⟨q', a', rfl⟩
  · cases hq
  · rw [List.concat_eq_append] at hq h ⊢
    simp at hq; subst hq
    have hp : cons j.con (pairs (q' ++ [a'] ++ [b])) = cons j.con (pairs (q' ++ [a'])) ++ ((j.con a' b).map (·.1)).toList := by
      rw [pairs_snoc, cons_append]
      cases hx : j.con a' b <;> simp [cons, hx]
    unfold CPF.saveEdge
    cases hx : j.con a' b with
    | none =>
      refine ⟨⟨?_, h.zero, h.ne, h.need⟩, ⟨[], by simp⟩, rfl, rfl⟩
      rw [h.asserts, hp, hx]; simp
    | some d =>
      refine ⟨⟨?_, h.zero, h.ne, h.need⟩, ⟨[d.1], rfl⟩, rfl, rfl⟩
      show s.asserts ++ [d.1] = _
      rw [h.asserts, hp, hx]; simp

theorem pushInst_ok {q : List N} {st : PSt N C} (h : Ok j add q st) (i : N) :
    ∃ st', pushInst j st i = some st' ∧ Ok j add (q ++ [i]) st' ∧ Grown st st' ∧ st'.ret = st.ret ∧ st'.done = st.done := by
  unfold pushInst
  rcases List.eq_nil_or_concat q with rfl | ⟨q', a, rfl⟩
  · have hp := h.prev
    simp only [List.getLast?_nil] at hp
    rw [hp]
    refine ⟨_, rfl, ⟨by simp [h.path], by simp, ?_, ?_⟩, ⟨⟨[], by simp⟩, rfl, ⟨[], by simp⟩, rfl, rfl, ⟨[i], rfl⟩⟩, rfl, rfl⟩
    · exact h.cs
    · exact ⟨h.cf.asserts, h.cf.zero, h.cf.ne, h.cf.need⟩
  · rw [List.concat_eq_append] at h ⊢
    have hp : st.prev = some a := by rw [h.prev]; simp
    rw [hp]
    obtain ⟨cs, h1, h2, h3, h4⟩ := saveEdge_ok (p := j.p) h.cs a i
    obtain ⟨g1, g2, g3, g4⟩ := cfSave_ok h.cf a i (by simp)
    dsimp only
    rw [h1]
    refine ⟨_, rfl, ⟨by simp [h.path], by simp, ?_, g1⟩, ⟨h4, h3, g2, g3, g4, ⟨[i], rfl⟩⟩, rfl, rfl⟩
    rw [pairs_snoc, run_append]
    exact h2

theorem pushAll_ok : ∀ (l : List N) {q : List N} {st : PSt N C}, Ok j add q st →
    ∃ st', l.foldlM (pushInst j) st = some st' ∧ Ok j add (q ++ l) st' ∧ Grown st st' ∧ st'.ret = st.ret ∧ st'.done = st.done := by
  intro l
  induction l with
  | nil => intro q st h; exact ⟨st, rfl, by simpa using h, .refl _, rfl, rfl⟩
  | cons i l ih =>
    intro q st h
    obtain ⟨st1, h1, h2, h3, h4, h5⟩ := pushInst_ok h i
    obtain ⟨st2, g1, g2, g3, g4, g5⟩ := ih h2
    exact ⟨st2, by rw [List.foldlM_cons, h1]; exact g1, by simpa using g2, h3.trans g3, g4.trans h4, g5.trans h5⟩

/-- What `doFilter` leaves as it was. -/
structure Same (st st' : PSt N C) : Prop where
  cs : st'.cs = st.cs
  asserts : st'.cf.asserts = st.cf.asserts
  levels : st'.cf.levels = st.cf.levels
  num : st'.cf.numAtoms = st.cf.numAtoms
  need : st'.cf.need = false
  path : st'.path = st.path
  prev : st'.prev = st.prev

theorem Same.ok {q : List N} {st st' : PSt N C} (h : Same st st') (ho : Ok j add q st) : Ok j add q st' :=
  ⟨h.path.trans ho.path, h.prev.trans ho.prev, h.cs ▸ ho.cs,
    ⟨h.asserts.trans ho.cf.asserts, h.num ▸ ho.cf.zero, h.num ▸ ho.cf.ne, h.need⟩⟩

theorem Same.grown {st st' : PSt N C} (h : Same st st') : Grown st st' :=
  ⟨⟨[], by simp [h.cs]⟩, by rw [h.cs], ⟨[], by simp [h.asserts]⟩, h.levels, h.num, ⟨[], by simp [h.path]⟩⟩

theorem Same.trans {a b c : PSt N C} (h : Same a b) (h' : Same b c) : Same a c :=
  ⟨h'.cs.trans h.cs, h'.asserts.trans h.asserts, h'.levels.trans h.levels, h'.num.trans h.num, h'.need, h'.path.trans h.path,
    h'.prev.trans h.prev⟩

theorem save_ok {q : List N} {st : PSt N C} (h : Ok j add q st) : ∃ cf, st.cf.save = some cf ∧
    Ok j add q { st with cs := st.cs.save, cf := cf } ∧
    cf.asserts = st.cf.asserts ∧ cf.levels = st.cf.levels ++ [st.cf.asserts.length] ∧ cf.numAtoms = st.cf.numAtoms ++ [0] := by
  unfold CPF.save
  rw [List.getLast?_eq_some_getLast h.cf.ne]
  have hz : st.cf.numAtoms.getLast h.cf.ne = 0 := h.cf.zero _ (List.getLast_mem _)
  rw [hz]
  refine ⟨_, rfl, ⟨h.path, h.prev, ⟨h.cs.valid, h.cs.chain⟩, ⟨h.cf.asserts, ?_, by simp, h.cf.need⟩⟩, rfl, rfl, rfl⟩
  intro n hn
  rcases List.mem_append.1 hn with hn | hn
  · exact h.cf.zero n hn
  · exact List.mem_singleton.1 hn

theorem leave_ok {q : List N} {st st' : PSt N C} {cf : CPF C} (h : Ok j add q st) (hv : st.cs.valid = true)
    (h1 : cf.asserts = st.cf.asserts) (h2 : cf.levels = st.cf.levels ++ [st.cf.asserts.length]) (h3 : cf.numAtoms = st.cf.numAtoms ++ [0])
    (hg : Grown { st with cs := st.cs.save, cf := cf } st') :
    ∃ st'', leave st' st.path.length st.prev = some st'' ∧ Same st st'' ∧ st''.ret = st'.ret ∧ st''.done = st'.done := by
  obtain ⟨⟨e1, g1⟩, g2, ⟨e3, g3⟩, g4, g5, ⟨e6, g6⟩⟩ := hg
  have g1 : st'.cs.owner = st.cs.owner ++ e1 := g1
  have g2 : st'.cs.safe = st.cs.safe ++ [(st.cs.owner.length, st.cs.tos)] := g2
  have g3 : st'.cf.asserts = st.cf.asserts ++ e3 := by rw [← h1]; exact g3
  have g4 : st'.cf.levels = st.cf.levels ++ [st.cf.asserts.length] := by rw [← h2]; exact g4
  have g5 : st'.cf.numAtoms = st.cf.numAtoms ++ [0] := by rw [← h3]; exact g5
  have g6 : st'.path = st.path ++ e6 := g6
  have hz : st.cf.numAtoms.getLast h.cf.ne = 0 := h.cf.zero _ (List.getLast_mem _)
  have r1 : st'.cs.restore = some st.cs := by
    unfold CSF.restore
    rw [g2]
    simp only [List.getLast?_append, List.getLast?_singleton, Option.some_or, Option.bind_some, g1, List.length_append, List.dropLast_concat]
    rw [if_pos (by omega)]
    rw [List.take_left' rfl, ← hv]
  have r2 : ∃ c, st'.cf.restore = some c ∧ c.asserts = st.cf.asserts ∧ c.levels = st.cf.levels ∧ c.numAtoms = st.cf.numAtoms ∧
      c.need = false := by
    unfold CPF.restore
    rw [g4, g5]
    simp only [List.getLast?_append, List.getLast?_singleton, Option.some_or, Option.bind_some, List.dropLast_concat,
      List.getLast?_eq_some_getLast h.cf.ne, hz, g3]
    rw [if_pos (by simp)]
    exact ⟨_, rfl, by simp, rfl, rfl, rfl⟩
  obtain ⟨c, r2, r3, r4, r5, r6⟩ := r2
  unfold leave
  rw [if_pos (by rw [g6]; simp), r1]
  simp only [Option.bind_some, r2, Option.map_some]
  refine ⟨_, rfl, ⟨rfl, r3, r4, r5, r6, ?_, rfl⟩, rfl, rfl⟩
  simp [g6]

theorem isValid_ok {q : List N} {s : CPF C} (h : CfOk j.con add q s) : CfOk j.con add q (s.isValid j.z).1 ∧
    (s.isValid j.z).1.levels = s.levels ∧ (s.isValid j.z).1.numAtoms = s.numAtoms ∧
    ((s.isValid j.z).2 = false → j.z.check (add :: cons j.con (pairs q)) = .unsat) := by
  unfold CPF.isValid CPF.overlap
  simp only [h.need]
  split
  · exact ⟨h, rfl, rfl, fun h => by cases h⟩
  · simp only [Bool.false_eq_true, if_false]
    split
    · exact ⟨⟨h.asserts, h.zero, h.ne, rfl⟩, rfl, rfl, fun h => by cases h⟩
    · split
      · rename_i hc
        rw [h.asserts] at hc
        exact ⟨⟨h.asserts, h.zero, h.ne, rfl⟩, rfl, rfl, fun _ => hc⟩
      · exact ⟨⟨h.asserts, h.zero, h.ne, rfl⟩, rfl, rfl, fun h => by cases h⟩

theorem saveFinalC_ok {q : List N} {s : CPF C} (h : CfOk j.con add q s) (a b : N) (hq : q.getLast? = some a) :
    ∃ s', s.saveFinal j.z j.con a b = (s', decide (j.z.check (add :: cons j.con (pairs (q ++ [b]))) ≠ .unsat)) ∧
      (∃ ext, s'.asserts = s.asserts ++ ext) ∧ s'.asserts = add :: cons j.con (pairs (q ++ [b])) ∧ s'.levels = s.levels ∧
      s'.numAtoms = s.numAtoms ∧
      (j.z.check (add :: cons j.con (pairs (q ++ [b]))) ≠ .unsat → s'.model = some (add :: cons j.con (pairs (q ++ [b])))) := by
  obtain ⟨g1, g2, g3, g4⟩ := cfSave_ok h a b hq
  unfold CPF.saveFinal CPF.isValid CPF.overlap
  simp only [Bool.not_true, Bool.and_false, Bool.false_eq_true, if_false, if_true]
  by_cases hc : j.z.check (add :: cons j.con (pairs (q ++ [b]))) = .unsat
  · rw [g1.asserts, if_pos hc]
    refine ⟨_, Prod.ext rfl (by simp [hc]), ?_, rfl, g3, g4, fun h => absurd hc h⟩
    obtain ⟨ext, g2⟩ := g2
    exact ⟨ext, g1.asserts.symm.trans g2⟩
  · rw [g1.asserts, if_neg hc]
    refine ⟨_, Prod.ext rfl (by simp [hc]), ?_, rfl, g3, g4, fun _ => rfl⟩
    obtain ⟨ext, g2⟩ := g2
    exact ⟨ext, g1.asserts.symm.trans g2⟩

/-- A path is accepted by both filters. -/
def Accept (j : Job N C) (add : C) (q : List N) : Prop :=
  Matched j.p (q ++ [j.final]) ∧ j.z.check (add :: cons j.con (pairs (q ++ [j.final]))) ≠ .unsat

/-- An entry of the result for a path. -/
def entry (j : Job N C) (add : C) (q : List N) : List N × C × List C :=
  (q, j.z.simplify ((cons j.con (pairs (q ++ [j.final]))).foldl j.z.and add), add :: cons j.con (pairs (q ++ [j.final])))

theorem atLeaf_ok (hdis : ∀ n, j.p.isCall n = true → j.p.isExit n = false) {q : List N} {st : PSt N C} (h : Ok j add q st) (hq : q ≠ []) :
    ∃ st' new, atLeaf j st = some st' ∧ Grown st st' ∧ st'.ret = st.ret ++ new ∧ st'.done = st.done + new.length ∧
      (∀ e ∈ new, e = entry j add q ∧ Accept j add q) ∧ (Accept j add q → entry j add q ∈ new) := by
  rcases List.eq_nil_or_concat q with rfl | ⟨q', a, hqa⟩
  · exact absurd rfl hq
  rw [List.concat_eq_append] at hqa
  have hl : q.getLast? = some a := by rw [hqa]; simp
  have hp : st.prev = some a := by rw [h.prev, hl]
  have hrun : run j.p (some []) (pairs (q ++ [j.final])) = stepStack j.p (run j.p (some []) (pairs q)) (a, j.final) := by
    rw [hqa, pairs_snoc, run_append]; rfl
  obtain ⟨cs, h1, h2, h3⟩ := saveFinal_ok hdis h.cs a j.final
  obtain ⟨cf, g1, g2, g3, g4, g5, g6⟩ := saveFinalC_ok h.cf a j.final hl
  unfold atLeaf
  rw [hp, h1]
  simp only [Option.bind_some, g1]
  by_cases hA : (stepStack j.p (run j.p (some []) (pairs q)) (a, j.final)).isSome = true
  · have hM : Matched j.p (q ++ [j.final]) := by rw [matched_iff, hrun]; exact hA
    rw [hA]
    simp only [Bool.not_true, Bool.false_eq_true, if_false]
    by_cases hB : j.z.check (add :: cons j.con (pairs (q ++ [j.final]))) = .unsat
    · rw [if_pos (by simp [hB])]
      refine ⟨_, [], rfl, ⟨⟨[], by simp [h2]⟩, h3, g2, g4, g5, ⟨[], by simp⟩⟩, by simp, rfl, ?_, ?_⟩
      · intro e he; cases he
      · intro hx; exact absurd hB hx.2
    · rw [if_neg (by simp [hB]), g6 hB]
      refine ⟨_, [(st.path, cf.constraints j.z, add :: cons j.con (pairs (q ++ [j.final])))], rfl,
        ⟨⟨[], by simp [h2]⟩, h3, g2, g4, g5, ⟨[], by simp⟩⟩, rfl, rfl, ?_, ?_⟩
      · intro e he
        cases List.mem_singleton.1 he
        refine ⟨?_, hM, hB⟩
        unfold entry CPF.constraints
        rw [g3, h.path]
      · intro _
        refine List.mem_singleton.2 ?_
        unfold entry CPF.constraints
        rw [g3, h.path]
  · have hM : ¬ Matched j.p (q ++ [j.final]) := by rw [matched_iff, hrun]; exact hA
    have hA : (stepStack j.p (run j.p (some []) (pairs q)) (a, j.final)).isSome = false := by simpa using hA
    rw [hA]
    refine ⟨_, [], rfl, ⟨⟨[], by simp [h2]⟩, h3, ⟨[], by simp⟩, rfl, rfl, ⟨[], by simp⟩⟩, by simp, rfl, ?_, ?_⟩
    · intro e he; cases he
    · intro hx; exact absurd hx.1 hM

/-- What visiting the vertices `vs` behind the path `q` adds to the result. -/
structure Post (j : Job N C) (add : C) (holds : M → C → Prop) (q : List N) (vs : List Nat) (st st' : PSt N C) : Prop where
  same : Same st st'
  new : ∃ new, st'.ret = st.ret ++ new ∧ st'.done = st.done + new.length ∧
    (∀ e ∈ new, ∃ v ∈ vs, ∃ us, Walk j.g v us j.leaf ∧ e = entry j add (q ++ labelsFwd j.g us) ∧ Accept j add (q ++ labelsFwd j.g us)) ∧
    (st'.done < j.maxPaths → ∀ v ∈ vs, ∀ us, Walk j.g v us j.leaf → Accept j add (q ++ labelsFwd j.g us) →
      (∃ m, holds m add ∧ Feasible j.con holds m (q ++ labelsFwd j.g us)) → entry j add (q ++ labelsFwd j.g us) ∈ new)

theorem fold_ok {holds : M → C → Prop} {q : List N} {rec : Nat → PSt N C → Option (PSt N C)} : ∀ (es : List Nat) {st : PSt N C}, Ok j add q st →
    st.cs.valid = true →
    (∀ t ∈ es, ∀ st, Ok j add q st → st.cs.valid = true → ∃ st', rec t st = some st' ∧ Post j add holds q [t] st st') →
    ∃ st', es.foldlM (fun s u => rec u s) st = some st' ∧ Post j add holds q es st st' := by
  intro es
  induction es with
  | nil =>
    intro st h _ _
    exact ⟨st, rfl, ⟨⟨rfl, rfl, rfl, rfl, h.cf.need, rfl, rfl⟩, [], by simp, rfl, (fun e he => by cases he), (fun _ v hv => by cases hv)⟩⟩
  | cons t es ih =>
    intro st h hv hrec
    obtain ⟨st1, h1, hs1, n1, a1, a2, a3, a4⟩ := hrec t (.head _) st h hv
    obtain ⟨st2, h2, hs2, n2, b1, b2, b3, b4⟩ := ih (hs1.ok h) (hs1.cs ▸ hv) (fun t ht => hrec t (.tail _ ht))
    refine ⟨st2, by rw [List.foldlM_cons, h1]; exact h2, ⟨hs1.trans hs2, n1 ++ n2, by rw [b1, a1]; simp, by rw [b2, a2]; simp; omega, ?_, ?_⟩⟩
    · intro e he
      rcases List.mem_append.1 he with he | he
      · obtain ⟨v, hv, hx⟩ := a3 e he
        cases List.mem_singleton.1 hv
        exact ⟨t, .head _, hx⟩
      · obtain ⟨v, hv, hx⟩ := b3 e he
        exact ⟨v, .tail _ hv, hx⟩
    · intro hd v hv us hw ha hm
      rcases List.mem_cons.1 hv with rfl | hv
      · exact List.mem_append_left _ (a4 (by omega) v (.head _) us hw ha hm)
      · exact List.mem_append_right _ (b4 hd v hv us hw ha hm)

theorem flattenAt_ok {holds : M → C → Prop} (hs : j.z.Sound holds) (hdis : ∀ n, j.p.isCall n = true → j.p.isExit n = false)
    (hg : InRange j.g) (hne : ∀ l ∈ j.g.nodes, l ≠ []) (hlf : Leaf j.g j.leaf) {v : Nat} (hacc : Acc (fun t v => Succ j.g v t) v) :
    v < j.g.adj.length → (∀ u, Reach j.g v u → u = j.leaf ∨ j.g.adj[u]? ≠ some []) →
    ∃ k0, ∀ k, k0 ≤ k → ∀ (q : List N) (st : PSt N C), Ok j add q st → st.cs.valid = true →
      ∃ st', flattenAt j k v st = some st' ∧ Post j add holds q [v] st st' := by
  induction hacc with
  | intro v hacc ih =>
    intro hvl halive
    have hes : j.g.adj[v]? = some j.g.adj[v] := List.getElem?_eq_getElem hvl
    obtain ⟨k1, hk1⟩ := bound_all (P := fun t k0 => ∀ k, k0 ≤ k → ∀ (q : List N) (st : PSt N C), Ok j add q st → st.cs.valid = true →
      ∃ st', flattenAt j k t st = some st' ∧ Post j add holds q [t] st st')
      (fun t a b h hab k hk => h k (Nat.le_trans hab hk)) j.g.adj[v]
      (fun t ht => ih t ⟨_, hes, ht⟩ (hg.succ v t ⟨_, hes, ht⟩) (fun u hu => halive u (.step ⟨_, hes, ht⟩ hu)))
    refine ⟨k1 + 1, fun k hk q st h hv => ?_⟩
    obtain ⟨k, rfl⟩ : ∃ k', k = k' + 1 := ⟨k - 1, by omega⟩
    have hnl : v < j.g.nodes.length := by rw [← hg.wf]; exact hvl
    have hl : j.g.nodes[v]? = some j.g.nodes[v] := List.getElem?_eq_getElem hnl
    obtain ⟨cf, s1, s2, s3, s4, s5⟩ := save_ok h
    obtain ⟨st1, p1, p2, p3, p4, p5⟩ := pushAll_ok (j.g.nodes[v]).reverse s2
    -- the part behind the loop over the statements
    obtain ⟨st2, new, q1, q2, q3, q4, q5, q6⟩ : ∃ st2 new, goOn j (flattenAt j k) v st1 = some st2 ∧ Grown st1 st2 ∧
        st2.ret = st1.ret ++ new ∧ st2.done = st1.done + new.length ∧
        (∀ e ∈ new, ∃ us, Walk j.g v us j.leaf ∧ e = entry j add (q ++ labelsFwd j.g us) ∧ Accept j add (q ++ labelsFwd j.g us)) ∧
        (st2.done < j.maxPaths → ∀ us, Walk j.g v us j.leaf → Accept j add (q ++ labelsFwd j.g us) →
          (∃ m, holds m add ∧ Feasible j.con holds m (q ++ labelsFwd j.g us)) → entry j add (q ++ labelsFwd j.g us) ∈ new) := by
      unfold goOn
      by_cases hle : v = j.leaf
      · rw [if_pos hle]
        have hone : labelsFwd j.g [v] = (j.g.nodes[v]).reverse := by rw [labelsFwd_cons hl]; simp [labelsFwd]
        obtain ⟨st2, new, a1, a2, a3, a4, a5, a6⟩ := atLeaf_ok hdis p2 (by
          intro hx
          have := (List.append_eq_nil_iff.1 hx).2
          exact hne _ (List.getElem_mem hnl) (List.reverse_eq_nil_iff.1 this))
        refine ⟨st2, new, a1, a2, a3, a4, fun e he => ⟨[v], hle ▸ .one hvl, ?_⟩, fun _ us hw ha _ => ?_⟩
        · rw [hone]; exact a5 e he
        · cases hw with
          | one => rw [hone] at ha ⊢; exact a6 ha
          | cons hst _ =>
            obtain ⟨es, x1, x2⟩ := hst
            have hlf : j.g.adj[j.leaf]? = some [] := hlf
            rw [hle, hlf] at x1; cases x1; cases x2
      · rw [if_neg hle, hes]
        simp only [Option.bind_some]
        have hnn : j.g.adj[v] ≠ [] := by
          rcases halive v (.refl _) with hx | hx
          · exact absurd hx hle
          · intro hy; rw [hes, hy] at hx; exact hx rfl
        rw [if_neg hnn]
        -- a walk from here takes an edge
        have hstep : ∀ us, Walk j.g v us j.leaf → ∃ t us', us = v :: us' ∧ t ∈ j.g.adj[v] ∧ Walk j.g t us' j.leaf ∧
            q ++ labelsFwd j.g us = q ++ (j.g.nodes[v]).reverse ++ labelsFwd j.g us' := by
          intro us hw
          cases hw with
          | one => exact absurd rfl hle
          | @cons _ t us' _ hst hw' =>
            obtain ⟨es, x1, x2⟩ := hst
            rw [hes] at x1; cases x1
            exact ⟨t, us', rfl, x2, hw', by rw [labelsFwd_cons hl]; simp⟩
        by_cases hmx : j.maxPaths ≤ st1.done
        · rw [if_pos hmx]
          exact ⟨st1, [], rfl, .refl _, by simp, rfl, fun e he => (by cases he), fun hd => by omega⟩
        · rw [if_neg hmx]
          cases hval : st1.cs.valid with
          | false =>
            refine ⟨st1, [], by simp, .refl _, by simp, rfl, fun e he => (by cases he), fun _ us hw ha _ => ?_⟩
            exfalso
            obtain ⟨t, us', _, _, _, hx⟩ := hstep us hw
            have hM := (matched_iff j.p _).1 ha.1
            rw [hx] at hM
            have hr : run j.p (some []) (pairs (q ++ (j.g.nodes[v]).reverse)) = none := by
              have := p2.cs.valid
              rw [hval] at this
              cases hz : run j.p (some []) (pairs (q ++ (j.g.nodes[v]).reverse)) with
              | none => rfl
              | some _ => rw [hz] at this; cases this
            obtain ⟨ext, hext⟩ := pairs_prefix (q ++ (j.g.nodes[v]).reverse) (labelsFwd j.g us' ++ [j.final])
            rw [List.append_assoc, hext, run_append, hr, run_none] at hM
            cases hM
          | true =>
            obtain ⟨i1, i2, i3, i4⟩ := isValid_ok p2.cf
            simp only [Bool.not_true, Bool.false_eq_true, if_false]
            have hok : Ok j add (q ++ (j.g.nodes[v]).reverse) { st1 with cf := (st1.cf.isValid j.z).1 } := ⟨p2.path, p2.prev, p2.cs, i1⟩
            have hgr : Grown st1 { st1 with cf := (st1.cf.isValid j.z).1 } :=
              ⟨⟨[], by simp⟩, rfl, ⟨[], by simp [i1.asserts, p2.cf.asserts]⟩, i2, i3, ⟨[], by simp⟩⟩
            cases hiv : (st1.cf.isValid j.z).2 with
            | false =>
              refine ⟨_, [], rfl, hgr, by simp, rfl, fun e he => (by cases he), fun _ us hw ha hm => ?_⟩
              exfalso
              obtain ⟨m, hm1, hm2⟩ := hm
              obtain ⟨t, us', _, _, _, hx⟩ := hstep us hw
              rw [hx] at hm2
              refine hs.check _ (i4 hiv) m fun c hc => ?_
              rcases List.mem_cons.1 hc with rfl | hc
              · exact hm1
              · obtain ⟨ext, hext⟩ := pairs_prefix (q ++ (j.g.nodes[v]).reverse) (labelsFwd j.g us')
                have hm3 := cons_iff.2 hm2
                rw [hext, cons_append] at hm3
                exact hm3 c (List.mem_append_left _ hc)
            | true =>
              simp only [Bool.not_true, Bool.false_eq_true, if_false]
              obtain ⟨st2, f1, f2, new, f3, f4, f5, f6⟩ := fold_ok (holds := holds) j.g.adj[v] hok hval
                (fun t ht st' ho hv' => hk1 t ht k (by omega) _ st' ho hv')
              refine ⟨st2, new, f1, hgr.trans f2.grown, f3, f4, fun e he => ?_, fun hd us hw ha hm => ?_⟩
              · obtain ⟨t, ht, us, hw, he', ha⟩ := f5 e he
                refine ⟨v :: us, .cons ⟨_, hes, ht⟩ hw, ?_⟩
                rw [labelsFwd_cons hl, ← List.append_assoc]
                exact ⟨he', ha⟩
              · obtain ⟨t, us', _, ht, hw', hx⟩ := hstep us hw
                rw [hx] at ha hm ⊢
                exact f6 hd t ht us' hw' ha hm
    obtain ⟨st3, r1, r2, r3, r4⟩ := leave_ok h hv s3 s4 s5 (p3.trans q2)
    refine ⟨st3, ?_, ⟨r2, new, by rw [r3, q3, p4], by rw [r4, q4, p5], ?_, ?_⟩⟩
    · rw [flattenAt, hl]
      simp only [Option.bind_some, s1, p1, q1, r1]
    · intro e he
      exact ⟨v, .head _, q5 e he⟩
    · intro hd u hu us hw ha hm
      cases List.mem_singleton.1 hu
      exact q6 (by rw [← r4]; exact hd) us hw ha hm

end Phasar.PathFilter
