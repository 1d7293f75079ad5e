import Verif.Analysis.IIAFlowSim
/-!
# The instruction interaction analysis: the edge functions between two facts, and runs as chains
-/
set_option linter.unusedSectionVars false
set_option linter.unusedSimpArgs false
namespace Phasar.IIA
open Phasar JoinLat IDE Prog

variable {p : Prog}

/-! ## The edge functions between two facts -/

/-- The edge functions that occur between two facts: nothing comes back to zero; the identity never meets a constant function. -/
inductive Ok (U : Val → Prop) : Val → Val → EF → Prop
  | zero : Ok U .zero .zero .id
  | unk {d} : d ≠ .zero → U d → Ok U .zero d .id
  | unkAdd {d s} : d ≠ .zero → Ok U .zero d (.add (.set s))
  | new {d s} : d ≠ .zero → ¬ U d → Ok U .zero d (.kill (.set s))
  | id {d d'} : d ≠ .zero → d' ≠ .zero → (U d ↔ U d') → Ok U d d' .id
  | add {d d' s} : d ≠ .zero → d' ≠ .zero → (U d' → U d) → Ok U d d' (.add (.set s))

theorem ok_refl (U : Val → Prop) (d : Val) : Ok U d d .id := by
  by_cases h : d = .zero
  · subst h; exact .zero
  · exact .id h h Iff.rfl

theorem ext_eq (f g : EF) (hf : f ≠ .allTop) (x : Labels) :
    ((f.extend g).getD .allBottom).ap x = g.ap (f.ap x) := by
  obtain ⟨h, h1, h2⟩ := C37_extend f g hf
  rw [h1]; exact h2 x

theorem Ok.ne_top {U : Val → Prop} {d d' : Val} {f : EF} (h : Ok U d d' f) : f ≠ .allTop := by cases h <;> simp

theorem ok_extend {U : Val → Prop} {d1 d2 d3 : Val} {f g : EF} (hf : Ok U d1 d2 f) (hg : Ok U d2 d3 g) :
    Ok U d1 d3 ((f.extend g).getD .allBottom) := by
  cases hf with
  | zero =>
    have : (EF.id.extend g).getD .allBottom = g := by cases hg <;> rfl
    rw [this]; exact hg
  | unk h1 h2 =>
    cases hg with
    | zero => exact absurd rfl h1
    | unk _ _ => exact absurd rfl h1
    | unkAdd _ => exact absurd rfl h1
    | new _ _ => exact absurd rfl h1
    | id _ h3 h4 => exact .unk h3 (h4.1 h2)
    | add _ h3 _ => exact .unkAdd h3
  | unkAdd h1 =>
    cases hg with
    | zero => exact absurd rfl h1
    | unk _ _ => exact absurd rfl h1
    | unkAdd _ => exact absurd rfl h1
    | new _ _ => exact absurd rfl h1
    | id _ h3 h4 => exact .unkAdd h3
    | add _ h3 _ => exact .unkAdd h3
  | new h1 h2 =>
    cases hg with
    | zero => exact absurd rfl h1
    | unk _ _ => exact absurd rfl h1
    | unkAdd _ => exact absurd rfl h1
    | new _ _ => exact absurd rfl h1
    | id _ h3 h4 => exact .new h3 fun h => h2 (h4.2 h)
    | add _ h3 h4 => exact .new h3 fun h => h2 (h4 h)
  | id h1 h2 h3 =>
    cases hg with
    | zero => exact absurd rfl h2
    | unk _ _ => exact absurd rfl h2
    | unkAdd _ => exact absurd rfl h2
    | new _ _ => exact absurd rfl h2
    | id _ h4 h5 => exact .id h1 h4 (h3.trans h5)
    | add _ h4 h5 => exact .add h1 h4 fun h => h3.2 (h5 h)
  | add h1 h2 h3 =>
    cases hg with
    | zero => exact absurd rfl h2
    | unk _ _ => exact absurd rfl h2
    | unkAdd _ => exact absurd rfl h2
    | new _ _ => exact absurd rfl h2
    | id _ h4 h5 => exact .add h1 h4 fun h => h3 (h5.2 h)
    | add _ h4 h5 => exact .add h1 h4 fun h => h3 (h5 h)

theorem comb_add (a b : Nat) : ((EF.add (.set a)).combine (.add (.set b))).getD .allBottom = .add (.set (a ||| b)) := by
  by_cases h : b = a
  · subst h; simp [EF.combine, EF.defaultJoin]
  · simp [EF.combine, EF.defaultJoin, EF.getData, h, joinImpl]

theorem comb_kill (a b : Nat) : ((EF.kill (.set a)).combine (.kill (.set b))).getD .allBottom = .kill (.set (a ||| b)) := by
  by_cases h : b = a
  · subst h; simp [EF.combine, EF.defaultJoin]
  · simp [EF.combine, EF.defaultJoin, EF.getData, h, joinImpl]

theorem comb_ka (a b : Nat) : ((EF.kill (.set a)).combine (.add (.set b))).getD .allBottom = .add (.set (a ||| b)) := by
  simp [EF.combine, EF.defaultJoin, EF.getData, joinImpl]

theorem comb_ak (a b : Nat) : ((EF.add (.set a)).combine (.kill (.set b))).getD .allBottom = .add (.set (a ||| b)) := by
  simp [EF.combine, EF.defaultJoin, EF.getData, joinImpl]

theorem ap_set (x : Labels) (a : Nat) : join x (.set a) = joinImpl x (.set a) := rfl

/-- The join of two functions between the same facts is again one, and it is the join of the results. -/
theorem ok_combine {U : Val → Prop} {d1 d2 : Val} {f g : EF} (hf : Ok U d1 d2 f) (hg : Ok U d1 d2 g) :
    Ok U d1 d2 ((f.combine g).getD .allBottom) ∧ ∀ x, ((f.combine g).getD .allBottom).ap x = join (f.ap x) (g.ap x) := by
  have haa : ∀ a b (x : Labels), (EF.add (.set (a ||| b))).ap x = join ((EF.add (.set a)).ap x) ((EF.add (.set b)).ap x) := by
    intro a b x
    show join x (join (.set a) (.set b)) = join (join x (.set a)) (join x (.set b))
    rw [join_assoc x, ← join_assoc (Labels.set a) x, join_comm (Labels.set a) x, join_assoc x, ← join_assoc x x, join_idem]
  have hia : ∀ b (x : Labels), (EF.add (.set b)).ap x = join (EF.id.ap x) ((EF.add (.set b)).ap x) := by
    intro b x
    show join x (.set b) = join x (join x (.set b))
    rw [← join_assoc, join_idem]
  have hka : ∀ a b (x : Labels), (EF.add (.set (a ||| b))).ap x = join ((EF.kill (.set a)).ap x) ((EF.add (.set b)).ap x) := by
    intro a b x
    show join x (join (.set a) (.set b)) = join (.set a) (join x (.set b))
    rw [← join_assoc, ← join_assoc, join_comm x]
  have eii : (EF.id.combine EF.id).getD .allBottom = .id := rfl
  have eia : ∀ b, (EF.id.combine (.add b)).getD .allBottom = .add b := fun _ => rfl
  have eai : ∀ b, ((EF.add b).combine .id).getD .allBottom = .add b := fun b => by simp [EF.combine]
  cases hf with
  | zero =>
    cases hg with
    | zero => exact ⟨.zero, fun x => (join_idem x).symm⟩
    | unk h _ => exact absurd rfl h
    | unkAdd h => exact absurd rfl h
    | new h _ => exact absurd rfl h
    | id h _ _ => exact absurd rfl h
    | add h _ _ => exact absurd rfl h
  | unk h1 h2 =>
    cases hg with
    | zero => exact absurd rfl h1
    | unk _ _ => exact ⟨.unk h1 h2, fun x => (join_idem x).symm⟩
    | unkAdd _ => exact ⟨.unkAdd h1, hia _⟩
    | new _ h3 => exact absurd h2 h3
    | id h _ _ => exact absurd rfl h
    | add h _ _ => exact absurd rfl h
  | unkAdd h1 =>
    cases hg with
    | zero => exact absurd rfl h1
    | unk _ _ => rw [eai]; exact ⟨.unkAdd h1, fun x => by rw [join_comm]; exact hia _ x⟩
    | unkAdd _ => rw [comb_add]; exact ⟨.unkAdd h1, haa _ _⟩
    | new _ h3 =>
      rw [comb_ak]
      exact ⟨.unkAdd h1, fun x => by rw [join_comm, Nat.or_comm]; exact hka _ _ x⟩
    | id h _ _ => exact absurd rfl h
    | add h _ _ => exact absurd rfl h
  | new h1 h2 =>
    cases hg with
    | zero => exact absurd rfl h1
    | unk _ h3 => exact absurd h3 h2
    | unkAdd _ => rw [comb_ka]; exact ⟨.unkAdd h1, hka _ _⟩
    | new _ h3 => rw [comb_kill]; exact ⟨.new h1 h2, fun x => rfl⟩
    | id h _ _ => exact absurd rfl h
    | add h _ _ => exact absurd rfl h
  | id h1 h2 h3 =>
    cases hg with
    | zero => exact absurd rfl h1
    | unk _ _ => exact absurd rfl h1
    | unkAdd _ => exact absurd rfl h1
    | new _ _ => exact absurd rfl h1
    | id _ _ _ => exact ⟨.id h1 h2 h3, fun x => (join_idem x).symm⟩
    | add _ _ h4 => exact ⟨.add h1 h2 h4, hia _⟩
  | add h1 h2 h3 =>
    cases hg with
    | zero => exact absurd rfl h1
    | unk _ _ => exact absurd rfl h1
    | unkAdd _ => exact absurd rfl h1
    | new _ _ => exact absurd rfl h1
    | id _ _ _ => rw [eai]; exact ⟨.add h1 h2 h3, fun x => by rw [join_comm]; exact hia _ x⟩
    | add _ _ _ => rw [comb_add]; exact ⟨.add h1 h2 h3, haa _ _⟩

theorem first_eq {U : Val → Prop} {d1 d2 : Val} {f : EF} (hf : Ok U d1 d2 f) : (EF.allTop.combine f).getD .allBottom = f := by
  cases hf <;> simp [EF.combine, EF.defaultJoin]

theorem alg_exact (U : Val → Prop) : Prog.alg.ExactFor (Ok U) where
  ok_id := ok_refl U
  ok_extend := fun _ _ _ _ _ => ok_extend
  ok_combine := fun _ _ _ _ hf hg => (ok_combine hf hg).1
  ok_first := fun _ _ f hf => by show Ok U _ _ ((EF.allTop.combine f).getD .allBottom); rw [first_eq hf]; exact hf
  ap_id := fun _ => rfl
  extend_eq := fun _ _ _ _ _ hf _ x => ext_eq _ _ hf.ne_top x
  combine_eq := fun _ _ _ _ hf hg => (ok_combine hf hg).2
  first_eq := fun _ _ f hf x => by show ((EF.allTop.combine f).getD .allBottom).ap x = _; rw [first_eq hf]; rfl
  distrib := fun _ _ f _ => C37_distributive f

theorem alg_sound (U : Val → Prop) : Prog.alg.SoundFor (Ok U) where
  ok_id := ok_refl U
  ok_extend := (alg_exact U).ok_extend
  ok_combine := (alg_exact U).ok_combine
  ok_first := (alg_exact U).ok_first
  not_top := fun _ _ f hf => decide_eq_false hf.ne_top
  eq_sound := fun _ _ f g _ _ h x => by rw [of_decide_eq_true (p := f = g) h]
  ap_id := fun x => le_refl x
  mono := fun _ _ f _ x y _ h => C37.mono f x y h
  extend_ge := fun _ _ _ _ _ hf hg x => by rw [(alg_exact U).extend_eq _ _ _ _ _ hf hg x]; exact le_refl _
  combine_ge_left := fun _ _ _ _ hf hg x => by rw [(alg_exact U).combine_eq _ _ _ _ hf hg x]; exact le_join_left _ _
  combine_ge_right := fun _ _ _ _ hf hg x => by rw [(alg_exact U).combine_eq _ _ _ _ hf hg x]; exact le_join_right _ _
  first_ge := fun _ _ _ hf x => by rw [(alg_exact U).first_eq _ _ _ hf x]; exact le_refl _

/-- The edge functions of the program are between their facts. -/
theorem okEdges (wf : p.WF) {U : Val → Prop} (hU : p.Sep U) : p.problem.OkEdgesFor (Ok U) where
  normal := by
    intro n d n' d' hc _ h
    show Ok U d d' ((p.normalEdge n d d').getD .allBottom)
    rcases (normal_iff wf).1 h with ⟨rfl, rfl⟩ | ⟨rfl, s, hf⟩ | ⟨hd, s, hp⟩
    · simp [Prog.normalEdge]; exact .zero
    · rw [fresh_edge wf hf]
      refine .new (fresh_ne wf hf) ?_
      cases hf with
      | alloca hal => exact hU.alloca _ hal
      | store hi hv hy =>
        intro hu
        have := (hU.write _ _ _ _ hi hy hu).2
        rw [hv] at this; cases this
    · obtain ⟨e, h1, h2⟩ := pass_edge wf hd hp
      rw [h1]
      have hy := pass_ne wf hd hp
      rcases h2 with rfl | ⟨rfl, _, rfl | ⟨c, is, k, h3, h4, h5, h6, rfl, rfl⟩⟩
      · refine .add hd hy ?_
        cases hp with
        | keep _ => exact fun h => h
        | read hr _ => exact hU.read _ _ hc hr
        | write hi _ hyt => exact fun h => (hU.write _ _ _ _ hi hyt h).1
        | branch q1 q2 q3 q4 _ => exact (hU.branch _ _ _ _ q1 q2 q3 q4).2
      · exact ok_refl U d
      · exact .id hd hy (hU.branch _ _ _ _ h3 h4 h5 h6)
  call := by
    intro n d g d' hc hg h
    show Ok U d d' (p.callEdge n d d')
    unfold Prog.callEdge
    rcases (call_iff wf).1 h with ⟨rfl, rfl⟩ | ⟨rfl, he, hs, k, ks, hk, rfl⟩ | ⟨hd, he, h⟩
    · rw [if_neg]
      · exact .zero
      · rintro ⟨_, _, h⟩; exact wf.args n (List.mem_of_mem_head? h)
    · have := hU.sret n g k ks hc hg he hs hk
      split
      · rename_i h
        exact .new (by simp) fun hu => this.2 hu h.2.2
      · rename_i h
        exact .unk (by simp) (this.1 fun h' => h ⟨rfl, hs, h'⟩)
    · rw [if_neg (fun h => hd h.1)]
      rcases h with ⟨rfl, _⟩ | ⟨i, k, h1, h2, _, _, rfl⟩
      · exact ok_refl U _
      · exact .id hd (by simp) (hU.param n g i k d hc hg h1 h2)
  ret := by
    intro c g e d r d' hc hx hf _ h
    have hc := hc.resolve_left (by intro h; cases h)
    subst hf
    show Ok U d d' (p.retEdge c e d d')
    unfold Prog.retEdge
    rcases (ret_iff wf).1 h with ⟨rfl, rfl⟩ | ⟨rfl, rfl, rv, h1, h2⟩ | ⟨hd, h⟩
    · simp; exact .zero
    · rw [if_pos ⟨rfl, rfl⟩, h1]
      simp only [h2, if_true]
      exact .new (by simp) ((hU.ret c e rv hc.1 hc.2 hx h1).2 h2)
    · rw [if_neg (fun h => hd h.1)]
      rcases h with ⟨rfl, _⟩ | ⟨i, k, h1, h2, rfl⟩ | ⟨h1, rfl⟩
      · exact ok_refl U _
      · refine .id hd ?_ (hU.param c _ i k d' hc.1 hc.2 h1 h2).symm
        rintro rfl
        exact wf.args c (List.mem_of_getElem? h2)
      · exact .id hd (by simp) (hU.ret c e d hc.1 hc.2 hx h1).1
  ctr := by
    intro n d r d' hc _ h
    show Ok U d d' (p.ctrEdge n d d')
    unfold Prog.ctrEdge
    rcases ctr_iff.1 h with ⟨rfl, rfl⟩ | ⟨rfl, rfl, hq⟩ | ⟨hd, rfl, _⟩
    · rw [if_neg (by rintro ⟨_, _, h⟩; cases h), if_neg (fun h => wf.args n h.1)]; exact .zero
    · by_cases hh : p.heapCall n = true
      · rw [if_pos ⟨hh, rfl, rfl⟩]; exact .new (by simp) (hU.heap n hc hh)
      · rw [if_neg (fun h => hh h.1), if_neg (fun h => wf.args n h.1)]
        exact .unk (by simp) (hU.unknown n hc (hq.resolve_left hh))
    · rw [if_neg (fun h => hd h.2.1)]
      split
      · exact .add hd hd fun h => h
      · exact ok_refl U _
  sum := by intro _ _ _ _ _ _ h; cases h
  unbal := by intro h; cases h

/-! ## Seeds -/

theorem isSeed_iff {n : Nat} {d : Val} {v : Labels} : IsSeed p.problem n d v ↔
    ∃ f ∈ p.entries, n ∈ p.icf.starts f ∧ ((d = .zero ∧ v = .bottom) ∨ (∃ k ∈ p.params f, d = .arg k ∧ v = .set 0) ∨
      ∃ g ∈ p.globals, d = .global g ∧ v = .set (p.genG g)) := by
  constructor
  · rintro ⟨facts, h1, h2⟩
    obtain ⟨f, hf, h3⟩ := List.mem_flatMap.1 (show (n, facts) ∈ p.seeds from h1)
    obtain ⟨sp, hsp, h4⟩ := List.mem_map.1 h3
    cases h4
    refine ⟨f, hf, hsp, ?_⟩
    rcases h2 with h2 | ⟨_, _, h2⟩
    · simp only [List.cons_append, List.mem_cons, List.mem_append, List.mem_map, Prod.mk.injEq] at h2
      rcases h2 with h2 | ⟨k, hk, rfl, rfl⟩ | ⟨g, hg, rfl, rfl⟩
      · exact .inl h2
      · exact .inr (.inl ⟨k, hk, rfl, rfl⟩)
      · exact .inr (.inr ⟨g, hg, rfl, rfl⟩)
    · exact absurd (by show (Val.zero, Labels.bottom) ∈ _; simp) (h2 .bottom)
  · rintro ⟨f, hf, hsp, h⟩
    refine ⟨_, List.mem_flatMap.2 ⟨f, hf, List.mem_map.2 ⟨n, hsp, rfl⟩⟩, .inl ?_⟩
    simp only [List.cons_append, List.mem_cons, List.mem_append, List.mem_map, Prod.mk.injEq]
    rcases h with h | ⟨k, hk, rfl, rfl⟩ | ⟨g, hg, rfl, rfl⟩
    · exact .inl h
    · exact .inr (.inl ⟨k, hk, rfl, rfl⟩)
    · exact .inr (.inr ⟨g, hg, rfl, rfl⟩)

theorem seedsAtStart (wf : p.WF) : SeedsAtStart p.problem := by
  intro n facts h
  obtain ⟨f, hf, h3⟩ := List.mem_flatMap.1 (show (n, facts) ∈ p.seeds from h)
  obtain ⟨sp, hsp, h4⟩ := List.mem_map.1 h3
  cases h4
  show n ∈ p.icf.starts (p.icf.funOf n)
  rw [wf.icf.start_fun _ _ hsp]; exact hsp

theorem noSummary : SummariesDisjoint p.problem := fun _ _ _ _ h => by cases h

theorem noTop (U : Val → Prop) : p.problem.NoTop (AnyPair (Ok U)) where
  seed := by
    intro n d v h
    obtain ⟨f, _, _, ⟨_, rfl⟩ | ⟨_, _, _, rfl⟩ | ⟨_, _, _, rfl⟩⟩ := isSeed_iff.1 h <;> intro h <;> cases h
  ap := by
    rintro f ⟨d, d', h⟩ x hx
    have hj : ∀ s, joinImpl x (.set s) ≠ .top := by
      intro s
      cases x <;> simp [joinImpl]
    cases h
    · exact hx
    · exact hx
    · exact hj _
    · intro h; cases h
    · exact hx
    · exact hj _

/-! ## Runs and chains -/

theorem join_zero {v : Labels} (h : v ≠ .top) : joinImpl v (.set 0) = v := by
  cases v <;> simp [joinImpl] at h ⊢

theorem prov_ne (wf : p.WF) {stk : List Nat} {n : Nat} {x : Val} {v : Labels} (h : p.Prov stk n x v) : x ≠ .zero ∧ v ≠ .top := by
  have hj : ∀ {x : Labels} {s}, joinImpl x (.set s) ≠ .top := by
    intro x s
    cases x <;> simp [joinImpl]
  induction h with
  | param => simp
  | glob => simp
  | fresh _ _ _ h => exact ⟨fresh_ne wf h, by simp⟩
  | pass _ _ _ h ih => exact ⟨pass_ne wf ih.1 h, hj⟩
  | toParam _ _ _ _ _ _ _ _ _ ih => exact ⟨by simp, ih.2⟩
  | toGlob _ _ _ _ _ _ ih => exact ih
  | toSRet => simp
  | toSRetSame => simp
  | fromRet _ _ _ _ _ ih => exact ⟨by simp, ih.2⟩
  | fromConst => simp
  | fromParam _ _ _ _ _ h ih =>
    refine ⟨?_, ih.2⟩
    rintro rfl
    exact wf.args _ (List.mem_of_getElem? h)
  | fromGlob _ _ _ _ _ ih => exact ih
  | over _ _ _ _ ih =>
    refine ⟨ih.1, ?_⟩
    split
    · exact hj
    · exact ih.2
  | heapNew => simp
  | unknown => simp

/-- Runs are chains. -/
theorem prov_of_run (wf : p.WF) {n0 : Nat} {d0 : Val} {v0 : Labels} (h0 : IsSeed p.problem n0 d0 v0) {a : Cfg Nat Val Labels}
    (h : RSteps p.problem ⟨[], n0, d0, v0⟩ a) :
    (a.d = .zero → a.v = .bottom ∧ p.At a.stk a.n) ∧ (a.d ≠ .zero → p.Prov a.stk a.n a.d a.v) := by
  induction h with
  | refl =>
    obtain ⟨f, hf, hsp, ⟨rfl, rfl⟩ | ⟨k, hk, rfl, rfl⟩ | ⟨g, hg, rfl, rfl⟩⟩ := isSeed_iff.1 h0
    · exact ⟨fun _ => ⟨rfl, .start hf hsp⟩, fun h => absurd rfl h⟩
    · exact ⟨fun h => (by cases h), fun _ => .param hf hsp hk⟩
    · exact ⟨fun h => (by cases h), fun _ => .glob hf hsp hg⟩
  | tail _ hs ih =>
    cases hs with
    | @normal stk n d v n' d' hc hn hd =>
      dsimp only at ih ⊢
      have hap : p.problem.alg.ap (p.problem.normalEdge n d n' d') v = ((p.normalEdge n d d').getD .allBottom).ap v := rfl
      rw [hap]
      rcases (normal_iff wf).1 hd with ⟨rfl, rfl⟩ | ⟨rfl, s, hf⟩ | ⟨hz, s, hp⟩
      · obtain ⟨rfl, ha⟩ := ih.1 rfl
        refine ⟨fun _ => ⟨?_, .normal ha hc hn⟩, fun h => absurd rfl h⟩
        simp [Prog.normalEdge, EF.ap]
      · have hy := fresh_ne wf hf
        refine ⟨fun h => absurd h hy, fun _ => ?_⟩
        rw [fresh_edge wf hf]
        exact .fresh (ih.1 rfl).2 hc hn hf
      · have hy := pass_ne wf hz hp
        refine ⟨fun h => absurd h hy, fun _ => ?_⟩
        have hpr := Prov.pass (ih.2 hz) hc hn hp
        obtain ⟨e, h1, rfl | ⟨rfl, rfl, _⟩⟩ := pass_edge wf hz hp
        · rw [h1]; exact hpr
        · rw [h1]
          rw [join_zero (prov_ne wf (ih.2 hz)).2] at hpr
          exact hpr
    | @call stk n d v g sp d' hc hg _ hsp hd =>
      dsimp only at ih ⊢
      have hap : p.problem.alg.ap (p.problem.callEdge n d g d') v = (p.callEdge n d d').ap v := rfl
      rw [hap]
      unfold Prog.callEdge
      rcases (call_iff wf).1 hd with ⟨rfl, rfl⟩ | ⟨rfl, he, hs, k, ks, hk, rfl⟩ | ⟨hz, he, h⟩
      · obtain ⟨rfl, ha⟩ := ih.1 rfl
        refine ⟨fun _ => ⟨?_, .enter ha hc hg hsp⟩, fun h => absurd rfl h⟩
        rw [if_neg]
        · rfl
        · rintro ⟨_, _, h⟩; exact wf.args n (List.mem_of_mem_head? h)
      · obtain ⟨rfl, ha⟩ := ih.1 rfl
        refine ⟨fun h => (by cases h), fun _ => ?_⟩
        by_cases hh : (p.args n).head? = some (.arg k)
        · rw [if_pos ⟨rfl, hs, hh⟩]; exact .toSRetSame ha hc hg hsp he hs hk hh
        · rw [if_neg (fun h => hh h.2.2)]; exact .toSRet ha hc hg hsp he hs hk hh
      · rw [if_neg (fun h => hz h.1)]
        rcases h with ⟨rfl, h1⟩ | ⟨i, k, h1, h2, h3, h4, rfl⟩
        · exact ⟨fun h => absurd h hz, fun _ => .toGlob (ih.2 hz) hc hg hsp he h1⟩
        · exact ⟨fun h => (by cases h), fun _ => .toParam (ih.2 hz) hc hg hsp he h1 h2 h3 h4⟩
    | @ret stk c e d v r d' hc hx hr hd =>
      dsimp only at ih ⊢
      have hap : p.problem.alg.ap (p.problem.retEdge c (p.problem.icf.funOf e) e d r d') v = (p.retEdge c e d d').ap v := rfl
      rw [hap]
      unfold Prog.retEdge
      rcases (ret_iff wf).1 hd with ⟨rfl, rfl⟩ | ⟨rfl, rfl, rv, h1, h2⟩ | ⟨hz, h⟩
      · obtain ⟨rfl, ha⟩ := ih.1 rfl
        refine ⟨fun _ => ⟨?_, .ret ha hc hx hr⟩, fun h => absurd rfl h⟩
        simp [EF.ap]
      · refine ⟨fun h => (by cases h), fun _ => ?_⟩
        rw [if_pos ⟨rfl, rfl⟩, h1]
        simp only [h2, if_true]
        exact .fromConst (ih.1 rfl).2 hc hx hr h1 h2
      · rw [if_neg (fun h => hz h.1)]
        rcases h with ⟨rfl, h1⟩ | ⟨i, k, h1, h2, rfl⟩ | ⟨h1, rfl⟩
        · exact ⟨fun h => absurd h hz, fun _ => .fromGlob (ih.2 hz) hc hx hr h1⟩
        · refine ⟨?_, fun _ => .fromParam (ih.2 hz) hc hx hr h1 h2⟩
          rintro rfl
          exact absurd (List.mem_of_getElem? h2) (wf.args c)
        · exact ⟨fun h => (by cases h), fun _ => .fromRet (ih.2 hz) hc hx hr h1⟩
    | @callToRet stk n d v r d' hc hr hd =>
      dsimp only at ih ⊢
      have hap : p.problem.alg.ap (p.problem.ctrEdge n d r d') v = (p.ctrEdge n d d').ap v := rfl
      rw [hap]
      unfold Prog.ctrEdge
      rcases ctr_iff.1 hd with ⟨rfl, rfl⟩ | ⟨rfl, rfl, h⟩ | ⟨hz, rfl, h⟩
      · obtain ⟨rfl, ha⟩ := ih.1 rfl
        refine ⟨fun _ => ⟨?_, .over ha hc hr⟩, fun h => absurd rfl h⟩
        rw [if_neg (by rintro ⟨_, _, h⟩; cases h), if_neg (fun h => wf.args n h.1)]; rfl
      · obtain ⟨rfl, ha⟩ := ih.1 rfl
        refine ⟨fun h => (by cases h), fun _ => ?_⟩
        by_cases hh : p.heapCall n = true
        · rw [if_pos ⟨hh, rfl, rfl⟩]; exact .heapNew ha hc hr hh
        · rw [if_neg (fun h => hh h.1), if_neg (fun h => wf.args n h.1)]
          exact .unknown ha hc hr (h.resolve_left hh)
      · refine ⟨fun h => absurd h hz, fun _ => ?_⟩
        have := Prov.over (ih.2 hz) hc hr h
        rw [if_neg (fun h => hz h.2.1)]
        by_cases hm : d' ∈ p.args n
        · rw [if_pos hm] at this; rw [if_pos ⟨hm, rfl⟩]; exact this
        · rw [if_neg hm] at this; rw [if_neg (fun h => hm h.1)]; exact this
    | summary _ _ h => cases h

/-- Some run from a seed arrives in the configuration. -/
def RunTo (p : Prog) (stk : List Nat) (n : Nat) (d : Val) (v : Labels) : Prop :=
  ∃ n0 d0 v0, IsSeed p.problem n0 d0 v0 ∧ RSteps p.problem ⟨[], n0, d0, v0⟩ ⟨stk, n, d, v⟩

theorem RunTo.next {stk stk' : List Nat} {n n' : Nat} {d d' : Val} {v v' : Labels} (h : RunTo p stk n d v)
    (hs : RStep p.problem ⟨stk, n, d, v⟩ ⟨stk', n', d', v'⟩) : RunTo p stk' n' d' v' := by
  obtain ⟨n0, d0, v0, h0, h1⟩ := h
  exact ⟨n0, d0, v0, h0, .tail h1 hs⟩

theorem RunTo.cast {stk : List Nat} {n : Nat} {d : Val} {v v' : Labels} (h : RunTo p stk n d v) (e : v = v') : RunTo p stk n d v' :=
  e ▸ h

/-- The zero fact goes wherever control goes. -/
theorem run_of_at (wf : p.WF) {stk : List Nat} {n : Nat} (h : p.At stk n) : RunTo p stk n .zero .bottom := by
  induction h with
  | start hf hsp => exact ⟨_, _, _, isSeed_iff.2 ⟨_, hf, hsp, .inl ⟨rfl, rfl⟩⟩, .refl _⟩
  | @normal stk n n' _ hc hn ih =>
    refine (ih.next (.normal hc hn ((normal_iff wf).2 (.inl ⟨rfl, rfl⟩)))).cast ?_
    show ((p.normalEdge n .zero .zero).getD .allBottom).ap .bottom = _
    simp [Prog.normalEdge, EF.ap]
  | @enter stk n g sp _ hc hg hsp ih =>
    refine (ih.next (.call hc hg rfl hsp ((call_iff wf).2 (.inl ⟨rfl, rfl⟩)))).cast ?_
    show (p.callEdge n .zero .zero).ap .bottom = _
    unfold Prog.callEdge
    rw [if_neg]
    · rfl
    · rintro ⟨_, _, h⟩; exact wf.args n (List.mem_of_mem_head? h)
  | @ret stk c e r _ hc hx hr ih =>
    refine (ih.next (.ret hc hx hr ((ret_iff wf).2 (.inl ⟨rfl, rfl⟩)))).cast ?_
    show (p.retEdge c e .zero .zero).ap .bottom = _
    simp [Prog.retEdge, EF.ap]
  | @over stk n r _ hc hr ih =>
    refine (ih.next (.callToRet hc hr (ctr_iff.2 (.inl ⟨rfl, rfl⟩)))).cast ?_
    show (p.ctrEdge n .zero .zero).ap .bottom = _
    unfold Prog.ctrEdge
    rw [if_neg (by rintro ⟨_, _, h⟩; cases h), if_neg (fun h => wf.args n h.1)]; rfl

/-- Chains are runs. -/
theorem run_of_prov (wf : p.WF) {stk : List Nat} {n : Nat} {x : Val} {v : Labels} (h : p.Prov stk n x v) : RunTo p stk n x v := by
  induction h with
  | param hf hsp hk => exact ⟨_, _, _, isSeed_iff.2 ⟨_, hf, hsp, .inr (.inl ⟨_, hk, rfl, rfl⟩)⟩, .refl _⟩
  | glob hf hsp hg => exact ⟨_, _, _, isSeed_iff.2 ⟨_, hf, hsp, .inr (.inr ⟨_, hg, rfl, rfl⟩)⟩, .refl _⟩
  | @fresh stk n n' y s ha hc hn hf =>
    refine ((run_of_at wf ha).next (.normal hc hn ((normal_iff wf).2 (.inr (.inl ⟨rfl, _, hf⟩))))).cast ?_
    show ((p.normalEdge n .zero y).getD .allBottom).ap .bottom = _
    rw [fresh_edge wf hf]; rfl
  | @pass stk n n' x y v s hpr hc hn hp ih =>
    have hx := prov_ne wf hpr
    refine (ih.next (.normal hc hn ((normal_iff wf).2 (.inr (.inr ⟨hx.1, _, hp⟩))))).cast ?_
    show ((p.normalEdge n x y).getD .allBottom).ap v = _
    obtain ⟨e, h1, rfl | ⟨rfl, rfl, _⟩⟩ := pass_edge wf hx.1 hp
    · rw [h1]; rfl
    · rw [h1, join_zero hx.2]; rfl
  | @toParam stk n g sp x v k i hpr hc hg hsp he h1 h2 h3 h4 ih =>
    have hx := prov_ne wf hpr
    refine (ih.next (.call hc hg rfl hsp ((call_iff wf).2 (.inr (.inr ⟨hx.1, he, .inr ⟨i, k, h1, h2, h3, h4, rfl⟩⟩))))).cast ?_
    show (p.callEdge n x (.arg k)).ap v = _
    unfold Prog.callEdge
    rw [if_neg (fun h => hx.1 h.1)]; rfl
  | @toGlob stk n g sp x v hpr hc hg hsp he h1 ih =>
    have hx := prov_ne wf hpr
    refine (ih.next (.call hc hg rfl hsp ((call_iff wf).2 (.inr (.inr ⟨hx.1, he, .inl ⟨rfl, h1⟩⟩))))).cast ?_
    show (p.callEdge n x x).ap v = _
    unfold Prog.callEdge
    rw [if_neg (fun h => hx.1 h.1)]; rfl
  | @toSRet stk n g sp k ks ha hc hg hsp he hs hk hh =>
    refine ((run_of_at wf ha).next (.call hc hg rfl hsp ((call_iff wf).2 (.inr (.inl ⟨rfl, he, hs, k, ks, hk, rfl⟩))))).cast ?_
    show (p.callEdge n .zero (.arg k)).ap .bottom = _
    unfold Prog.callEdge
    rw [if_neg (fun h => hh h.2.2)]; rfl
  | @toSRetSame stk n g sp k ks ha hc hg hsp he hs hk hh =>
    refine ((run_of_at wf ha).next (.call hc hg rfl hsp ((call_iff wf).2 (.inr (.inl ⟨rfl, he, hs, k, ks, hk, rfl⟩))))).cast ?_
    show (p.callEdge n .zero (.arg k)).ap .bottom = _
    unfold Prog.callEdge
    rw [if_pos ⟨rfl, hs, hh⟩]; rfl
  | @fromRet stk c e r x v hpr hc hx hr h1 ih =>
    have hz := prov_ne wf hpr
    refine (ih.next (.ret hc hx hr ((ret_iff wf).2 (.inr (.inr ⟨hz.1, .inr (.inr ⟨h1, rfl⟩)⟩))))).cast ?_
    show (p.retEdge c e x (.inst c)).ap v = _
    unfold Prog.retEdge
    rw [if_neg (fun h => hz.1 h.1)]; rfl
  | @fromConst stk c e r rv ha hc hx hr h1 h2 =>
    refine ((run_of_at wf ha).next (.ret hc hx hr ((ret_iff wf).2 (.inr (.inl ⟨rfl, rfl, rv, h1, h2⟩))))).cast ?_
    show (p.retEdge c e .zero (.inst c)).ap .bottom = _
    unfold Prog.retEdge
    rw [if_pos ⟨rfl, rfl⟩, h1]
    simp only [h2, if_true]; rfl
  | @fromParam stk c e r k a v i hpr hc hx hr h1 h2 ih =>
    have hz := prov_ne wf hpr
    refine (ih.next (.ret hc hx hr ((ret_iff wf).2 (.inr (.inr ⟨hz.1, .inr (.inl ⟨i, k, h1, h2, rfl⟩)⟩))))).cast ?_
    show (p.retEdge c e (.arg k) a).ap v = _
    unfold Prog.retEdge
    rw [if_neg (fun h => hz.1 h.1)]; rfl
  | @fromGlob stk c e r x v hpr hc hx hr h1 ih =>
    have hz := prov_ne wf hpr
    refine (ih.next (.ret hc hx hr ((ret_iff wf).2 (.inr (.inr ⟨hz.1, .inl ⟨rfl, h1⟩⟩))))).cast ?_
    show (p.retEdge c e x x).ap v = _
    unfold Prog.retEdge
    rw [if_neg (fun h => hz.1 h.1)]; rfl
  | @over stk n r x v hpr hc hr h1 ih =>
    have hz := prov_ne wf hpr
    refine (ih.next (.callToRet hc hr (ctr_iff.2 (.inr (.inr ⟨hz.1, rfl, h1⟩))))).cast ?_
    show (p.ctrEdge n x x).ap v = _
    unfold Prog.ctrEdge
    rw [if_neg (fun h => hz.1 h.2.1)]
    by_cases hm : x ∈ p.args n
    · rw [if_pos hm, if_pos ⟨hm, rfl⟩]; rfl
    · rw [if_neg hm, if_neg (fun h => hm h.1)]; rfl
  | @heapNew stk n r ha hc hr hh =>
    refine ((run_of_at wf ha).next (.callToRet hc hr (ctr_iff.2 (.inr (.inl ⟨rfl, rfl, .inl hh⟩))))).cast ?_
    show (p.ctrEdge n .zero (.inst n)).ap .bottom = _
    unfold Prog.ctrEdge
    rw [if_pos ⟨hh, rfl, rfl⟩]; rfl
  | @unknown stk n r ha hc hr hh =>
    refine ((run_of_at wf ha).next (.callToRet hc hr (ctr_iff.2 (.inr (.inl ⟨rfl, rfl, .inr hh⟩))))).cast ?_
    show (p.ctrEdge n .zero (.inst n)).ap .bottom = _
    unfold Prog.ctrEdge
    rw [if_neg (fun h => by rw [hh.1] at h; cases h.1), if_neg (fun h => wf.args n h.1)]; rfl

/-- The values of runs are the labels of chains. -/
theorem runVal_iff (wf : p.WF) {n : Nat} {d : Val} (hd : d ≠ .zero) {v : Labels} :
    RunVal p.problem n d v ↔ ∃ stk, p.Prov stk n d v := by
  constructor
  · rintro ⟨n0, d0, v0, stk, h0, h⟩
    exact ⟨stk, (prov_of_run wf h0 h).2 hd⟩
  · rintro ⟨stk, h⟩
    obtain ⟨n0, d0, v0, h0, h1⟩ := run_of_prov wf h
    exact ⟨n0, d0, v0, stk, h0, h1⟩

end Phasar.IIA
