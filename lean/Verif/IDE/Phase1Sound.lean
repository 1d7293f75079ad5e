import Verif.IDE.LemmasTab
/-!
# Phase I: the jump functions cover everything they have to
-/
set_option linter.unusedSectionVars false
namespace Phasar.IDE
open Phasar JoinLat

section
variable {N D F L E : Type} [DecidableEq N] [DecidableEq D] [JoinLat L]

/-- Pointwise order on edge functions. -/
def FLe (A : EdgeAlg L E) (f g : E) : Prop := ∀ x, A.ap f x ⊑ A.ap g x

theorem FLe.refl (A : EdgeAlg L E) (f : E) : FLe A f f := fun _ => le_refl _
theorem FLe.trans {A : EdgeAlg L E} {f g h : E} (h1 : FLe A f g) (h2 : FLe A g h) : FLe A f h :=
  fun x => le_trans (h1 x) (h2 x)

/-- The path edge is covered: stored in the table or waiting in the worklist. -/
def Cov (A : EdgeAlg L E) (J : AMap (D × N × D) E) (wl : List (PathEdge N D × E))
    (p : PathEdge N D) (f : E) : Prop :=
  (∃ e, J.get (p.d1, p.n, p.d2) = some e ∧ FLe A f e) ∨ ∃ g, (p, g) ∈ wl ∧ FLe A f g

theorem Cov.mono {A : EdgeAlg L E} {J J' : AMap (D × N × D) E} {wl wl' : List (PathEdge N D × E)}
    (hJ : ∀ k e, J.get k = some e → ∃ e', J'.get k = some e' ∧ FLe A e e')
    (hw : ∀ p g, (p, g) ∈ wl → (p, g) ∈ wl' ∨ ∃ e, J'.get (p.d1, p.n, p.d2) = some e ∧ FLe A g e)
    {p : PathEdge N D} {f : E} (h : Cov A J wl p f) : Cov A J' wl' p f := by
  rcases h with ⟨e, h1, h2⟩ | ⟨g, h1, h2⟩
  · obtain ⟨e', h3, h4⟩ := hJ _ _ h1
    exact .inl ⟨e', h3, h2.trans h4⟩
  · rcases hw _ _ h1 with h3 | ⟨e, h3, h4⟩
    · exact .inr ⟨g, h3, h2⟩
    · exact .inl ⟨e, h3, h2.trans h4⟩

/-- Path edges that must follow from a jump function, independent of the other tables. -/
inductive Need (P : Problem N D F L E) (e : E) (d1 : D) (n : N) (d2 : D) : PathEdge N D → E → Prop
  | normal {n' d3} : P.icf.isCall n = false → n' ∈ P.icf.succs n → d3 ∈ P.normalFlow n n' d2 →
      Need P e d1 n d2 ⟨d1, n', d3⟩ (P.alg.extend e (P.normalEdge n d2 n' d3))
  | sum {g sm r d3} : P.icf.isCall n = true → g ∈ P.icf.callees n → P.summaryFlow n g = some sm →
      r ∈ P.icf.retSites n → d3 ∈ sm d2 →
      Need P e d1 n d2 ⟨d1, r, d3⟩ (P.alg.extend e (P.sumEdge n d2 r d3))
  | ctr {r d3} : P.icf.isCall n = true → r ∈ P.icf.retSites n → d3 ∈ P.ctrFlow n r d2 →
      Need P e d1 n d2 ⟨d1, r, d3⟩ (P.alg.extend e (P.ctrEdge n d2 r d3))
  | call {g sp d3} : P.icf.isCall n = true → g ∈ P.icf.callees n → P.summaryFlow n g = none →
      sp ∈ P.icf.starts g → d3 ∈ P.callFlow n g d2 →
      Need P e d1 n d2 ⟨d3, sp, d3⟩ P.alg.idE

theorem Need.pushed {P : Problem N D F L E} {s : St N D E} {e : E} {d1 : D} {n : N} {d2 : D}
    {p : PathEdge N D} {f : E} (h : Need P e d1 n d2 p f) : Pushed P s e d1 n d2 p f := by
  cases h with
  | normal h1 h2 h3 => exact .normal h1 h2 h3
  | sum h1 h2 h3 h4 h5 => exact .sum h1 h2 h3 h4 h5
  | ctr h1 h2 h3 => exact .ctr h1 h2 h3
  | call h1 h2 h3 h4 h5 => exact .call h1 h2 h3 h4 h5

/-- Phase I invariant. -/
structure Inv (P : Problem N D F L E) (ok : D → D → E → Prop) (s : St N D E) : Prop where
  nodupJ : s.jump.NodupKeys
  nodupE : s.endSum.NodupKeys
  incNodup : IncNodup s.incoming
  okJ : ∀ k e, s.jump.get k = some e → ok k.1 k.2.2 e
  okW : ∀ p g, (p, g) ∈ s.wl → ok p.d1 p.d2 g
  endJ : ∀ sp d1 n d2 f, s.endSum.get (sp, d1, n, d2) = some f →
    s.jump.get (d1, n, d2) = some f ∧ sp ∈ P.icf.starts (P.icf.funOf n) ∧
      P.icf.isCall n = false ∧ P.icf.isExit n = true
  jEnd : ∀ sp d1 n d2 f, s.jump.get (d1, n, d2) = some f → P.icf.isCall n = false →
    P.icf.isExit n = true → sp ∈ P.icf.starts (P.icf.funOf n) →
    s.endSum.get (sp, d1, n, d2) = some f
  uni : ∀ g sp sp' d c d2, sp ∈ P.icf.starts g → sp' ∈ P.icf.starts g →
    HasInc s.incoming sp d c d2 → HasInc s.incoming sp' d c d2
  incOf : ∀ sp d c d2, HasInc s.incoming sp d c d2 → P.icf.isCall c = true ∧
    (sp, d) ∈ incomingAdds P c d2 ∧ ∃ d1 e, s.jump.get (d1, c, d2) = some e

/-- Coverage part of the Phase I invariant. -/
structure CovInv (P : Problem N D F L E) (s : St N D E) : Prop where
  closed : ∀ d1 n d2 e, s.jump.get (d1, n, d2) = some e →
    ∀ p f, Need P e d1 n d2 p f → Cov P.alg s.jump s.wl p f
  inc : ∀ d1 n d2 e, s.jump.get (d1, n, d2) = some e → P.icf.isCall n = true →
    ∀ sp d3, (sp, d3) ∈ incomingAdds P n d2 → HasInc s.incoming sp d3 n d2
  ret : ∀ d1 c d2 e, s.jump.get (d1, c, d2) = some e → P.icf.isCall c = true →
    ∀ sp d3, (sp, d3) ∈ incomingAdds P c d2 →
    ∀ n d4 e', s.jump.get (d3, n, d4) = some e' → P.icf.isCall n = false → P.icf.isExit n = true →
      sp ∈ P.icf.starts (P.icf.funOf n) →
    ∀ r d5, r ∈ P.icf.retSites c → d5 ∈ P.retFlow c (P.icf.funOf n) n r d4 →
      Cov P.alg s.jump s.wl ⟨d1, r, d5⟩
        (P.alg.extend e (P.alg.extend (P.alg.extend (P.callEdge c d2 (P.icf.funOf n) d3) e')
          (P.retEdge c (P.icf.funOf n) n d4 r d5)))
  seeds : ∀ p f, (p, f) ∈ (init P).wl → Cov P.alg s.jump s.wl p f

/-- Closure of `ok` under the solver's operations. -/
structure OkClosed (A : EdgeAlg L E) (ok : E → Prop) : Prop where
  ok_id : ok A.idE
  ok_extend : ∀ f g, ok f → ok g → ok (A.extend f g)
  ok_combine : ∀ f g, ok f → ok g → ok (A.combine f g)
  ok_first : ∀ f, ok f → ok (A.combine A.allTop f)

/-- Closure of `ok`, given for each pair of facts, under the solver's operations. -/
structure OkClosedFor (A : EdgeAlg L E) (ok : D → D → E → Prop) : Prop where
  ok_id : ∀ d, ok d d A.idE
  ok_extend : ∀ d1 d2 d3 f g, ok d1 d2 f → ok d2 d3 g → ok d1 d3 (A.extend f g)
  ok_combine : ∀ d1 d2 f g, ok d1 d2 f → ok d1 d2 g → ok d1 d2 (A.combine f g)
  ok_first : ∀ d1 d2 f, ok d1 d2 f → ok d1 d2 (A.combine A.allTop f)

theorem EdgeAlg.Sound.okClosed {A : EdgeAlg L E} {ok : E → Prop} (h : A.Sound ok) : OkClosed A ok :=
  ⟨h.ok_id, h.ok_extend, h.ok_combine, h.ok_first⟩

theorem EdgeAlg.SoundFor.okClosed {A : EdgeAlg L E} {ok : D → D → E → Prop} (h : A.SoundFor ok) : OkClosedFor A ok :=
  ⟨h.ok_id, h.ok_extend, h.ok_combine, h.ok_first⟩

theorem OkClosed.toFor {A : EdgeAlg L E} {ok : E → Prop} (h : OkClosed A ok) : OkClosedFor A (fun (_ _ : D) => ok) :=
  ⟨fun _ => h.ok_id, fun _ _ _ => h.ok_extend, fun _ _ => h.ok_combine, fun _ _ => h.ok_first⟩

theorem EdgeAlg.Sound.toFor {A : EdgeAlg L E} {ok : E → Prop} (h : A.Sound ok) : A.SoundFor (fun (_ _ : D) => ok) where
  ok_id := fun _ => h.ok_id
  ok_extend := fun _ _ _ => h.ok_extend
  ok_combine := fun _ _ => h.ok_combine
  ok_first := fun _ _ => h.ok_first
  not_top := fun _ _ => h.not_top
  eq_sound := fun _ _ => h.eq_sound
  ap_id := h.ap_id
  mono := fun _ _ => h.mono
  extend_ge := fun _ _ _ => h.extend_ge
  combine_ge_left := fun _ _ => h.combine_ge_left
  combine_ge_right := fun _ _ => h.combine_ge_right
  first_ge := fun _ _ => h.first_ge

theorem Problem.OkEdges.toFor {P : Problem N D F L E} {ok : E → Prop} (hP : P.OkEdges ok) :
    P.OkEdgesFor (fun _ _ => ok) :=
  ⟨fun _ _ _ _ _ => hP.normal _ _ _ _, fun _ _ _ _ _ => hP.call _ _ _ _, fun _ _ _ _ _ _ _ _ _ => hP.ret _ _ _ _ _ _,
   fun _ _ _ _ _ => hP.ctr _ _ _ _, hP.sum, fun _ _ _ _ h => h⟩

theorem AnyPair.mk {ok : D → D → E → Prop} {d d' : D} {f : E} (h : ok d d' f) : AnyPair ok f := ⟨d, d', h⟩

theorem Problem.NoTop.toFor {P : Problem N D F L E} {ok : E → Prop} (h : P.NoTop ok) :
    P.NoTop (AnyPair fun (_ _ : D) => ok) :=
  ⟨h.seed, fun f hf => h.ap f (by obtain ⟨_, _, hf⟩ := hf; exact hf)⟩

theorem Problem.Regular.toFor {P : Problem N D F L E} {ok : E → Prop} (h : P.Regular ok) :
    P.Regular (AnyPair fun (_ _ : D) => ok) :=
  h.imp (fun h => h.toFor) (fun h f hf => h f (by obtain ⟨_, _, hf⟩ := hf; exact hf))

theorem mem_seedsWithZero {P : Problem N D F L E} {n : N} {d : D} {v : L} :
    (∃ fs, (n, fs) ∈ seedsWithZero P ∧ (d, v) ∈ fs) ↔ IsSeed P n d v := by
  unfold seedsWithZero IsSeed
  constructor
  · rintro ⟨fs, h, hd⟩
    obtain ⟨⟨n', fs'⟩, hq, h⟩ := List.mem_map.1 h
    dsimp only at h
    split at h
    · cases h; exact ⟨fs, hq, .inl hd⟩
    · rename_i hz
      cases h
      rcases List.mem_append.1 hd with hd | hd
      · exact ⟨_, hq, .inl hd⟩
      · cases List.mem_singleton.1 hd
        exact ⟨_, hq, .inr ⟨rfl, rfl, fun w hw => hz (List.mem_map.2 ⟨_, hw, rfl⟩)⟩⟩
  · rintro ⟨fs, hq, h⟩
    by_cases hz : P.zero ∈ fs.map Prod.fst
    · refine ⟨fs, List.mem_map.2 ⟨_, hq, if_pos hz⟩, ?_⟩
      rcases h with h | ⟨rfl, rfl, h⟩
      · exact h
      · obtain ⟨⟨z, w⟩, hw, hz⟩ := List.mem_map.1 hz
        cases hz
        exact absurd hw (h w)
    · refine ⟨_, List.mem_map.2 ⟨_, hq, if_neg hz⟩, ?_⟩
      rcases h with h | ⟨rfl, rfl, h⟩
      · exact List.mem_append_left _ h
      · exact List.mem_append_right _ (List.mem_singleton.2 rfl)

theorem mem_init_wl {P : Problem N D F L E} {p : PathEdge N D} {f : E} :
    (p, f) ∈ (init P).wl ↔ ∃ n d v, IsSeed P n d v ∧ p = ⟨d, n, d⟩ ∧ f = P.alg.idE := by
  unfold init
  simp only [List.mem_flatMap, List.mem_map]
  constructor
  · rintro ⟨⟨n, fs⟩, hq, ⟨d, v⟩, hd, h⟩
    obtain ⟨rfl, rfl⟩ := Prod.mk.inj h
    exact ⟨n, d, v, mem_seedsWithZero.1 ⟨fs, hq, hd⟩, rfl, rfl⟩
  · rintro ⟨n, d, v, h, rfl, rfl⟩
    obtain ⟨fs, hq, hd⟩ := mem_seedsWithZero.2 h
    exact ⟨(n, fs), hq, (d, v), hd, rfl⟩

theorem inv_init (P : Problem N D F L E) (ok : D → D → E → Prop) (hok : OkClosedFor P.alg ok) :
    Inv P ok (init P) where
  nodupJ := AMap.nodupKeys_nil
  nodupE := AMap.nodupKeys_nil
  incNodup := by intro k m h; simp [init] at h
  okJ := by intro k e h; simp [init] at h
  okW := by
    intro p g h
    obtain ⟨_, _, _, _, rfl, rfl⟩ := mem_init_wl.1 h
    exact hok.ok_id _
  endJ := by intro sp d1 n d2 f h; simp [init] at h
  jEnd := by intro sp d1 n d2 f h; simp [init] at h
  uni := by intro g sp sp' d c d2 _ _ h; exact absurd h (hasInc_nil _ _ _ _)
  incOf := by intro sp d c d2 h; exact absurd h (hasInc_nil _ _ _ _)

theorem covInv_init (P : Problem N D F L E) : CovInv P (init P) where
  closed := by intro d1 n d2 e h; simp [init] at h
  inc := by intro d1 n d2 e h; simp [init] at h
  ret := by intro d1 n d2 e h; simp [init] at h
  seeds := fun p f h => .inr ⟨f, h, FLe.refl _ _⟩

theorem jumpFunction_of_get {P : Problem N D F L E} {s : St N D E} {d1 : D} {n : N} {d2 : D} {e : E}
    (h : s.jump.get (d1, n, d2) = some e) : jumpFunction P s d1 n d2 = e := by
  simp [jumpFunction, h]

/-- The function joined into the table is `ok`. -/
theorem ok_combine_jump {P : Problem N D F L E} {ok : D → D → E → Prop} (hok : OkClosedFor P.alg ok)
    {J : AMap (D × N × D) E} (hJ : ∀ k e, J.get k = some e → ok k.1 k.2.2 e) {s : St N D E} (hs : s.jump = J)
    {d1 : D} {n : N} {d2 : D} {f : E} (hf : ok d1 d2 f) :
    ok d1 d2 (P.alg.combine (jumpFunction P s d1 n d2) f) := by
  unfold jumpFunction
  cases h : s.jump.get (d1, n, d2) with
  | none => exact hok.ok_first _ _ _ hf
  | some e => exact hok.ok_combine _ _ _ _ (hJ _ _ (hs ▸ h)) hf

/-- Base invariant: preserved by a step. -/
theorem inv_step {P : Problem N D F L E} {ok : D → D → E → Prop} (hok : OkClosedFor P.alg ok)
    (hP : P.OkEdgesFor ok) (hwf : P.icf.WF) {s t : St N D E} (hi : Inv P ok s) (h : SStep P s t) :
    Inv P ok t := by
  cases h with
  | take a b x hx =>
  obtain ⟨⟨d1, n, d2⟩, f⟩ := x
  have hsub : ∀ y, y ∈ a ++ b → y ∈ s.wl := by
    intro y hy; rw [hx]; simp only [List.mem_append, List.mem_cons] at hy ⊢
    rcases hy with h | h
    · exact .inl h
    · exact .inr (.inr h)
  have hfok : ok d1 d2 f := hi.okW ⟨d1, n, d2⟩ f (by rw [hx]; simp)
  unfold propagate
  dsimp only
  generalize hf' : P.alg.combine (jumpFunction P { s with wl := a ++ b } d1 n d2) f = f'
  have hf'ok : ok d1 d2 f' := by
    rw [← hf']
    exact ok_combine_jump hok hi.okJ rfl hfok
  split
  · exact { hi with okW := fun p g hg => hi.okW p g (hsub _ hg) }
  · generalize hu : ({ s with wl := a ++ b, jump := s.jump.set (d1, n, d2) f' } : St N D E) = u
    have huJ : u.jump = s.jump.set (d1, n, d2) f' := by rw [← hu]
    have huE : u.endSum = s.endSum := by rw [← hu]
    have huI : u.incoming = s.incoming := by rw [← hu]
    have huW : u.wl = a ++ b := by rw [← hu]
    have hju : jumpFunction P u d1 n d2 = f' := jumpFunction_of_get (by rw [huJ]; simp)
    have hokJ : ∀ k e, u.jump.get k = some e → ok k.1 k.2.2 e := by
      intro k e hk
      rw [huJ, AMap.get_set] at hk
      split at hk
      · rename_i hkk; cases hk; rw [← hkk]; exact hf'ok
      · exact hi.okJ _ _ hk
    have hjmono : ∀ k e, s.jump.get k = some e → ∃ e', u.jump.get k = some e' := by
      intro k e hk
      rw [huJ, AMap.get_set]
      split
      · exact ⟨_, rfl⟩
      · exact ⟨_, hk⟩
    have hTE : (pathEdgeProcessingTask P u d1 n d2).endSum.NodupKeys := by
      rw [task_endSum, huE]
      split
      · exact nodup_foldl_endSum hi.nodupE _ _ _ _ _
      · exact hi.nodupE
    refine ⟨?_, hTE, ?_, ?_, ?_, ?_, ?_, ?_, ?_⟩
    · rw [task_jump, huJ]; exact AMap.nodupKeys_set hi.nodupJ _ _
    · rw [task_incoming, huI]
      split
      · exact incNodup_foldl _ _ hi.incNodup
      · exact hi.incNodup
    · rw [task_jump]; exact hokJ
    · intro p g hg
      rw [mem_task_wl, huW, hju] at hg
      rcases hg with hg | hg
      · exact hi.okW _ _ (hsub _ hg)
      · -- pushes are ok: replay with the updated table
        revert hg
        dsimp only
        intro hg
        cases hg with
        | normal h1 h2 h3 => exact hok.ok_extend _ _ _ _ _ hf'ok (hP.normal _ _ _ _ h1 h2 h3)
        | sum _ h2 h3 h4 h5 => exact hok.ok_extend _ _ _ _ _ hf'ok (hP.sum _ _ _ _ _ _ h3 h4 h5)
        | ctr h1 h2 h3 => exact hok.ok_extend _ _ _ _ _ hf'ok (hP.ctr _ _ _ _ h1 h2 h3)
        | call => exact hok.ok_id _
        | callSum hc hg _ hst hd3 hen hr hd5 =>
          have hen' := (mem_endSummary (by rw [huE]; exact hi.nodupE)).1 hen
          rw [huE] at hen'
          obtain ⟨this, hsp, _, hex⟩ := hi.endJ _ _ _ _ _ hen'
          exact hok.ok_extend _ _ _ _ _ hf'ok (hok.ok_extend _ _ _ _ _ (hok.ok_extend _ _ _ _ _
            (hP.call _ _ _ _ hc hg hd3) (hi.okJ _ _ this)) (hP.ret _ _ _ _ _ _ (.inr ⟨hc, hg⟩) hex
              (by rw [← hwf.start_fun _ _ hsp, hwf.start_fun _ _ hst]) hr hd5))
        | @exit c ds r d4 d5 d3 f3 _ hexit hc hr hd4 hd5 hj _ =>
          obtain ⟨sp, hsp, hmem⟩ := mem_incMap hc
          have hinc : HasInc s.incoming sp d1 c d4 := by
            unfold incomingAt at hmem
            rw [huI] at hmem
            cases hg : s.incoming.get (sp, d1) with
            | none => simp [hg] at hmem
            | some m =>
              simp only [hg] at hmem
              exact ⟨m, _, hg, AMap.get_of_mem (hi.incNodup _ _ hg) hmem, hd4⟩
          obtain ⟨hcall, ha, _⟩ := hi.incOf _ _ _ _ hinc
          obtain ⟨g, hg, _, hsp', hd1⟩ := mem_incomingAdds.1 ha
          have : g = P.icf.funOf n := by rw [← hwf.start_fun _ _ hsp', hwf.start_fun _ _ hsp]
          subst this
          have hj' := (mem_reverseLookup (by rw [huJ]; exact AMap.nodupKeys_set hi.nodupJ _ _)).1 hj
          exact hok.ok_extend _ _ _ _ _ (hokJ _ _ hj')
            (hok.ok_extend _ _ _ _ _ (hok.ok_extend _ _ _ _ _ (hP.call _ _ _ _ hcall hg hd1) hf'ok)
              (hP.ret _ _ _ _ _ _ (.inr ⟨hcall, hg⟩) hexit rfl hr hd5))
        | unbal hfr _ hexit _ _ hr hd5 => exact hok.ok_extend _ _ _ _ _ (hP.unbal hfr _ _ _ hf'ok) (hP.ret _ _ _ _ _ _ (.inl hfr) hexit rfl hr hd5)
    · intro sp e1 m e2 g hg
      rw [task_jump, huJ, AMap.get_set]
      rw [task_endSum, huE, hju] at hg
      split at hg
      · rename_i hce
        rw [get_foldl_endSum] at hg
        split at hg
        · rename_i hk
          cases hg
          obtain ⟨hk1, hk2⟩ := hk
          simp only [Prod.mk.injEq] at hk2
          obtain ⟨rfl, rfl, rfl⟩ := hk2
          exact ⟨by simp, hk1, hce.1, hce.2⟩
        · rename_i hk
          obtain ⟨h1, h2, h3, h4⟩ := hi.endJ _ _ _ _ _ hg
          refine ⟨?_, h2, h3, h4⟩
          rw [if_neg]
          · exact h1
          · intro heq
            simp only [Prod.mk.injEq] at heq
            obtain ⟨rfl, rfl, rfl⟩ := heq
            exact hk ⟨h2, rfl⟩
      · rename_i hce
        obtain ⟨h1, h2, h3, h4⟩ := hi.endJ _ _ _ _ _ hg
        refine ⟨?_, h2, h3, h4⟩
        rw [if_neg]
        · exact h1
        · intro heq
          simp only [Prod.mk.injEq] at heq
          obtain ⟨rfl, rfl, rfl⟩ := heq
          exact hce ⟨h3, h4⟩
    · intro sp e1 m e2 g hg hc he hsp
      rw [task_jump, huJ, AMap.get_set] at hg
      rw [task_endSum, huE, hju]
      split at hg
      · rename_i heq
        cases hg
        simp only [Prod.mk.injEq] at heq
        obtain ⟨rfl, rfl, rfl⟩ := heq
        rw [if_pos ⟨hc, he⟩, get_foldl_endSum, if_pos ⟨hsp, rfl⟩]
      · rename_i hne
        have := hi.jEnd _ _ _ _ _ hg hc he hsp
        split
        · rw [get_foldl_endSum, if_neg]
          · exact this
          · rintro ⟨_, hk⟩
            exact hne hk.symm
        · exact this
    · intro g sp sp' d c e2 hsp hsp' hinc
      rw [task_incoming, huI] at hinc ⊢
      split at hinc
      · rename_i hc
        rw [if_pos hc]
        rw [hasInc_foldl] at hinc ⊢
        rcases hinc with hinc | ⟨hm, rfl, rfl⟩
        · exact .inl (hi.uni _ _ _ _ _ _ hsp hsp' hinc)
        · right
          refine ⟨?_, rfl, rfl⟩
          obtain ⟨g', hg', hs, hsp1, hd⟩ := mem_incomingAdds.1 hm
          have : g' = g := by rw [← hwf.start_fun _ _ hsp1, hwf.start_fun _ _ hsp]
          subst this
          exact mem_incomingAdds.2 ⟨g', hg', hs, hsp', hd⟩
      · rename_i hc
        rw [if_neg hc]
        exact hi.uni _ _ _ _ _ _ hsp hsp' hinc
    · intro sp d c e2 hinc
      rw [task_jump]
      rw [task_incoming, huI] at hinc
      have old : HasInc s.incoming sp d c e2 → P.icf.isCall c = true ∧
          (sp, d) ∈ incomingAdds P c e2 ∧ ∃ d1 e, u.jump.get (d1, c, e2) = some e := by
        intro hinc
        obtain ⟨h1, h2, d1', e', h3⟩ := hi.incOf _ _ _ _ hinc
        obtain ⟨e'', h4⟩ := hjmono _ _ h3
        exact ⟨h1, h2, d1', e'', h4⟩
      split at hinc
      · rename_i hc
        rw [hasInc_foldl] at hinc
        rcases hinc with hinc | ⟨hm, rfl, rfl⟩
        · exact old hinc
        · exact ⟨hc, hm, d1, f', by rw [huJ]; simp⟩
      · exact old hinc

/-- Coverage: preserved by a step. -/
theorem covInv_step {P : Problem N D F L E} {ok : D → D → E → Prop} (hA : P.alg.SoundFor ok)
    (hP : P.OkEdgesFor ok) (hwf : P.icf.WF) {s t : St N D E} (hi : Inv P ok s) (hc : CovInv P s)
    (h : SStep P s t) : CovInv P t := by
  have hit := inv_step hA.okClosed hP hwf hi h
  cases h with
  | take a b x hx =>
  obtain ⟨⟨d1, n, d2⟩, f⟩ := x
  have hfok : ok d1 d2 f := hi.okW ⟨d1, n, d2⟩ f (by rw [hx]; simp)
  revert hit
  unfold propagate
  dsimp only
  have hj0 : jumpFunction P { s with wl := a ++ b } d1 n d2 = jumpFunction P s d1 n d2 := rfl
  rw [hj0]
  generalize hf' : P.alg.combine (jumpFunction P s d1 n d2) f = f'
  have hf'ok : ok d1 d2 f' := by
    rw [← hf']
    exact ok_combine_jump hA.okClosed hi.okJ rfl hfok
  -- facts about the joined function
  have hge_f : FLe P.alg f f' := by
    intro y
    rw [← hf']
    unfold jumpFunction
    cases hg : s.jump.get (d1, n, d2) with
    | none => exact hA.first_ge _ _ _ hfok y
    | some e => exact hA.combine_ge_right _ _ _ _ (hi.okJ _ _ hg) hfok y
  have hge_e : ∀ e, s.jump.get (d1, n, d2) = some e → FLe P.alg e f' := by
    intro e hg y
    rw [← hf', jumpFunction_of_get hg]
    exact hA.combine_ge_left _ _ _ _ (hi.okJ _ _ hg) hfok y
  split
  · rename_i heq
    intro _
    obtain ⟨e, hg⟩ : ∃ e, s.jump.get (d1, n, d2) = some e := by
      cases hg : s.jump.get (d1, n, d2) with
      | none =>
        simp only [jumpFunction, hg] at heq
        rw [hA.not_top _ _ _ hf'ok] at heq
        cases heq
      | some e => exact ⟨e, rfl⟩
    have hfe : FLe P.alg f e := by
      intro y
      rw [jumpFunction_of_get hg] at heq
      have := hA.eq_sound _ _ _ _ hf'ok (hi.okJ _ _ hg) heq y
      rw [← this]
      exact hge_f y
    have hcov : ∀ p g, Cov P.alg s.jump s.wl p g → Cov P.alg s.jump (a ++ b) p g := by
      intro p g h
      refine h.mono (fun k e hk => ⟨e, hk, FLe.refl _ _⟩) ?_
      intro q g' hq
      rw [hx] at hq
      simp only [List.mem_append, List.mem_cons, Prod.mk.injEq] at hq ⊢
      rcases hq with hq | ⟨rfl, rfl⟩ | hq
      · exact .inl (.inl hq)
      · exact .inr ⟨e, hg, hfe⟩
      · exact .inl (.inr hq)
    exact
      { closed := fun _ _ _ _ h _ _ hn => hcov _ _ (hc.closed _ _ _ _ h _ _ hn)
        inc := hc.inc
        ret := fun _ _ _ _ h1 h2 _ _ h3 _ _ _ h4 h5 h6 h7 _ _ h8 h9 =>
          hcov _ _ (hc.ret _ _ _ _ h1 h2 _ _ h3 _ _ _ h4 h5 h6 h7 _ _ h8 h9)
        seeds := fun _ _ h => hcov _ _ (hc.seeds _ _ h) }
  · generalize hu : ({ s with wl := a ++ b, jump := s.jump.set (d1, n, d2) f' } : St N D E) = u
    intro hit
    have huJ : u.jump = s.jump.set (d1, n, d2) f' := by rw [← hu]
    have huE : u.endSum = s.endSum := by rw [← hu]
    have huI : u.incoming = s.incoming := by rw [← hu]
    have huW : u.wl = a ++ b := by rw [← hu]
    have hju : jumpFunction P u d1 n d2 = f' := jumpFunction_of_get (by rw [huJ]; simp)
    generalize ht : pathEdgeProcessingTask P u d1 n d2 = t at hit
    have htJ : t.jump = s.jump.set (d1, n, d2) f' := by rw [← ht, task_jump, huJ]
    have hcov : ∀ p g, Cov P.alg s.jump s.wl p g → Cov P.alg t.jump t.wl p g := by
      intro p g h
      refine h.mono ?_ ?_
      · intro k e hk
        rw [htJ, AMap.get_set]
        split
        · rename_i hkk; subst hkk; exact ⟨f', rfl, hge_e _ hk⟩
        · exact ⟨e, hk, FLe.refl _ _⟩
      · intro q g' hq
        rw [hx] at hq
        simp only [List.mem_append, List.mem_cons, Prod.mk.injEq] at hq
        have hin : ∀ y, y ∈ a ++ b → y ∈ t.wl := by
          intro y hy
          rw [← ht, mem_task_wl, huW]
          exact .inl hy
        rcases hq with hq | ⟨rfl, rfl⟩ | hq
        · exact .inl (hin _ (List.mem_append_left _ hq))
        · exact .inr ⟨f', by rw [htJ]; simp, hge_f⟩
        · exact .inl (hin _ (List.mem_append_right _ hq))
    have hpush : ∀ p g, Pushed P u f' d1 n d2 p g → Cov P.alg t.jump t.wl p g := by
      intro p g hp
      right
      refine ⟨g, ?_, FLe.refl _ _⟩
      rw [← ht, mem_task_wl, hju]
      exact .inr hp
    have hget : ∀ k e, t.jump.get k = some e →
        (k = (d1, n, d2) ∧ e = f') ∨ (k ≠ (d1, n, d2) ∧ s.jump.get k = some e) := by
      intro k e hk
      rw [htJ, AMap.get_set] at hk
      split at hk
      · rename_i h; cases hk; exact .inl ⟨h.symm, rfl⟩
      · rename_i h; exact .inr ⟨fun h' => h h'.symm, hk⟩
    have hincmono : ∀ sp d c e2, HasInc s.incoming sp d c e2 → HasInc t.incoming sp d c e2 := by
      intro sp d c e2 h
      rw [← ht, task_incoming, huI]
      split
      · rw [hasInc_foldl]; exact .inl h
      · exact h
    refine ⟨?_, ?_, ?_, fun _ _ h => hcov _ _ (hc.seeds _ _ h)⟩
    · intro e1 m e2 e hk p g hn
      rcases hget _ _ hk with ⟨hk1, rfl⟩ | ⟨_, hk2⟩
      · simp only [Prod.mk.injEq] at hk1
        obtain ⟨rfl, rfl, rfl⟩ := hk1
        exact hpush _ _ hn.pushed
      · exact hcov _ _ (hc.closed _ _ _ _ hk2 _ _ hn)
    · intro e1 m e2 e hk hcall sp d3 hm
      rcases hget _ _ hk with ⟨hk1, rfl⟩ | ⟨_, hk2⟩
      · simp only [Prod.mk.injEq] at hk1
        obtain ⟨rfl, rfl, rfl⟩ := hk1
        rw [← ht, task_incoming, if_pos hcall, hasInc_foldl]
        exact .inr ⟨hm, rfl, rfl⟩
      · exact hincmono _ _ _ _ (hc.inc _ _ _ _ hk2 hcall _ _ hm)
    · intro e1 c e2 e hk hcall sp d3 hm m d4 e' hk' hncall hexit hsp r d5 hr hd5
      rcases hget _ _ hk with ⟨hk1, rfl⟩ | ⟨hk1, hk2⟩
      · -- the call's jump function is new
        simp only [Prod.mk.injEq] at hk1
        obtain ⟨rfl, rfl, rfl⟩ := hk1
        rcases hget _ _ hk' with ⟨hk1, rfl⟩ | ⟨_, hk2'⟩
        · simp only [Prod.mk.injEq] at hk1
          obtain ⟨_, rfl, _⟩ := hk1
          rw [hcall] at hncall; cases hncall
        · obtain ⟨g, hg, hs, hsp1, hd3⟩ := mem_incomingAdds.1 hm
          have : g = P.icf.funOf m := by rw [← hwf.start_fun _ _ hsp1, hwf.start_fun _ _ hsp]
          subst this
          refine hpush _ _ (.callSum hcall hg hs hsp hd3 ?_ hr hd5)
          rw [mem_endSummary (by rw [huE]; exact hi.nodupE), huE]
          exact hi.jEnd _ _ _ _ _ hk2' hncall hexit hsp
      · rcases hget _ _ hk' with ⟨hk1', rfl⟩ | ⟨_, hk2'⟩
        · -- the callee's exit jump function is new
          simp only [Prod.mk.injEq] at hk1'
          obtain ⟨rfl, rfl, rfl⟩ := hk1'
          have hinc := hc.inc _ _ _ _ hk2 hcall _ _ hm
          have hlook : (e1, e) ∈ reverseLookup u c e2 := by
            rw [mem_reverseLookup (by rw [huJ]; exact AMap.nodupKeys_set hi.nodupJ _ _), huJ,
              AMap.get_set, if_neg (fun h => hk1 h.symm)]
            exact hk2
          obtain ⟨mm, ds, h1, h2, h3⟩ := hinc
          have hex : ∃ sp ∈ P.icf.starts (P.icf.funOf m), ∃ ds,
              (incomingAt u sp d3).get c = some ds :=
            ⟨sp, hsp, ds, by simp [incomingAt, huI, h1, h2]⟩
          obtain ⟨sp', hsp', ds', h4, h5⟩ :=
            incMap_get (by rw [huI]; exact hi.incNodup) _ [] hex
          have h6 : HasInc s.incoming sp' d3 c e2 :=
            hi.uni _ _ _ _ _ _ hsp hsp' ⟨mm, ds, h1, h2, h3⟩
          have h7 : e2 ∈ ds' := by
            obtain ⟨m2, ds2, h8, h9, h10⟩ := h6
            simp only [incomingAt, huI, h8] at h4
            rw [h9] at h4
            cases h4
            exact h10
          exact hpush _ _ (.exit hncall hexit (AMap.mem_of_get h5) hr h7 hd5 hlook
            (hA.not_top _ _ _ (hi.okJ _ _ hk2)))
        · exact hcov _ _ (hc.ret _ _ _ _ hk2 hcall _ _ hm _ _ _ hk2' hncall hexit hsp _ _ hr hd5)

theorem inv_reach {P : Problem N D F L E} {ok : D → D → E → Prop} (hok : OkClosedFor P.alg ok)
    (hP : P.OkEdgesFor ok) (hwf : P.icf.WF) {s : St N D E} (h : Reach P s) : Inv P ok s := by
  induction h with
  | init => exact inv_init P ok hok
  | step _ h ih => exact inv_step hok hP hwf ih h

theorem covInv_reach {P : Problem N D F L E} {ok : D → D → E → Prop} (hA : P.alg.SoundFor ok)
    (hP : P.OkEdgesFor ok) (hwf : P.icf.WF) {s : St N D E} (h : Reach P s) : CovInv P s := by
  induction h with
  | init => exact covInv_init P
  | step hr h ih => exact covInv_step hA hP hwf (inv_reach hA.okClosed hP hwf hr) ih h

/-! ## Soundness on runs -/

/-- A pending call stack is explained by the jump functions: `x` is a value with which the current
function was entered at `(sp, d1)`. -/
inductive Linked (P : Problem N D F L E) (J : AMap (D × N × D) E) : List N → N → D → L → Prop
  | nil {n0 d x} : IsSeed P n0 d x → Linked P J [] n0 d x
  | cons {stk c d4 g sp d d1 e x sp'} : Linked P J stk sp d1 x → J.get (d1, c, d4) = some e →
      P.icf.funOf sp = P.icf.funOf c →
      P.icf.isCall c = true → g ∈ P.icf.callees c → P.summaryFlow c g = none →
      sp' ∈ P.icf.starts g → d ∈ P.callFlow c g d4 →
      Linked P J (c :: stk) sp' d (P.alg.ap (P.callEdge c d4 g d) (P.alg.ap e x))

/-- A configuration is explained by a jump function. -/
def Explained (P : Problem N D F L E) (J : AMap (D × N × D) E) (c : Cfg N D L) : Prop :=
  ∃ d1 e sp x, J.get (d1, c.n, c.d) = some e ∧ c.v ⊑ P.alg.ap e x ∧ Linked P J c.stk sp d1 x ∧
    P.icf.funOf sp = P.icf.funOf c.n

theorem cov_final {A : EdgeAlg L E} {J : AMap (D × N × D) E} {p : PathEdge N D} {f : E}
    (h : Cov A J [] p f) : ∃ e, J.get (p.d1, p.n, p.d2) = some e ∧ FLe A f e := by
  rcases h with h | ⟨g, h, _⟩
  · exact h
  · simp at h

/-- Values at which the edge functions are monotone. -/
def MVal (P : Problem N D F L E) (ok : D → D → E → Prop) (x : L) : Prop := x ≠ top ∨ P.alg.MonoTop (AnyPair ok)

theorem mVal_mono {P : Problem N D F L E} {ok : D → D → E → Prop} (hA : P.alg.SoundFor ok) {x : L} (hx : MVal P ok x) {f : E}
    {d1 d2 : D} (hf : ok d1 d2 f) {y : L} (h : x ⊑ y) : P.alg.ap f x ⊑ P.alg.ap f y := by
  by_cases hxt : x = top
  · rcases hx with hx | hx
    · exact absurd hxt hx
    · rw [hxt]; exact hx f ⟨_, _, hf⟩ y
  · exact hA.mono _ _ f hf x y hxt h

theorem mVal_seed {P : Problem N D F L E} {ok : D → D → E → Prop} (hm : P.Regular (AnyPair ok)) {n : N} {d : D} {x : L} (h : IsSeed P n d x) :
    MVal P ok x := hm.imp (fun h' => h'.seed _ _ _ h) id

theorem mVal_ap {P : Problem N D F L E} {ok : D → D → E → Prop} (hm : P.Regular (AnyPair ok)) {f : E} {d1 d2 : D} (hf : ok d1 d2 f) {x : L} (h : MVal P ok x) :
    MVal P ok (P.alg.ap f x) := by
  rcases hm with hm | hm
  · rcases h with h | h
    · exact .inl (hm.ap _ ⟨_, _, hf⟩ _ h)
    · exact .inr h
  · exact .inr hm

theorem mVal_linked {P : Problem N D F L E} {ok : D → D → E → Prop} (hm : P.Regular (AnyPair ok)) (hP : P.OkEdgesFor ok) {J : AMap (D × N × D) E}
    (hJ : ∀ k e, J.get k = some e → ok k.1 k.2.2 e) {stk : List N} {sp : N} {d : D} {x : L} (h : Linked P J stk sp d x) :
    MVal P ok x := by
  induction h with
  | nil h => exact mVal_seed hm h
  | cons _ hj _ hc hg _ _ hd ih => exact mVal_ap hm (hP.call _ _ _ _ hc hg hd) (mVal_ap hm (hJ _ _ hj) ih)

theorem mVal_step {P : Problem N D F L E} {ok : D → D → E → Prop} (hm : P.Regular (AnyPair ok)) (hP : P.OkEdgesFor ok) {a b : Cfg N D L}
    (h : RStep P a b) (hst : ∀ c stk, a.stk = c :: stk → P.icf.isCall c = true ∧ P.icf.funOf a.n ∈ P.icf.callees c)
    (ha : MVal P ok a.v) : MVal P ok b.v := by
  cases h with
  | normal q1 q2 q3 => exact mVal_ap hm (hP.normal _ _ _ _ q1 q2 q3) ha
  | call q1 q2 _ _ q5 => exact mVal_ap hm (hP.call _ _ _ _ q1 q2 q5) ha
  | ret _ q2 q3 q4 => exact mVal_ap hm (hP.ret _ _ _ _ _ _ (.inr (hst _ _ rfl)) q2 rfl q3 q4) ha
  | callToRet q1 q2 q3 => exact mVal_ap hm (hP.ctr _ _ _ _ q1 q2 q3) ha
  | summary _ _ q3 q4 q5 => exact mVal_ap hm (hP.sum _ _ _ _ _ _ q3 q4 q5) ha

theorem mVal_run {P : Problem N D F L E} {ok : E → Prop} (hm : P.Regular (AnyPair (fun (_ _ : D) => ok))) (hP : P.OkEdges ok)
    {a b : Cfg N D L} (h : RSteps P a b) (ha : MVal P (fun (_ _ : D) => ok) a.v) : MVal P (fun (_ _ : D) => ok) b.v := by
  induction h with
  | refl => exact ha
  | tail _ h ih =>
    cases h with
    | @normal _ _ d _ _ d' _ q2 q3 => exact mVal_ap (d1 := d) (d2 := d') hm (hP.normal _ _ _ _ q2 q3) ih
    | @call _ _ d _ _ _ d' _ q2 _ _ q5 => exact mVal_ap (d1 := d) (d2 := d') hm (hP.call _ _ _ _ q2 q5) ih
    | @ret _ _ _ d _ _ d' _ _ q3 q4 => exact mVal_ap (d1 := d) (d2 := d') hm (hP.ret _ _ _ _ _ _ q3 q4) ih
    | @callToRet _ _ d _ _ d' _ q2 q3 => exact mVal_ap (d1 := d) (d2 := d') hm (hP.ctr _ _ _ _ q2 q3) ih
    | @summary _ _ d _ _ _ _ d' _ _ q3 q4 q5 => exact mVal_ap (d1 := d) (d2 := d') hm (hP.sum _ _ _ _ _ _ q3 q4 q5) ih

/-- The innermost pending call of an explained configuration calls the current function. -/
theorem Explained.stack {P : Problem N D F L E} (hwf : P.icf.WF) {J : AMap (D × N × D) E} {a : Cfg N D L} (h : Explained P J a) :
    ∀ c stk, a.stk = c :: stk → P.icf.isCall c = true ∧ P.icf.funOf a.n ∈ P.icf.callees c := by
  obtain ⟨d1, e, sp, x, _, _, hlk, hfun⟩ := h
  intro c stk hs
  rw [hs] at hlk
  cases hlk with
  | cons _ _ _ hc hg _ hsp _ => exact ⟨hc, by rw [← hfun, hwf.start_fun _ _ hsp]; exact hg⟩

theorem explained_step {P : Problem N D F L E} {ok : D → D → E → Prop} (hA : P.alg.SoundFor ok) (hm : P.Regular (AnyPair ok))
    (hP : P.OkEdgesFor ok) (hwf : P.icf.WF) {s : St N D E} (hi : Inv P ok s) (hc : CovInv P s)
    (hw : s.wl = []) {a b : Cfg N D L} (ha : Explained P s.jump a) (hv : MVal P ok a.v) (h : RStep P a b) :
    Explained P s.jump b := by
  have hcl := hc.closed
  have hrt := hc.ret
  rw [hw] at hcl hrt
  obtain ⟨d1, e, sp, x, hj, hle, hlk, hfun⟩ := ha
  have hoke := hi.okJ _ _ hj
  have ext : ∀ (g e' : E) (w : L) {d3 : D}, ok a.d d3 g → MVal P ok w → w ⊑ P.alg.ap e x → FLe P.alg (P.alg.extend e g) e' →
      P.alg.ap g w ⊑ P.alg.ap e' x := by
    intro g e' w d3 hg hmw hw hge
    exact le_trans (mVal_mono hA hmw hg hw) (le_trans (hA.extend_ge _ _ _ _ _ hoke hg x) (hge x))
  cases h with
  | normal h1 h2 h3 =>
    obtain ⟨e', hj', hge⟩ := cov_final (hcl _ _ _ _ hj _ _ (.normal h1 h2 h3))
    exact ⟨d1, e', sp, x, hj', ext _ _ _ (hP.normal _ _ _ _ h1 h2 h3) hv hle hge, hlk,
      hfun.trans (hwf.succs_fun _ _ h2).symm⟩
  | callToRet h1 h2 h3 =>
    obtain ⟨e', hj', hge⟩ := cov_final (hcl _ _ _ _ hj _ _ (.ctr h1 h2 h3))
    exact ⟨d1, e', sp, x, hj', ext _ _ _ (hP.ctr _ _ _ _ h1 h2 h3) hv hle hge, hlk,
      hfun.trans (hwf.ret_fun _ _ h2).symm⟩
  | summary h1 h2 h3 h4 h5 =>
    obtain ⟨e', hj', hge⟩ := cov_final (hcl _ _ _ _ hj _ _ (.sum h1 h2 h3 h4 h5))
    exact ⟨d1, e', sp, x, hj', ext _ _ _ (hP.sum _ _ _ _ _ _ h3 h4 h5) hv hle hge, hlk,
      hfun.trans (hwf.ret_fun _ _ h4).symm⟩
  | @call stk n d v g sp' d' h1 h2 h3 h4 h5 =>
    obtain ⟨e', hj', hge⟩ := cov_final (hcl _ _ _ _ hj _ _ (.call h1 h2 h3 h4 h5))
    refine ⟨d', e', sp', P.alg.ap (P.callEdge n d g d') (P.alg.ap e x), hj', ?_,
      .cons hlk hj hfun h1 h2 h3 h4 h5, rfl⟩
    exact le_trans (mVal_mono hA hv (hP.call _ _ _ _ h1 h2 h5) hle)
      (le_trans (hA.ap_id _) (hge _))
  | @ret stk c n d v r d' h1 h2 h3 h4 =>
    have hmx := mVal_linked hm hP hi.okJ hlk
    cases hlk with
    | @cons _ _ d4 g sp0 _ d0 e0 x0 _ hlk0 hj0 hfun0 hcall hg hs hsp hd =>
      have hgn : g = P.icf.funOf n := by
        rw [← hwf.start_fun _ _ hsp]; exact hfun
      subst hgn
      obtain ⟨e', hj', hge⟩ := cov_final (hrt _ _ _ _ hj0 hcall sp d1
        (mem_incomingAdds.2 ⟨_, hg, hs, hsp, hd⟩) _ _ _ hj h1 h2 hsp _ _ h3 h4)
      refine ⟨d0, e', sp0, x0, hj', ?_, hlk0, hfun0.trans (hwf.ret_fun _ _ h3).symm⟩
      have hok0 := hi.okJ _ _ hj0
      have hokc := hP.call _ _ _ _ hcall hg hd
      have hokr := hP.ret _ _ _ _ _ _ (.inr ⟨hcall, hg⟩) h2 rfl h3 h4
      refine le_trans (mVal_mono hA hv hokr hle) (le_trans ?_ (hge x0))
      refine le_trans ?_ (hA.extend_ge _ _ _ _ _ hok0
        (hA.ok_extend _ _ _ _ _ (hA.ok_extend _ _ _ _ _ hokc hoke) hokr) x0)
      refine le_trans ?_ (hA.extend_ge _ _ _ _ _ (hA.ok_extend _ _ _ _ _ hokc hoke) hokr _)
      exact mVal_mono hA (mVal_ap hm hoke hmx) hokr (hA.extend_ge _ _ _ _ _ hokc hoke _)

theorem explained_seed {P : Problem N D F L E} {ok : D → D → E → Prop} (hA : P.alg.SoundFor ok)
    {s : St N D E} (hc : CovInv P s) (hw : s.wl = []) {n0 : N} {d0 : D}
    {v0 : L} (h0 : IsSeed P n0 d0 v0) : Explained P s.jump ⟨[], n0, d0, v0⟩ := by
  have hs := hc.seeds
  rw [hw] at hs
  obtain ⟨e, hj, hge⟩ := cov_final (hs _ _ (mem_init_wl.2 ⟨n0, d0, v0, h0, rfl, rfl⟩))
  exact ⟨d0, e, n0, v0, hj, le_trans (hA.ap_id v0) (hge v0), .nil h0, rfl⟩

theorem explained_run {P : Problem N D F L E} {ok : D → D → E → Prop} (hA : P.alg.SoundFor ok) (hm : P.Regular (AnyPair ok))
    (hP : P.OkEdgesFor ok) (hwf : P.icf.WF) {s : St N D E} (hi : Inv P ok s) (hc : CovInv P s)
    (hw : s.wl = []) {a b : Cfg N D L} (ha : Explained P s.jump a) (hv : MVal P ok a.v)
    (h : RSteps P a b) : Explained P s.jump b := by
  have key : Explained P s.jump b ∧ MVal P ok b.v := by
    induction h with
    | refl => exact ⟨ha, hv⟩
    | tail _ h ih => exact ⟨explained_step hA hm hP hwf hi hc hw ih.1 ih.2 h, mVal_step hm hP h (ih.1.stack hwf) ih.2⟩
  exact key.1

end
end Phasar.IDE
