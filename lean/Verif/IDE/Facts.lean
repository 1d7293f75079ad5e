import Verif.IDE.Phase2
/-!
# Only facts that can occur matter

The solver asks for edge functions only at facts generated by the flow functions.  So what the theorems
require of edge functions is needed only at such facts.
-/
namespace Phasar.IDE
open Phasar

section
variable {N D F L E : Type}

/-- The set `G` of facts contains the zero fact and the seeds and is closed under the flow functions. -/
structure Problem.FactsClosed (P : Problem N D F L E) (G : D → Prop) : Prop where
  zero : G P.zero
  seed : ∀ n facts d v, (n, facts) ∈ P.seeds → (d, v) ∈ facts → G d
  normal : ∀ n d n' d', G d → d' ∈ P.normalFlow n n' d → G d'
  call : ∀ n d g d', G d → d' ∈ P.callFlow n g d → G d'
  ret : ∀ c g e d r d', G d → d' ∈ P.retFlow c g e r d → G d'
  ctr : ∀ n d r d', G d → d' ∈ P.ctrFlow n r d → G d'
  sum : ∀ n d g s d', G d → P.summaryFlow n g = some s → d' ∈ s d → G d'

/-- All edge functions the problem hands out for existing flows of facts in `G` are in `ok`. -/
structure Problem.OkEdgesOn (P : Problem N D F L E) (G : D → Prop) (ok : E → Prop) : Prop where
  normal : ∀ n d n' d', G d → n' ∈ P.icf.succs n → d' ∈ P.normalFlow n n' d → ok (P.normalEdge n d n' d')
  call : ∀ n d g d', G d → g ∈ P.icf.callees n → d' ∈ P.callFlow n g d → ok (P.callEdge n d g d')
  ret : ∀ c g e d r d', G d → r ∈ P.icf.retSites c → d' ∈ P.retFlow c g e r d → ok (P.retEdge c g e d r d')
  ctr : ∀ n d r d', G d → r ∈ P.icf.retSites n → d' ∈ P.ctrFlow n r d → ok (P.ctrEdge n d r d')
  sum : ∀ n d g s r d', G d → P.summaryFlow n g = some s → r ∈ P.icf.retSites n → d' ∈ s d →
    ok (P.sumEdge n d r d')

/-- The problem with the identity as edge function at facts outside `G` (auxiliary, not part of the code). -/
def Problem.onFacts (P : Problem N D F L E) (G : D → Prop) [DecidablePred G] : Problem N D F L E :=
  { P with
    normalEdge := fun n d n' d' => if G d then P.normalEdge n d n' d' else P.alg.idE
    callEdge := fun n d g d' => if G d then P.callEdge n d g d' else P.alg.idE
    retEdge := fun c g e d r d' => if G d then P.retEdge c g e d r d' else P.alg.idE
    ctrEdge := fun n d r d' => if G d then P.ctrEdge n d r d' else P.alg.idE
    sumEdge := fun n d r d' => if G d then P.sumEdge n d r d' else P.alg.idE }

theorem okEdges_onFacts {P : Problem N D F L E} {G : D → Prop} [DecidablePred G] {ok : E → Prop}
    (hid : ok P.alg.idE) (h : P.OkEdgesOn G ok) : (P.onFacts G).OkEdges ok where
  normal n d n' d' h1 h2 := by
    simp only [Problem.onFacts]; split
    · exact h.normal _ _ _ _ ‹_› h1 h2
    · exact hid
  call n d g d' h1 h2 := by
    simp only [Problem.onFacts]; split
    · exact h.call _ _ _ _ ‹_› h1 h2
    · exact hid
  ret c g e d r d' h1 h2 := by
    simp only [Problem.onFacts]; split
    · exact h.ret _ _ _ _ _ _ ‹_› h1 h2
    · exact hid
  ctr n d r d' h1 h2 := by
    simp only [Problem.onFacts]; split
    · exact h.ctr _ _ _ _ ‹_› h1 h2
    · exact hid
  sum n d g s r d' h1 h2 h3 := by
    simp only [Problem.onFacts]; split
    · exact h.sum _ _ _ _ _ _ ‹_› h1 h2 h3
    · exact hid

theorem fact_of_step {P : Problem N D F L E} {G : D → Prop} (hc : P.FactsClosed G) {a b : Cfg N D L}
    (h : RStep P a b) (ha : G a.d) : G b.d := by
  cases h with
  | normal _ _ h => exact hc.normal _ _ _ _ ha h
  | call _ _ _ _ h => exact hc.call _ _ _ _ ha h
  | ret _ _ _ h => exact hc.ret _ _ _ _ _ _ ha h
  | callToRet _ _ h => exact hc.ctr _ _ _ _ ha h
  | summary _ _ h1 _ h => exact hc.sum _ _ _ _ _ ha h1 h

theorem step_onFacts {P : Problem N D F L E} {G : D → Prop} [DecidablePred G] {a b : Cfg N D L}
    (h : RStep P a b) (ha : G a.d) : RStep (P.onFacts G) a b := by
  cases h with
  | normal h1 h2 h3 => have := RStep.normal (P := P.onFacts G) (stk := ‹_›) (v := ‹_›) h1 h2 h3; simpa [Problem.onFacts, show G _ from ha] using this
  | call h1 h2 h3 h4 h5 => have := RStep.call (P := P.onFacts G) (stk := ‹_›) (v := ‹_›) h1 h2 h3 h4 h5; simpa [Problem.onFacts, show G _ from ha] using this
  | ret h1 h2 h3 h4 => have := RStep.ret (P := P.onFacts G) (stk := ‹_›) (v := ‹_›) h1 h2 h3 h4; simpa [Problem.onFacts, show G _ from ha] using this
  | callToRet h1 h2 h3 => have := RStep.callToRet (P := P.onFacts G) (stk := ‹_›) (v := ‹_›) h1 h2 h3; simpa [Problem.onFacts, show G _ from ha] using this
  | summary h1 h2 h3 h4 h5 => have := RStep.summary (P := P.onFacts G) (stk := ‹_›) (v := ‹_›) h1 h2 h3 h4 h5; simpa [Problem.onFacts, show G _ from ha] using this

theorem runVal_onFacts [JoinLat L] {P : Problem N D F L E} {G : D → Prop} [DecidablePred G] (hc : P.FactsClosed G)
    {n : N} {d : D} {x : L} (h : RunVal P n d x) : RunVal (P.onFacts G) n d x := by
  obtain ⟨n0, d0, v0, stk, hs, hr⟩ := h
  refine ⟨n0, d0, v0, stk, hs, ?_⟩
  have h0 : G d0 := by
    obtain ⟨facts, h1, h2 | ⟨h2, _⟩⟩ := hs
    · exact hc.seed _ _ _ _ h1 h2
    · exact h2 ▸ hc.zero
  have : ∀ {a b : Cfg N D L}, RSteps P a b → G a.d → RSteps (P.onFacts G) a b ∧ G b.d := by
    intro a b h
    induction h with
    | refl => exact fun ha => ⟨.refl _, ha⟩
    | tail _ h2 ih => exact fun ha => ⟨.tail (ih ha).1 (step_onFacts h2 (ih ha).2), fact_of_step hc h2 (ih ha).2⟩
  exact (this hr h0).1

end

section
variable {N D F L E : Type} [DecidableEq N] [DecidableEq D]

theorem AMap.mem_set {K V : Type} [DecidableEq K] {m : AMap K V} {k : K} {v : V} {p : K × V} (h : p ∈ AMap.set m k v) :
    p = (k, v) ∨ p ∈ m := by
  induction m with
  | nil => exact .inl (by simpa [AMap.set] using h)
  | cons q m ih =>
    simp only [AMap.set] at h
    split at h
    · rcases List.mem_cons.1 h with h | h
      · exact .inl h
      · exact .inr (List.mem_cons_of_mem _ h)
    · rcases List.mem_cons.1 h with h | h
      · exact .inr (h ▸ List.mem_cons_self)
      · exact (ih h).imp_right (List.mem_cons_of_mem _)

/-- All facts in the tables are in `G`. -/
structure GoodSt (G : D → Prop) (s : St N D E) : Prop where
  wl : ∀ x ∈ s.wl, G x.1.d1 ∧ G x.1.d2
  jump : ∀ p ∈ s.jump, G p.1.1 ∧ G p.1.2.2
  es : ∀ p ∈ s.endSum, G p.1.2.1 ∧ G p.1.2.2.2
  inc : ∀ p ∈ s.incoming, ∀ q ∈ p.2, ∀ d ∈ q.2, G d

theorem flatMap_congr' {A B : Type} {l : List A} {f g : A → List B} (h : ∀ a ∈ l, f a = g a) : l.flatMap f = l.flatMap g := by
  induction l with
  | nil => rfl
  | cons a l ih =>
    rw [List.flatMap_cons, List.flatMap_cons, h a List.mem_cons_self, ih fun b hb => h b (List.mem_cons_of_mem _ hb)]

theorem raw_endSummary {s : St N D E} {sp : N} {d : D} {en : N × D × E} (h : en ∈ endSummary s sp d) :
    ((sp, d, en.1, en.2.1), en.2.2) ∈ s.endSum := by
  obtain ⟨⟨⟨a, b, c, e⟩, f⟩, h1, h2⟩ := List.mem_filterMap.1 h
  split at h2
  · rename_i hh; obtain ⟨rfl, rfl⟩ := hh; cases h2; exact h1
  · cases h2

theorem incomingAt_good {G : D → Prop} {s : St N D E} (hs : GoodSt G s) {sp : N} {d1 : D} :
    ∀ q ∈ incomingAt s sp d1, ∀ d ∈ q.2, G d := by
  unfold incomingAt
  split
  · rename_i m hm; exact hs.inc _ (AMap.mem_of_get hm)
  · simp

theorem foldl_keep {A B : Type} (Q : B → Prop) (l : List A) (f : B → A → B) (b : B) (hb : Q b)
    (h : ∀ b, Q b → ∀ a ∈ l, Q (f b a)) : Q (l.foldl f b) := by
  induction l generalizing b with
  | nil => exact hb
  | cons a l ih => exact ih _ (h b hb a List.mem_cons_self) fun b hb a ha => h b hb a (List.mem_cons_of_mem _ ha)

theorem foldl_eq_keep {A B : Type} (Q : B → Prop) (l : List A) (f g : B → A → B) (b : B) (hb : Q b)
    (h : ∀ b, Q b → ∀ a ∈ l, f b a = g b a ∧ Q (f b a)) : l.foldl f b = l.foldl g b ∧ Q (l.foldl f b) := by
  induction l generalizing b with
  | nil => exact ⟨rfl, hb⟩
  | cons a l ih =>
    have h1 := h b hb a List.mem_cons_self
    rw [List.foldl_cons, List.foldl_cons, ← h1.1]
    exact ih _ h1.2 fun b hb a ha => h b hb a (List.mem_cons_of_mem _ ha)

theorem incMap_good {G : D → Prop} {P : Problem N D F L E} {s : St N D E} (hs : GoodSt G s) {d1 : D} {n : N} :
    ∀ q ∈ incMap P s d1 n, ∀ d ∈ q.2, G d := by
  unfold incMap
  refine foldl_keep (fun m : AMap N (List D) => ∀ q ∈ m, ∀ d ∈ q.2, G d) _ _ _ (by simp) fun m hm sp _ => ?_
  refine foldl_keep (fun m : AMap N (List D) => ∀ q ∈ m, ∀ d ∈ q.2, G d) _ _ _ hm fun m hm en hen q hq => ?_
  rcases AMap.mem_set hq with rfl | hq
  · exact incomingAt_good hs en hen
  · exact hm q hq

theorem raw_reverseLookup {s : St N D E} {n : N} {d : D} {j : D × E} (h : j ∈ reverseLookup s n d) :
    ((j.1, n, d), j.2) ∈ s.jump := by
  obtain ⟨⟨⟨a, b, c⟩, f⟩, h1, h2⟩ := List.mem_filterMap.1 h
  split at h2
  · rename_i hh; obtain ⟨rfl, rfl⟩ := hh; cases h2; exact h1
  · cases h2

theorem raw_forwardLookup {J : AMap (D × N × D) E} {n : N} {d : D} {j : D × E} (h : j ∈ forwardLookup J d n) :
    ((d, n, j.1), j.2) ∈ J := by
  obtain ⟨⟨⟨a, b, c⟩, f⟩, h1, h2⟩ := List.mem_filterMap.1 h
  split at h2
  · rename_i hh; obtain ⟨rfl, rfl⟩ := hh; cases h2; exact h1
  · cases h2

variable {P : Problem N D F L E} {G : D → Prop} [DecidablePred G]

theorem normal_onFacts (hc : P.FactsClosed G) {s : St N D E} (hs : GoodSt G s) {d1 d2 : D} {n : N} (h1 : G d1) (h2 : G d2) :
    processNormalFlow (P.onFacts G) s d1 n d2 = processNormalFlow P s d1 n d2 ∧ GoodSt G (processNormalFlow P s d1 n d2) := by
  constructor
  · simp only [processNormalFlow, jumpFunction, Problem.onFacts, if_pos h2]
  · refine ⟨fun x hx => ?_, hs.jump, hs.es, hs.inc⟩
    rcases List.mem_append.1 hx with hx | hx
    · exact hs.wl x hx
    · obtain ⟨n', _, hx⟩ := List.mem_flatMap.1 hx
      obtain ⟨d3, hd, rfl⟩ := List.mem_map.1 hx
      exact ⟨h1, hc.normal _ _ _ _ h2 hd⟩

omit [DecidablePred G] in
theorem addIncoming_good {inc : AMap (N × D) (AMap N (List D))} (hi : ∀ p ∈ inc, ∀ q ∈ p.2, ∀ d ∈ q.2, G d) {sp n : N}
    {d3 d2 : D} (h2 : G d2) : ∀ p ∈ addIncoming inc sp d3 n d2, ∀ q ∈ p.2, ∀ d ∈ q.2, G d := by
  intro p hp
  unfold addIncoming at hp
  rcases AMap.mem_set hp with rfl | hp
  · intro q hq
    have hm : ∀ q ∈ (match inc.get (sp, d3) with | some m => m | none => []), ∀ d ∈ q.2, G d := by
      split
      · rename_i m hm; exact hi _ (AMap.mem_of_get hm)
      · simp
    rcases AMap.mem_set hq with rfl | hq
    · intro d hd
      have hold : ∀ d ∈ (match (match inc.get (sp, d3) with | some m => m | none => ([] : AMap N (List D))).get n with
          | some ds => ds | none => []), G d := by
        split
        · rename_i ds hds; exact hm _ (AMap.mem_of_get hds)
        · simp
      have hins : ∀ l : List D, (∀ d ∈ l, G d) → ∀ d ∈ insertSet l d2, G d := by
        intro l hl d hd
        simp only [insertSet] at hd
        split at hd
        · exact hl d hd
        · rcases List.mem_append.1 hd with hd | hd
          · exact hl d hd
          · rw [List.mem_singleton] at hd; exact hd ▸ h2
      exact hins _ hold d hd
    · exact hm q hq
  · exact hi p hp

theorem call_onFacts (hc : P.FactsClosed G) {s : St N D E} (hs : GoodSt G s) {d1 d2 : D} {n : N} (h1 : G d1) (h2 : G d2) :
    processCall (P.onFacts G) s d1 n d2 = processCall P s d1 n d2 ∧ GoodSt G (processCall P s d1 n d2) := by
  constructor
  · have hcal : ∀ f g, calleePushes (P.onFacts G) s f d1 n d2 g = calleePushes P s f d1 n d2 g := by
      intro f g
      simp only [calleePushes, Problem.onFacts, if_pos h2]
      refine flatMap_congr' fun sp _ => flatMap_congr' fun d3 _ => ?_
      congr 1
      refine flatMap_congr' fun en hen => flatMap_congr' fun r _ => ?_
      simp only [if_pos (show G en.2.1 from (hs.es _ (raw_endSummary hen)).2)]
    have hsum : ∀ f sm, summaryPushes (P.onFacts G) f d1 n d2 sm = summaryPushes P f d1 n d2 sm := by
      intro f sm; simp only [summaryPushes, Problem.onFacts, if_pos h2]
    have hctr : ∀ f, ctrPushes (P.onFacts G) f d1 n d2 = ctrPushes P f d1 n d2 := by
      intro f; simp only [ctrPushes, Problem.onFacts, if_pos h2]
    have hj : jumpFunction (P.onFacts G) s d1 n d2 = jumpFunction P s d1 n d2 := rfl
    have ha : incomingAdds (P.onFacts G) n d2 = incomingAdds P n d2 := rfl
    simp only [processCall, hcal, hsum, hctr, hj, ha]
    rfl
  · refine ⟨fun x hx => ?_, hs.jump, hs.es, ?_⟩
    · simp only [processCall] at hx
      rcases List.mem_append.1 hx with hx | hx
      · rcases List.mem_append.1 hx with hx | hx
        · exact hs.wl x hx
        · obtain ⟨g, _, hx⟩ := List.mem_flatMap.1 hx
          split at hx
          · rename_i sm hsm
            obtain ⟨r, _, hx⟩ := List.mem_flatMap.1 hx
            obtain ⟨d3, hd, rfl⟩ := List.mem_map.1 hx
            exact ⟨h1, hc.sum _ _ _ _ _ h2 hsm hd⟩
          · obtain ⟨sp, _, hx⟩ := List.mem_flatMap.1 hx
            obtain ⟨d3, hd, hx⟩ := List.mem_flatMap.1 hx
            have h3 := hc.call _ _ _ _ h2 hd
            rcases List.mem_cons.1 hx with rfl | hx
            · exact ⟨h3, h3⟩
            · obtain ⟨en, hen, hx⟩ := List.mem_flatMap.1 hx
              obtain ⟨r, _, hx⟩ := List.mem_flatMap.1 hx
              obtain ⟨d5, hd5, rfl⟩ := List.mem_map.1 hx
              exact ⟨h1, hc.ret _ _ _ _ _ _ (hs.es _ (raw_endSummary hen)).2 hd5⟩
      · obtain ⟨r, _, hx⟩ := List.mem_flatMap.1 hx
        obtain ⟨d3, hd, rfl⟩ := List.mem_map.1 hx
        exact ⟨h1, hc.ctr _ _ _ _ h2 hd⟩
    · exact foldl_keep (fun inc : AMap (N × D) (AMap N (List D)) => ∀ p ∈ inc, ∀ q ∈ p.2, ∀ d ∈ q.2, G d) _ _ _ hs.inc
        fun inc hi p _ => addIncoming_good hi h2

theorem exit_onFacts (hc : P.FactsClosed G) {s : St N D E} (hs : GoodSt G s) {d1 d2 : D} {n : N} (h1 : G d1) (h2 : G d2) :
    processExit (P.onFacts G) s d1 n d2 = processExit P s d1 n d2 ∧ GoodSt G (processExit P s d1 n d2) := by
  have hex : ∀ f inc, (∀ q ∈ inc, ∀ d ∈ q.2, G d) → exitPushes (P.onFacts G) s f d1 n d2 inc = exitPushes P s f d1 n d2 inc := by
    intro f inc hi
    simp only [exitPushes, Problem.onFacts, if_pos h2]
    refine flatMap_congr' fun en hen => flatMap_congr' fun r _ => flatMap_congr' fun d4 hd4 => ?_
    simp only [if_pos (hi en hen d4 hd4)]
  have hun : ∀ f, unbalancedPushes (P.onFacts G) f n d2 = unbalancedPushes P f n d2 := by
    intro f; simp only [unbalancedPushes, Problem.onFacts, if_pos h2]
  have hinc : incMap (P.onFacts G) s d1 n = incMap P s d1 n := rfl
  have hj : jumpFunction (P.onFacts G) s d1 n d2 = jumpFunction P s d1 n d2 := rfl
  constructor
  · simp only [processExit, hinc, hj, hun, hex _ _ (incMap_good hs)]
    rfl
  · have hs1 : GoodSt G ({ s with
        endSum := (P.icf.starts (P.icf.funOf n)).foldl (fun es sp => es.set (sp, d1, n, d2) (jumpFunction P s d1 n d2)) s.endSum
        wl := s.wl ++ exitPushes P s (jumpFunction P s d1 n d2) d1 n d2 (incMap P s d1 n) } : St N D E) := by
      refine ⟨fun x hx => ?_, hs.jump, ?_, hs.inc⟩
      · rcases List.mem_append.1 hx with hx | hx
        · exact hs.wl x hx
        · obtain ⟨en, _, hx⟩ := List.mem_flatMap.1 hx
          obtain ⟨r, _, hx⟩ := List.mem_flatMap.1 hx
          obtain ⟨d4, _, hx⟩ := List.mem_flatMap.1 hx
          obtain ⟨d5, hd5, hx⟩ := List.mem_flatMap.1 hx
          obtain ⟨j, hj, hx⟩ := List.mem_flatMap.1 hx
          split at hx
          · simp at hx
          · rw [List.mem_singleton] at hx
            subst hx
            exact ⟨(hs.jump _ (raw_reverseLookup hj)).1, hc.ret _ _ _ _ _ _ h2 hd5⟩
      · refine foldl_keep (fun es : AMap (N × D × N × D) E => ∀ p ∈ es, G p.1.2.1 ∧ G p.1.2.2.2) _ _ _ hs.es
          fun es he sp _ p hp => ?_
        rcases AMap.mem_set hp with rfl | hp
        · exact ⟨h1, h2⟩
        · exact he p hp
    simp only [processExit]
    split
    · refine ⟨fun x hx => ?_, hs1.jump, hs1.es, hs1.inc⟩
      rcases List.mem_append.1 hx with hx | hx
      · exact hs1.wl x hx
      · obtain ⟨c, _, hx⟩ := List.mem_flatMap.1 hx
        obtain ⟨r, _, hx⟩ := List.mem_flatMap.1 hx
        obtain ⟨d5, hd5, rfl⟩ := List.mem_map.1 hx
        exact ⟨hc.zero, hc.ret _ _ _ _ _ _ h2 hd5⟩
    · exact hs1

theorem propagate_onFacts (hc : P.FactsClosed G) {s : St N D E} (hs : GoodSt G s) {p : PathEdge N D} (f : E) (h1 : G p.d1)
    (h2 : G p.d2) : propagate (P.onFacts G) s p f = propagate P s p f ∧ GoodSt G (propagate P s p f) := by
  have hs' : ∀ f', GoodSt G ({ s with jump := s.jump.set (p.d1, p.n, p.d2) f' } : St N D E) := by
    intro f'
    refine ⟨hs.wl, fun q hq => ?_, hs.es, hs.inc⟩
    rcases AMap.mem_set hq with rfl | hq
    · exact ⟨h1, h2⟩
    · exact hs.jump q hq
  have key : ∀ {t : St N D E}, GoodSt G t →
      pathEdgeProcessingTask (P.onFacts G) t p.d1 p.n p.d2 = pathEdgeProcessingTask P t p.d1 p.n p.d2 ∧
      GoodSt G (pathEdgeProcessingTask P t p.d1 p.n p.d2) := by
    intro t ht
    have hicf : (P.onFacts G).icf = P.icf := rfl
    simp only [pathEdgeProcessingTask, hicf]
    by_cases hcall : P.icf.isCall p.n = true
    · rw [if_pos hcall, if_pos hcall]; exact call_onFacts hc ht h1 h2
    · rw [if_neg hcall, if_neg hcall]
      have he : (if P.icf.isExit p.n = true then processExit (P.onFacts G) t p.d1 p.n p.d2 else t) =
          (if P.icf.isExit p.n = true then processExit P t p.d1 p.n p.d2 else t) ∧
          GoodSt G (if P.icf.isExit p.n = true then processExit P t p.d1 p.n p.d2 else t) := by
        split
        · exact exit_onFacts hc ht h1 h2
        · exact ⟨rfl, ht⟩
      rw [he.1]
      split
      · exact ⟨rfl, he.2⟩
      · exact normal_onFacts hc he.2 h1 h2
  have hj : jumpFunction (P.onFacts G) s p.d1 p.n p.d2 = jumpFunction P s p.d1 p.n p.d2 := rfl
  have hal : (P.onFacts G).alg = P.alg := rfl
  simp only [propagate, hj, hal]
  split
  · exact ⟨rfl, hs⟩
  · exact key (hs' _)

theorem sStep_onFacts (hc : P.FactsClosed G) {s t : St N D E} (hg : GoodSt G s) (h : SStep P s t) :
    SStep (P.onFacts G) s t ∧ GoodSt G t := by
  cases h with
  | take a b x hx =>
    have hmem : ∀ y, y ∈ a ++ b → y ∈ a ++ x :: b := by
      intro y hy
      rcases List.mem_append.1 hy with hy | hy
      · exact List.mem_append_left _ hy
      · exact List.mem_append_right _ (List.mem_cons_of_mem _ hy)
    have hx' := hg.wl x (by rw [hx]; exact List.mem_append_right _ List.mem_cons_self)
    have hs' : GoodSt G { s with wl := a ++ b } := ⟨fun y hy => hg.wl y (by rw [hx]; exact hmem y hy), hg.jump, hg.es, hg.inc⟩
    have := propagate_onFacts hc hs' x.2 hx'.1 hx'.2
    exact ⟨this.1 ▸ SStep.take (P := P.onFacts G) _ a b x hx, this.2⟩

theorem reach_onFacts [JoinLat L] (hc : P.FactsClosed G) {s : St N D E} (h : Reach P s) : Reach (P.onFacts G) s ∧ GoodSt G s := by
  induction h with
  | init =>
    refine ⟨Reach.init (P := P.onFacts G), ⟨fun x hx => ?_, fun p hp => absurd hp List.not_mem_nil,
      fun p hp => absurd hp List.not_mem_nil, fun p hp => absurd hp List.not_mem_nil⟩⟩
    obtain ⟨p, hp, hx⟩ := List.mem_flatMap.1 hx
    obtain ⟨q, hq, rfl⟩ := List.mem_map.1 hx
    obtain ⟨p0, hp0, rfl⟩ := List.mem_map.1 hp
    have : G q.1 := by
      split at hq
      · exact hc.seed _ _ _ _ hp0 hq
      · rcases List.mem_append.1 hq with hq | hq
        · exact hc.seed _ _ _ _ hp0 hq
        · rw [List.mem_singleton] at hq; exact hq ▸ hc.zero
    exact ⟨this, this⟩
  | step _ hst ih =>
    have := sStep_onFacts hc ih.2 hst
    exact ⟨Reach.step ih.1 this.1, this.2⟩

variable [JoinLat L] [DecidableEq L]

omit [DecidablePred G] in
theorem propagateValue_vwl {v : VS N D L} {n : N} {d : D} {l : L} (hv : ∀ x ∈ v.vwl, G x.2) (hd : G d) :
    ∀ x ∈ (propagateValue v n d l).vwl, G x.2 := by
  simp only [propagateValue]
  split
  · exact hv
  · intro x hx
    rcases List.mem_append.1 hx with hx | hx
    · exact hv x hx
    · rw [List.mem_singleton] at hx; exact hx ▸ hd

theorem valueTask_onFacts (hc : P.FactsClosed G) {s : St N D E} (hs : GoodSt G s) {v : VS N D L} (hv : ∀ x ∈ v.vwl, G x.2)
    {n : N} {d : D} (hd : G d) : valuePropagationTask (P.onFacts G) s v n d = valuePropagationTask P s v n d ∧
      ∀ x ∈ (valuePropagationTask P s v n d).vwl, G x.2 := by
  have hstart : ∀ x ∈ (propagateValueAtStart P s.jump v n d).vwl, G x.2 :=
    foldl_keep (fun v : VS N D L => ∀ x ∈ v.vwl, G x.2) _ _ _ hv fun v hv c _ =>
      foldl_keep (fun v : VS N D L => ∀ x ∈ v.vwl, G x.2) _ _ _ hv fun v hv en hen =>
        propagateValue_vwl hv (hs.jump _ (raw_forwardLookup hen)).2
  have hcall : ∀ v : VS N D L, (∀ x ∈ v.vwl, G x.2) → propagateValueAtCall (P.onFacts G) v n d = propagateValueAtCall P v n d ∧
      ∀ x ∈ (propagateValueAtCall P v n d).vwl, G x.2 := by
    intro v hv
    refine ⟨by simp only [propagateValueAtCall, Problem.onFacts, if_pos hd], ?_⟩
    exact foldl_keep (fun v : VS N D L => ∀ x ∈ v.vwl, G x.2) _ _ _ hv fun v hv g _ =>
      foldl_keep (fun v : VS N D L => ∀ x ∈ v.vwl, G x.2) _ _ _ hv fun v hv d' hd' =>
        foldl_keep (fun v : VS N D L => ∀ x ∈ v.vwl, G x.2) _ _ _ hv fun v hv sp _ =>
          propagateValue_vwl hv (hc.call _ _ _ _ hd hd')
  have hstart' : propagateValueAtStart (P.onFacts G) s.jump v n d = propagateValueAtStart P s.jump v n d := rfl
  have hicf : (P.onFacts G).icf = P.icf := rfl
  have hseed : containsSeedsFor (P.onFacts G) n = containsSeedsFor P n := rfl
  simp only [valuePropagationTask, hstart', hicf, hseed]
  have h1 : ∀ x ∈ (if (P.icf.isStart n || containsSeedsFor P n || s.unbal.contains n) = true then
      propagateValueAtStart P s.jump v n d else v).vwl, G x.2 := by
    split
    · exact hstart
    · exact hv
  split
  · exact hcall _ h1
  · exact ⟨rfl, h1⟩

theorem submit_onFacts (hc : P.FactsClosed G) {s : St N D E} (hs : GoodSt G s) :
    submitInitialValues (P.onFacts G) s = submitInitialValues P s ∧ ∀ x ∈ (submitInitialValues P s).vwl, G x.2 := by
  have key : submitInitialValues P s = submitInitialValues (P.onFacts G) s ∧
      ∀ x ∈ (submitInitialValues P s).vwl, G x.2 := by
    refine foldl_eq_keep (fun v : VS N D L => ∀ x ∈ v.vwl, G x.2) _ _ _ _ (by simp) fun v hv p hp => ?_
    refine foldl_eq_keep (fun v : VS N D L => ∀ x ∈ v.vwl, G x.2) _ _ _ _ hv fun v hv q hq => ?_
    have hq' : G q.1 := by
      rcases List.mem_append.1 hp with hp | hp
      · obtain ⟨p0, hp0, rfl⟩ := List.mem_map.1 hp
        split at hq
        · exact hc.seed _ _ _ _ hp0 hq
        · rcases List.mem_append.1 hq with hq | hq
          · exact hc.seed _ _ _ _ hp0 hq
          · rw [List.mem_singleton] at hq; exact hq ▸ hc.zero
      · obtain ⟨n, _, rfl⟩ := List.mem_map.1 hp
        rw [List.mem_singleton] at hq; exact hq ▸ hc.zero
    have := valueTask_onFacts hc hs (v := setVal v p.1 q.1 (JoinLat.join q.2 (val v p.1 q.1))) hv (n := p.1) hq'
    exact ⟨this.1.symm, this.2⟩
  exact ⟨key.1.symm, key.2⟩

theorem vStep_onFacts (hc : P.FactsClosed G) {s : St N D E} (hs : GoodSt G s) {v w : VS N D L} (hg : ∀ x ∈ v.vwl, G x.2)
    (h : VStep P s v w) : VStep (P.onFacts G) s v w ∧ ∀ x ∈ w.vwl, G x.2 := by
  cases h with
  | take a b x hx =>
    have hmem : ∀ y, y ∈ a ++ b → y ∈ a ++ x :: b := by
      intro y hy
      rcases List.mem_append.1 hy with hy | hy
      · exact List.mem_append_left _ hy
      · exact List.mem_append_right _ (List.mem_cons_of_mem _ hy)
    have hx' := hg x (by rw [hx]; exact List.mem_append_right _ List.mem_cons_self)
    have := valueTask_onFacts hc hs (v := { v with vwl := a ++ b }) (fun y hy => hg y (by rw [hx]; exact hmem y hy))
      (n := x.1) hx'
    exact ⟨this.1 ▸ VStep.take (P := P.onFacts G) _ a b x hx, this.2⟩

theorem vReach_onFacts (hc : P.FactsClosed G) {s : St N D E} (hs : GoodSt G s) {v : VS N D L} (h : VReach P s v) :
    VReach (P.onFacts G) s v ∧ ∀ x ∈ v.vwl, G x.2 := by
  induction h with
  | init => have := submit_onFacts (L := L) hc hs; exact ⟨this.1 ▸ VReach.init, this.2⟩
  | step _ hst ih =>
    have := vStep_onFacts hc hs ih.2 hst
    exact ⟨VReach.step ih.1 this.1, this.2⟩

/-- Every run of the solver is also one for the problem with other edge functions outside `G`. -/
theorem solved_onFacts (hc : P.FactsClosed G) {s : St N D E} {w : VS N D L} (h : Solved P s w) : Solved (P.onFacts G) s w := by
  cases h with
  | intro hs hw hv hvw =>
    obtain ⟨h1, h2⟩ := reach_onFacts hc hs
    exact Solved.intro (P := P.onFacts G) h1 hw (vReach_onFacts hc h2 hv).1 hvw

end
end Phasar.IDE
