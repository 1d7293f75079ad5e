import Verif.CFG.ICFGLemmas
import Verif.IDE.Ifds
/-!
# Where the solver stores values

Phase II of the IDE solver writes at seeds, unbalanced return sites, calls, start points and the statements
`allNonCallStartNodes` lists; nowhere else.
-/
set_option linter.unusedSectionVars false
namespace Phasar.IDE
open Phasar JoinLat

section
variable {N D F L E : Type} [DecidableEq N] [DecidableEq D] [JoinLat L] [DecidableEq L]

/-- All stored values are at statements that satisfy `p`. -/
def Within (p : N → Prop) (v : VS N D L) : Prop := ∀ n d l, v.tab.get (n, d) = some l → p n

theorem foldl_within {A B : Type} (I : A → Prop) (f : A → B → A) : ∀ (l : List B) (a : A), I a →
    (∀ a b, b ∈ l → I a → I (f a b)) → I (l.foldl f a) := by
  intro l
  induction l with
  | nil => intro a h _; exact h
  | cons b l ih =>
    intro a h hs
    exact ih (f a b) (hs a b (by simp) h) (fun a c hc => hs a c (by simp [hc]))

theorem Within.setVal {p : N → Prop} {v : VS N D L} (h : Within p v) {n : N} (hn : p n) (d : D) (l : L) :
    Within p (setVal v n d l) := by
  intro n' d' l' h'
  unfold IDE.setVal at h'
  simp only [AMap.get_set] at h'
  split at h'
  · rename_i he
    rw [← (Prod.mk.inj he).1]; exact hn
  · exact h n' d' l' h'

theorem Within.propagateValue {p : N → Prop} {v : VS N D L} (h : Within p v) {n : N} (hn : p n) (d : D) (l : L) :
    Within p (propagateValue v n d l) := by
  unfold IDE.propagateValue
  simp only
  split
  · exact h
  · exact h.setVal hn d _

theorem Within.task {p : N → Prop} {P : Problem N D F L E} (hc : ∀ f c, c ∈ P.icf.callsIn f → p c)
    (hst : ∀ f sp, sp ∈ P.icf.starts f → p sp) {s : St N D E} {v : VS N D L} (h : Within p v) (n : N) (d : D) :
    Within p (valuePropagationTask P s v n d) := by
  have h1 : Within p (if P.icf.isStart n || containsSeedsFor P n || s.unbal.contains n
      then propagateValueAtStart P s.jump v n d else v) := by
    split
    · unfold propagateValueAtStart
      exact foldl_within _ _ _ _ h fun v c hcm hv => foldl_within _ _ _ _ hv fun v en _ hv =>
        hv.propagateValue (hc _ c hcm) _ _
    · exact h
  unfold valuePropagationTask
  simp only
  split
  · unfold propagateValueAtCall
    exact foldl_within _ _ _ _ h1 fun v g _ hv => foldl_within _ _ _ _ hv fun v d' _ hv => foldl_within _ _ _ _ hv
      fun v sp hsp hv => hv.propagateValue (hst _ sp hsp) _ _
  · exact h1

theorem solved_within {p : N → Prop} {P : Problem N D F L E} (hc : ∀ f c, c ∈ P.icf.callsIn f → p c)
    (hst : ∀ f sp, sp ∈ P.icf.starts f → p sp) (hn : ∀ n ∈ P.icf.nonCallStart, p n)
    (hs : ∀ n facts, (n, facts) ∈ P.seeds → p n) {s : St N D E} {w : VS N D L} (h : Solved P s w)
    (hu : ∀ n ∈ s.unbal, p n) : Within p w := by
  cases h with
  | @intro v _ _ hv hvw0 =>
    clear hvw0
    have hall : ∀ q ∈ allSeeds P s, p q.1 := by
      intro q hq
      unfold allSeeds at hq
      rcases List.mem_append.1 hq with hq | hq
      · obtain ⟨x, hx, rfl⟩ := List.mem_map.1 hq
        split
        · exact hs x.1 x.2 hx
        · exact hs x.1 x.2 hx
      · obtain ⟨x, hx, rfl⟩ := List.mem_map.1 hq
        exact hu x (List.mem_filter.1 hx).1
    have hvw : Within p v := by
      induction hv with
      | init =>
        unfold submitInitialValues
        refine foldl_within _ _ _ _ (fun n d l h => by cases h) fun v q hq hv => foldl_within _ _ _ _ hv fun v x _ hv => ?_
        exact Within.task hc hst (hv.setVal (hall q hq) _ _) _ _
      | step _ hst' ih =>
        cases hst' with
        | take a b x _ =>
          rename_i v0 _ _
          have h0 : Within p { v0 with vwl := a ++ b } := fun n d l h => ih n d l h
          exact Within.task hc hst h0 _ _
    unfold valueComputationTask
    exact foldl_within _ _ _ _ hvw fun v n hnn hv => foldl_within _ _ _ _ hv fun v sp _ hv => foldl_within _ _ _ _ hv
      fun v c _ hv => hv.setVal (hn n hnn) _ _

end
end Phasar.IDE
