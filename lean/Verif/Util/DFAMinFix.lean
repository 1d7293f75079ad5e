import Verif.Util.DFAMinLemmas
/-!
# Lemmas on what `minimizeGraph` leaves apart
-/
set_option linter.unusedSectionVars false
namespace Phasar.DFAMin
open Phasar.Adj

variable {T W : Type} [DecidableEq T] [DecidableEq W]

theorem join_mono {eq eq' : List Nat} {a b : Nat} (h : join eq a b = some eq') :
    (∀ u v : Nat, eq[u]? = eq[v]? → eq'[u]? = eq'[v]?) ∧ eq'[a]? = eq'[b]? := by
  unfold join at h
  cases ha : eq[a]? with
  | none => rw [ha] at h; simp at h
  | some x =>
    cases hb : eq[b]? with
    | none => rw [ha, hb] at h; simp at h
    | some y =>
      rw [ha, hb] at h
      cases h
      refine ⟨fun u v h => by rw [List.getElem?_map, List.getElem?_map, h], ?_⟩
      rw [List.getElem?_map, List.getElem?_map, ha, hb]
      simp only [Option.map_some, Option.some.injEq]
      rcases Nat.le_total x y with hle | hle
      · rw [Nat.max_eq_right hle, Nat.min_eq_left hle, if_pos rfl]; split <;> omega
      · rw [Nat.max_eq_left hle, Nat.min_eq_right hle, if_pos rfl]; split <;> omega

/-- What one pass does with the pairs: it keeps or joins each of them, and if it changes nothing it has tested all of
them in vain. -/
theorem pass_trace {g : G T W} (k : Nat) : ∀ (wl : List (Nat × Nat)) (eq : List Nat) (i : Nat) (ch : Bool)
    (r : List (Nat × Nat) × List Nat × Bool), pass g k wl eq i ch = some r →
    (∀ p ∈ wl, p ∈ r.1 ∨ r.2.1[p.1]? = r.2.1[p.2]?) ∧ (∀ u v : Nat, eq[u]? = eq[v]? → r.2.1[u]? = r.2.1[v]?) ∧
    (r.2.2 = false → ch = false ∧ r.1 = wl ∧ r.2.1 = eq ∧
      ∀ (j : Nat) p, i ≤ j → wl[j]? = some p → pairEquiv g eq p.1 p.2 = some false) := by
  induction k with
  | zero =>
    intro wl eq i ch r h
    unfold pass at h
    cases hp : wl[i]? with
    | none =>
      rw [hp] at h
      cases h
      refine ⟨fun p hp => .inl hp, fun u v h => h, fun h => ⟨h, rfl, rfl, fun j p hj hjp => ?_⟩⟩
      have := (List.getElem?_eq_some_iff.1 hjp).1
      have := List.getElem?_eq_none_iff.1 hp
      omega
    | some p => rw [hp] at h; cases h
  | succ k ih =>
    intro wl eq i ch r h
    unfold pass at h
    cases hp : wl[i]? with
    | none =>
      rw [hp] at h
      cases h
      refine ⟨fun p hp => .inl hp, fun u v h => h, fun h => ⟨h, rfl, rfl, fun j p hj hjp => ?_⟩⟩
      have := (List.getElem?_eq_some_iff.1 hjp).1
      have := List.getElem?_eq_none_iff.1 hp
      omega
    | some p =>
      rw [hp] at h
      simp only at h
      cases hb : pairEquiv g eq p.1 p.2 with
      | none => rw [hb] at h; cases h
      | some b =>
        rw [hb] at h
        simp only [Option.bind_some] at h
        cases b with
        | false =>
          simp only [Bool.false_eq_true, if_false] at h
          obtain ⟨h1, h2, h3⟩ := ih wl eq (i + 1) ch r h
          refine ⟨h1, h2, fun hr => ?_⟩
          obtain ⟨q1, q2, q3, q4⟩ := h3 hr
          refine ⟨q1, q2, q3, fun j q hj hjq => ?_⟩
          rcases Nat.lt_or_ge i j with hij | hij
          · exact q4 j q hij hjq
          · have : i = j := by omega
            subst this
            rw [hp] at hjq
            cases hjq
            exact hb
        | true =>
          simp only [if_true] at h
          cases hj : (if p.1 = p.2 then some eq else join eq p.1 p.2) with
          | none => rw [hj] at h; cases h
          | some eq' =>
            rw [hj] at h
            simp only [Option.bind_some] at h
            cases hs : swapPop wl i with
            | none => rw [hs] at h; cases h
            | some wl' =>
              rw [hs] at h
              simp only [Option.bind_some] at h
              obtain ⟨h1, h2, h3⟩ := ih wl' eq' i true r h
              have hm : (∀ u v : Nat, eq[u]? = eq[v]? → eq'[u]? = eq'[v]?) ∧ eq'[p.1]? = eq'[p.2]? := by
                split at hj
                · rename_i hpp
                  cases hj
                  exact ⟨fun u v h => h, by rw [hpp]⟩
                · exact join_mono hj
              obtain ⟨x, hx, hperm, _, _⟩ := swapPop_spec hs
              rw [hp] at hx
              cases hx
              refine ⟨fun q hq => ?_, fun u v h => h2 u v (hm.1 u v h), fun hr => ?_⟩
              · rcases List.mem_cons.1 (hperm.mem_iff.1 hq) with rfl | hq'
                · exact .inr (h2 _ _ hm.2)
                · exact h1 q hq'
              · exact absurd (h3 hr).1 (by decide)

theorem passes_trace {g : G T W} (n : Nat) : ∀ (wl : List (Nat × Nat)) (eq eq' : List Nat), passes g n wl eq = some eq' →
    (∀ u v : Nat, eq[u]? = eq[v]? → eq'[u]? = eq'[v]?) ∧
    ∀ p ∈ wl, eq'[p.1]? = eq'[p.2]? ∨ pairEquiv g eq' p.1 p.2 = some false := by
  induction n with
  | zero => intro wl eq eq' h; cases h
  | succ n ih =>
    intro wl eq eq' h
    unfold passes at h
    cases hr : pass g wl.length wl eq 0 false with
    | none => rw [hr] at h; cases h
    | some r =>
      rw [hr] at h
      simp only [Option.bind_some] at h
      obtain ⟨h1, h2, h3⟩ := pass_trace _ _ _ _ _ _ hr
      cases hc : r.2.2 with
      | true =>
        rw [hc] at h
        simp only [if_true] at h
        obtain ⟨q1, q2⟩ := ih _ _ _ h
        refine ⟨fun u v h => q1 u v (h2 u v h), fun p hp => ?_⟩
        rcases h1 p hp with h | h
        · exact q2 p h
        · exact .inl (q1 _ _ h)
      | false =>
        rw [hc] at h
        simp only [Bool.false_eq_true, if_false, Option.some.injEq] at h
        obtain ⟨_, e1, e2, e3⟩ := h3 hc
        subst h
        refine ⟨h2, fun p hp => .inr ?_⟩
        obtain ⟨j, hj, hjp⟩ := List.getElem_of_mem hp
        rw [e2]
        exact e3 j p (Nat.zero_le _) (by rw [List.getElem?_eq_getElem hj, hjp])

theorem edgeEquiv_of {eq : List Nat} {a b : Nat × W} (h : ER eq a b) (ha : a.1 < eq.length) (hb : b.1 < eq.length) :
    edgeEquiv eq a b = some true := by
  obtain ⟨h1, h2⟩ := h
  unfold edgeEquiv
  rw [if_neg (fun h => h h1)]
  split
  · rfl
  · rw [List.getElem?_eq_getElem ha, List.getElem?_eq_getElem hb] at h2 ⊢
    simp only [Option.some.injEq] at h2
    simp [h2]

theorem zipEquiv_of {eq : List Nat} : ∀ {ls rs : List (Nat × W)}, (∀ e, e ∈ ls → e.1 < eq.length) →
    (∀ e, e ∈ rs → e.1 < eq.length) →
    (∀ (i : Nat) e f, ls[i]? = some e → rs[i]? = some f → ER eq e f) → zipEquiv eq ls rs = some true
  | [], _, _, _, _ => by unfold zipEquiv; rfl
  | _ :: _, [], _, _, _ => by unfold zipEquiv; rfl
  | a :: as, b :: bs, h1, h2, h => by
    have := edgeEquiv_of (h 0 a b rfl rfl) (h1 a (by simp)) (h2 b (by simp))
    simp only [zipEquiv, this, Option.bind_some, if_true]
    exact zipEquiv_of (fun e he => h1 e (by simp [he])) (fun e he => h2 e (by simp [he]))
      (fun i e f he hf => h (i + 1) e f (by simpa using he) (by simpa using hf))

theorem pairs_mem {g : G T W} {a b : Nat} (hab : a < b) (hb : b < size g) (hn : node g a = node g b)
    (hd : outDegree g a = outDegree g b) : (a, b) ∈ pairs g := by
  unfold pairs
  rw [List.mem_flatMap]
  refine ⟨a, List.mem_range.2 (by omega), ?_⟩
  rw [List.mem_map]
  refine ⟨b, ?_, rfl⟩
  simp [List.mem_filter, hab, hb, candidate, hn, hd]

theorem compress_iff {g : G T W} {eq : List Nat} (hi : EqI g eq) (u v : Nat) :
    (compress eq)[u]? = (compress eq)[v]? ↔ eq[u]? = eq[v]? := by
  have hget : ∀ v : Nat, (compress eq)[v]? = (eq[v]?).map (rank eq) := fun v => List.getElem?_map ..
  rw [hget, hget]
  constructor
  · intro h
    cases hu : eq[u]? with
    | none =>
      cases hv : eq[v]? with
      | none => rfl
      | some y => rw [hu, hv] at h; cases h
    | some x =>
      cases hv : eq[v]? with
      | none => rw [hu, hv] at h; cases h
      | some y =>
        rw [hu, hv] at h
        simp only [Option.map_some, Option.some.injEq] at h
        have hx := hi.lead u x hu
        have hy := hi.lead v y hv
        rcases Nat.lt_trichotomy x y with q | q | q
        · have := rank_lt eq q hx; omega
        · rw [q]
        · have := rank_lt eq q hy; omega
  · intro h; rw [h]

/-- At the end no two vertices are apart whose edges lead, one by one or crosswise, to the same classes. -/
theorem minimize_fix {g : G T W} (hg : GWf g) {r : List Nat × Nat} (h : minimizeGraph g = some r) {a b : Nat}
    (hab : a < b) (hb : b < size g) (hn : node g a = node g b) {es fs : List (Nat × W)} (hes : outEdges g a = some es)
    (hfs : outEdges g b = some fs) (hlen : es.length = fs.length) :
    ((∀ (i : Nat) e f, es[i]? = some e → fs[i]? = some f → ER r.1 e f) → r.1[a]? = r.1[b]?) ∧
    (∀ e1 e2 f1 f2, es = [e1, e2] → fs = [f1, f2] → ER r.1 e1 f2 → ER r.1 e2 f1 → r.1[a]? = r.1[b]?) := by
  obtain ⟨eq, h1, h2⟩ := passes_spec hg ((pairs g).length + 1) (pairs g) (List.range (size g)) (by omega) (pairs_wlI g) (range_eqI g)
  have hr : r = (compress eq, numClasses eq) := by
    simp only [minimizeGraph, h1, Option.map_some, Option.some.injEq] at h
    exact h.symm
  subst hr
  have hER : ∀ e f : Nat × W, ER (compress eq) e f → ER eq e f := fun e f h => ⟨h.1, (compress_iff h2 _ _).1 h.2⟩
  obtain ⟨_, ht⟩ := passes_trace _ _ _ _ h1
  have hl1 : ∀ e, e ∈ es → e.1 < eq.length := fun e he => by rw [h2.len]; exact edges_lt hg hes he
  have hl2 : ∀ e, e ∈ fs → e.1 < eq.length := fun e he => by rw [h2.len]; exact edges_lt hg hfs he
  have hd : outDegree g a = outDegree g b := by rw [outDegree_of hes, outDegree_of hfs, hlen]
  have hp := ht (a, b) (pairs_mem hab hb hn hd)
  constructor
  · intro hall
    have hz := zipEquiv_of hl1 hl2 (fun i e f he hf => hER e f (hall i e f he hf))
    rcases hp with hp | hp
    · exact (compress_iff h2 _ _).2 hp
    · simp [pairEquiv, hes, hfs, hz] at hp
  · rintro e1 e2 f1 f2 rfl rfl q1 q2
    have z1 := edgeEquiv_of (hER _ _ q1) (hl1 _ (by simp)) (hl2 _ (by simp))
    have z2 := edgeEquiv_of (hER _ _ q2) (hl1 _ (by simp)) (hl2 _ (by simp))
    rcases hp with hp | hp
    · exact (compress_iff h2 _ _).2 hp
    · obtain ⟨b, hz⟩ := zipEquiv_some hl1 hl2
      simp only [pairEquiv, hes, hfs, hz, Option.bind_some, z1, z2, if_true] at hp
      cases b <;> simp at hp

end Phasar.DFAMin
