import Verif.Alias.StratifiedUp

/-! # Lemmas about the builder of stratified sets: merging two sets -/
namespace Phasar.Stratified
open CFLAnders (Attr Node)

variable {b b' : Builder} {cs cs' : List (List Nat)}

theorem up_miss {u d : List Nat} {hi lo : Nat} (hr : Rep b ((u ++ lo :: d) :: cs)) (hm : hi ∉ u ++ [lo]) (hh : Root b hi) :
    b.tryMergeUpwards lo hi = some (false, b) := by
  have hl : Root b lo := (hr.base.roots lo).1 (by simp)
  have hne : lo ≠ hi := fun e => hm (by simp [e])
  have hlen := hr.base.len
  simp only [List.flatten_cons, List.length_append, List.length_cons] at hlen
  obtain ⟨c, F, a, h1, h2⟩ := collect_miss (b.n + 1) (F := []) (a := (b.links lo).attrs) hr hm (by omega)
  simp only [Builder.tryMergeUpwards, hr.base.linksAt_root hl, hr.base.linksAt_root hh, Option.bind_eq_bind, Option.bind_some,
      if_neg hne, link_root hl, h1, if_pos h2]

theorem Merged.perm {φ : Nat → Nat} {new : List (List Nat)} (h : Merged b b' cs new φ) (hp : cs.Perm cs') : Merged b b' cs' new φ :=
  ⟨h.rep, h.ev, fun r s ha => h.adj r s ((AdjS.perm hp).2 ha)⟩

theorem LabOK.perm {φ : Nat → Nat} {new : List (List Nat)} {x y : Nat} (h : LabOK cs new φ x y) (hp : cs.Perm cs') :
    LabOK cs' new φ x y :=
  fun σ γ hσ hl => h σ γ hσ fun r s ha => hl r s ((AdjS.perm hp).1 ha)

theorem LabOK.symm {φ : Nat → Nat} {new : List (List Nat)} {x y : Nat} (h : LabOK cs new φ x y) : LabOK cs new φ y x :=
  fun σ γ hσ hl e => h σ γ hσ hl e.symm

theorem merge_ok {i j : Nat} (hr : Rep b cs) (hi : Root b i) (hj : Root b j) (hne : i ≠ j) :
    ∃ b' φ new, b.merge i j = some b' ∧ Merged b b' cs new φ ∧ φ i = φ j ∧ LabOK cs new φ i j := by
  obtain ⟨c, hc, hic⟩ := List.mem_flatten.1 ((hr.base.roots i).2 hi)
  obtain ⟨c', hc', hjc⟩ := List.mem_flatten.1 ((hr.base.roots j).2 hj)
  have hli := hr.base.linksAt_root hi
  have hlj := hr.base.linksAt_root hj
  by_cases hjc1 : j ∈ c
  · -- both in one chain
    have hp : cs.Perm (c :: cs.erase c) := List.perm_cons_erase hc
    obtain ⟨u, d, rfl⟩ := List.append_of_mem hic
    have hr' := hr.perm hp
    have hcase : j ∈ u ∨ j ∈ d := by
      simp only [List.mem_append, List.mem_cons] at hjc1
      rcases hjc1 with h | h | h
      · exact .inl h
      · exact absurd h.symm hne
      · exact .inr h
    rcases hcase with h | h
    · obtain ⟨p, m, rfl⟩ := List.append_of_mem h
      have e : p ++ j :: m ++ i :: d = p ++ j :: (m ++ i :: d) := by simp
      rw [e] at hr' hp
      obtain ⟨b', φ, h1, h2, h3, h4⟩ := up_hit hr'
      refine ⟨b', φ, _, ?_, h2.perm hp.symm, h3, h4.perm hp.symm⟩
      simp only [Builder.merge, hli, hlj, Option.bind_eq_bind, Option.bind_some, if_neg hne, h1, if_true]
    · obtain ⟨m, e, rfl⟩ := List.append_of_mem h
      have hm : j ∉ u ++ [i] := by
        have hn := (List.nodup_append.1 hr'.base.nodup).1
        have hn' := (List.nodup_append.1 hn).2.2
        intro hj
        simp only [List.mem_append, List.mem_singleton] at hj
        rcases hj with h | h
        · exact hn' j h j (by simp) rfl
        · exact hne h.symm
      have h0 := up_miss hr' hm hj
      obtain ⟨b', φ, h1, h2, h3, h4⟩ := up_hit hr'
      refine ⟨b', φ, _, ?_, h2.perm hp.symm, h3.symm, LabOK.symm (h4.perm hp.symm)⟩
      simp only [Builder.merge, hli, hlj, Option.bind_eq_bind, Option.bind_some, if_neg hne, h0, h1, if_true, Bool.false_eq_true, if_false]
  · have hcc : c' ≠ c := fun e => hjc1 (e ▸ hjc)
    have hp : cs.Perm (c :: c' :: (cs.erase c).erase c') :=
      (List.perm_cons_erase hc).trans (.cons _ (List.perm_cons_erase ((List.mem_erase_of_ne hcc).2 hc')))
    have hic1 : i ∉ c' := by
      intro h
      have := (hr.perm hp).base.nodup
      simp only [List.flatten_cons] at this
      exact (List.nodup_append.1 this).2.2 i hic i (by simp [h]) rfl
    obtain ⟨u, d, rfl⟩ := List.append_of_mem hic
    obtain ⟨v, e, rfl⟩ := List.append_of_mem hjc
    have hr' := hr.perm hp
    have h0 := up_miss hr' (fun h => hjc1 (by simp only [List.mem_append, List.mem_singleton] at h; rcases h with h | h <;> simp [h])) hj
    have h0' := up_miss (hr'.perm (List.Perm.swap _ _ _)) (fun h => hic1 (by simp only [List.mem_append, List.mem_singleton] at h; rcases h with h | h <;> simp [h])) hi
    obtain ⟨b', φ, C, h1, h2, h3, h4⟩ := mergeDirect_ok hr'
    refine ⟨b', φ, _, ?_, h2.perm hp.symm, h3, h4.perm hp.symm⟩
    simp only [Builder.merge, hli, hlj, Option.bind_eq_bind, Option.bind_some, if_neg hne, h0, h0', h1, Bool.false_eq_true, if_false]

end Phasar.Stratified
