import Verif.Alias.StratifiedMerge

/-! # Lemmas about the builder of stratified sets: merging two sets -/
namespace Phasar.Stratified
open CFLAnders (Attr Node)

variable {b b' : Builder} {cs cs' : List (List Nat)}

theorem Rep.perm (h : Rep b cs) (hp : cs.Perm cs') : Rep b cs' :=
  ⟨h.base.perm hp.flatten, fun c hc => h.seg c (hp.mem_iff.2 hc)⟩

theorem AdjS.perm {r s : Nat} (hp : cs.Perm cs') : AdjS cs r s ↔ AdjS cs' r s := by
  simp only [AdjS, hp.mem_iff]

/-- Repeated application. -/
def iter {G : Type} (σ : G → G) : Nat → G → G
  | 0, g => g
  | k + 1, g => σ (iter σ k g)

/-- A step on labels that can be undone and has no cycles but fixed points. -/
structure Shift {G : Type} (σ : G → G) : Prop where
  inj : ∀ g h, σ g = σ h → g = h
  cycle : ∀ k g, iter σ (k + 1) g = g → σ g = g

/-- Labels of the old sets fit the new ones. -/
def LabOK (old new : List (List Nat)) (φ : Nat → Nat) (x y : Nat) : Prop :=
  ∀ {G : Type} (σ : G → G) (γ : Nat → G), Shift σ → Lab σ γ old → γ x = γ y → (∀ r, γ (φ r) = γ r) ∧ Lab σ γ new

/-! ## Up -/

theorem climb_ok : ∀ (k : Nat) {u d v e : List Nat} {x y : Nat}, Rep b ((u ++ x :: d) :: (v ++ y :: e) :: cs) → u.length < k →
    ∃ u' x' d' v' y' e', b.climb k x y = some (x', y') ∧ u ++ x :: d = u' ++ x' :: d' ∧ v ++ y :: e = v' ++ y' :: e' ∧
      (u' = [] ∨ v' = []) ∧ (∀ a ∈ (x :: d).zip (y :: e), a ∈ (x' :: d').zip (y' :: e')) ∧
      ∀ {G : Type} (σ : G → G) (γ : Nat → G), Shift σ → Lab σ γ ((u ++ x :: d) :: (v ++ y :: e) :: cs) → γ x = γ y → γ x' = γ y' := by
  intro k
  induction k with
  | zero => intro u d v e x y _ h; exact absurd h (by omega)
  | succ k ih =>
    intro u d v e x y hr hk
    have hx : Root b x := (hr.base.roots x).1 (by simp)
    have hy : Root b y := (hr.base.roots y).1 (by simp)
    have hax : (b.links x).above = u.getLast? := by have := (hr.seg _ (.head _)).above; rwa [Option.or_none] at this
    have hay : (b.links y).above = v.getLast? := by have := (hr.seg _ (.tail _ (.head _))).above; rwa [Option.or_none] at this
    unfold Builder.climb
    simp only [link_root hx, link_root hy, Option.bind_eq_bind, Option.bind_some, hax, hay]
    rcases List.eq_nil_or_concat u with rfl | ⟨u', z, rfl⟩
    · exact ⟨[], x, d, v, y, e, rfl, rfl, rfl, .inl rfl, fun _ h => h, fun _ _ _ _ h => h⟩
    rcases List.eq_nil_or_concat v with rfl | ⟨v', w, rfl⟩
    · refine ⟨_, x, d, [], y, e, ?_, rfl, rfl, .inr rfl, fun _ h => h, fun _ _ _ _ h => h⟩
      cases (u'.concat z).getLast? <;> rfl
    simp only [List.concat_eq_append, getLast?_append_cons] at hr hk ⊢
    have hz : Root b z := (hr.base.roots z).1 (by simp)
    have hw : Root b w := (hr.base.roots w).1 (by simp)
    rw [hr.base.linksAt_root hz, hr.base.linksAt_root hw]
    simp only [Option.bind_some]
    have e1 : u' ++ [z] ++ x :: d = u' ++ z :: x :: d := by simp
    have e2 : v' ++ [w] ++ y :: e = v' ++ w :: y :: e := by simp
    rw [e1, e2] at hr ⊢
    obtain ⟨u1, x1, d1, v1, y1, e1', h1, h2, h3, h4, h5, h6⟩ := ih hr (by simp at hk; omega)
    refine ⟨u1, x1, d1, v1, y1, e1', h1, h2, h3, h4, fun a ha => h5 a ?_, fun σ γ hσ hl hxy => h6 σ γ hσ hl ?_⟩
    · rw [List.zip_cons_cons]; exact .tail _ ha
    · refine hσ.inj _ _ ?_
      rw [← hl z x ⟨_, .head _, u', d, rfl⟩, ← hl w y ⟨_, .tail _ (.head _), v', e, rfl⟩, hxy]

theorem joinTop_ok {u d v e : List Nat} {x y : Nat} (hr : Rep b ((u ++ x :: d) :: (v ++ y :: e) :: cs)) (huv : u = [] ∨ v = []) :
    ∃ b', b.joinTop x y = some b' ∧ Half b' (u ++ v) (x :: d) (y :: e) cs ∧ SameMap b b' ∧
      ∀ j, (b'.links j).attrs = (b.links j).attrs := by
  have hx : Root b x := (hr.base.roots x).1 (by simp)
  have hy : Root b y := (hr.base.roots y).1 (by simp)
  have hay : (b.links y).above = v.getLast? := by have := (hr.seg _ (.tail _ (.head _))).above; rwa [Option.or_none] at this
  have hs1 := hr.seg _ (.head _)
  have hs2 := hr.seg _ (.tail _ (.head _))
  unfold Builder.joinTop
  simp only [link_root hy, Option.bind_eq_bind, Option.bind_some, hay]
  rcases List.eq_nil_or_concat v with rfl | ⟨v', w, rfl⟩
  · refine ⟨b, rfl, ⟨?_, ?_, ?_, fun c hc => hr.seg c (.tail _ (.tail _ hc))⟩, .refl b, fun _ => rfl⟩
    · rw [List.append_nil]
      have := hr.base
      simpa using this
    · rw [List.append_nil]; exact hs1
    · obtain ⟨_, h2, h3⟩ := hs2
      rw [Option.or_none] at h2
      exact ⟨h2, h3⟩
  · rcases huv with rfl | h
    · simp only [List.concat_eq_append, getLast?_append_cons] at hr hs2 ⊢
      have hw : Root b w := (hr.base.roots w).1 (by simp)
      obtain ⟨hn1, hn2, hn3⟩ := List.nodup_append.1 (by simpa using hr.base.nodup : ((x :: d) ++ ((v' ++ w :: y :: e) ++ cs.flatten)).Nodup)
      have hwx : w ≠ x := fun e => hn3 x (by simp) w (by simp) e.symm
      obtain ⟨b1, hb1⟩ : ∃ b1, b1 = b.set x ((b.links x).withAbove w) := ⟨_, rfl⟩
      have hm1 : SameMap b b1 := hb1 ▸ set_sameMap rfl
      have hb1w : b1.links w = b.links w := by rw [hb1, set_links, if_neg hwx]
      obtain ⟨b2, hb2'⟩ : ∃ b2, b2 = b1.set w ((b1.links w).withBelow (some x)) := ⟨_, rfl⟩
      have hm2 : SameMap b b2 := hm1.trans (hb2' ▸ set_sameMap rfl)
      have hl := (hm1.base hr.base).linksAt_root (hm1.root.2 hw)
      simp only [setAbove_eq hx, Option.bind_some, ← hb1, hl, setBelow_eq (hm1.root.2 hw), ← hb2']
      have hb2 : ∀ j, b2.links j = if j = w then (b.links w).withBelow (some x) else
          if j = x then (b.links x).withAbove w else b.links j := by
        intro j
        rw [hb2', set_links, hb1w, hb1, set_links]
      have hfr : ∀ c : List Nat, (∀ a ∈ c, a ≠ w ∧ a ≠ x) → ∀ a ∈ c, (b2.links a).above = (b.links a).above ∧
          (b2.links a).below = (b.links a).below := by
        intro c hc a ha
        obtain ⟨h1, h2⟩ := hc a ha
        rw [hb2, if_neg h1, if_neg h2]
        exact ⟨rfl, rfl⟩
      obtain ⟨hn4, hn5, hn6⟩ := List.nodup_append.1 hn2
      obtain ⟨hn7, hn8, hn9⟩ := List.nodup_append.1 hn4
      have e1 : v' ++ [w] ++ y :: e = v' ++ w :: y :: e := by simp
      rw [e1] at hs2
      obtain ⟨hs3, hs4⟩ := seg_append.1 hs2
      refine ⟨b2, rfl, ⟨?_, ?_, ?_, ?_⟩, hm2, fun j => ?_⟩
      · have hb := hm2.base hr.base
        refine hb.perm ?_
        simp only [List.flatten_cons, List.nil_append, ← List.append_assoc]
        refine List.Perm.append_right _ ?_
        refine List.Perm.append_right _ ?_
        have := List.perm_append_comm (l₁ := x :: d) (l₂ := v' ++ [w])
        simpa using this
      · rw [List.nil_append, List.append_assoc]
        refine seg_append.2 ⟨hs3.congr (hfr v' fun a ha => ⟨hn9 a ha w (.head _), fun e => hn3 x (.head _) a (by simp [ha]) e.symm⟩), ?_, ?_, ?_, ?_, ?_⟩
        · rw [hb2, if_pos rfl]; exact hs4.1
        · rw [hb2, if_pos rfl]; rfl
        · rw [hb2, if_neg (fun e => hwx e.symm), if_pos rfl]; rfl
        · rw [hb2, if_neg (fun e => hwx e.symm), if_pos rfl]; exact hs1.2.1
        · exact hs1.2.2.congr (hfr d fun a ha => ⟨fun e => hn3 a (by simp [ha]) w (by simp) e, fun e => (List.nodup_cons.1 hn1).1 (e ▸ ha)⟩)
      · have hyw : y ≠ w ∧ y ≠ x := ⟨fun e => (List.nodup_cons.1 hn8).1 (e ▸ .head _), fun e => hn3 x (.head _) y (by simp) e.symm⟩
        refine ⟨?_, ?_⟩
        · rw [hb2, if_neg hyw.1, if_neg hyw.2]
          have := hs4.2.2.2.1
          rwa [Option.or_none] at this
        · exact hs4.2.2.2.2.congr (hfr e fun a ha => ⟨fun e => (List.nodup_cons.1 hn8).1 (e ▸ .tail _ ha), fun e => hn3 x (.head _) a (by simp [ha]) e.symm⟩)
      · intro c hc
        refine (hr.seg c (.tail _ (.tail _ hc))).congr (hfr c fun a ha => ⟨fun e => ?_, fun e => ?_⟩)
        · exact hn6 w (by simp) a (List.mem_flatten.2 ⟨c, hc, ha⟩) e.symm
        · exact hn3 x (.head _) a (List.mem_append.2 (.inr (List.mem_flatten.2 ⟨c, hc, ha⟩))) e.symm
      · rw [hb2]
        split
        · rename_i h; rw [h]; rfl
        · split
          · rename_i h; rw [h]; rfl
          · rfl
    · simp at h

theorem mergeDirect_ok {u d v e : List Nat} {x y : Nat} (hr : Rep b ((u ++ x :: d) :: (v ++ y :: e) :: cs)) :
    ∃ b' φ C, b.mergeDirect x y = some b' ∧ Merged b b' ((u ++ x :: d) :: (v ++ y :: e) :: cs) (C :: cs) φ ∧ φ x = φ y ∧
      LabOK ((u ++ x :: d) :: (v ++ y :: e) :: cs) (C :: cs) φ x y := by
  have hx : Root b x := (hr.base.roots x).1 (by simp)
  have hy : Root b y := (hr.base.roots y).1 (by simp)
  have hlen := hr.base.len
  simp only [List.flatten_cons, List.length_append, List.length_cons] at hlen
  obtain ⟨u', x', d', v', y', e', h1, h2, h3, h4, h5, h6⟩ := climb_ok (b.n + 1) hr (by omega)
  have hlen2 := congrArg List.length h2
  simp only [List.length_append, List.length_cons] at hlen2
  rw [h2, h3] at hr
  obtain ⟨b1, j1, j2, j3, j4⟩ := joinTop_ok hr h4
  obtain ⟨b2, φ, C, k1, k2, k3, k4⟩ := descend_ok (b1.n + 1) j2 (by rw [j3.n]; omega)
  have hφ : φ x' = φ y' := k3 (x', y') (by simp)
  have key : ∀ r s, AdjS ((u' ++ x' :: d') :: (v' ++ y' :: e') :: cs) r s →
      AdjS ((u' ++ v' ++ x' :: d') :: (y' :: e') :: cs) r s ∨
      (s = y' ∧ AdjS ((u' ++ v' ++ x' :: d') :: (y' :: e') :: cs) r x') := by
    rintro r s ⟨c, hc, ha⟩
    rcases mem_cons3 hc with rfl | rfl | h
    · rcases h4 with rfl | rfl
      · refine .inl ⟨_, .head _, ?_⟩
        rw [List.nil_append]
        exact adj_append_right ha
      · exact .inl ⟨_, .head _, by rw [List.append_nil]; exact ha⟩
    · rcases adj_append.1 ha with h | ⟨h7, h8⟩ | h
      · exact .inl ⟨_, .head _, adj_append_left (adj_append_right h)⟩
      · cases h8
        refine .inr ⟨rfl, _, .head _, adj_append.2 (.inr (.inl ⟨?_, rfl⟩))⟩
        rw [List.getLast?_append, h7]; rfl
      · exact .inl ⟨_, .tail _ (.head _), h⟩
    · exact .inl ⟨c, .tail _ (.tail _ h), ha⟩
  refine ⟨b2, φ, C, ?_, ⟨k2.rep, ?_, ?_⟩, ?_, ?_⟩
  · simp only [Builder.mergeDirect, hr.base.linksAt_root hx, hr.base.linksAt_root hy, Option.bind_eq_bind, Option.bind_some, h1, j1, k1]
  · exact (j3.ev j4).trans k2.ev
  · rw [h2, h3]
    intro r s ha
    rcases key r s ha with h | ⟨rfl, h⟩
    · exact k2.adj r s h
    · rw [← hφ]; exact k2.adj r x' h
  · exact k3 (x, y) (h5 _ (by simp))
  · intro G σ γ hσ hl hxy
    have hxy' := h6 σ γ hσ hl hxy
    refine k4 σ γ ?_ hxy'
    rw [h2, h3] at hl
    rintro r s ⟨c, hc, ha⟩
    rcases mem_cons3 hc with rfl | rfl | h
    · rcases h4 with rfl | rfl
      · rw [List.nil_append] at ha
        rcases adj_append.1 ha with h | ⟨h7, h8⟩ | h
        · exact hl r s ⟨_, .tail _ (.head _), adj_append_left h⟩
        · cases h8
          rw [hxy']
          exact hl r y' ⟨_, .tail _ (.head _), adj_append.2 (.inr (.inl ⟨h7, rfl⟩))⟩
        · exact hl r s ⟨_, .head _, adj_append_right h⟩
      · rw [List.append_nil] at ha
        exact hl r s ⟨_, .head _, ha⟩
    · exact hl r s ⟨_, .tail _ (.head _), adj_append_right ha⟩
    · exact hl r s ⟨c, .tail _ (.tail _ h), ha⟩

end Phasar.Stratified
