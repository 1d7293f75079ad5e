import Verif.Alias.StratifiedMerge2

/-! # Lemmas about the builder of stratified sets: merging within a chain, merging in general -/
namespace Phasar.Stratified
open CFLAnders (Attr Node)

variable {b b' : Builder} {cs cs' : List (List Nat)}

theorem collect_hit : ∀ (k : Nat) {p m d : List Nat} {hi cur : Nat} {F : List Nat} {a : Attr},
    Rep b ((p ++ hi :: (m ++ cur :: d)) :: cs) → m.length + 1 < k →
    ∃ a', b.collect hi k cur F a = some (hi, F ++ cur :: m.reverse, a') ∧
      ∀ q, Hom q → (q a' = true ↔ q a = true ∨ ∃ r ∈ cur :: m, q (b.links r).attrs = true) := by
  intro k
  induction k with
  | zero => intro p m d hi cur F a _ h; omega
  | succ k ih =>
    intro p m d hi cur F a hr hk
    have hc : Root b cur := (hr.base.roots cur).1 (by simp)
    have hh : Root b hi := (hr.base.roots hi).1 (by simp)
    have hac : (b.links cur).above = (p ++ hi :: m).getLast? := by
      have h := hr.seg _ (.head _)
      rw [show p ++ hi :: (m ++ cur :: d) = (p ++ hi :: m) ++ cur :: d by simp] at h
      have := h.above
      rwa [Option.or_none] at this
    have hne : cur ≠ hi := by
      rintro rfl
      have := (List.nodup_append.1 (List.nodup_append.1 hr.base.nodup).1).2.1
      simp at this
    unfold Builder.collect
    simp only [link_root hc, Option.bind_eq_bind, Option.bind_some, hac]
    rcases List.eq_nil_or_concat m with rfl | ⟨m', z, rfl⟩
    · simp only [getLast?_append_cons, if_neg hne, hr.base.linksAt_root hh, Option.bind_some]
      cases k with
      | zero => simp at hk
      | succ k =>
        have : b.collect hi (k + 1) hi (F ++ [cur]) (a.or (b.links cur).attrs) = some (hi, F ++ [cur], a.or (b.links cur).attrs) := by
          unfold Builder.collect
          simp only [link_root hh, Option.bind_eq_bind, Option.bind_some]
          cases (b.links hi).above <;> simp
        refine ⟨_, this, fun q hq => ?_⟩
        rw [hq.or]
        simp
    · have hz : Root b z := (hr.base.roots z).1 (by simp)
      have e1 : (p ++ hi :: m'.concat z).getLast? = some z := by
        rw [show p ++ hi :: m'.concat z = (p ++ hi :: m') ++ [z] by simp]
        exact getLast?_append_cons _ _
      simp only [e1, if_neg hne, hr.base.linksAt_root hz, Option.bind_some]
      have hr' : Rep b ((p ++ hi :: (m' ++ z :: cur :: d)) :: cs) := by
        have e2 : m'.concat z ++ cur :: d = m' ++ z :: cur :: d := by simp
        rw [e2] at hr
        exact hr
      obtain ⟨a', h1, h2⟩ := ih (F := F ++ [cur]) (a := a.or (b.links cur).attrs) hr' (by simp at hk; omega)
      refine ⟨a', by rw [h1]; simp, fun q hq => ?_⟩
      rw [h2 q hq, hq.or, Bool.or_eq_true]
      simp only [List.mem_cons, List.concat_eq_append, List.mem_append, List.not_mem_nil, or_false]
      constructor
      · rintro ((h | h) | ⟨r, h3, h4⟩)
        · exact .inl h
        · exact .inr ⟨cur, .inl rfl, h⟩
        · exact .inr ⟨r, .inr (h3.symm), h4⟩
      · rintro (h | ⟨r, (rfl | h3), h4⟩)
        · exact .inl (.inl h)
        · exact .inl (.inr h4)
        · exact .inr ⟨r, h3.symm, h4⟩

theorem collect_miss : ∀ (k : Nat) {u d : List Nat} {hi cur : Nat} {F : List Nat} {a : Attr},
    Rep b ((u ++ cur :: d) :: cs) → hi ∉ u ++ [cur] → u.length < k →
    ∃ cur' F' a', b.collect hi k cur F a = some (cur', F', a') ∧ cur' ≠ hi := by
  intro k
  induction k with
  | zero => intro u d hi cur F a _ _ h; omega
  | succ k ih =>
    intro u d hi cur F a hr hm hk
    have hc : Root b cur := (hr.base.roots cur).1 (by simp)
    have hac : (b.links cur).above = u.getLast? := by have := (hr.seg _ (.head _)).above; rwa [Option.or_none] at this
    have hne : cur ≠ hi := fun e => hm (by simp [e])
    unfold Builder.collect
    simp only [link_root hc, Option.bind_eq_bind, Option.bind_some, hac]
    rcases List.eq_nil_or_concat u with rfl | ⟨u', z, rfl⟩
    · exact ⟨cur, F, a, rfl, hne⟩
    · have hz : Root b z := (hr.base.roots z).1 (by simp)
      simp only [List.concat_eq_append, getLast?_append_cons, if_neg hne, hr.base.linksAt_root hz, Option.bind_some]
      have e1 : u'.concat z ++ cur :: d = u' ++ z :: cur :: d := by simp
      rw [e1] at hr
      exact ih hr (fun h => hm (by simp only [List.concat_eq_append, List.mem_append] at h ⊢; exact .inl h)) (by simp at hk; omega)

theorem remaps_ok {hi : Nat} : ∀ (F : List Nat) {b : Builder} {L : List Nat}, Base b (F ++ L) → hi ∈ L →
    ∃ b', F.foldlM (fun b i => b.remapTo i hi) b = some b' ∧ Base b' L ∧ b'.n = b.n ∧ b'.values = b.values ∧
      (∀ i r, Find b i r → Find b' i (if r ∈ F then hi else r)) ∧ ∀ j, j ∉ F → b'.links j = b.links j := by
  intro F
  induction F with
  | nil => intro b L h _; exact ⟨b, rfl, h, rfl, rfl, fun _ _ h => by simpa using h, fun _ _ => rfl⟩
  | cons x F ih =>
    intro b L hb hm
    have hx : Root b x := (hb.roots x).1 (by simp)
    have hh : Root b hi := (hb.roots hi).1 (by simp [hm])
    have hn := List.nodup_cons.1 hb.nodup
    have hne : x ≠ hi := fun e => hn.1 (by simp [e, hm])
    have hb1 := remap_base hb (.refl _) hh hne
    obtain ⟨b', h1, h2, h3, h4, h5, h6⟩ := ih hb1 hm
    refine ⟨b', ?_, h2, h3, h4, fun i r hr => ?_, fun j hj => ?_⟩
    · rw [List.foldlM_cons, remapTo_eq hx]
      exact h1
    · obtain ⟨k, hk⟩ := hr
      have := h5 i _ ⟨_, remap_find hh hx hne _ _ _ hk⟩
      by_cases he : r = x
      · subst he
        rw [if_pos rfl] at this
        have hhF : hi ∉ F := fun h => (List.nodup_append.1 hn.2).2.2 hi h hi hm rfl
        rw [if_neg hhF] at this
        rw [if_pos (.head _)]
        exact this
      · rw [if_neg he] at this
        by_cases hF : r ∈ F
        · rw [if_pos hF] at this; rw [if_pos (.tail _ hF)]; exact this
        · rw [if_neg hF] at this
          rw [if_neg (by simp [he, hF])]
          exact this
    · rw [h6 j (fun h => hj (.tail _ h)), set_links, if_neg (fun (e : j = x) => hj (by rw [e]; exact .head _))]

theorem chain_lab {G : Type} {σ : G → G} {γ : Nat → G} : ∀ {l : List Nat} {x : Nat}, (∀ r s, Adj (x :: l) r s → γ s = σ (γ r)) →
    σ (γ x) = γ x → ∀ y ∈ l, γ y = γ x := by
  intro l
  induction l with
  | nil => intro x _ _ y h; cases h
  | cons z l ih =>
    intro x hl hx y hy
    have hz : γ z = γ x := by rw [hl x z ⟨[], l, rfl⟩, hx]
    rcases List.mem_cons.1 hy with rfl | h
    · exact hz
    · rw [← hz]
      exact ih (fun r s h => hl r s (adj_cons.2 (.inr h))) (by rw [hz, hx]) y h

theorem chain_iter {G : Type} {σ : G → G} {γ : Nat → G} : ∀ {l : List Nat} {x y : Nat}, (∀ r s, Adj (x :: (l ++ [y])) r s → γ s = σ (γ r)) →
    γ y = iter σ (l.length + 1) (γ x) := by
  have iter_comm : ∀ (k : Nat) (g : G), iter σ k (σ g) = σ (iter σ k g) := by
    intro k g
    induction k with
    | zero => rfl
    | succ k ih => simp only [iter, ih]
  intro l
  induction l with
  | nil => intro x y h; exact h x y ⟨[], [], rfl⟩
  | cons z l ih =>
    intro x y h
    have hz : γ z = σ (γ x) := h x z ⟨[], l ++ [y], rfl⟩
    rw [ih (x := z) (fun r s h' => h r s (adj_cons.2 (.inr h'))), hz, iter_comm]
    rfl

theorem up_hit {p m d : List Nat} {hi lo : Nat} (hr : Rep b ((p ++ hi :: (m ++ lo :: d)) :: cs)) :
    ∃ b' φ, b.tryMergeUpwards lo hi = some (true, b') ∧
      Merged b b' ((p ++ hi :: (m ++ lo :: d)) :: cs) ((p ++ hi :: d) :: cs) φ ∧ φ lo = φ hi ∧
      LabOK ((p ++ hi :: (m ++ lo :: d)) :: cs) ((p ++ hi :: d) :: cs) φ lo hi := by
  have hl : Root b lo := (hr.base.roots lo).1 (by simp)
  have hh : Root b hi := (hr.base.roots hi).1 (by simp)
  have hlen := hr.base.len
  simp only [List.flatten_cons, List.length_append, List.length_cons] at hlen
  obtain ⟨hn1, hn2, hn3⟩ := List.nodup_append.1 hr.base.nodup
  obtain ⟨hn4, hn5, hn6⟩ := List.nodup_append.1 hn1
  obtain ⟨hn7, hn8⟩ := List.nodup_cons.1 hn5
  obtain ⟨hn9, hn10, hn11⟩ := List.nodup_append.1 hn8
  obtain ⟨hn12, hn13⟩ := List.nodup_cons.1 hn10
  have hne : lo ≠ hi := fun e => hn7 (by simp [e])
  obtain ⟨a, hc1, hc2⟩ := collect_hit (b.n + 1) (F := []) (a := (b.links lo).attrs) hr (by omega)
  have hbl : (b.links lo).below = d.head? := by
    have h := hr.seg _ (.head _)
    rw [show p ++ hi :: (m ++ lo :: d) = (p ++ hi :: m) ++ lo :: d by simp] at h
    have := h.below
    rwa [Option.or_none] at this
  -- the state before the remaps
  obtain ⟨b1, hb1⟩ : ∃ b1, b1 = b.set hi ((b.links hi).more a) := ⟨_, rfl⟩
  have hm1 : SameMap b b1 := hb1 ▸ set_sameMap rfl
  obtain ⟨b2, hb2⟩ : ∃ b2, b2 = b1.set hi ((b1.links hi).withBelow d.head?) := ⟨_, rfl⟩
  have hm2 : SameMap b b2 := hm1.trans (hb2 ▸ set_sameMap rfl)
  have hlk2 : ∀ j, b2.links j = if j = hi then ((b.links hi).more a).withBelow d.head? else b.links j := by
    intro j
    rw [hb2, set_links, hb1, set_links, if_pos rfl]
    split
    · rfl
    · rename_i h; rw [set_links, if_neg h]
  obtain ⟨b3, hb3, hm3, hlk3⟩ : ∃ b3, (match d.head? with
      | some nb => do
        let b ← b1.setBelow hi (some nb)
        let t ← b.linksAt nb
        b.setAbove t hi
      | none => b1.setBelow hi none) = some b3 ∧ SameMap b b3 ∧
      ∀ j, (b3.links j).attrs = (b2.links j).attrs ∧ (b3.links j).below = (b2.links j).below ∧
        (b3.links j).above = if d.head? = some j then some hi else (b.links j).above := by
    cases d with
    | nil =>
      refine ⟨b2, ?_, hm2, fun j => ⟨rfl, rfl, ?_⟩⟩
      · show b1.setBelow hi none = some b2
        rw [setBelow_eq (hm1.root.2 hh), hb2]; rfl
      · rw [hlk2]
        simp only [List.head?_nil, reduceCtorEq, if_false]
        split
        · rename_i h; rw [h]; rfl
        · rfl
    | cons z d =>
      have hz : Root b z := (hr.base.roots z).1 (by simp)
      have hzh : z ≠ hi := fun e => hn7 (by simp [e])
      refine ⟨b2.set z ((b2.links z).withAbove hi), ?_, hm2.trans (set_sameMap rfl), fun j => ?_⟩
      · show (do let b ← b1.setBelow hi (some z); let t ← b.linksAt z; b.setAbove t hi) = _
        have hl2 := (hm2.base hr.base).linksAt_root (hm2.root.2 hz)
        have hb2' : b1.set hi ((b1.links hi).withBelow (some z)) = b2 := hb2.symm
        simp only [setBelow_eq (hm1.root.2 hh), Option.bind_eq_bind, Option.bind_some, hb2', hl2, setAbove_eq (hm2.root.2 hz)]
      · rw [set_links]
        by_cases h : j = z
        · subst h; simp [Link.withAbove]
        · have h' : ¬ (z :: d).head? = some j := fun e => h (Option.some.inj e).symm
          rw [if_neg h, if_neg h', hlk2]
          split
          · rename_i h; rw [h]; exact ⟨rfl, rfl, rfl⟩
          · exact ⟨rfl, rfl, rfl⟩
  -- the remaps
  let F := lo :: m.reverse
  have hperm : ((p ++ hi :: (m ++ lo :: d)) :: cs).flatten.Perm (F ++ ((p ++ hi :: d) :: cs).flatten) := by
    simp only [List.flatten_cons, ← List.append_assoc]
    refine List.Perm.append_right _ ?_
    have h1 : (m ++ lo :: d).Perm (F ++ d) := by
      refine List.perm_middle.trans ?_
      exact List.Perm.cons _ (List.Perm.append_right _ (List.reverse_perm m).symm)
    have h2 : (p ++ hi :: (m ++ lo :: d)).Perm ((p ++ [hi]) ++ (F ++ d)) := by
      rw [show p ++ hi :: (m ++ lo :: d) = (p ++ [hi]) ++ (m ++ lo :: d) by simp]
      exact List.Perm.append_left _ h1
    have h3 : ((p ++ [hi]) ++ (F ++ d)).Perm (F ++ ((p ++ [hi]) ++ d)) := by
      rw [← List.append_assoc, ← List.append_assoc]
      exact List.Perm.append_right _ List.perm_append_comm
    refine (h2.trans h3).trans ?_
    simp
  have hbase3 := (hm3.base hr.base).perm hperm
  obtain ⟨b4, r1, r2, r3, r4, r5, r6⟩ := remaps_ok (hi := hi) F hbase3 (by simp)
  have hF : ∀ r, r ∈ F ↔ r = lo ∨ r ∈ m := fun r => by simp [F]
  have hFL : ∀ r ∈ F, r ∉ ((p ++ hi :: d) :: cs).flatten := fun r h1 h2 => (List.nodup_append.1 hbase3.nodup).2.2 r h1 r h2 rfl
  have hhF : hi ∉ F := fun h => hFL hi h (by simp)
  have hkeep : ∀ c ∈ (p ++ hi :: d) :: cs, ∀ j ∈ c, j ∉ F := fun c hc j hj h => hFL j h (List.mem_flatten.2 ⟨c, hc, hj⟩)
  have hhc : ∀ c ∈ cs, ∀ j ∈ c, j ≠ hi ∧ d.head? ≠ some j := fun c hc j hj => by
    refine ⟨fun e => hn3 hi (by simp) j (List.mem_flatten.2 ⟨c, hc, hj⟩) e.symm, fun e => ?_⟩
    have : j ∈ d := List.mem_of_head? e
    exact hn3 j (by simp [this]) j (List.mem_flatten.2 ⟨c, hc, hj⟩) rfl
  have hroot4 : ∀ s, Root b4 s → Root b s ∧ s ∉ F := fun s hs => by
    have h1 := (r2.roots s).2 hs
    exact ⟨(hr.base.roots s).1 (hperm.mem_iff.2 (List.mem_append.2 (.inr h1))), fun h => hFL s h h1⟩
  have hφlo : (if lo ∈ F then hi else lo) = hi := if_pos (.head _)
  have hφhi : (if hi ∈ F then hi else hi) = hi := by rw [if_neg hhF]
  refine ⟨b4, fun r => if r ∈ F then hi else r, ?_, ⟨⟨r2, ?_⟩, ⟨?_, ?_, ?_, ?_⟩, ?_⟩, ?_, ?_⟩
  · simp only [Builder.tryMergeUpwards, hr.base.linksAt_root hl, hr.base.linksAt_root hh, Option.bind_eq_bind, Option.bind_some,
      if_neg hne, link_root hl, hc1, ne_eq, not_true_eq_false, if_false, setAttrs_eq hh, ← hb1, hbl]
    simp only [Option.bind_eq_bind] at hb3
    cases d with
    | nil =>
      simp only [List.head?_nil] at hb3 ⊢
      rw [hb3]
      simp only [Option.bind_some, List.nil_append]
      rw [r1]
      rfl
    | cons z d =>
      simp only [List.head?_cons] at hb3 ⊢
      obtain ⟨x, hx, hb3⟩ := Option.bind_eq_some_iff.1 hb3
      obtain ⟨y, hy, hb3⟩ := Option.bind_eq_some_iff.1 hb3
      simp only [hx, hy, hb3, Option.bind_some, List.nil_append]
      rw [r1]
      rfl
  · intro c hc
    rcases List.mem_cons.1 hc with rfl | hc
    · have hs := hr.seg _ (.head _)
      obtain ⟨hs1, hs2⟩ := seg_append.1 hs
      have hs3 : Seg b.links (some lo) d none := by
        have := (seg_append.1 hs2.2.2).2
        exact this.2.2
      refine seg_append.2 ⟨hs1.congr fun j hj => ?_, ?_, ?_, ?_⟩
      · have hjh : j ≠ hi := hn6 j hj hi (.head _)
        have hjd : d.head? ≠ some j := fun e => hn6 j hj j (by have := List.mem_of_head? e; simp [this]) rfl
        rw [r6 j (hkeep _ hc j (by simp [hj])), (hlk3 j).2.1, (hlk3 j).2.2, if_neg hjd, hlk2, if_neg hjh]
        exact ⟨rfl, rfl⟩
      · have hjd : d.head? ≠ some hi := fun e => hn7 (by have := List.mem_of_head? e; simp [this])
        rw [r6 hi hhF, (hlk3 hi).2.2, if_neg hjd]
        exact hs2.1
      · rw [r6 hi hhF, (hlk3 hi).2.1, hlk2, if_pos rfl, Option.or_none]
        rfl
      · cases d with
        | nil => trivial
        | cons z d =>
          have hzh : z ≠ hi := fun e => hn7 (by simp [e])
          refine ⟨?_, ?_, ?_⟩
          · rw [r6 z (hkeep _ hc z (by simp)), (hlk3 z).2.2, if_pos List.head?_cons]
          · rw [r6 z (hkeep _ hc z (by simp)), (hlk3 z).2.1, hlk2, if_neg hzh]
            exact hs3.2.1
          · refine hs3.2.2.congr fun j hj => ?_
            have hjh : j ≠ hi := fun e => hn7 (by rw [← e]; simp [hj])
            have hjd : (z :: d).head? ≠ some j := fun e => by
              cases e
              exact (List.nodup_cons.1 hn13).1 hj
            rw [r6 j (hkeep _ hc j (by simp [hj])), (hlk3 j).2.1, (hlk3 j).2.2, if_neg hjd, hlk2, if_neg hjh]
            exact ⟨rfl, rfl⟩
    · refine (hr.seg c (.tail _ hc)).congr fun j hj => ?_
      have := hhc c hc j hj
      rw [r6 j (hkeep c (.tail _ hc) j hj), (hlk3 j).2.1, (hlk3 j).2.2, if_neg this.2, hlk2, if_neg this.1]
      exact ⟨rfl, rfl⟩
  · exact r3.trans hm3.n
  · exact r4.trans hm3.values
  · exact fun i r h => r5 i r (hm3.find.2 h)
  · intro q hq s hs
    obtain ⟨hs1, hs2⟩ := hroot4 s hs
    rw [r6 s hs2, (hlk3 s).1, hlk2]
    by_cases he : s = hi
    · subst he
      rw [if_pos rfl]
      show q ((b.links s).attrs.or a) = true ↔ _
      rw [hq.or, Bool.or_eq_true, hc2 q hq]
      constructor
      · rintro (h | h | ⟨r, h1, h2⟩)
        · exact ⟨s, hs1, if_neg hs2, h⟩
        · exact ⟨lo, hl, if_pos (.head _), h⟩
        · have hrF : r ∈ F := (hF r).2 (List.mem_cons.1 h1)
          refine ⟨r, (hr.base.roots r).1 ?_, if_pos hrF, h2⟩
          exact hperm.mem_iff.2 (List.mem_append.2 (.inl hrF))
      · rintro ⟨r, h1, h2, h3⟩
        by_cases hrF : r ∈ F
        · exact .inr (.inr ⟨r, List.mem_cons.2 ((hF r).1 hrF), h3⟩)
        · rw [if_neg hrF] at h2; subst h2; exact .inl h3
    · rw [if_neg he]
      constructor
      · intro h; exact ⟨s, hs1, if_neg hs2, h⟩
      · rintro ⟨r, h1, h2, h3⟩
        by_cases hrF : r ∈ F
        · rw [if_pos hrF] at h2; exact absurd h2.symm he
        · rw [if_neg hrF] at h2; subst h2; exact h3
  · rintro r s ⟨c, hc, ha⟩
    rcases List.mem_cons.1 hc with rfl | hc
    · rw [show p ++ hi :: (m ++ lo :: d) = (p ++ [hi]) ++ ((m ++ [lo]) ++ d) by simp] at ha
      have hin : ∀ j ∈ p ++ [hi], j ∉ F := fun j hj => hkeep _ (.head _) j (by simp at hj ⊢; rcases hj with h | h <;> simp [h])
      have hmF : ∀ j ∈ m ++ [lo], j ∈ F := fun j hj => (hF j).2 (by simp at hj; exact hj.symm)
      have hdF : ∀ j ∈ d, j ∉ F := fun j hj => hkeep _ (.head _) j (by simp [hj])
      rcases adj_append.1 ha with h | ⟨h1, h2⟩ | h
      · have hm := h.mem
        right
        rw [if_neg (hin r hm.1), if_neg (hin s hm.2)]
        refine ⟨_, .head _, ?_⟩
        rw [show p ++ hi :: d = (p ++ [hi]) ++ d by simp]
        exact adj_append_left h
      · rw [getLast?_append_cons] at h1
        cases h1
        left
        have : s ∈ m ++ [lo] := by
          rw [List.head?_append, Option.or_eq_some_iff] at h2
          rcases h2 with h2 | ⟨h2, _⟩
          · exact List.mem_of_head? h2
          · simp at h2
        rw [if_neg hhF, if_pos (hmF s this)]
      · rcases adj_append.1 h with h | ⟨h1, h2⟩ | h
        · left
          have hm := h.mem
          rw [if_pos (hmF r hm.1), if_pos (hmF s hm.2)]
        · rw [getLast?_append_cons] at h1
          cases h1
          right
          have hsd : s ∈ d := List.mem_of_head? h2
          rw [if_pos (.head _), if_neg (hdF s hsd)]
          refine ⟨_, .head _, ?_⟩
          rw [show p ++ hi :: d = (p ++ [hi]) ++ d by simp]
          exact adj_append.2 (.inr (.inl ⟨getLast?_append_cons _ _, h2⟩))
        · right
          have hm := h.mem
          rw [if_neg (hdF r hm.1), if_neg (hdF s hm.2)]
          refine ⟨_, .head _, ?_⟩
          rw [show p ++ hi :: d = (p ++ [hi]) ++ d by simp]
          exact adj_append_right h
    · right
      have hm := ha.mem
      rw [if_neg (hkeep c (.tail _ hc) r hm.1), if_neg (hkeep c (.tail _ hc) s hm.2)]
      exact ⟨c, .tail _ hc, ha⟩
  · show (if lo ∈ F then hi else lo) = if hi ∈ F then hi else hi
    rw [hφlo, hφhi]
  · intro G σ γ hσ hlab hγ
    have hch : ∀ r s, Adj (hi :: (m ++ [lo])) r s → γ s = σ (γ r) := fun r s h => hlab r s ⟨_, .head _, by
      rw [show p ++ hi :: (m ++ lo :: d) = p ++ (hi :: (m ++ [lo]) ++ d) by simp]
      exact adj_append_right (adj_append_left h)⟩
    have hfix : σ (γ hi) = γ hi := by
      refine hσ.cycle m.length _ ?_
      rw [← chain_iter hch, hγ]
    have hall := chain_lab hch hfix
    refine ⟨fun r => ?_, ?_⟩
    · dsimp only
      split
      · rename_i h
        exact (hall r (by have := (hF r).1 h; simp; exact this.symm)).symm
      · rfl
    · rintro r s ⟨c, hc, ha⟩
      rcases List.mem_cons.1 hc with rfl | hc
      · rw [show p ++ hi :: d = (p ++ [hi]) ++ d by simp] at ha
        rcases adj_append.1 ha with h | ⟨h1, h2⟩ | h
        · refine hlab r s ⟨_, .head _, ?_⟩
          rw [show p ++ hi :: (m ++ lo :: d) = (p ++ [hi]) ++ (m ++ lo :: d) by simp]
          exact adj_append_left h
        · rw [getLast?_append_cons] at h1
          cases h1
          rw [← hγ]
          refine hlab lo s ⟨_, .head _, ?_⟩
          rw [show p ++ hi :: (m ++ lo :: d) = (p ++ hi :: m ++ [lo]) ++ d by simp]
          exact adj_append.2 (.inr (.inl ⟨getLast?_append_cons _ _, h2⟩))
        · refine hlab r s ⟨_, .head _, ?_⟩
          rw [show p ++ hi :: (m ++ lo :: d) = (p ++ hi :: m ++ [lo]) ++ d by simp]
          exact adj_append_right h
      · exact hlab r s ⟨c, .tail _ hc, ha⟩

end Phasar.Stratified
