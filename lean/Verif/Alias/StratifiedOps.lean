import Verif.Alias.StratifiedMerge3

/-! # Lemmas about the builder of stratified sets: what a history of requests leads to -/
namespace Phasar.Stratified
open CFLAnders (Attr Node)

variable {b b' b'' : Builder} {cs cs' cs'' : List (List Nat)} {φ ψ : Nat → Nat}

/-- `v` is in set `r`. -/
def InSet (b : Builder) (v : Node) (r : Nat) : Prop := ∃ k, b.values v = some k ∧ Find b k r

theorem InSet.det {v : Node} {r s : Nat} (h : InSet b v r) (h' : InSet b v s) : r = s := by
  obtain ⟨k, h1, h2⟩ := h
  obtain ⟨k', h1', h2'⟩ := h'
  rw [h1] at h1'
  cases h1'
  exact h2.det h2'

theorem InSet.root {v : Node} {r : Nat} (h : InSet b v r) : Root b r := h.elim fun _ h => h.2.root

theorem Rep.inSet (h : Rep b cs) {v : Node} (hv : (b.values v).isSome) : ∃ r, InSet b v r := by
  obtain ⟨k, hk⟩ := Option.isSome_iff_exists.1 hv
  obtain ⟨r, hr⟩ := h.base.exists (h.base.values v k hk)
  exact ⟨r, k, hk, hr⟩

/-- A step: old sets become part of new ones. -/
structure Evo (b b' : Builder) (cs cs' : List (List Nat)) (φ : Nat → Nat) : Prop where
  rep : Rep b' cs'
  values : ∀ v k, b.values v = some k → b'.values v = some k
  find : ∀ i r, Find b i r → Find b' i (φ r)
  adj : ∀ r s, AdjS cs r s → φ r = φ s ∨ AdjS cs' (φ r) (φ s)
  attrs : ∀ p, Hom p → ∀ s, Root b' s → (p (b'.links s).attrs = true ↔ ∃ r, Root b r ∧ φ r = s ∧ p (b.links r).attrs = true)

theorem Evo.root (h : Evo b b' cs cs' φ) {r : Nat} (hr : Root b r) : Root b' (φ r) := (h.find r r (.self hr)).root

theorem Evo.inSet (h : Evo b b' cs cs' φ) {v : Node} {r : Nat} (hr : InSet b v r) : InSet b' v (φ r) := by
  obtain ⟨k, h1, h2⟩ := hr
  exact ⟨k, h.values v k h1, h.find k r h2⟩

theorem Evo.refl (h : Rep b cs) : Evo b b cs cs id where
  rep := h
  values _ _ h := h
  find _ _ h := h
  adj _ _ h := .inr h
  attrs p _ s hs := ⟨fun h => ⟨s, hs, rfl, h⟩, fun ⟨r, _, e, h⟩ => by cases e; exact h⟩

theorem Evo.trans (h : Evo b b' cs cs' φ) (h' : Evo b' b'' cs' cs'' ψ) : Evo b b'' cs cs'' (fun r => ψ (φ r)) where
  rep := h'.rep
  values v k hk := h'.values v k (h.values v k hk)
  find i r hr := h'.find _ _ (h.find _ _ hr)
  adj r s ha := by
    rcases h.adj r s ha with h1 | h1
    · exact .inl (by rw [h1])
    · exact h'.adj _ _ h1
  attrs p hp s hs := by
    rw [h'.attrs p hp s hs]
    constructor
    · rintro ⟨r, hr, rfl, h1⟩
      obtain ⟨q, hq, rfl, h2⟩ := (h.attrs p hp r hr).1 h1
      exact ⟨q, hq, rfl, h2⟩
    · rintro ⟨r, hr, rfl, h1⟩
      exact ⟨φ r, h.root hr, rfl, (h.attrs p hp _ (h.root hr)).2 ⟨r, hr, rfl, h1⟩⟩

/-- The labels `γ` of the sets go with the labels `ρ` of the values. -/
def Fits {G : Type} (σ : G → G) (γ : Nat → G) (ρ : Node → G) (b : Builder) (cs : List (List Nat)) : Prop :=
  Lab σ γ cs ∧ ∀ v r, InSet b v r → γ r = ρ v

theorem addAt_ok {i : Nat} (hr : Rep b cs) (hi : Root b i) (v : Node) :
    ∃ b' cs' φ, b.addAtMerging v i = some b' ∧ Evo b b' cs cs' φ ∧ InSet b' v (φ i) ∧
      (∀ w, (b'.values w).isSome ↔ (b.values w).isSome ∨ w = v) ∧
      ∀ {G : Type} (σ : G → G) (γ : Nat → G) (ρ : Node → G), Shift σ → Fits σ γ ρ b cs → γ i = ρ v → Fits σ γ ρ b' cs' := by
  cases hv : b.values v with
  | none =>
    have hm : ∀ j r, Find { b with values := fun w => if w = v then some i else b.values w } j r ↔ Find b j r := by
      intro j r
      simp only [Find]
      have : ∀ k j, Builder.findN { b with values := fun w => if w = v then some i else b.values w } k j = b.findN k j :=
        fun k j => findN_congr (b := b) (b' := { b with values := fun w => if w = v then some i else b.values w }) rfl (fun _ => rfl) k j
      simp only [this]
    refine ⟨{ b with values := fun w => if w = v then some i else b.values w }, cs, id, by simp only [Builder.addAtMerging, hv],
      ⟨⟨⟨hr.base.nodup, hr.base.roots, fun j hj => ?_, fun w k hk => ?_⟩, hr.seg⟩, fun w k hk => ?_, fun j r h => (hm j r).2 h, fun _ _ h => .inr h,
        fun p _ s hs => ⟨fun h => ⟨s, hs, rfl, h⟩, fun ⟨r, _, e, h⟩ => by cases e; exact h⟩⟩, ⟨i, by simp, (hm i i).2 (.self hi)⟩, fun w => ?_, ?_⟩
    · have := hr.base.find j hj
      rw [← findN_congr (b := b) (b' := { b with values := fun w => if w = v then some i else b.values w }) rfl (fun _ => rfl)] at this
      exact this
    · dsimp only at hk
      split at hk
      · cases hk; exact hi.1
      · exact hr.base.values w k hk
    · dsimp only
      split
      · rename_i e; rw [e, hv] at hk; cases hk
      · exact hk
    · dsimp only
      split
      · rename_i e; simp [e]
      · rename_i e; simp [e]
    · intro G σ γ ρ _ hf hg
      refine ⟨hf.1, fun w r => ?_⟩
      rintro ⟨k, h1, h2⟩
      dsimp only at h1
      split at h1
      · rename_i e
        cases h1
        rw [(hm _ r).1 h2 |>.det (.self hi), hg, e]
      · exact hf.2 w r ⟨k, h1, (hm _ r).1 h2⟩
  | some k =>
    obtain ⟨s, hs⟩ := hr.base.exists (hr.base.values v k hv)
    have hls := hr.base.linksAt hs
    have hli := hr.base.linksAt_root hi
    by_cases he : s = i
    · subst he
      refine ⟨b, cs, id, by simp [Builder.addAtMerging, hv, hls, hli], .refl hr, ⟨k, hv, hs⟩, fun w => ?_, fun _ _ _ _ h _ => h⟩
      constructor
      · exact .inl
      · rintro (h | rfl)
        · exact h
        · simp [hv]
    · obtain ⟨b', φ, new, h1, h2, h3, h4⟩ := merge_ok hr hs.root hi he
      have hev : Evo b b' cs new φ := ⟨h2.rep, fun v k h => by rw [h2.ev.values]; exact h, h2.ev.find, h2.adj, h2.ev.attrs⟩
      refine ⟨b', new, φ, by simp [Builder.addAtMerging, hv, hls, hli, he, h1], hev, ?_, fun w => ?_, ?_⟩
      · rw [← h3]; exact hev.inSet ⟨k, hv, hs⟩
      · rw [h2.ev.values]
        constructor
        · exact .inl
        · rintro (h | rfl)
          · exact h
          · simp [hv]
      · intro G σ γ ρ hσ hf hg
        have hsi : γ s = γ i := by rw [hg]; exact hf.2 v s ⟨k, hv, hs⟩
        obtain ⟨h5, h6⟩ := h4 σ γ hσ hf.1 hsi
        refine ⟨h6, fun w r' => ?_⟩
        rintro ⟨k', h7, h8⟩
        rw [h2.ev.values] at h7
        obtain ⟨r, h9⟩ := hr.base.exists (hr.base.values w k' h7)
        rw [h8.det (h2.ev.find _ _ h9), h5]
        exact hf.2 w r ⟨k', h7, h9⟩

/-! ## New sets -/

theorem findN_grow (hn : b.n ≤ b'.n) (hr : ∀ j, j < b.n → (b'.links j).remap = (b.links j).remap) : ∀ {k i r : Nat},
    b.findN k i = some r → b'.findN k i = some r := by
  intro k
  induction k with
  | zero =>
    intro i r h
    unfold Builder.findN at h ⊢
    split at h
    · rename_i hi
      rw [if_pos (by omega), hr i hi]
      cases hr : (b.links i).remap with
      | none => simp only [hr] at h ⊢; exact h
      | some j => simp [hr] at h
    · cases h
  | succ k ih =>
    intro i r h
    unfold Builder.findN at h ⊢
    split at h
    · rename_i hi
      rw [if_pos (by omega), hr i hi]
      cases hr : (b.links i).remap with
      | none => simp only [hr] at h ⊢; exact h
      | some j => simp only [hr] at h ⊢; exact ih h
    · cases h

/-- One more set. -/
structure Grow (b b' : Builder) : Prop where
  n : b'.n = b.n + 1
  values : b'.values = b.values
  remap : ∀ j, j < b.n → (b'.links j).remap = (b.links j).remap
  fresh : (b'.links b.n).remap = none
  attrs : ∀ j, j < b.n → (b'.links j).attrs = (b.links j).attrs
  empty : (b'.links b.n).attrs = {}

theorem Grow.root (h : Grow b b') {i : Nat} : Root b' i ↔ i = b.n ∨ Root b i := by
  simp only [Root, h.n]
  constructor
  · rintro ⟨h1, h2⟩
    by_cases he : i = b.n
    · exact .inl he
    · rw [h.remap i (by omega)] at h2
      exact .inr ⟨by omega, h2⟩
  · rintro (rfl | ⟨h1, h2⟩)
    · exact ⟨by omega, h.fresh⟩
    · exact ⟨by omega, by rw [h.remap i h1]; exact h2⟩

theorem Grow.base (h : Grow b b') {L : List Nat} (hb : Base b L) : Base b' (b.n :: L) where
  nodup := List.nodup_cons.2 ⟨fun hm => absurd ((hb.roots _).1 hm).1 (by omega), hb.nodup⟩
  roots i := by rw [h.root, List.mem_cons, hb.roots]
  find i hi := by
    rw [h.n] at hi ⊢
    rw [List.length_cons, Nat.add_sub_add_right]
    by_cases he : i = b.n
    · exact ⟨i, findN_self (h.root.2 (.inl he)) _⟩
    · obtain ⟨r, hr⟩ := hb.find i (by omega)
      exact ⟨r, findN_grow (by rw [h.n]; omega) h.remap hr⟩
  values v i hv := by
    rw [h.values] at hv
    have := hb.values v i hv
    rw [h.n]; omega

theorem Grow.find (h : Grow b b') {i r : Nat} (hf : Find b i r) : Find b' i r :=
  hf.elim fun k hk => ⟨k, findN_grow (by rw [h.n]; omega) h.remap hk⟩

theorem Grow.evo (h : Grow b b') (hr' : Rep b' cs') (ha : ∀ r s, AdjS cs r s → AdjS cs' r s) : Evo b b' cs cs' id where
  rep := hr'
  values v k hk := by rw [h.values]; exact hk
  find i r hf := h.find hf
  adj r s h := .inr (ha r s h)
  attrs p hp s hs := by
    rcases h.root.1 hs with rfl | h1
    · rw [h.empty, hp.empty]
      constructor
      · intro h; cases h
      · rintro ⟨r, h1, rfl, _⟩; exact absurd h1.1 (Nat.lt_irrefl _)
    · rw [h.attrs s h1.1]
      exact ⟨fun h => ⟨s, h1, rfl, h⟩, fun ⟨r, _, e, h⟩ => by cases e; exact h⟩

theorem Grow.fits (h : Grow b b') (hr : Rep b cs) {G : Type} {σ : G → G} {γ : Nat → G} {ρ : Node → G} (hf : Fits σ γ ρ b cs) (g : G)
    (hl : Lab σ (fun r => if r = b.n then g else γ r) cs') : Fits σ (fun r => if r = b.n then g else γ r) ρ b' cs' := by
  refine ⟨hl, fun v r hv => ?_⟩
  obtain ⟨k, h1, h2⟩ := hv
  rw [h.values] at h1
  obtain ⟨r', h3⟩ := hr.base.exists (hr.base.values v k h1)
  have h4 := h2.det (h.find h3)
  subst h4
  dsimp only
  rw [if_neg (Nat.ne_of_lt h3.root.1)]
  exact hf.2 v r ⟨k, h1, h3⟩

theorem Rep.lt (hr : Rep b cs) {c : List Nat} (hc : c ∈ cs) {j : Nat} (hj : j ∈ c) : j < b.n :=
  ((hr.base.roots j).1 (List.mem_flatten.2 ⟨c, hc, hj⟩)).1

theorem Rep.adj_lt (hr : Rep b cs) {r s : Nat} (h : AdjS cs r s) : r < b.n ∧ s < b.n := by
  obtain ⟨c, hc, ha⟩ := h
  exact ⟨hr.lt hc ha.mem.1, hr.lt hc ha.mem.2⟩

theorem addLinks_grow : Grow b b.addLinks.1 where
  n := rfl
  values := rfl
  remap j hj := by simp [Builder.addLinks, Nat.ne_of_lt hj]
  fresh := by simp [Builder.addLinks]
  attrs j hj := by simp [Builder.addLinks, Nat.ne_of_lt hj]
  empty := by simp [Builder.addLinks]

theorem addLinks_rep (hr : Rep b cs) : Rep b.addLinks.1 ([b.n] :: cs) where
  base := by
    have := addLinks_grow.base hr.base
    exact this
  seg c hc := by
    rcases List.mem_cons.1 hc with rfl | hc
    · exact ⟨by simp [Builder.addLinks], by simp [Builder.addLinks], trivial⟩
    · refine (hr.seg c hc).congr fun j hj => ?_
      simp [Builder.addLinks, Nat.ne_of_lt (hr.lt hc hj)]

theorem below_ok {u : List Nat} {i : Nat} (hr : Rep b ((u ++ [i]) :: cs)) :
    ∃ b', b.addLinkBelow i = some b' ∧ Grow b b' ∧ Rep b' ((u ++ [i, b.n]) :: cs) ∧ (b'.links i).below = some b.n := by
  have hi : Root b i := (hr.base.roots i).1 (by simp)
  have hne : i ≠ b.n := Nat.ne_of_lt hi.1
  have hi' : Root b.addLinks.1 i := addLinks_grow.root.2 (.inr hi)
  have hn' : Root b.addLinks.1 b.n := addLinks_grow.root.2 (.inl rfl)
  obtain ⟨b1, hb1⟩ : ∃ b1, b1 = b.addLinks.1.set i ((b.addLinks.1.links i).withBelow (some b.n)) := ⟨_, rfl⟩
  have hm1 : SameMap b.addLinks.1 b1 := hb1 ▸ set_sameMap rfl
  obtain ⟨b2, hb2⟩ : ∃ b2, b2 = b1.set b.n ((b1.links b.n).withAbove i) := ⟨_, rfl⟩
  have hm2 : SameMap b.addLinks.1 b2 := hm1.trans (hb2 ▸ set_sameMap rfl)
  have hlk : ∀ j, b2.links j = if j = b.n then { above := some i } else if j = i then (b.links i).withBelow (some b.n) else b.links j := by
    intro j
    rw [hb2, set_links, hb1, set_links, if_neg (Ne.symm hne)]
    split
    · simp [Builder.addLinks, Link.withAbove]
    · rename_i h
      rw [set_links]
      split
      · simp [Builder.addLinks, hne]
      · simp [Builder.addLinks, h]
  have hg : Grow b b2 := by
    refine ⟨hm2.n, hm2.values, fun j hj => ?_, ?_, fun j hj => ?_, ?_⟩
    · rw [hm2.remap, addLinks_grow.remap j hj]
    · rw [hm2.remap, addLinks_grow.fresh]
    · rw [hlk, if_neg (Nat.ne_of_lt hj)]
      split
      · rename_i h; rw [h]; rfl
      · rfl
    · rw [hlk, if_pos rfl]
  have hnd := (List.nodup_append.1 hr.base.nodup)
  refine ⟨b2, ?_, hg, ⟨?_, ?_⟩, ?_⟩
  · show (do let b' ← b.addLinks.1.setBelow i (some b.n); b'.setAbove b.n i) = _
    rw [setBelow_eq hi', ← hb1]
    show b1.setAbove b.n i = _
    rw [setAbove_eq (hm1.root.2 hn'), hb2]
  · refine (hg.base hr.base).perm ?_
    simp only [List.flatten_cons]
    rw [show (u ++ [i, b.n]) ++ cs.flatten = (u ++ [i]) ++ b.n :: cs.flatten by simp]
    exact List.perm_middle.symm
  · intro c hc
    rcases List.mem_cons.1 hc with rfl | hc
    · have hs := hr.seg _ (.head _)
      obtain ⟨h1, h2⟩ := seg_append.1 hs
      refine seg_append.2 ⟨?_, ?_⟩
      · refine Seg.congr h1 fun j hj => ?_
        have hji : j ≠ i := fun e => (List.nodup_append.1 hnd.1).2.2 j hj i (by simp) e
        rw [hlk, if_neg (Nat.ne_of_lt (hr.lt (.head _) (by simp [hj]))), if_neg hji]
        exact ⟨rfl, rfl⟩
      · refine ⟨?_, ?_, ?_, ?_, trivial⟩
        · rw [hlk, if_neg hne, if_pos rfl]; exact h2.1
        · rw [hlk, if_neg hne, if_pos rfl]; rfl
        · rw [hlk, if_pos rfl]
        · rw [hlk, if_pos rfl]; rfl
    · refine (hr.seg c (.tail _ hc)).congr fun j hj => ?_
      have hji : j ≠ i := fun e => hnd.2.2 i (by simp) j (List.mem_flatten.2 ⟨c, hc, hj⟩) e.symm
      rw [hlk, if_neg (Nat.ne_of_lt (hr.lt (.tail _ hc) hj)), if_neg hji]
      exact ⟨rfl, rfl⟩
  · rw [hlk, if_neg hne, if_pos rfl]; rfl

theorem above_ok {d : List Nat} {i : Nat} (hr : Rep b ((i :: d) :: cs)) :
    ∃ b', b.addLinkAbove i = some b' ∧ Grow b b' ∧ Rep b' ((b.n :: i :: d) :: cs) ∧ (b'.links i).above = some b.n := by
  have hi : Root b i := (hr.base.roots i).1 (by simp)
  have hne : i ≠ b.n := Nat.ne_of_lt hi.1
  have hi' : Root b.addLinks.1 i := addLinks_grow.root.2 (.inr hi)
  have hn' : Root b.addLinks.1 b.n := addLinks_grow.root.2 (.inl rfl)
  obtain ⟨b1, hb1⟩ : ∃ b1, b1 = b.addLinks.1.set b.n ((b.addLinks.1.links b.n).withBelow (some i)) := ⟨_, rfl⟩
  have hm1 : SameMap b.addLinks.1 b1 := hb1 ▸ set_sameMap rfl
  obtain ⟨b2, hb2⟩ : ∃ b2, b2 = b1.set i ((b1.links i).withAbove b.n) := ⟨_, rfl⟩
  have hm2 : SameMap b.addLinks.1 b2 := hm1.trans (hb2 ▸ set_sameMap rfl)
  have hlk : ∀ j, b2.links j = if j = b.n then { below := some i } else if j = i then (b.links i).withAbove b.n else b.links j := by
    intro j
    rw [hb2, set_links, hb1, set_links, if_neg hne]
    by_cases h : j = b.n
    · rw [if_neg (fun (e : j = i) => hne (e.symm.trans h)), set_links, if_pos h, if_pos h]
      simp [Builder.addLinks, Link.withBelow]
    · rw [if_neg h]
      split
      · simp [Builder.addLinks, hne]
      · rw [set_links, if_neg h]; simp [Builder.addLinks, h]
  have hg : Grow b b2 := by
    refine ⟨hm2.n, hm2.values, fun j hj => ?_, ?_, fun j hj => ?_, ?_⟩
    · rw [hm2.remap, addLinks_grow.remap j hj]
    · rw [hm2.remap, addLinks_grow.fresh]
    · rw [hlk, if_neg (Nat.ne_of_lt hj)]
      split
      · rename_i h; rw [h]; rfl
      · rfl
    · rw [hlk, if_pos rfl]
  have hnd := (List.nodup_append.1 hr.base.nodup)
  refine ⟨b2, ?_, hg, ⟨?_, ?_⟩, ?_⟩
  · show (do let b' ← b.addLinks.1.setBelow b.n (some i); b'.setAbove i b.n) = _
    rw [setBelow_eq hn', ← hb1]
    show b1.setAbove i b.n = _
    rw [setAbove_eq (hm1.root.2 hi'), hb2]
  · exact hg.base hr.base
  · intro c hc
    rcases List.mem_cons.1 hc with rfl | hc
    · have hs := hr.seg _ (.head _)
      refine ⟨?_, ?_, ?_, ?_, ?_⟩
      · rw [hlk, if_pos rfl]
      · rw [hlk, if_pos rfl]; rfl
      · rw [hlk, if_neg hne, if_pos rfl]; rfl
      · rw [hlk, if_neg hne, if_pos rfl]; exact hs.2.1
      · refine Seg.congr hs.2.2 fun j hj => ?_
        have hji : j ≠ i := fun e => (List.nodup_cons.1 hnd.1).1 (e ▸ hj)
        rw [hlk, if_neg (Nat.ne_of_lt (hr.lt (.head _) (.tail _ hj))), if_neg hji]
        exact ⟨rfl, rfl⟩
    · refine (hr.seg c (.tail _ hc)).congr fun j hj => ?_
      have hji : j ≠ i := fun e => hnd.2.2 i (by simp) j (List.mem_flatten.2 ⟨c, hc, hj⟩) e.symm
      rw [hlk, if_neg (Nat.ne_of_lt (hr.lt (.tail _ hc) hj)), if_neg hji]
      exact ⟨rfl, rfl⟩
  · rw [hlk, if_neg hne, if_pos rfl]; rfl

end Phasar.Stratified
