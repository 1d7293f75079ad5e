import Verif.Alias.Lemmas
/-!
# Lemmas on `mergeWith`
-/
set_option linter.unusedSectionVars false
namespace Phasar.Alias

variable {V : Type} [DecidableEq V]

theorem insertAl_al (b : Nat) (vs : List V) : ∀ (s : St V) (u : V),
    (insertAl s b vs).al u = match s.al u with | some c => some c | none => if u ∈ vs then some b else none := by
  induction vs with
  | nil => intro s u; unfold insertAl; cases s.al u <;> simp
  | cons v vs ih =>
    intro s u
    unfold insertAl
    rw [ih]
    cases hv : s.al v with
    | some c =>
      simp only
      cases hu : s.al u with
      | some d => rfl
      | none =>
        have : u ≠ v := fun e => by rw [e, hv] at hu; cases hu
        simp [this]
    | none =>
      simp only [St.setAl]
      by_cases huv : u = v
      · subst huv; simp [hv]
      · cases hu : s.al u with
        | some d => simp [huv]
        | none => simp [huv]

theorem insertAl_sets (b : Nat) (vs : List V) : ∀ (s : St V), (insertAl s b vs).sets = s.sets ∧ (insertAl s b vs).boxes = s.boxes := by
  induction vs with
  | nil => intro s; exact ⟨rfl, rfl⟩
  | cons v vs ih =>
    intro s
    unfold insertAl
    refine ⟨(ih _).1.trans ?_, (ih _).2.trans ?_⟩ <;> (cases s.al v <;> rfl)

theorem findKnown_some {s : St V} (vs : List V) {b : Nat} (h : findKnown s vs = some b) : ∃ e, e ∈ vs ∧ s.al e = some b := by
  induction vs with
  | nil => cases h
  | cons v vs ih =>
    unfold findKnown at h
    cases hv : s.al v with
    | some c =>
      rw [hv] at h
      simp only [Option.some.injEq] at h
      exact ⟨v, List.mem_cons_self, by rw [hv, h]⟩
    | none =>
      rw [hv] at h
      obtain ⟨e, h1, h2⟩ := ih h
      exact ⟨e, List.mem_cons_of_mem _ h1, h2⟩

theorem findKnown_none {s : St V} (vs : List V) (h : findKnown s vs = none) : ∀ e, e ∈ vs → s.al e = none := by
  induction vs with
  | nil => intro e he; cases he
  | cons v vs ih =>
    unfold findKnown at h
    cases hv : s.al v with
    | some c => rw [hv] at h; cases h
    | none =>
      rw [hv] at h
      intro e he
      rcases List.mem_cons.1 he with he | he
      · rw [he]; exact hv
      · exact ih h e he

/-- The invariant while merging an analysis with pointers `Ko` and pairs `Po` into one with pointers `K` and pairs
`P`; the keys `D` have been merged. -/
structure MInv (K : List V) (P : List (V × V)) (Ko : List V) (Po : List (V × V)) (D : List V) (s : St V) : Prop where
  kn1 : ∀ v b, s.al v = some b → v ∈ K ∨ v ∈ Ko
  kn2 : ∀ v, v ∈ K ∨ v ∈ D → ∃ b, s.al v = some b
  mem : ∀ v b, s.al v = some b → ∃ a S, s.boxes[b]? = some a ∧ s.sets a = some S ∧ v ∈ S
  cls : ∀ a S u b, s.sets a = some S → u ∈ S → s.al u = some b → s.boxes[b]? = some a
  nodup : ∀ a S, s.sets a = some S → S.Nodup
  boxed : ∀ (b a : Nat), s.boxes[b]? = some a → ∃ v, s.al v = some b
  snd : ∀ a S u v, s.sets a = some S → u ∈ S → v ∈ S → Clos (P ++ Po) u v
  cmpA : ∀ u v, (u, v) ∈ P → addr s u = addr s v
  link : ∀ a S u w b, s.sets a = some S → u ∈ S → u ∈ Ko → w ∈ Ko → s.al w = some b → Clos Po u w → s.boxes[b]? = some a
  wait : ∀ a S u, s.sets a = some S → u ∈ S → s.al u = none → u ∈ Ko ∧ ∃ w b, w ∈ Ko ∧ s.al w = some b ∧ Clos Po u w
  live : ∀ a S, s.sets a = some S → a ∈ s.boxes

theorem MInv.start {s : St V} {K : List V} {P : List (V × V)} (hi : Inv s K P) (Ko : List V) (Po : List (V × V))
    (hc : ∀ x y, x ∈ K → y ∈ K → x ∈ Ko → y ∈ Ko → Clos Po x y → Clos P x y) : MInv K P Ko Po [] s := by
  refine ⟨fun v b h => Or.inl ((hi.known v).1 ⟨b, h⟩), ?_, hi.mem, ?_, hi.nodup, hi.boxed, ?_, hi.cmp, ?_, ?_, hi.live⟩
  · rintro v (h | h)
    · exact (hi.known v).2 h
    · cases h
  · intro a S u b h1 h2 h3
    have := hi.cls a S u h1 h2
    simpa [addr, h3] using this
  · intro a S u v h1 h2 h3
    exact (hi.snd a S u v h1 h2 h3).mono (fun p hp => List.mem_append_left _ hp)
  · intro a S u w b h1 h2 h3 h4 h5 h6
    have hu := hi.cls a S u h1 h2
    have hs := hi.same (hc u w (hi.addr_known hu) ((hi.known w).1 ⟨b, h5⟩) h3 h4 h6)
    rw [hu] at hs
    simpa [addr, h5] using hs.symm
  · intro a S u h1 h2 h3
    have hu := hi.cls a S u h1 h2
    simp [addr, h3] at hu

theorem MInv.finish {s : St V} {K D : List V} {P : List (V × V)} {Ko : List V} {Po : List (V × V)} (hm : MInv K P Ko Po D s)
    (hD : ∀ v, v ∈ Ko → v ∈ D) (hpk : ∀ u v, (u, v) ∈ P → u ∈ K ∧ v ∈ K) (hpo : ∀ u v, (u, v) ∈ Po → u ∈ Ko ∧ v ∈ Ko) :
    Inv s (K ++ Ko) (P ++ Po) := by
  refine ⟨?_, hm.mem, ?_, hm.nodup, hm.boxed, hm.snd, ?_, ?_, hm.live⟩
  · intro v
    rw [List.mem_append]
    constructor
    · rintro ⟨b, h⟩; exact hm.kn1 v b h
    · rintro (h | h)
      · exact hm.kn2 v (Or.inl h)
      · exact hm.kn2 v (Or.inr (hD v h))
  · intro a S u h1 h2
    cases hb : s.al u with
    | none =>
      have := (hm.wait a S u h1 h2 hb).1
      obtain ⟨b, h⟩ := hm.kn2 u (Or.inr (hD u this))
      rw [hb] at h; cases h
    | some b => simp only [addr, hb, Option.bind_some]; exact hm.cls a S u b h1 h2 hb
  · intro u v huv
    rcases List.mem_append.1 huv with h | h
    · exact hm.cmpA u v h
    · obtain ⟨ku, kv⟩ := hpo u v h
      obtain ⟨bu, hu⟩ := hm.kn2 u (Or.inr (hD u ku))
      obtain ⟨bv, hv⟩ := hm.kn2 v (Or.inr (hD v kv))
      obtain ⟨a, S, h1, h2, h3⟩ := hm.mem u bu hu
      have := hm.link a S u v bv h2 h3 ku kv hv (.pair h)
      simp [addr, hu, hv, h1, this]
  · intro u v huv
    rcases List.mem_append.1 huv with h | h
    · exact ⟨List.mem_append_left _ (hpk u v h).1, List.mem_append_left _ (hpk u v h).2⟩
    · exact ⟨List.mem_append_right _ (hpo u v h).1, List.mem_append_right _ (hpo u v h).2⟩

/-- Two mapped pointers of the same class of the other analysis are in the same set. -/
theorem MInv.cmpB {s : St V} {K D : List V} {P : List (V × V)} {Ko : List V} {Po : List (V × V)} (hm : MInv K P Ko Po D s)
    {u w : V} {b c : Nat} (hu : s.al u = some b) (hw : s.al w = some c) (ku : u ∈ Ko) (kw : w ∈ Ko) (hc : Clos Po u w) :
    s.boxes[c]? = s.boxes[b]? := by
  obtain ⟨a, S, h1, h2, h3⟩ := hm.mem u b hu
  rw [h1]; exact hm.link a S u w c h2 h3 ku kw hw hc

theorem mergeEntry_spec {fresh : St V → Nat} (hf : Alloc fresh) {s : St V} {K D : List V} {P : List (V × V)} {Ko : List V}
    {Po : List (V × V)} (hm : MInv K P Ko Po D s) {k : V} (hk : k ∈ Ko) {S : List V} (hnd : S.Nodup)
    (hS : ∀ q, q ∈ S ↔ q ∈ Ko ∧ Clos Po k q) (hpk : ∀ u v, (u, v) ∈ P → u ∈ K ∧ v ∈ K) :
    ∃ s', mergeEntry fresh s k S = some s' ∧ MInv K P Ko Po (k :: D) s' := by
  have sub : ∀ p, p ∈ Po → p ∈ P ++ Po := fun p hp => List.mem_append_right _ hp
  have hkS : k ∈ S := (hS k).2 ⟨hk, .refl k⟩
  have hin : ∀ x y, x ∈ S → y ∈ S → Clos Po x y := fun x y hx hy => ((hS x).1 hx).2.symm.trans ((hS y).1 hy).2
  unfold mergeEntry
  cases hfk : findKnown s S with
  | some b =>
    obtain ⟨e, heS, heb⟩ := findKnown_some S hfk
    have heK := ((hS e).1 heS).1
    obtain ⟨a, S0, h1, h2, h3⟩ := hm.mem e b heb
    simp only [h1, Option.bind_some, h2, Option.map_some]
    refine ⟨_, rfl, ?_⟩
    have hal : ∀ u, (insertAl (s.put a (some (insAll S0 S))) b S).al u =
        match s.al u with | some c => some c | none => if u ∈ S then some b else none := fun u => insertAl_al b S _ u
    have hsets : ∀ c, (insertAl (s.put a (some (insAll S0 S))) b S).sets c = if c = a then some (insAll S0 S) else s.sets c := by
      intro c; rw [(insertAl_sets b S _).1]; rfl
    have hboxes : (insertAl (s.put a (some (insAll S0 S))) b S).boxes = s.boxes := (insertAl_sets b S _).2
    -- what is mapped now
    have hcase : ∀ u c, (insertAl (s.put a (some (insAll S0 S))) b S).al u = some c →
        s.al u = some c ∨ (s.al u = none ∧ u ∈ S ∧ c = b) := by
      intro u c h
      rw [hal] at h
      cases hu : s.al u with
      | some d => rw [hu] at h; exact Or.inl h
      | none =>
        rw [hu] at h
        simp only at h
        split at h
        · rename_i hm; cases h; exact Or.inr ⟨rfl, hm, rfl⟩
        · cases h
    have hold : ∀ u c, s.al u = some c → (insertAl (s.put a (some (insAll S0 S))) b S).al u = some c := by
      intro u c h; rw [hal, h]
    have hnew : ∀ u, u ∈ S → ∃ c, (insertAl (s.put a (some (insAll S0 S))) b S).al u = some c := by
      intro u hu
      rw [hal]
      cases s.al u with
      | some d => exact ⟨d, rfl⟩
      | none => exact ⟨b, by simp [hu]⟩
    -- mapped members of the class are at `a`
    have hat : ∀ u c, u ∈ S → (insertAl (s.put a (some (insAll S0 S))) b S).al u = some c → s.boxes[c]? = some a := by
      intro u c hu hc
      rcases hcase u c hc with h | ⟨_, _, h⟩
      · rw [hm.cmpB heb h heK ((hS u).1 hu).1 (hin e u heS hu)]; exact h1
      · rw [h]; exact h1
    -- members of the class in an old set: that set is at `a`
    have hwhere : ∀ c T u, s.sets c = some T → u ∈ T → u ∈ S → c = a := by
      intro c T u hT hu huS
      have := hm.link c T u e b hT hu ((hS u).1 huS).1 heK heb (hin u e huS heS)
      rw [h1] at this
      exact (Option.some.inj this).symm
    refine ⟨?_, ?_, ?_, ?_, ?_, ?_, ?_, ?_, ?_, ?_, ?_⟩
    · intro v c hv
      rcases hcase v c hv with h | ⟨_, h, _⟩
      · exact hm.kn1 v c h
      · exact Or.inr ((hS v).1 h).1
    · intro v hv
      rcases hv with hv | hv
      · obtain ⟨c, hc⟩ := hm.kn2 v (Or.inl hv); exact ⟨c, hold v c hc⟩
      · rcases List.mem_cons.1 hv with hv | hv
        · rw [hv]; exact hnew k hkS
        · obtain ⟨c, hc⟩ := hm.kn2 v (Or.inr hv); exact ⟨c, hold v c hc⟩
    · intro v c hv
      rw [hboxes]
      rcases hcase v c hv with h | ⟨_, h, hcb⟩
      · obtain ⟨a', T, g1, g2, g3⟩ := hm.mem v c h
        by_cases ha : a' = a
        · subst ha
          rw [h2] at g2; cases g2
          exact ⟨a', insAll S0 S, g1, by rw [hsets, if_pos rfl], (mem_insAll _ _ _).2 (Or.inl g3)⟩
        · exact ⟨a', T, g1, by rw [hsets, if_neg ha]; exact g2, g3⟩
      · exact ⟨a, insAll S0 S, by rw [hcb]; exact h1, by rw [hsets, if_pos rfl], (mem_insAll _ _ _).2 (Or.inr h)⟩
    · intro c T u d hT hu hd
      rw [hboxes]
      rw [hsets] at hT
      by_cases huS : u ∈ S
      · rw [hat u d huS hd]
        by_cases hc : c = a
        · rw [hc]
        · rw [if_neg hc] at hT
          rw [hwhere c T u hT hu huS]
      · have hd' : s.al u = some d := by
          rcases hcase u d hd with h | ⟨_, h, _⟩
          · exact h
          · exact (huS h).elim
        by_cases hc : c = a
        · rw [if_pos hc] at hT
          cases hT
          rw [hc]
          exact hm.cls a S0 u d h2 (((mem_insAll _ _ _).1 hu).resolve_right huS) hd'
        · rw [if_neg hc] at hT
          exact hm.cls c T u d hT hu hd'
    · intro c T hT
      rw [hsets] at hT
      split at hT
      · cases hT; exact nodup_insAll _ (hm.nodup a S0 h2)
      · exact hm.nodup c T hT
    · intro c a' hc
      rw [hboxes] at hc
      obtain ⟨v, hv⟩ := hm.boxed c a' hc
      exact ⟨v, hold v c hv⟩
    · intro c T x y hT hx hy
      rw [hsets] at hT
      split at hT
      · cases hT
        have hto : ∀ z, z ∈ insAll S0 S → Clos (P ++ Po) z e := by
          intro z hz
          rcases (mem_insAll _ _ _).1 hz with hz | hz
          · exact hm.snd a S0 z e h2 hz h3
          · exact (hin z e hz heS).mono sub
        exact (hto x hx).trans (hto y hy).symm
      · exact hm.snd c T x y hT hx hy
    · intro u v huv
      obtain ⟨bu, hu⟩ := hm.kn2 u (Or.inl (hpk u v huv).1)
      obtain ⟨bv, hv⟩ := hm.kn2 v (Or.inl (hpk u v huv).2)
      have := hm.cmpA u v huv
      simp only [addr, hu, hv, Option.bind_some] at this
      simp only [addr, hold u bu hu, hold v bv hv, Option.bind_some, hboxes]
      exact this
    · intro c T u w d hT hu ku kw hd hc
      rw [hboxes]
      rw [hsets] at hT
      by_cases hwS : w ∈ S
      · rw [hat w d hwS hd]
        by_cases hca : c = a
        · rw [hca]
        · rw [if_neg hca] at hT
          have huS : u ∈ S := (hS u).2 ⟨ku, ((hS w).1 hwS).2.trans hc.symm⟩
          rw [hwhere c T u hT hu huS]
      · have hd' : s.al w = some d := by
          rcases hcase w d hd with h | ⟨_, h, _⟩
          · exact h
          · exact (hwS h).elim
        have huS : u ∉ S := fun h => hwS ((hS w).2 ⟨kw, ((hS u).1 h).2.trans hc⟩)
        by_cases hca : c = a
        · rw [if_pos hca] at hT
          cases hT
          rw [hca]
          exact hm.link a S0 u w d h2 (((mem_insAll _ _ _).1 hu).resolve_right huS) ku kw hd' hc
        · rw [if_neg hca] at hT
          exact hm.link c T u w d hT hu ku kw hd' hc
    · intro c T u hT hu hn
      rw [hsets] at hT
      have huS : u ∉ S := fun h => by
        obtain ⟨d, hd⟩ := hnew u h
        rw [hn] at hd; cases hd
      have hn' : s.al u = none := by
        cases h : s.al u with
        | none => rfl
        | some d => rw [hold u d h] at hn; cases hn
      have hT' : ∃ T' c', s.sets c' = some T' ∧ u ∈ T' := by
        by_cases hca : c = a
        · rw [if_pos hca] at hT
          cases hT
          exact ⟨S0, a, h2, ((mem_insAll _ _ _).1 hu).resolve_right huS⟩
        · rw [if_neg hca] at hT
          exact ⟨T, c, hT, hu⟩
      obtain ⟨T', c', g1, g2⟩ := hT'
      obtain ⟨k1, w, d, k2, k3, k4⟩ := hm.wait c' T' u g1 g2 hn'
      exact ⟨k1, w, d, k2, hold w d k3, k4⟩
    · intro c T hT
      rw [hboxes]
      rw [hsets] at hT
      split at hT
      · rename_i h; rw [h]; exact hm.live a S0 h2
      · exact hm.live c T hT
  | none =>
    have hun := findKnown_none S hfk
    have hfr : s.sets (fresh s) = none := hf s (fun a ha => by
      cases h : s.sets a with
      | none => exact (ha h).elim
      | some S => exact hm.live a S h)
    have hnewb : (s.boxes ++ [fresh s])[s.boxes.length]? = some (fresh s) := by simp
    simp only [acquire, hfr, Option.isNone_none, if_true, Option.bind_some, St.put, hnewb, Option.map_some, hun k hkS,
      St.setAl]
    refine ⟨_, rfl, ?_⟩
    have hboxold : ∀ (b a : Nat), s.boxes[b]? = some a → (s.boxes ++ [fresh s])[b]? = some a := by
      intro b a h
      rw [List.getElem?_append_left (List.getElem?_eq_some_iff.1 h).1]; exact h
    have hcase : ∀ u c, (if u = k then some s.boxes.length else s.al u) = some c →
        (u = k ∧ c = s.boxes.length) ∨ (u ∉ S ∧ s.al u = some c) := by
      intro u c h
      by_cases hu : u = k
      · rw [if_pos hu] at h; exact Or.inl ⟨hu, (Option.some.inj h).symm⟩
      · rw [if_neg hu] at h
        exact Or.inr ⟨fun hs => (by rw [hun u hs] at h; cases h), h⟩
    have hold : ∀ u c, s.al u = some c → (if u = k then some s.boxes.length else s.al u) = some c := by
      intro u c h
      have : u ≠ k := fun e => by rw [e, hun k hkS] at h; cases h
      rw [if_neg this]; exact h
    -- no old set has members of the class
    have hnone : ∀ c T u, s.sets c = some T → u ∈ T → u ∉ S := by
      intro c T u hT hu huS
      obtain ⟨_, w, d, k2, k3, k4⟩ := hm.wait c T u hT hu (hun u huS)
      have : w ∈ S := (hS w).2 ⟨k2, ((hS u).1 huS).2.trans k4⟩
      rw [hun w this] at k3; cases k3
    have hsets : ∀ c T, (if c = fresh s then some S else if c = fresh s then some [] else s.sets c) = some T →
        (c = fresh s ∧ T = S) ∨ (c ≠ fresh s ∧ s.sets c = some T) := by
      intro c T h
      by_cases hc : c = fresh s
      · rw [if_pos hc] at h; exact Or.inl ⟨hc, (Option.some.inj h).symm⟩
      · rw [if_neg hc, if_neg hc] at h; exact Or.inr ⟨hc, h⟩
    refine ⟨?_, ?_, ?_, ?_, ?_, ?_, ?_, ?_, ?_, ?_, ?_⟩
    · intro v c hv
      rcases hcase v c hv with ⟨h, _⟩ | ⟨_, h⟩
      · exact Or.inr (h ▸ hk)
      · exact hm.kn1 v c h
    · intro v hv
      show ∃ b, (if v = k then some s.boxes.length else s.al v) = some b
      by_cases hvk : v = k
      · exact ⟨_, if_pos hvk⟩
      · have : ∃ c, s.al v = some c := by
          rcases hv with hv | hv
          · exact hm.kn2 v (Or.inl hv)
          · exact hm.kn2 v (Or.inr ((List.mem_cons.1 hv).resolve_left hvk))
        obtain ⟨c, hc⟩ := this
        exact ⟨c, hold v c hc⟩
    · intro v c hv
      rcases hcase v c hv with ⟨h, hc⟩ | ⟨_, h⟩
      · exact ⟨fresh s, S, by rw [hc]; exact hnewb, by simp, h ▸ hkS⟩
      · obtain ⟨a, T, g1, g2, g3⟩ := hm.mem v c h
        have hne : a ≠ fresh s := fun e => by rw [e, hfr] at g2; cases g2
        exact ⟨a, T, hboxold c a g1, by simp [hne, g2], g3⟩
    · intro c T u d hT hu hd
      rcases hsets c T hT with ⟨hc, hTS⟩ | ⟨hc, hT'⟩
      · subst hTS
        rcases hcase u d hd with ⟨h, hdl⟩ | ⟨h, _⟩
        · rw [hdl, hc]; exact hnewb
        · exact (h hu).elim
      · rcases hcase u d hd with ⟨h, _⟩ | ⟨_, h⟩
        · exact (hnone c T u hT' hu (h ▸ hkS)).elim
        · exact hboxold d c (hm.cls c T u d hT' hu h)
    · intro c T hT
      rcases hsets c T hT with ⟨_, hTS⟩ | ⟨_, hT'⟩
      · rw [hTS]; exact hnd
      · exact hm.nodup c T hT'
    · intro c a hc
      have hc' : (s.boxes ++ [fresh s])[c]? = some a := hc
      show ∃ v, (if v = k then some s.boxes.length else s.al v) = some c
      by_cases hlt : c < s.boxes.length
      · rw [List.getElem?_append_left hlt] at hc'
        obtain ⟨v, hv⟩ := hm.boxed c a hc'
        exact ⟨v, hold v c hv⟩
      · have hl : c < (s.boxes ++ [fresh s]).length := (List.getElem?_eq_some_iff.1 hc').1
        simp at hl
        have : c = s.boxes.length := by omega
        exact ⟨k, by simp [this]⟩
    · intro c T x y hT hx hy
      rcases hsets c T hT with ⟨_, hTS⟩ | ⟨_, hT'⟩
      · subst hTS; exact (hin x y hx hy).mono sub
      · exact hm.snd c T x y hT' hx hy
    · intro u v huv
      obtain ⟨bu, hu⟩ := hm.kn2 u (Or.inl (hpk u v huv).1)
      obtain ⟨bv, hv⟩ := hm.kn2 v (Or.inl (hpk u v huv).2)
      obtain ⟨au, _, g1, _, _⟩ := hm.mem u bu hu
      obtain ⟨av, _, g2, _, _⟩ := hm.mem v bv hv
      have := hm.cmpA u v huv
      simp only [addr, hu, hv, Option.bind_some, g1, g2] at this
      show (if u = k then some s.boxes.length else s.al u).bind (fun b => (s.boxes ++ [fresh s])[b]?) =
        (if v = k then some s.boxes.length else s.al v).bind (fun b => (s.boxes ++ [fresh s])[b]?)
      rw [hold u bu hu, hold v bv hv]
      simp only [Option.bind_some, hboxold bu au g1, hboxold bv av g2, this]
    · intro c T u w d hT hu ku kw hd hc
      rcases hsets c T hT with ⟨hca, hTS⟩ | ⟨_, hT'⟩
      · subst hTS
        have hwS : w ∈ T := (hS w).2 ⟨kw, ((hS u).1 hu).2.trans hc⟩
        rcases hcase w d hd with ⟨_, hdl⟩ | ⟨h, _⟩
        · rw [hdl, hca]; exact hnewb
        · exact (h hwS).elim
      · rcases hcase w d hd with ⟨h, _⟩ | ⟨_, h⟩
        · have huS : u ∈ S := (hS u).2 ⟨ku, by rw [← h]; exact hc.symm⟩
          exact (hnone c T u hT' hu huS).elim
        · exact hboxold d c (hm.link c T u w d hT' hu ku kw h hc)
    · intro c T u hT hu hn
      have hn' : (if u = k then some s.boxes.length else s.al u) = none := hn
      have huk : u ≠ k := fun e => by rw [if_pos e] at hn'; cases hn'
      rw [if_neg huk] at hn'
      show u ∈ Ko ∧ ∃ w b, w ∈ Ko ∧ (if w = k then some s.boxes.length else s.al w) = some b ∧ Clos Po u w
      rcases hsets c T hT with ⟨_, hTS⟩ | ⟨_, hT'⟩
      · subst hTS
        exact ⟨((hS u).1 hu).1, k, _, hk, if_pos rfl, ((hS u).1 hu).2.symm⟩
      · obtain ⟨k1, w, d, k2, k3, k4⟩ := hm.wait c T u hT' hu hn'
        exact ⟨k1, w, d, k2, hold w d k3, k4⟩
    · intro c T hT
      show c ∈ s.boxes ++ [fresh s]
      rcases hsets c T hT with ⟨h, _⟩ | ⟨_, h⟩
      · simp [h]
      · exact List.mem_append_left _ (hm.live c T h)

theorem mergeWith_run {fresh : St V → Nat} (hf : Alloc fresh) {o : St V} {K : List V} {P : List (V × V)} {Ko : List V}
    {Po : List (V × V)} (ho : Inv o Ko Po) (hpk : ∀ u v, (u, v) ∈ P → u ∈ K ∧ v ∈ K) (ks : List V) :
    ∀ {s : St V} {D : List V}, MInv K P Ko Po D s → (∀ k, k ∈ ks → k ∈ Ko) →
    ∃ s' D', mergeWith fresh s o ks = some s' ∧ MInv K P Ko Po D' s' ∧ (∀ v, v ∈ D ∨ v ∈ ks → v ∈ D') := by
  induction ks with
  | nil => intro s D hm _; exact ⟨s, D, rfl, hm, fun v h => h.resolve_right (by simp)⟩
  | cons k ks ih =>
    intro s D hm hk
    obtain ⟨S, h1, h2, h3⟩ := ho.set_spec (hk k List.mem_cons_self)
    obtain ⟨s1, g1, g2⟩ := mergeEntry_spec hf hm (hk k List.mem_cons_self) h2 h3 hpk
    obtain ⟨s2, D', k1, k2, k3⟩ := ih g2 (fun x hx => hk x (List.mem_cons_of_mem _ hx))
    refine ⟨s2, D', by simp [mergeWith, h1, g1, k1], k2, ?_⟩
    rintro v (h | h)
    · exact k3 v (Or.inl (List.mem_cons_of_mem _ h))
    · rcases List.mem_cons.1 h with h | h
      · exact k3 v (Or.inl (h ▸ List.mem_cons_self))
      · exact k3 v (Or.inr h)

end Phasar.Alias
