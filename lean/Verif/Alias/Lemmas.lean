import Verif.Alias.AliasSet
/-!
# Lemmas on the alias sets
-/
set_option linter.unusedSectionVars false
namespace Phasar.Alias

variable {V : Type} [DecidableEq V]

theorem Clos.mono {P Q : List (V × V)} (h : ∀ p, p ∈ P → p ∈ Q) {a b : V} (hc : Clos P a b) : Clos Q a b := by
  induction hc with
  | pair hp => exact .pair (h _ hp)
  | refl a => exact .refl a
  | symm _ ih => exact .symm ih
  | trans _ _ ih1 ih2 => exact .trans ih1 ih2

theorem mem_ins (S : List V) (v x : V) : x ∈ ins S v ↔ x ∈ S ∨ x = v := by
  unfold ins
  split
  · rename_i h
    constructor
    · exact Or.inl
    · rintro (h1 | h1)
      · exact h1
      · rw [h1]; exact h
  · simp

theorem nodup_ins {S : List V} (h : S.Nodup) (v : V) : (ins S v).Nodup := by
  unfold ins
  split
  · exact h
  · rename_i hn
    refine List.nodup_append.2 ⟨h, by simp, ?_⟩
    intro a ha b hb
    simp at hb
    subst hb
    exact fun e => hn (e ▸ ha)

theorem mem_insAll (vs : List V) : ∀ (S : List V) (x : V), x ∈ insAll S vs ↔ x ∈ S ∨ x ∈ vs := by
  induction vs with
  | nil => intro S x; simp [insAll]
  | cons v vs ih =>
    intro S x
    simp only [insAll, ih, mem_ins, List.mem_cons]
    constructor
    · rintro ((h | h) | h)
      · exact Or.inl h
      · exact Or.inr (Or.inl h)
      · exact Or.inr (Or.inr h)
    · rintro (h | h | h)
      · exact Or.inl (Or.inl h)
      · exact Or.inl (Or.inr h)
      · exact Or.inr h

theorem nodup_insAll (vs : List V) : ∀ {S : List V}, S.Nodup → (insAll S vs).Nodup := by
  induction vs with
  | nil => intro S h; exact h
  | cons v vs ih => intro S h; exact ih (nodup_ins h v)

/-- The address of the set of a value. -/
def addr (s : St V) (v : V) : Option Nat := (s.al v).bind (fun b => s.boxes[b]?)

/-- The invariant: the sets are the classes of the known pointers under the pairs introduced. -/
structure Inv (s : St V) (K : List V) (P : List (V × V)) : Prop where
  known : ∀ v, (∃ b, s.al v = some b) ↔ v ∈ K
  mem : ∀ v b, s.al v = some b → ∃ a S, s.boxes[b]? = some a ∧ s.sets a = some S ∧ v ∈ S
  cls : ∀ a S u, s.sets a = some S → u ∈ S → addr s u = some a
  nodup : ∀ a S, s.sets a = some S → S.Nodup
  boxed : ∀ (b a : Nat), s.boxes[b]? = some a → ∃ v, s.al v = some b
  snd : ∀ a S u v, s.sets a = some S → u ∈ S → v ∈ S → Clos P u v
  cmp : ∀ u v, (u, v) ∈ P → addr s u = addr s v
  pk : ∀ u v, (u, v) ∈ P → u ∈ K ∧ v ∈ K
  live : ∀ a S, s.sets a = some S → a ∈ s.boxes

theorem inv_empty : Inv (empty : St V) [] [] := by
  refine ⟨?_, ?_, ?_, ?_, ?_, ?_, ?_, ?_, ?_⟩ <;> simp [empty]

theorem Inv.addr_mem {s : St V} {K : List V} {P : List (V × V)} (hi : Inv s K P) {v : V} {a : Nat} (h : addr s v = some a) :
    ∃ S, s.sets a = some S ∧ v ∈ S := by
  unfold addr at h
  cases hb : s.al v with
  | none => rw [hb] at h; cases h
  | some b =>
    rw [hb] at h
    obtain ⟨a', S, h1, h2, h3⟩ := hi.mem v b hb
    simp only [Option.bind_some] at h
    rw [h] at h1
    cases h1
    exact ⟨S, h2, h3⟩

theorem Inv.known_addr {s : St V} {K : List V} {P : List (V × V)} (hi : Inv s K P) {v : V} (h : v ∈ K) :
    ∃ b a S, s.al v = some b ∧ s.boxes[b]? = some a ∧ s.sets a = some S ∧ v ∈ S ∧ addr s v = some a := by
  obtain ⟨b, hb⟩ := (hi.known v).2 h
  obtain ⟨a, S, h1, h2, h3⟩ := hi.mem v b hb
  exact ⟨b, a, S, hb, h1, h2, h3, by simp [addr, hb, h1]⟩

theorem Inv.mono {s : St V} {K K' : List V} {P P' : List (V × V)} (hi : Inv s K P) (hk : ∀ v, v ∈ K ↔ v ∈ K')
    (hp : ∀ p, p ∈ P → p ∈ P') (hc : ∀ u v, (u, v) ∈ P' → addr s u = addr s v)
    (hpk : ∀ u v, (u, v) ∈ P' → u ∈ K' ∧ v ∈ K') : Inv s K' P' :=
  ⟨fun v => (hi.known v).trans (hk v), hi.mem, hi.cls, hi.nodup, hi.boxed,
   fun a S u v h1 h2 h3 => (hi.snd a S u v h1 h2 h3).mono hp, hc, hpk, hi.live⟩

theorem Inv.addr_known {s : St V} {K : List V} {P : List (V × V)} (hi : Inv s K P) {v : V} {a : Nat} (h : addr s v = some a) :
    v ∈ K := by
  unfold addr at h
  cases hb : s.al v with
  | none => rw [hb] at h; cases h
  | some b => exact (hi.known v).1 ⟨b, hb⟩

theorem Inv.same {s : St V} {K : List V} {P : List (V × V)} (hi : Inv s K P) {u v : V} (hc : Clos P u v) :
    addr s u = addr s v := by
  induction hc with
  | pair hp => exact hi.cmp _ _ hp
  | refl a => rfl
  | symm _ ih => exact ih.symm
  | trans _ _ ih1 ih2 => exact ih1.trans ih2

/-- Under the invariant the set of a known pointer is its class. -/
theorem Inv.set_spec {s : St V} {K : List V} {P : List (V × V)} (hi : Inv s K P) {p : V} (hp : p ∈ K) :
    ∃ S, aliasSet s p = some S ∧ S.Nodup ∧ ∀ q, q ∈ S ↔ q ∈ K ∧ Clos P p q := by
  obtain ⟨b, a, S, h1, h2, h3, h4, h5⟩ := hi.known_addr hp
  refine ⟨S, by simp [aliasSet, h1, deref, h2, h3], hi.nodup a S h3, ?_⟩
  intro q
  constructor
  · intro hq
    refine ⟨?_, hi.snd a S p q h3 h4 hq⟩
    have := hi.cls a S q h3 hq
    unfold addr at this
    cases hb : s.al q with
    | none => rw [hb] at this; cases this
    | some b' => exact (hi.known q).1 ⟨b', hb⟩
  · rintro ⟨_, hc⟩
    have := hi.same hc
    rw [h5] at this
    obtain ⟨S', h6, h7⟩ := hi.addr_mem this.symm
    rw [h3] at h6
    cases h6
    exact h7

/-! ### Merging -/

theorem reindex_spec (al : V → Option Nat) (small large : Nat) (hne : small ≠ large) (vs : List V) :
    ∀ (boxes : List Nat), (∀ v, v ∈ vs → ∃ b, al v = some b ∧ b < boxes.length) →
    ∃ boxes', reindex al small large vs boxes = some boxes' ∧ boxes'.length = boxes.length ∧
      (∀ (b a : Nat), boxes[b]? = some a → a ≠ small → boxes'[b]? = some a) ∧
      (∀ b : Nat, boxes[b]? = some small → boxes'[b]? = some small ∨ boxes'[b]? = some large) ∧
      (∀ v b, v ∈ vs → al v = some b → boxes[b]? = some small → boxes'[b]? = some large) := by
  induction vs with
  | nil =>
    intro boxes _
    exact ⟨boxes, rfl, rfl, fun _ _ h _ => h, fun _ h => Or.inl h, fun _ _ h => (by cases h)⟩
  | cons v vs ih =>
    intro boxes hd
    obtain ⟨b, hb, hlt⟩ := hd v List.mem_cons_self
    have hget : boxes[b]? = some boxes[b] := List.getElem?_eq_getElem hlt
    simp only [reindex, hb, Option.bind_some, hget]
    by_cases hs : boxes[b] = small
    · rw [if_pos hs]
      obtain ⟨boxes', h1, h2, h3, h4, h5⟩ := ih (boxes.set b large) (by
        intro w hw
        obtain ⟨b', h1, h2⟩ := hd w (List.mem_cons_of_mem _ hw)
        exact ⟨b', h1, by simpa using h2⟩)
      have hset : ∀ c : Nat, (boxes.set b large)[c]? = if c = b then some large else boxes[c]? := by
        intro c
        rw [List.getElem?_set]
        by_cases hc : b = c
        · subst hc; simp [hlt]
        · rw [if_neg hc, if_neg (fun e => hc e.symm)]
      have hb' : boxes'[b]? = some large := h3 b large (by rw [hset, if_pos rfl]) (fun e => hne e.symm)
      refine ⟨boxes', h1, by rw [h2]; simp, ?_, ?_, ?_⟩
      · intro c a hc ha
        by_cases hcb : c = b
        · subst hcb
          rw [hget, hs] at hc
          cases hc
          exact (ha rfl).elim
        · exact h3 c a (by rw [hset, if_neg hcb]; exact hc) ha
      · intro c hc
        by_cases hcb : c = b
        · subst hcb; exact Or.inr hb'
        · exact h4 c (by rw [hset, if_neg hcb]; exact hc)
      · intro w c hw hc hcs
        by_cases hcb : c = b
        · subst hcb; exact hb'
        · cases hw with
          | head => rw [hb] at hc; cases hc; exact (hcb rfl).elim
          | tail _ hw => exact h5 w c hw hc (by rw [hset, if_neg hcb]; exact hcs)
    · rw [if_neg hs]
      obtain ⟨boxes', h1, h2, h3, h4, h5⟩ := ih boxes (fun w hw => hd w (List.mem_cons_of_mem _ hw))
      refine ⟨boxes', h1, h2, h3, h4, ?_⟩
      intro w c hw hc hcs
      cases hw with
      | head =>
        rw [hb] at hc
        cases hc
        rw [hget] at hcs
        cases hcs
        exact (hs rfl).elim
      | tail _ hw => exact h5 w c hw hc hcs

/-- The core of merging: the set at `small` is added to the one at `large` and released. -/
theorem merge_core {s : St V} {K : List V} {P : List (V × V)} (hi : Inv s K P) {small large : Nat} {Ss Sl : List V}
    (hne : small ≠ large) (hs : s.sets small = some Ss) (hl : s.sets large = some Sl) {v w : V}
    (hv : v ∈ Ss ∧ w ∈ Sl ∨ v ∈ Sl ∧ w ∈ Ss) :
    ∃ s', (reindex s.al small large Ss s.boxes).bind (fun boxes =>
        release { s.put large (some (insAll Sl Ss)) with boxes := boxes } small) = some s' ∧
      Inv s' K ((v, w) :: P) ∧ s'.al = s.al := by
  have hd : ∀ u, u ∈ Ss → ∃ b, s.al u = some b ∧ b < s.boxes.length := by
    intro u hu
    have h1 := hi.cls small Ss u hs hu
    unfold addr at h1
    cases hb : s.al u with
    | none => rw [hb] at h1; cases h1
    | some b =>
      rw [hb] at h1
      exact ⟨b, rfl, (List.getElem?_eq_some_iff.1 h1).1⟩
  obtain ⟨boxes', h1, h2, h3, h4, h5⟩ := reindex_spec s.al small large hne Ss s.boxes hd
  rw [h1]
  simp only [Option.bind_some, release]
  have hsome : ((St.put s large (some (insAll Sl Ss))).sets small).isSome = true := by
    simp [St.put, hne, hs]
  rw [if_pos (by simpa [St.put] using hsome)]
  -- all boxes are redirected
  have hbox : ∀ b : Nat, boxes'[b]? = (s.boxes[b]?).map (fun a => if a = small then large else a) := by
    intro b
    cases hb : s.boxes[b]? with
    | none =>
      have := (List.getElem?_eq_none_iff.1 hb)
      simp only [Option.map_none]
      exact List.getElem?_eq_none (by omega)
    | some a =>
      simp only [Option.map_some]
      by_cases ha : a = small
      · subst ha
        rw [if_pos rfl]
        obtain ⟨u, hu⟩ := hi.boxed b a hb
        obtain ⟨a', S, g1, g2, g3⟩ := hi.mem u b hu
        rw [hb] at g1
        cases g1
        rw [hs] at g2
        cases g2
        exact h5 u b g3 hu hb
      · rw [if_neg ha]; exact h3 b a hb ha
  refine ⟨_, rfl, ?_, rfl⟩
  have hsets : ∀ a, (if a = small then none else if a = large then some (insAll Sl Ss) else s.sets a) =
      ((({ s.put large (some (insAll Sl Ss)) with boxes := boxes' } : St V).put small none).sets a) := fun _ => rfl
  have haddr : ∀ u, addr (({ s.put large (some (insAll Sl Ss)) with boxes := boxes' } : St V).put small none) u =
      (addr s u).map (fun a => if a = small then large else a) := by
    intro u
    show (s.al u).bind (fun b => boxes'[b]?) = _
    unfold addr
    cases s.al u with
    | none => rfl
    | some b => simp only [Option.bind_some, hbox]
  have hvw : addr s v = some small ∧ addr s w = some large ∨ addr s v = some large ∧ addr s w = some small := by
    rcases hv with ⟨a1, a2⟩ | ⟨a1, a2⟩
    · exact Or.inl ⟨hi.cls _ _ _ hs a1, hi.cls _ _ _ hl a2⟩
    · exact Or.inr ⟨hi.cls _ _ _ hl a1, hi.cls _ _ _ hs a2⟩
  refine ⟨hi.known, ?_, ?_, ?_, ?_, ?_, ?_, ?_, ?_⟩
  · intro u b hu
    obtain ⟨a, S, g1, g2, g3⟩ := hi.mem u b hu
    by_cases ha : a = small
    · subst ha
      rw [hs] at g2
      cases g2
      refine ⟨large, insAll Sl Ss, ?_, ?_, (mem_insAll _ _ _).2 (Or.inr g3)⟩
      · show boxes'[b]? = _
        rw [hbox, g1]; simp
      · rw [← hsets, if_neg (fun e => hne e.symm), if_pos rfl]
    · by_cases hal : a = large
      · subst hal
        rw [hl] at g2
        cases g2
        refine ⟨a, insAll Sl Ss, ?_, ?_, (mem_insAll _ _ _).2 (Or.inl g3)⟩
        · show boxes'[b]? = _
          rw [hbox, g1]; simp [ha]
        · rw [← hsets, if_neg ha, if_pos rfl]
      · refine ⟨a, S, ?_, ?_, g3⟩
        · show boxes'[b]? = _
          rw [hbox, g1]; simp [ha]
        · rw [← hsets, if_neg ha, if_neg hal]; exact g2
  · intro a S u ha hu
    rw [← hsets] at ha
    rw [haddr]
    by_cases h6 : a = small
    · rw [if_pos h6] at ha; cases ha
    · rw [if_neg h6] at ha
      by_cases h7 : a = large
      · rw [if_pos h7] at ha
        cases ha
        rw [mem_insAll] at hu
        rcases hu with hu | hu
        · rw [hi.cls _ _ _ hl hu]; simp [h7]
        · rw [hi.cls _ _ _ hs hu]; simp [h7]
      · rw [if_neg h7] at ha
        rw [hi.cls _ _ _ ha hu]; simp [h6]
  · intro a S ha
    rw [← hsets] at ha
    by_cases h6 : a = small
    · rw [if_pos h6] at ha; cases ha
    · rw [if_neg h6] at ha
      by_cases h7 : a = large
      · rw [if_pos h7] at ha
        cases ha
        exact nodup_insAll _ (hi.nodup _ _ hl)
      · rw [if_neg h7] at ha; exact hi.nodup _ _ ha
  · intro b a hb
    have hb' : boxes'[b]? = some a := hb
    rw [hbox] at hb'
    cases hq : s.boxes[b]? with
    | none => rw [hq] at hb'; cases hb'
    | some a' => exact hi.boxed b a' hq
  · have sub : ∀ p, p ∈ P → p ∈ (v, w) :: P := fun p hp => List.mem_cons_of_mem _ hp
    have cross : ∀ x y, x ∈ Ss → y ∈ Sl → Clos ((v, w) :: P) x y := by
      intro x y hx hy
      have hpair : Clos ((v, w) :: P) v w := .pair List.mem_cons_self
      rcases hv with ⟨a1, a2⟩ | ⟨a1, a2⟩
      · exact ((hi.snd _ _ _ _ hs hx a1).mono sub).trans (hpair.trans ((hi.snd _ _ _ _ hl a2 hy).mono sub))
      · exact ((hi.snd _ _ _ _ hs hx a2).mono sub).trans (hpair.symm.trans ((hi.snd _ _ _ _ hl a1 hy).mono sub))
    intro a S x y ha hx hy
    rw [← hsets] at ha
    by_cases h6 : a = small
    · rw [if_pos h6] at ha; cases ha
    · rw [if_neg h6] at ha
      by_cases h7 : a = large
      · rw [if_pos h7] at ha
        cases ha
        rw [mem_insAll] at hx hy
        rcases hx with hx | hx <;> rcases hy with hy | hy
        · exact (hi.snd _ _ _ _ hl hx hy).mono sub
        · exact (cross y x hy hx).symm
        · exact cross x y hx hy
        · exact (hi.snd _ _ _ _ hs hx hy).mono sub
      · rw [if_neg h7] at ha
        exact (hi.snd _ _ _ _ ha hx hy).mono sub
  · intro x y hxy
    rw [haddr, haddr]
    cases hxy with
    | head =>
      rcases hvw with ⟨a1, a2⟩ | ⟨a1, a2⟩
      · rw [a1, a2]; simp
      · rw [a1, a2]; simp
    | tail _ hxy => rw [hi.cmp x y hxy]
  · intro x y hxy
    cases hxy with
    | head =>
      rcases hvw with ⟨a1, a2⟩ | ⟨a1, a2⟩
      · exact ⟨hi.addr_known a1, hi.addr_known a2⟩
      · exact ⟨hi.addr_known a1, hi.addr_known a2⟩
    | tail _ hxy => exact hi.pk x y hxy
  · intro a S ha
    rw [← hsets] at ha
    show a ∈ boxes'
    by_cases h6 : a = small
    · rw [if_pos h6] at ha; cases ha
    · rw [if_neg h6] at ha
      have hold : a ∈ s.boxes := by
        by_cases h7 : a = large
        · rw [h7]; exact hi.live _ _ hl
        · rw [if_neg h7] at ha; exact hi.live _ _ ha
      obtain ⟨b, hb⟩ := List.getElem?_of_mem hold
      exact List.mem_of_getElem? (i := b) (by rw [hbox, hb]; simp [h6])

theorem mergeBoxes_spec {s : St V} {K : List V} {P : List (V × V)} (hi : Inv s K P) {v w : V} {b1 b2 : Nat}
    (hv : s.al v = some b1) (hw : s.al w = some b2) :
    ∃ s', mergeBoxes s b1 b2 = some s' ∧ Inv s' K ((v, w) :: P) ∧ s'.al = s.al := by
  obtain ⟨a1, S1, g1, g2, g3⟩ := hi.mem v b1 hv
  obtain ⟨a2, S2, k1, k2, k3⟩ := hi.mem w b2 hw
  have hav : addr s v = some a1 := by simp [addr, hv, g1]
  have haw : addr s w = some a2 := by simp [addr, hw, k1]
  have hsame : a1 = a2 → Inv s K ((v, w) :: P) := by
    intro e
    refine hi.mono (fun _ => Iff.rfl) (fun p hp => List.mem_cons_of_mem _ hp) ?_ ?_
    · intro x y hxy
      cases hxy with
      | head => rw [hav, haw, e]
      | tail _ h => exact hi.cmp x y h
    · intro x y hxy
      cases hxy with
      | head => exact ⟨hi.addr_known hav, hi.addr_known haw⟩
      | tail _ h => exact hi.pk x y h
  unfold mergeBoxes
  by_cases hb : b1 = b2
  · rw [if_pos hb]
    subst hb
    rw [g1] at k1
    cases k1
    exact ⟨s, rfl, hsame rfl, rfl⟩
  · rw [if_neg hb, g1, k1]
    simp only
    by_cases ha : a1 = a2
    · rw [if_pos ha]
      exact ⟨s, rfl, hsame ha, rfl⟩
    · rw [if_neg ha, g2, k2]
      simp only
      by_cases hlen : S1.length > S2.length
      · simp only [if_pos hlen]
        exact merge_core hi (fun e => ha e.symm) k2 g2 (Or.inr ⟨g3, k3⟩)
      · simp only [if_neg hlen]
        exact merge_core hi ha g2 k2 (Or.inl ⟨g3, k3⟩)

theorem mergeVals_spec {s : St V} {K : List V} {P : List (V × V)} (hi : Inv s K P) {v w : V} (hv : v ∈ K) (hw : w ∈ K) :
    ∃ s', mergeVals s v w = some s' ∧ Inv s' K ((v, w) :: P) ∧ s'.al = s.al := by
  unfold mergeVals
  by_cases h : v = w
  · rw [if_pos h]
    subst h
    refine ⟨s, rfl, hi.mono (fun _ => Iff.rfl) (fun p hp => List.mem_cons_of_mem _ hp) ?_ ?_, rfl⟩
    · intro x y hxy
      cases hxy with
      | head => rfl
      | tail _ h => exact hi.cmp x y h
    · intro x y hxy
      cases hxy with
      | head => exact ⟨hv, hw⟩
      | tail _ h => exact hi.pk x y h
  · rw [if_neg h]
    obtain ⟨b1, h1⟩ := (hi.known v).2 hv
    obtain ⟨b2, h2⟩ := (hi.known w).2 hw
    rw [h1, h2]
    exact mergeBoxes_spec hi h1 h2

/-! ### Adding -/

/-- What steps keep: the boxes of the pointers known. -/
def Keeps (s s' : St V) : Prop := ∀ v b, s.al v = some b → s'.al v = some b

theorem addSingleton_spec {fresh : St V → Nat} (hf : Alloc fresh) {s : St V} {K : List V} {P : List (V × V)}
    (hi : Inv s K P) (v : V) : ∃ s', addSingleton fresh s v = some s' ∧ Inv s' (v :: K) P ∧ Keeps s s' := by
  unfold addSingleton
  cases hv : s.al v with
  | some b =>
    obtain ⟨a, S, h1, h2, h3⟩ := hi.mem v b hv
    simp only [deref, h1, Option.bind_some, h2, if_pos h3]
    refine ⟨s, rfl, hi.mono ?_ (fun _ h => h) hi.cmp (fun x y h => ⟨List.mem_cons_of_mem _ (hi.pk x y h).1,
      List.mem_cons_of_mem _ (hi.pk x y h).2⟩), fun _ _ h => h⟩
    intro u
    constructor
    · exact List.mem_cons_of_mem _
    · intro h
      cases h with
      | head => exact (hi.known v).1 ⟨b, hv⟩
      | tail _ h => exact h
  | none =>
    have hfr : s.sets (fresh s) = none := hf s (fun a ha => by
      cases h : s.sets a with
      | none => exact (ha h).elim
      | some S => exact hi.live a S h)
    have hnew : (s.boxes ++ [fresh s])[s.boxes.length]? = some (fresh s) := by simp
    simp only [acquire, hfr, Option.isNone_none, if_true, Option.bind_some, hnew, St.put, Option.map_some, St.setAl, ins,
      List.not_mem_nil, if_false, List.nil_append]
    have hkeep : ∀ u b, s.al u = some b → (if u = v then some s.boxes.length else s.al u) = some b := by
      intro u b hu
      have : u ≠ v := fun e => by rw [e, hv] at hu; cases hu
      rw [if_neg this]; exact hu
    refine ⟨_, rfl, ?_, fun u b h => hkeep u b h⟩
    have hvK : v ∉ K := fun h => by
      obtain ⟨b, hb⟩ := (hi.known v).2 h
      rw [hv] at hb; cases hb
    have hboxold : ∀ (b a : Nat), s.boxes[b]? = some a → (s.boxes ++ [fresh s])[b]? = some a := by
      intro b a h
      rw [List.getElem?_append_left (List.getElem?_eq_some_iff.1 h).1]; exact h
    have hold : ∀ u a, addr s u = some a → a ≠ fresh s := by
      intro u a h e
      obtain ⟨S, h1, _⟩ := hi.addr_mem h
      rw [e, hfr] at h1
      cases h1
    have haddr : ∀ u, u ≠ v → (if u = v then some s.boxes.length else s.al u).bind (fun b => (s.boxes ++ [fresh s])[b]?) = addr s u := by
      intro u hu
      rw [if_neg hu]
      unfold addr
      cases hb : s.al u with
      | none => rfl
      | some b =>
        obtain ⟨a, S, h1, _, _⟩ := hi.mem u b hb
        simp only [Option.bind_some, h1, hboxold b a h1]
    have hadv : (if v = v then some s.boxes.length else s.al v).bind (fun b => (s.boxes ++ [fresh s])[b]?) = some (fresh s) := by
      rw [if_pos rfl]; simp
    refine ⟨?_, ?_, ?_, ?_, ?_, ?_, ?_, ?_, ?_⟩
    · intro u
      by_cases hu : u = v
      · subst hu; simp
      · simp only [hu, if_false, List.mem_cons, false_or]
        exact hi.known u
    · intro u b hb
      have hb' : (if u = v then some s.boxes.length else s.al u) = some b := hb
      by_cases hu : u = v
      · rw [if_pos hu] at hb'
        cases hb'
        exact ⟨fresh s, [v], hnew, by simp, by rw [hu]; simp⟩
      · rw [if_neg hu] at hb'
        obtain ⟨a, S, h1, h2, h3⟩ := hi.mem u b hb'
        have hne := hold u a (by simp [addr, hb', h1])
        exact ⟨a, S, hboxold b a h1, by simp [hne, h2], h3⟩
    · intro a S u ha hu
      have ha' : (if a = fresh s then some [v] else if a = fresh s then some [] else s.sets a) = some S := ha
      show (if u = v then some s.boxes.length else s.al u).bind (fun b => (s.boxes ++ [fresh s])[b]?) = some a
      by_cases hq : a = fresh s
      · rw [if_pos hq] at ha'
        cases ha'
        simp at hu
        subst hu
        rw [hadv, hq]
      · rw [if_neg hq, if_neg hq] at ha'
        have h1 := hi.cls a S u ha' hu
        have hne : u ≠ v := fun e => by rw [e] at h1; simp [addr, hv] at h1
        rw [haddr u hne]; exact h1
    · intro a S ha
      have ha' : (if a = fresh s then some [v] else if a = fresh s then some [] else s.sets a) = some S := ha
      by_cases hq : a = fresh s
      · rw [if_pos hq] at ha'
        cases ha'
        simp
      · rw [if_neg hq, if_neg hq] at ha'; exact hi.nodup a S ha'
    · intro b a hb
      have hb' : (s.boxes ++ [fresh s])[b]? = some a := hb
      by_cases hlt : b < s.boxes.length
      · rw [List.getElem?_append_left hlt] at hb'
        obtain ⟨u, hu⟩ := hi.boxed b a hb'
        exact ⟨u, hkeep u b hu⟩
      · have hl : b < (s.boxes ++ [fresh s]).length := (List.getElem?_eq_some_iff.1 hb').1
        simp at hl
        have : b = s.boxes.length := by omega
        exact ⟨v, by simp [this]⟩
    · intro a S x y ha hx hy
      have ha' : (if a = fresh s then some [v] else if a = fresh s then some [] else s.sets a) = some S := ha
      by_cases hq : a = fresh s
      · rw [if_pos hq] at ha'
        cases ha'
        simp at hx hy
        subst hx; subst hy
        exact .refl _
      · rw [if_neg hq, if_neg hq] at ha'
        exact hi.snd a S x y ha' hx hy
    · intro x y hxy
      show (if x = v then some s.boxes.length else s.al x).bind (fun b => (s.boxes ++ [fresh s])[b]?) =
        (if y = v then some s.boxes.length else s.al y).bind (fun b => (s.boxes ++ [fresh s])[b]?)
      have hk := hi.pk x y hxy
      rw [haddr x (fun e => hvK (e ▸ hk.1)), haddr y (fun e => hvK (e ▸ hk.2))]
      exact hi.cmp x y hxy
    · intro x y hxy
      exact ⟨List.mem_cons_of_mem _ (hi.pk x y hxy).1, List.mem_cons_of_mem _ (hi.pk x y hxy).2⟩
    · intro a S ha
      have ha' : (if a = fresh s then some [v] else if a = fresh s then some [] else s.sets a) = some S := ha
      show a ∈ s.boxes ++ [fresh s]
      by_cases hq : a = fresh s
      · simp [hq]
      · rw [if_neg hq, if_neg hq] at ha'
        exact List.mem_append_left _ (hi.live a S ha')

theorem Clos.lift {P Q : List (V × V)} (h : ∀ a b, (a, b) ∈ P → Clos Q a b) {a b : V} (hc : Clos P a b) : Clos Q a b := by
  induction hc with
  | pair hp => exact h _ _ hp
  | refl a => exact .refl a
  | symm _ ih => exact .symm ih
  | trans _ _ ih1 ih2 => exact .trans ih1 ih2

/-- The invariant only depends on the closure of the pairs. -/
theorem Inv.equiv {s : St V} {K : List V} {P Q : List (V × V)} (hi : Inv s K P) (h1 : ∀ a b, (a, b) ∈ P → Clos Q a b)
    (h2 : ∀ a b, (a, b) ∈ Q → Clos P a b) (hpk : ∀ u v, (u, v) ∈ Q → u ∈ K ∧ v ∈ K) : Inv s K Q :=
  ⟨hi.known, hi.mem, hi.cls, hi.nodup, hi.boxed, fun a S u v e1 e2 e3 => (hi.snd a S u v e1 e2 e3).lift h1,
   fun u v h => hi.same (h2 u v h), hpk, hi.live⟩

theorem attach_spec {s : St V} {K : List V} {P : List (V × V)} (hi : Inv s K P) {r : V} {b : Nat} (hr : s.al r = some b)
    (v : V) : ∃ s', attach s b v = some s' ∧ Inv s' (v :: K) ((r, v) :: P) ∧ Keeps s s' := by
  unfold attach
  cases hv : s.al v with
  | some bv =>
    obtain ⟨s', h1, h2, h3⟩ := mergeBoxes_spec hi hr hv
    have hvK : v ∈ K := (hi.known v).1 ⟨bv, hv⟩
    refine ⟨s', h1, h2.mono ?_ (fun _ h => h) h2.cmp (fun x y h => ⟨List.mem_cons_of_mem _ (h2.pk x y h).1,
      List.mem_cons_of_mem _ (h2.pk x y h).2⟩), fun u c h => by rw [h3]; exact h⟩
    intro u
    constructor
    · exact List.mem_cons_of_mem _
    · intro h
      cases h with
      | head => exact hvK
      | tail _ h => exact h
  | none =>
    obtain ⟨a, S, h1, h2, h3⟩ := hi.mem r b hr
    simp only [h1, Option.bind_some, h2, Option.map_some, St.setAl, St.put]
    have hvK : v ∉ K := fun h => by
      obtain ⟨c, hc⟩ := (hi.known v).2 h
      rw [hv] at hc; cases hc
    have hkeep : ∀ u c, s.al u = some c → (if u = v then some b else s.al u) = some c := by
      intro u c hu
      have : u ≠ v := fun e => by rw [e, hv] at hu; cases hu
      rw [if_neg this]; exact hu
    have hrv : r ≠ v := fun e => by rw [e, hv] at hr; cases hr
    have haddr : ∀ u, u ≠ v → (if u = v then some b else s.al u).bind (fun c => s.boxes[c]?) = addr s u := by
      intro u hu; rw [if_neg hu]; rfl
    have hadv : (if v = v then some b else s.al v).bind (fun c => s.boxes[c]?) = some a := by
      rw [if_pos rfl]; exact h1
    have har : addr s r = some a := by simp [addr, hr, h1]
    have sub : ∀ p, p ∈ P → p ∈ (r, v) :: P := fun p hp => List.mem_cons_of_mem _ hp
    refine ⟨_, rfl, ?_, fun u c h => hkeep u c h⟩
    refine ⟨?_, ?_, ?_, ?_, ?_, ?_, ?_, ?_, ?_⟩
    · intro u
      by_cases hu : u = v
      · subst hu; simp
      · simp only [hu, if_false, List.mem_cons, false_or]
        exact hi.known u
    · intro u c hc
      have hc' : (if u = v then some b else s.al u) = some c := hc
      by_cases hu : u = v
      · rw [if_pos hu] at hc'
        cases hc'
        exact ⟨a, ins S v, h1, by simp, (mem_ins _ _ _).2 (Or.inr hu)⟩
      · rw [if_neg hu] at hc'
        obtain ⟨a', S', g1, g2, g3⟩ := hi.mem u c hc'
        by_cases he : a' = a
        · subst he
          rw [h2] at g2
          cases g2
          exact ⟨a', ins S v, g1, by simp, (mem_ins _ _ _).2 (Or.inl g3)⟩
        · exact ⟨a', S', g1, by simp [he, g2], g3⟩
    · intro a' S' u ha hu
      have ha' : (if a' = a then some (ins S v) else s.sets a') = some S' := ha
      show (if u = v then some b else s.al u).bind (fun c => s.boxes[c]?) = some a'
      by_cases hq : a' = a
      · rw [if_pos hq] at ha'
        cases ha'
        rw [mem_ins] at hu
        by_cases huv : u = v
        · subst huv; rw [hadv, hq]
        · rw [haddr u huv, hq]
          exact hi.cls a S u h2 (hu.resolve_right huv)
      · rw [if_neg hq] at ha'
        have g1 := hi.cls a' S' u ha' hu
        have hne : u ≠ v := fun e => by rw [e] at g1; simp [addr, hv] at g1
        rw [haddr u hne]; exact g1
    · intro a' S' ha
      have ha' : (if a' = a then some (ins S v) else s.sets a') = some S' := ha
      by_cases hq : a' = a
      · rw [if_pos hq] at ha'
        cases ha'
        exact nodup_ins (hi.nodup a S h2) v
      · rw [if_neg hq] at ha'; exact hi.nodup a' S' ha'
    · intro c a' hc
      obtain ⟨u, hu⟩ := hi.boxed c a' hc
      exact ⟨u, hkeep u c hu⟩
    · intro a' S' x y ha hx hy
      have ha' : (if a' = a then some (ins S v) else s.sets a') = some S' := ha
      by_cases hq : a' = a
      · rw [if_pos hq] at ha'
        cases ha'
        have hto : ∀ z, z ∈ ins S v → Clos ((r, v) :: P) z r := by
          intro z hz
          rw [mem_ins] at hz
          rcases hz with hz | hz
          · exact (hi.snd a S z r h2 hz h3).mono sub
          · rw [hz]; exact (Clos.pair List.mem_cons_self).symm
        exact (hto x hx).trans (hto y hy).symm
      · rw [if_neg hq] at ha'
        exact (hi.snd a' S' x y ha' hx hy).mono sub
    · intro x y hxy
      show (if x = v then some b else s.al x).bind (fun c => s.boxes[c]?) =
        (if y = v then some b else s.al y).bind (fun c => s.boxes[c]?)
      cases hxy with
      | head => rw [haddr r hrv, hadv, har]
      | tail _ hxy =>
        have hk := hi.pk x y hxy
        rw [haddr x (fun e => hvK (e ▸ hk.1)), haddr y (fun e => hvK (e ▸ hk.2))]
        exact hi.cmp x y hxy
    · intro x y hxy
      cases hxy with
      | head => exact ⟨List.mem_cons_of_mem _ ((hi.known r).1 ⟨b, hr⟩), List.mem_cons_self⟩
      | tail _ hxy => exact ⟨List.mem_cons_of_mem _ (hi.pk x y hxy).1, List.mem_cons_of_mem _ (hi.pk x y hxy).2⟩
    · intro a' S' ha
      have ha' : (if a' = a then some (ins S v) else s.sets a') = some S' := ha
      show a' ∈ s.boxes
      by_cases hq : a' = a
      · rw [hq]; exact hi.live a S h2
      · rw [if_neg hq] at ha'; exact hi.live a' S' ha'

theorem mergeAll_spec (rs : List V) : ∀ {s : St V} {K : List V} {P : List (V × V)} (_ : Inv s K P) {r : V} {b : Nat}
    (_ : s.al r = some b) (_ : ∀ x, x ∈ rs → x ∈ K),
    ∃ s', mergeAll s b rs = some s' ∧ Inv s' K (rs.map (fun x => (r, x)) ++ P) ∧ s'.al = s.al := by
  induction rs with
  | nil => intro s K P hi r b hr _; exact ⟨s, rfl, hi, rfl⟩
  | cons x rs ih =>
    intro s K P hi r b hr hk
    obtain ⟨bx, hx⟩ := (hi.known x).2 (hk x List.mem_cons_self)
    obtain ⟨s1, h1, h2, h3⟩ := mergeBoxes_spec hi hr hx
    obtain ⟨s2, g1, g2, g3⟩ := ih h2 (r := r) (b := b) (by rw [h3]; exact hr) (fun y hy => hk y (List.mem_cons_of_mem _ hy))
    refine ⟨s2, by simp only [mergeAll, hx, Option.bind_some, h1]; exact g1, ?_, g3.trans h3⟩
    refine g2.equiv ?_ ?_ ?_
    · intro a c hac
      refine .pair ?_
      simp only [List.mem_append, List.mem_map, List.mem_cons, List.map_cons] at hac ⊢
      rcases hac with h | h | h
      · exact Or.inl (Or.inr h)
      · exact Or.inl (Or.inl h)
      · exact Or.inr h
    · intro a c hac
      refine .pair ?_
      simp only [List.mem_append, List.mem_map, List.mem_cons, List.map_cons] at hac ⊢
      rcases hac with (h | h) | h
      · exact Or.inr (Or.inl h)
      · exact Or.inl h
      · exact Or.inr (Or.inr h)
    · intro u w huw
      apply g2.pk
      simp only [List.mem_append, List.mem_map, List.mem_cons, List.map_cons] at huw ⊢
      rcases huw with (h | h) | h
      · exact Or.inr (Or.inl h)
      · exact Or.inl h
      · exact Or.inr (Or.inr h)

theorem addPointer_spec {fresh : St V → Nat} (hf : Alloc fresh) {may : V → V → Bool} {s : St V} {K : List V}
    {P : List (V × V)} (hi : Inv s K P) (reps : List V) (hreps : ∀ x, x ∈ reps → x ∈ K) (v : V) :
    ∃ s', addPointer fresh may s reps v = some s' ∧
      Inv s' (v :: K) ((reps.filter (may v)).map (fun r => (r, v)) ++ P) ∧ Keeps s s' := by
  unfold addPointer toMerge
  have hsub : ∀ x, x ∈ reps.filter (may v) → x ∈ K := fun x hx => hreps x (List.mem_filter.1 hx).1
  cases hm : reps.filter (may v) with
  | nil => exact addSingleton_spec hf hi v
  | cons r rs =>
    rw [hm] at hsub
    obtain ⟨b, hb⟩ := (hi.known r).2 (hsub r List.mem_cons_self)
    obtain ⟨s1, h1, h2, h3⟩ := mergeAll_spec rs hi hb (fun x hx => hsub x (List.mem_cons_of_mem _ hx))
    obtain ⟨s2, g1, g2, g3⟩ := attach_spec h2 (r := r) (b := b) (by rw [h3]; exact hb) v
    simp only [hb, Option.bind_some, h1]
    refine ⟨s2, g1, ?_, fun u c h => g3 u c (by rw [h3]; exact h)⟩
    have hQ : ∀ x, x ∈ r :: rs → Clos ((r :: rs).map (fun x => (x, v)) ++ P) x v := fun x hx =>
      .pair (List.mem_append_left _ (List.mem_map.2 ⟨x, hx, rfl⟩))
    refine g2.equiv ?_ ?_ ?_
    · intro a c hac
      rcases List.mem_cons.1 hac with h | h
      · cases h; exact hQ r List.mem_cons_self
      · rcases List.mem_append.1 h with h | h
        · obtain ⟨x, hx, e⟩ := List.mem_map.1 h
          cases e
          exact (hQ r List.mem_cons_self).trans (hQ c (List.mem_cons_of_mem _ hx)).symm
        · exact .pair (List.mem_append_right _ h)
    · intro a c hac
      have hrv : Clos ((r, v) :: (rs.map (fun x => (r, x)) ++ P)) r v := .pair List.mem_cons_self
      rcases List.mem_append.1 hac with h | h
      · obtain ⟨x, hx, e⟩ := List.mem_map.1 h
        cases e
        rcases List.mem_cons.1 hx with hx | hx
        · rw [hx]; exact hrv
        · refine Clos.trans (Clos.symm (.pair ?_)) hrv
          exact List.mem_cons_of_mem _ (List.mem_append_left _ (List.mem_map.2 ⟨a, hx, rfl⟩))
      · exact .pair (List.mem_cons_of_mem _ (List.mem_append_right _ h))
    · intro u w huw
      rcases List.mem_append.1 huw with h | h
      · obtain ⟨x, hx, e⟩ := List.mem_map.1 h
        cases e
        exact ⟨List.mem_cons_of_mem _ (hsub u hx), List.mem_cons_self⟩
      · exact ⟨List.mem_cons_of_mem _ (hi.pk u w h).1, List.mem_cons_of_mem _ (hi.pk u w h).2⟩

/-! ### Runs -/

theorem mem_keepReps {Ty : Type} [DecidableEq Ty] (may : V → V → Bool) (ty : V → Ty) (v : V) (reps : List V) :
    ∀ (seen : List Ty) (x : V), x ∈ keepReps may ty v seen reps → x ∈ reps := by
  induction reps with
  | nil => intro seen x h; exact h
  | cons r rs ih =>
    intro seen x h
    unfold keepReps at h
    split at h
    · split at h
      · exact List.mem_cons_of_mem _ (ih _ _ h)
      · rcases List.mem_cons.1 h with h | h
        · rw [h]; exact List.mem_cons_self
        · exact List.mem_cons_of_mem _ (ih _ _ h)
    · rcases List.mem_cons.1 h with h | h
      · rw [h]; exact List.mem_cons_self
      · exact List.mem_cons_of_mem _ (ih _ _ h)

theorem mem_nextReps {Ty : Type} [DecidableEq Ty] (may : V → V → Bool) (ty : V → Ty) (v : V) (reps : List V) (x : V)
    (h : x ∈ nextReps may ty v reps) : x = v ∨ x ∈ reps := by
  have happ : ∀ l : List V, x ∈ l ++ [v] → (x ∈ l → x ∈ reps) → x = v ∨ x ∈ reps := by
    intro l h1 h2
    rcases List.mem_append.1 h1 with h1 | h1
    · exact Or.inr (h2 h1)
    · exact Or.inl (List.mem_singleton.1 h1)
  unfold nextReps at h
  split at h
  · exact happ _ h id
  · split at h
    · exact happ _ h id
    · exact Or.inr h
  · split at h
    · rw [List.append_nil] at h; exact Or.inr (mem_keepReps _ _ _ _ _ _ h)
    · exact happ _ h (mem_keepReps _ _ _ _ _ _)

/-- The refinement relation. -/
def Refines (p : St V × List V) (sp : Spec V) : Prop :=
  Inv p.1 sp.known sp.pairs ∧ p.2 = sp.reps ∧ ∀ x, x ∈ sp.reps → x ∈ sp.known

theorem step_spec {Ty : Type} [DecidableEq Ty] {fresh : St V → Nat} (hf : Alloc fresh) {may : V → V → Bool} {ty : V → Ty}
    {p : St V × List V} {sp sp' : Spec V} (h : Refines p sp) (o : Op V) (hs : specStep may ty sp o = some sp') :
    ∃ p', step fresh may ty p o = some p' ∧ Refines p' sp' ∧ Keeps p.1 p'.1 := by
  obtain ⟨s, reps⟩ := p
  obtain ⟨hi, hr, hk⟩ := h
  dsimp only at hi hr
  subst hr
  cases o with
  | single v =>
    simp only [specStep, Option.some.injEq] at hs
    subst hs
    obtain ⟨s', h1, h2, h3⟩ := addSingleton_spec hf hi v
    exact ⟨(s', sp.reps), by simp [step, h1], ⟨h2, rfl, fun x hx => List.mem_cons_of_mem _ (hk x hx)⟩, h3⟩
  | ptr v =>
    simp only [specStep, Option.some.injEq] at hs
    subst hs
    obtain ⟨s', h1, h2, h3⟩ := addPointer_spec hf (may := may) hi sp.reps hk v
    refine ⟨(s', nextReps may ty v sp.reps), by simp [step, h1], ⟨h2, rfl, ?_⟩, h3⟩
    intro x hx
    rcases mem_nextReps may ty v sp.reps x hx with h | h
    · rw [h]; exact List.mem_cons_self
    · exact List.mem_cons_of_mem _ (hk x h)
  | merge v w =>
    simp only [specStep] at hs
    split at hs
    · rename_i hvw
      simp only [Option.some.injEq] at hs
      subst hs
      obtain ⟨s', h1, h2, h3⟩ := mergeVals_spec hi hvw.1 hvw.2
      exact ⟨(s', sp.reps), by simp [step, h1], ⟨h2, rfl, hk⟩, fun u c hu => by rw [h3]; exact hu⟩
    · cases hs
  | newFn =>
    simp only [specStep, Option.some.injEq] at hs
    subst hs
    exact ⟨(s, []), rfl, ⟨hi, rfl, fun x hx => by cases hx⟩, fun _ _ h => h⟩

theorem run_spec {Ty : Type} [DecidableEq Ty] {fresh : St V → Nat} (hf : Alloc fresh) {may : V → V → Bool} {ty : V → Ty}
    (os : List (Op V)) : ∀ {p : St V × List V} {sp sp' : Spec V}, Refines p sp → specRun may ty sp os = some sp' →
    ∃ p', run fresh may ty p os = some p' ∧ Refines p' sp' ∧ Keeps p.1 p'.1 := by
  induction os with
  | nil =>
    intro p sp sp' h hs
    simp only [specRun, Option.some.injEq] at hs
    subst hs
    exact ⟨p, rfl, h, fun _ _ h => h⟩
  | cons o os ih =>
    intro p sp sp' h hs
    simp only [specRun] at hs
    cases h1 : specStep may ty sp o with
    | none => rw [h1] at hs; cases hs
    | some sp1 =>
      rw [h1] at hs
      obtain ⟨p1, g1, g2, g3⟩ := step_spec hf h o h1
      obtain ⟨p2, k1, k2, k3⟩ := ih g2 hs
      exact ⟨p2, by simp [run, g1, k1], k2, fun v b hb => k3 v b (g3 v b hb)⟩

theorem specRun_append {Ty : Type} [DecidableEq Ty] (may : V → V → Bool) (ty : V → Ty) (os os' : List (Op V)) :
    ∀ sp : Spec V, specRun may ty sp (os ++ os') = (specRun may ty sp os).bind (fun sp' => specRun may ty sp' os') := by
  induction os with
  | nil => intro sp; rfl
  | cons o os ih =>
    intro sp
    simp only [List.cons_append, specRun]
    cases specStep may ty sp o with
    | none => rfl
    | some sp1 => simp only [Option.bind_some, ih]

/-! ### The calls of the interface -/

theorem closed_run {Ty : Type} [DecidableEq Ty] (may : V → V → Bool) (ty : V → Ty) (os : List (Op V)) :
    ∀ (K : List V) (sp : Spec V), Closed K os → (∀ x, x ∈ K → x ∈ sp.known) →
    ∃ sp', specRun may ty sp os = some sp' ∧ (∀ x, x ∈ sp.known → x ∈ sp'.known) ∧ (∀ x, x ∈ adds os → x ∈ sp'.known) := by
  induction os with
  | nil => intro K sp _ _; exact ⟨sp, rfl, fun _ h => h, fun _ h => by cases h⟩
  | cons o os ih =>
    intro K sp hc hk
    have hcons : ∀ v x, x ∈ v :: K → x ∈ v :: sp.known := by
      intro v x hx
      rcases List.mem_cons.1 hx with h | h
      · rw [h]; exact List.mem_cons_self
      · exact List.mem_cons_of_mem _ (hk x h)
    cases o with
    | single v =>
      obtain ⟨sp', h1, h2, h3⟩ := ih (v :: K) { sp with known := v :: sp.known } hc (hcons v)
      refine ⟨sp', by simpa [specRun, specStep] using h1, fun x hx => h2 x (List.mem_cons_of_mem _ hx), ?_⟩
      intro x hx
      rcases List.mem_cons.1 hx with h | h
      · rw [h]; exact h2 v List.mem_cons_self
      · exact h3 x h
    | ptr v =>
      obtain ⟨sp', h1, h2, h3⟩ := ih (v :: K)
        ⟨v :: sp.known, nextReps may ty v sp.reps, (sp.reps.filter (may v)).map (fun r => (r, v)) ++ sp.pairs⟩ hc (hcons v)
      refine ⟨sp', by simpa only [specRun, specStep, Option.bind_some] using h1, fun x hx => h2 x (List.mem_cons_of_mem _ hx), ?_⟩
      intro x hx
      rcases List.mem_cons.1 hx with h | h
      · rw [h]; exact h2 v List.mem_cons_self
      · exact h3 x h
    | merge v w =>
      obtain ⟨sp', h1, h2, h3⟩ := ih K { sp with pairs := (v, w) :: sp.pairs } hc.2 hk
      have : v ∈ sp.known ∧ w ∈ sp.known := ⟨hk v hc.1.1, hk w hc.1.2⟩
      exact ⟨sp', by simp only [specRun, specStep, if_pos this, Option.bind_some]; exact h1, h2, h3⟩
    | newFn =>
      obtain ⟨sp', h1, h2, h3⟩ := ih K { sp with reps := [] } hc hk
      exact ⟨sp', by simpa only [specRun, specStep, Option.bind_some] using h1, h2, h3⟩

/-- The pointers of the functions analysed are known. -/
def Good {F : Type} (m : Mod V F) (done : List F) (sp : Spec V) : Prop :=
  ∀ f, f ∈ done → m.decl f = false → ∀ x, x ∈ adds (m.events f) → x ∈ sp.known

variable {F : Type} [DecidableEq F] {Ty : Type} [DecidableEq Ty]

/-- Steps that are defined, only add known pointers, and keep `Good`. -/
def Runs (m : Mod V F) (may : V → V → Bool) (ty : V → Ty) (sp : Spec V) (r : List (Op V) × List F) (sp' : Spec V) : Prop :=
  specRun may ty sp r.1 = some sp' ∧ (∀ x, x ∈ sp.known → x ∈ sp'.known) ∧ Good m r.2 sp'

theorem Runs.append {m : Mod V F} {may : V → V → Bool} {ty : V → Ty} {sp sp1 sp2 : Spec V} {r q : List (Op V) × List F}
    (h1 : Runs m may ty sp r sp1) (h2 : Runs m may ty sp1 q sp2) : Runs m may ty sp (r.1 ++ q.1, q.2) sp2 :=
  ⟨by rw [specRun_append, h1.1]; exact h2.1, fun x hx => h2.2.1 x (h1.2.1 x hx), h2.2.2⟩

theorem computeFn_spec {m : Mod V F} (hm : MWf m) (may : V → V → Bool) (ty : V → Ty) {done : List F} {sp : Spec V}
    (hg : Good m done sp) (of : Option F) :
    ∃ sp', Runs m may ty sp (computeFn m done of) sp' ∧
      (∀ f, of = some f → m.decl f = false → ∀ x, x ∈ adds (m.events f) → x ∈ sp'.known) := by
  cases of with
  | none => exact ⟨sp, ⟨rfl, fun _ h => h, hg⟩, fun f h => by cases h⟩
  | some f =>
    unfold computeFn
    by_cases hd : f ∈ done
    · simp only [if_pos hd]
      exact ⟨sp, ⟨rfl, fun _ h => h, hg⟩, fun f' h => by cases h; exact hg f hd⟩
    · simp only [if_neg hd]
      cases hdecl : m.decl f with
      | true =>
        refine ⟨sp, ⟨rfl, fun _ h => h, ?_⟩, fun f' h => by cases h; intro h1; rw [hdecl] at h1; cases h1⟩
        intro f' hf' hnd
        rcases List.mem_cons.1 hf' with h | h
        · rw [h, hdecl] at hnd; cases hnd
        · exact hg f' h hnd
      | false =>
        obtain ⟨sp', h1, h2, h3⟩ := closed_run may ty (.newFn :: m.events f) [] sp (hm.1 f hdecl) (fun x hx => by cases hx)
        refine ⟨sp', ⟨by simpa using h1, h2, ?_⟩, fun f' h => by cases h; intro _; exact h3⟩
        intro f' hf' hnd x hx
        rcases List.mem_cons.1 hf' with h | h
        · rw [h] at hx; exact h3 x hx
        · exact h2 x (hg f' h hnd x hx)

theorem computeUsers_spec {m : Mod V F} (hm : MWf m) (may : V → V → Bool) (ty : V → Ty) (g : V) (us : List (F × Option (V × V))) :
    ∀ {done : List F} {sp : Spec V}, Good m done sp → g ∈ sp.known →
    (∀ u, u ∈ us → ∀ p, u.2 = some p →
      m.decl u.1 = false ∧ (p.1 = g ∨ p.1 ∈ adds (m.events u.1)) ∧ (p.2 = g ∨ p.2 ∈ adds (m.events u.1))) →
    ∃ sp', Runs m may ty sp (computeUsers m done us) sp' := by
  induction us with
  | nil => intro done sp hg _ _; exact ⟨sp, rfl, fun _ h => h, hg⟩
  | cons u us ih =>
    intro done sp hg hk hu
    obtain ⟨sp1, h1, h2⟩ := computeFn_spec hm may ty hg (some u.1)
    have hrest : ∀ w, w ∈ us → ∀ p, w.2 = some p →
      m.decl w.1 = false ∧ (p.1 = g ∨ p.1 ∈ adds (m.events w.1)) ∧ (p.2 = g ∨ p.2 ∈ adds (m.events w.1)) :=
      fun w hw => hu w (List.mem_cons_of_mem _ hw)
    have hg1 : g ∈ sp1.known := h1.2.1 g hk
    cases hp : u.2 with
    | none =>
      obtain ⟨sp2, h3⟩ := ih h1.2.2 hg1 hrest
      refine ⟨sp2, ?_⟩
      simp only [computeUsers, hp, List.nil_append]
      exact h1.append h3
    | some p =>
      obtain ⟨hd, ha, hb⟩ := hu u List.mem_cons_self p hp
      have ha' : p.1 ∈ sp1.known := by
        rcases ha with h | h
        · rw [h]; exact hg1
        · exact h2 u.1 rfl hd _ h
      have hb' : p.2 ∈ sp1.known := by
        rcases hb with h | h
        · rw [h]; exact hg1
        · exact h2 u.1 rfl hd _ h
      obtain ⟨sp2, h3⟩ := ih (sp := { sp1 with pairs := (p.1, p.2) :: sp1.pairs }) h1.2.2 hg1 hrest
      refine ⟨sp2, ?_⟩
      simp only [computeUsers, hp]
      refine h1.append (q := (_, _)) ⟨?_, h3.2.1, h3.2.2⟩
      simp only [List.cons_append, List.nil_append, specRun, specStep, if_pos (And.intro ha' hb'), Option.bind_some]
      exact h3.1

theorem computeVal_spec {m : Mod V F} (hm : MWf m) (may : V → V → Bool) (ty : V → Ty) {done : List F} {sp : Spec V}
    (hg : Good m done sp) (v : V) :
    ∃ sp', Runs m may ty sp (computeVal m done v) sp' ∧ (m.interesting v = true → v ∈ sp'.known) := by
  unfold computeVal
  cases hint : m.interesting v with
  | false => exact ⟨sp, ⟨rfl, fun _ h => h, hg⟩, fun h => by cases h⟩
  | true =>
    simp only [if_true]
    have hg' : Good m done { sp with known := v :: sp.known } := fun f hf hd x hx => List.mem_cons_of_mem _ (hg f hf hd x hx)
    have hs : ∀ (r : List (Op V) × List F) (sp' : Spec V), Runs m may ty { sp with known := v :: sp.known } r sp' →
        Runs m may ty sp (.single v :: r.1, r.2) sp' ∧ v ∈ sp'.known := by
      intro r sp' h
      exact ⟨⟨by simpa [specRun, specStep] using h.1, fun x hx => h.2.1 x (List.mem_cons_of_mem _ hx), h.2.2⟩,
        h.2.1 v List.mem_cons_self⟩
    cases hus : m.users v with
    | some us =>
      obtain ⟨sp', h⟩ := computeUsers_spec hm may ty v us hg' List.mem_cons_self (hm.2 v us hus)
      exact ⟨sp', (hs _ sp' h).1, fun _ => (hs _ sp' h).2⟩
    | none =>
      obtain ⟨sp', h, _⟩ := computeFn_spec hm may ty hg' (m.fn v)
      exact ⟨sp', (hs _ sp' h).1, fun _ => (hs _ sp' h).2⟩

theorem call_spec {m : Mod V F} (hm : MWf m) (may : V → V → Bool) (ty : V → Ty) {done : List F} {sp : Spec V}
    (hg : Good m done sp) (c : Call V) : ∃ sp', Runs m may ty sp (call m done c) sp' := by
  cases c with
  | compute v =>
    obtain ⟨sp', h, _⟩ := computeVal_spec hm may ty hg v
    exact ⟨sp', h⟩
  | introduce v w =>
    unfold call
    by_cases hvw : (m.interesting v && m.interesting w) = true
    · simp only [if_pos hvw]
      rw [Bool.and_eq_true] at hvw
      obtain ⟨sp1, h1, k1⟩ := computeVal_spec hm may ty hg v
      obtain ⟨sp2, h2, k2⟩ := computeVal_spec hm may ty h1.2.2 w
      refine ⟨{ sp2 with pairs := (v, w) :: sp2.pairs }, h1.append (q := (_, _)) ⟨?_, h2.2.1, h2.2.2⟩⟩
      have hk : v ∈ sp2.known ∧ w ∈ sp2.known := ⟨h2.2.1 v (k1 hvw.1), k2 hvw.2⟩
      simp only [specRun_append, h2.1, Option.bind_some, specRun, specStep, if_pos hk]
    · simp only [if_neg hvw]
      exact ⟨sp, rfl, fun _ h => h, hg⟩

theorem calls_spec {m : Mod V F} (hm : MWf m) (may : V → V → Bool) (ty : V → Ty) (cs : List (Call V)) :
    ∀ {done : List F} {sp : Spec V}, Good m done sp → ∃ sp', Runs m may ty sp (calls m done cs) sp' := by
  induction cs with
  | nil => intro done sp hg; exact ⟨sp, rfl, fun _ h => h, hg⟩
  | cons c cs ih =>
    intro done sp hg
    obtain ⟨sp1, h1⟩ := call_spec hm may ty hg c
    obtain ⟨sp2, h2⟩ := ih h1.2.2
    exact ⟨sp2, h1.append h2⟩

end Phasar.Alias
