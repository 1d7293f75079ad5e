import Verif.Alias.StratifiedLemmas

/-! # Lemmas about the builder of stratified sets: merging two chains -/
namespace Phasar.Stratified
open CFLAnders (Attr Node)

variable {b b' : Builder}

/-- A property of attributes that a union has if one of its parts has it. -/
structure Hom (p : Attr → Bool) : Prop where
  empty : p {} = false
  or : ∀ a c, p (a.or c) = (p a || p c)

/-- How the sets of `b'` arise from those of `b`: set `r` has become part of `φ r`. -/
structure Ev (b b' : Builder) (φ : Nat → Nat) : Prop where
  n : b'.n = b.n
  values : b'.values = b.values
  find : ∀ i r, Find b i r → Find b' i (φ r)
  attrs : ∀ p, Hom p → ∀ s, Root b' s → (p (b'.links s).attrs = true ↔ ∃ r, Root b r ∧ φ r = s ∧ p (b.links r).attrs = true)

theorem Ev.root {φ : Nat → Nat} (h : Ev b b' φ) {r : Nat} (hr : Root b r) : Root b' (φ r) := (h.find r r (.self hr)).root

theorem Ev.trans {b'' : Builder} {φ ψ : Nat → Nat} (h : Ev b b' φ) (h' : Ev b' b'' ψ) : Ev b b'' (fun r => ψ (φ r)) where
  n := h'.n.trans h.n
  values := h'.values.trans h.values
  find i r hr := h'.find _ _ (h.find _ _ hr)
  attrs p hp s hs := by
    rw [h'.attrs p hp s hs]
    constructor
    · rintro ⟨r, hr, rfl, h1⟩
      obtain ⟨q, hq, rfl, h2⟩ := (h.attrs p hp r hr).1 h1
      exact ⟨q, hq, rfl, h2⟩
    · rintro ⟨r, hr, rfl, h1⟩
      exact ⟨φ r, h.root hr, rfl, (h.attrs p hp _ (h.root hr)).2 ⟨r, hr, rfl, h1⟩⟩

theorem SameMap.ev (h : SameMap b b') (ha : ∀ j, (b'.links j).attrs = (b.links j).attrs) : Ev b b' id where
  n := h.n
  values := h.values
  find i r hr := h.find.2 hr
  attrs p _ s hs := by
    rw [ha]
    exact ⟨fun h1 => ⟨s, h.root.1 hs, rfl, h1⟩, fun ⟨r, _, e, h1⟩ => by cases e; exact h1⟩

/-- A link with more attributes. -/
def Link.more (l : Link) (a : Attr) : Link := { l with attrs := l.attrs.or a }

/-- Set `y` becomes part of set `x`. -/
def absorb (b : Builder) (x y : Nat) : Builder := (b.set x ((b.links x).more (b.links y).attrs)).set y ((b.links y).to x)

theorem absorb_links {x y : Nat} (j : Nat) : (absorb b x y).links j =
    if j = y then (b.links y).to x else if j = x then (b.links x).more (b.links y).attrs else b.links j := rfl

theorem absorb_ev {x y : Nat} (hx : Root b x) (hy : Root b y) (hxy : y ≠ x) :
    Ev b (absorb b x y) (fun r => if r = y then x else r) where
  n := rfl
  values := rfl
  find i r := by
    rintro ⟨k, h⟩
    have hm : SameMap b (b.set x ((b.links x).more (b.links y).attrs)) := set_sameMap rfl
    have hy' : (b.set x ((b.links x).more (b.links y).attrs)).links y = b.links y := by rw [set_links, if_neg hxy]
    rw [← findN_congr hm.n hm.remap] at h
    have := remap_find (hm.root.2 hx) (hm.root.2 hy) hxy _ _ _ h
    rw [hy'] at this
    exact ⟨_, this⟩
  attrs p hp s hs := by
    have hsy : s ≠ y := by
      rintro rfl
      have := hs.2
      simp [absorb_links, Link.to] at this
    rw [absorb_links, if_neg hsy]
    have hsr : Root b s := by
      refine ⟨hs.1, ?_⟩
      have := hs.2
      rw [absorb_links, if_neg hsy] at this
      split at this
      · rename_i he; rw [he]; exact hx.2
      · exact this
    by_cases he : s = x
    · subst he
      rw [if_pos rfl]
      show p ((b.links s).attrs.or (b.links y).attrs) = true ↔ _
      rw [hp.or, Bool.or_eq_true]
      constructor
      · rintro (h | h)
        · exact ⟨s, hsr, by simp [hsy], h⟩
        · exact ⟨y, hy, by simp, h⟩
      · rintro ⟨r, hr, h1, h2⟩
        by_cases hry : r = y
        · subst hry; exact .inr h2
        · simp only [if_neg hry] at h1; subst h1; exact .inl h2
    · rw [if_neg he]
      constructor
      · intro h; exact ⟨s, hsr, by simp [hsy], h⟩
      · rintro ⟨r, hr, h1, h2⟩
        by_cases hry : r = y
        · simp only [if_pos hry] at h1; exact absurd h1.symm he
        · simp only [if_neg hry] at h1; subst h1; exact h2

theorem absorb_base {x y : Nat} {L L' : List Nat} (hb : Base b L) (hp : L.Perm (y :: L')) (hx : Root b x) (hxy : y ≠ x) :
    Base (absorb b x y) L' := by
  have hm : SameMap b (b.set x ((b.links x).more (b.links y).attrs)) := set_sameMap rfl
  have hy' : (b.set x ((b.links x).more (b.links y).attrs)).links y = b.links y := by rw [set_links, if_neg hxy]
  have := remap_base (hm.base hb) hp (hm.root.2 hx) hxy
  rw [hy'] at this
  exact this

theorem finish_eq {x y : Nat} (hx : Root b x) (hy : Root b y) (hxy : y ≠ x) : b.finish x y = some (absorb b x y) := by
  simp only [Builder.finish, Builder.setAttrs, Builder.remapTo, link_root hx, link_root hy, Option.bind_eq_bind, Option.bind_some]
  rw [link_root]
  · simp only [Option.bind_some, set_links, if_neg hxy]; rfl
  · exact ⟨hy.1, by rw [set_links, if_neg hxy]; exact hy.2⟩

/-- A link with another set above. -/
def Link.withAbove (l : Link) (i : Nat) : Link := { l with above := some i }

/-- A link with another set below. -/
def Link.withBelow (l : Link) (i : Option Nat) : Link := { l with below := i }

theorem setBelow_eq {i : Nat} (h : Root b i) (j : Option Nat) : b.setBelow i j = some (b.set i ((b.links i).withBelow j)) := by
  simp only [Builder.setBelow, link_root h]; rfl

theorem setAbove_eq {i : Nat} (h : Root b i) (j : Nat) : b.setAbove i j = some (b.set i ((b.links i).withAbove j)) := by
  simp only [Builder.setAbove, link_root h]; rfl

theorem setAttrs_eq {i : Nat} (h : Root b i) (a : Attr) : b.setAttrs i a = some (b.set i ((b.links i).more a)) := by
  simp only [Builder.setAttrs, link_root h]; rfl

theorem remapTo_eq {i : Nat} (h : Root b i) (j : Nat) : b.remapTo i j = some (b.set i ((b.links i).to j)) := by
  simp only [Builder.remapTo, link_root h]; rfl

/-! ## Down -/

/-- `s` follows `r` in one of the chains. -/
def AdjS (cs : List (List Nat)) (r s : Nat) : Prop := ∃ c ∈ cs, Adj c r s

/-- Labels go with the chains. -/
def Lab {G : Type} (σ : G → G) (γ : Nat → G) (cs : List (List Nat)) : Prop := ∀ r s, AdjS cs r s → γ s = σ (γ r)

/-- A chain whose first set has any link above. -/
def SegL (lk : Nat → Link) : List Nat → Prop
  | [] => True
  | y :: Y => (lk y).below = Y.head? ∧ Seg lk (some y) Y none

/-- In the middle of the merging of two chains: `P` is done, `Y` is to be merged into `X`. -/
structure Half (b : Builder) (P X Y : List Nat) (cs : List (List Nat)) : Prop where
  base : Base b (((P ++ X) ++ Y) ++ cs.flatten)
  seg1 : Seg b.links none (P ++ X) none
  seg2 : SegL b.links Y
  segs : ∀ c ∈ cs, Seg b.links none c none

theorem adj_append_right {u v : List Nat} {r s : Nat} (h : Adj v r s) : Adj (u ++ v) r s := by
  obtain ⟨w, z, rfl⟩ := h; exact ⟨u ++ w, z, by simp⟩

theorem adj_append_left {u v : List Nat} {r s : Nat} (h : Adj u r s) : Adj (u ++ v) r s := by
  obtain ⟨w, z, rfl⟩ := h; exact ⟨w, z ++ v, by simp⟩

theorem adj_cons {a : Nat} {c : List Nat} {r s : Nat} : Adj (a :: c) r s ↔ (r = a ∧ c.head? = some s) ∨ Adj c r s := by
  constructor
  · rintro ⟨u, v, h⟩
    cases u with
    | nil => simp only [List.nil_append, List.cons.injEq] at h; exact .inl ⟨h.1.symm, by simp [h.2]⟩
    | cons z u => simp only [List.cons_append, List.cons.injEq] at h; exact .inr ⟨u, v, h.2⟩
  · rintro (⟨rfl, h⟩ | h)
    · cases c with
      | nil => cases h
      | cons z c => cases h; exact ⟨[], c, rfl⟩
    · exact adj_append_right (u := [a]) h

theorem adj_append {u v : List Nat} {r s : Nat} : Adj (u ++ v) r s ↔ Adj u r s ∨ (u.getLast? = some r ∧ v.head? = some s) ∨ Adj v r s := by
  induction u with
  | nil => simp [Adj]
  | cons a u ih =>
    rw [List.cons_append, adj_cons, adj_cons, ih]
    cases u with
    | nil => simp [Adj, eq_comm]
    | cons z u =>
      simp only [List.cons_append, List.head?_cons, List.getLast?_cons_cons]
      constructor <;> intro h <;> grind

/-- What merging gives: the new chains, and how the old sets have become part of the new ones. -/
structure Merged (b b' : Builder) (old new : List (List Nat)) (φ : Nat → Nat) : Prop where
  rep : Rep b' new
  ev : Ev b b' φ
  adj : ∀ r s, AdjS old r s → φ r = φ s ∨ AdjS new (φ r) (φ s)

theorem getLast?_append_cons (P : List Nat) (x : Nat) : (P ++ [x]).getLast? = some x := by simp

theorem mem_cons3 {A B c : List Nat} {cs : List (List Nat)} (h : c ∈ A :: B :: cs) : c = A ∨ c = B ∨ c ∈ cs := by
  simpa [List.mem_cons] using h

theorem descend_ok : ∀ (k : Nat) {b : Builder} {P X Y : List Nat} {x y : Nat} {cs : List (List Nat)},
    Half b P (x :: X) (y :: Y) cs → X.length < k →
    ∃ b' φ C, Builder.descend k b x y = some b' ∧ Merged b b' ((P ++ x :: X) :: (y :: Y) :: cs) (C :: cs) φ ∧
      (∀ a ∈ (x :: X).zip (y :: Y), φ a.1 = φ a.2) ∧
      ∀ {G : Type} (σ : G → G) (γ : Nat → G), Lab σ γ ((P ++ x :: X) :: (y :: Y) :: cs) → γ x = γ y →
        (∀ r, γ (φ r) = γ r) ∧ Lab σ γ (C :: cs) := by
  intro k
  induction k with
  | zero => intro b P X Y x y cs _ h; exact absurd h (by omega)
  | succ k ih =>
    intro b P X Y x y cs hh hk
    have hrt : ∀ i, i ∈ ((P ++ x :: X) ++ y :: Y) ++ cs.flatten → Root b i := fun i hi => (hh.base.roots i).1 hi
    have hx : Root b x := hrt x (by simp)
    have hy : Root b y := hrt y (by simp)
    obtain ⟨hn1, hn2, hn3⟩ := List.nodup_append.1 hh.base.nodup
    obtain ⟨hn4, hn5, hn6⟩ := List.nodup_append.1 hn1
    have hxy : y ≠ x := fun e => hn6 x (by simp) y (.head _) e.symm
    have hyX : ∀ a ∈ P ++ x :: X, a ≠ y := fun a ha => hn6 a ha y (.head _)
    have hyC : ∀ c ∈ cs, ∀ a ∈ c, a ≠ y := fun c hc a ha e =>
      hn3 y (by simp) a (List.mem_flatten.2 ⟨c, hc, ha⟩) e.symm
    have hxC : ∀ c ∈ cs, ∀ a ∈ c, a ≠ x := fun c hc a ha e =>
      hn3 x (by simp) a (List.mem_flatten.2 ⟨c, hc, ha⟩) e.symm
    have hbx : (b.links x).below = X.head? := by have := hh.seg1.below; rwa [Option.or_none] at this
    have hby : (b.links y).below = Y.head? := hh.seg2.1
    unfold Builder.descend
    simp only [link_root hx, link_root hy, Option.bind_eq_bind, Option.bind_some]
    cases Y with
    | nil =>
      -- nothing below `y`
      simp only [List.head?_nil] at hby
      rw [hby]
      have hfin := finish_eq hx hy hxy
      have hno : ∀ c ∈ (P ++ x :: X) :: cs, ∀ a ∈ c, a ≠ y := fun c hc => by
        rcases List.mem_cons.1 hc with rfl | hc
        · exact hyX
        · exact hyC c hc
      refine ⟨absorb b x y, fun r => if r = y then x else r, P ++ x :: X, ?_, ⟨⟨?_, ?_⟩, absorb_ev hx hy hxy, ?_⟩, ?_, ?_⟩
      · cases (b.links x).below <;> exact hfin
      · refine absorb_base hh.base ?_ hx hxy
        simp only [List.flatten_cons]
        have : (P ++ x :: X ++ [y] ++ cs.flatten) = (P ++ x :: X) ++ y :: cs.flatten := by simp
        rw [this]
        exact List.perm_middle
      · intro c hc
        have hold : Seg b.links none c none := by
          rcases List.mem_cons.1 hc with rfl | hc
          · exact hh.seg1
          · exact hh.segs c hc
        refine hold.congr fun a ha => ?_
        rw [absorb_links, if_neg (hno c hc a ha)]
        split
        · rename_i he; subst he; exact ⟨rfl, rfl⟩
        · exact ⟨rfl, rfl⟩
      · rintro r s ⟨c, hc, ha⟩
        right
        have hm := ha.mem
        rcases mem_cons3 hc with h | h | h
        · have hc' : c ∈ (P ++ x :: X) :: cs := h ▸ .head _
          simp only [if_neg (hno c hc' r hm.1), if_neg (hno c hc' s hm.2)]
          exact ⟨c, hc', ha⟩
        · subst h
          obtain ⟨u, v, h⟩ := ha
          have := congrArg List.length h
          simp at this
          omega
        · have hc' : c ∈ (P ++ x :: X) :: cs := .tail _ h
          simp only [if_neg (hno c hc' r hm.1), if_neg (hno c hc' s hm.2)]
          exact ⟨c, hc', ha⟩
      · intro a ha
        simp only [List.zip_cons_cons, List.zip_nil_right, List.mem_singleton] at ha
        subst ha
        simp
      · intro G σ γ hl he
        refine ⟨fun r => ?_, fun r s ⟨c, hc, ha⟩ => hl r s ⟨c, ?_, ha⟩⟩
        · dsimp only; split
          · rename_i h; rw [he, h]
          · rfl
        · rcases List.mem_cons.1 hc with h | h
          · exact h ▸ .head _
          · exact .tail _ (.tail _ h)
    | cons y2 Y =>
      simp only [List.head?_cons] at hby
      have hy2 : Root b y2 := hrt y2 (by simp)
      have hyy : y2 ≠ y := fun e => (List.nodup_cons.1 hn5).1 (e ▸ .head _)
      have hy2x : y2 ≠ x := fun e => hn6 x (by simp) y2 (by simp) e.symm
      cases X with
      | nil =>
        -- what is below `y` is put below `x`
        simp only [List.head?_nil] at hbx
        rw [hbx, hby]
        obtain ⟨b1, hb1⟩ : ∃ b1, b1 = b.set x ((b.links x).withBelow (some y2)) := ⟨_, rfl⟩
        have hm1 : SameMap b b1 := hb1 ▸ set_sameMap rfl
        have hl1 : b1.linksAt y2 = some y2 := (hm1.base hh.base).linksAt_root (hm1.root.2 hy2)
        have hb1y2 : b1.links y2 = b.links y2 := by rw [hb1, set_links, if_neg hy2x]
        obtain ⟨b2, hb2'⟩ : ∃ b2, b2 = b1.set y2 ((b1.links y2).withAbove x) := ⟨_, rfl⟩
        have hm2 : SameMap b b2 := hm1.trans (hb2' ▸ set_sameMap rfl)
        have hfin := finish_eq (hm2.root.2 hx) (hm2.root.2 hy) hxy
        simp only [setBelow_eq hx, Option.bind_some, ← hb1, hl1, setAbove_eq (hm1.root.2 hy2), ← hb2']
        have hb2 : ∀ j, b2.links j = if j = y2 then (b.links y2).withAbove x else
            if j = x then (b.links x).withBelow (some y2) else b.links j := by
          intro j
          rw [hb2', set_links, hb1y2, hb1, set_links]
        have hev : Ev b (absorb b2 x y) (fun r => if r = y then x else r) := by
          refine (hm2.ev fun j => ?_).trans (absorb_ev (hm2.root.2 hx) (hm2.root.2 hy) hxy)
          rw [hb2]
          split
          · rename_i h; rw [h]; rfl
          · split
            · rename_i h; rw [h]; rfl
            · rfl
        have hlk : ∀ j, j ≠ y → ((absorb b2 x y).links j).above = (b2.links j).above ∧
            ((absorb b2 x y).links j).below = (b2.links j).below := by
          intro j hj
          rw [absorb_links, if_neg hj]
          split
          · rename_i he; subst he; exact ⟨rfl, rfl⟩
          · exact ⟨rfl, rfl⟩
        have hfr : ∀ c : List Nat, (∀ a ∈ c, a ≠ y ∧ a ≠ y2 ∧ a ≠ x) → ∀ a ∈ c, ((absorb b2 x y).links a).above = (b.links a).above ∧
            ((absorb b2 x y).links a).below = (b.links a).below := by
          intro c hc a ha
          obtain ⟨h1, h2, h3⟩ := hc a ha
          rw [(hlk a h1).1, (hlk a h1).2, hb2, if_neg h2, if_neg h3]
          exact ⟨rfl, rfl⟩
        obtain ⟨hp1, hp2⟩ := seg_append.1 hh.seg1
        have hPx := (List.nodup_append.1 hn4).2.2
        have hcy2 : ∀ c ∈ cs, ∀ a ∈ c, a ≠ y2 := fun c hc a ha e =>
          hn3 y2 (by simp) a (List.mem_flatten.2 ⟨c, hc, ha⟩) e.symm
        refine ⟨absorb b2 x y, fun r => if r = y then x else r, P ++ x :: y2 :: Y, hfin, ⟨⟨?_, ?_⟩, hev, ?_⟩, ?_, ?_⟩
        · refine absorb_base (hm2.base hh.base) ?_ (hm2.root.2 hx) hxy
          simp only [List.flatten_cons]
          have e1 : (P ++ [x] ++ y :: y2 :: Y ++ cs.flatten) = (P ++ [x]) ++ y :: (y2 :: Y ++ cs.flatten) := by simp
          have e2 : (P ++ x :: y2 :: Y ++ cs.flatten) = (P ++ [x]) ++ (y2 :: Y ++ cs.flatten) := by simp
          rw [e1, e2]
          exact List.perm_middle
        · intro c hc
          rcases List.mem_cons.1 hc with rfl | hc
          · refine seg_append.2 ⟨hp1.congr (hfr P fun a ha => ⟨hyX a (by simp [ha]), fun e => hn6 a (by simp [ha]) y2 (by simp) e,
              hPx a ha x (.head _)⟩), ?_, ?_, ?_, ?_, ?_⟩
            · rw [(hlk x fun e => hxy e.symm).1, hb2, if_neg (fun e => hy2x e.symm), if_pos rfl]; exact hp2.1
            · rw [(hlk x fun e => hxy e.symm).2, hb2, if_neg (fun e => hy2x e.symm), if_pos rfl]; rfl
            · rw [(hlk y2 hyy).1, hb2, if_pos rfl]; rfl
            · rw [(hlk y2 hyy).2, hb2, if_pos rfl]; exact hh.seg2.2.2.1
            · refine hh.seg2.2.2.2.congr (hfr Y fun a ha => ⟨fun e => ?_, fun e => ?_, fun e => ?_⟩)
              · exact (List.nodup_cons.1 hn5).1 (e ▸ .tail _ ha)
              · exact (List.nodup_cons.1 (List.nodup_cons.1 hn5).2).1 (e ▸ ha)
              · exact hn6 x (by simp) a (by simp [ha]) e.symm
          · exact (hh.segs c hc).congr (hfr c fun a ha => ⟨hyC c hc a ha, hcy2 c hc a ha, hxC c hc a ha⟩)
        · rintro r s ⟨c, hc, ha⟩
          right
          have hm := ha.mem
          rcases mem_cons3 hc with rfl | rfl | h
          · simp only [if_neg (hyX r hm.1), if_neg (hyX s hm.2)]
            refine ⟨_, .head _, ?_⟩
            rw [show P ++ x :: y2 :: Y = (P ++ [x]) ++ y2 :: Y by simp]
            exact adj_append_left ha
          · rcases adj_cons.1 ha with ⟨rfl, h⟩ | h
            · cases h
              simp only [if_true, if_neg hyy]
              exact ⟨_, .head _, P, Y, rfl⟩
            · have hm := h.mem
              have h1 : r ≠ y := fun e => (List.nodup_cons.1 hn5).1 (e ▸ hm.1)
              have h2 : s ≠ y := fun e => (List.nodup_cons.1 hn5).1 (e ▸ hm.2)
              simp only [if_neg h1, if_neg h2]
              refine ⟨_, .head _, ?_⟩
              rw [show P ++ x :: y2 :: Y = (P ++ [x]) ++ y2 :: Y by simp]
              exact adj_append_right h
          · simp only [if_neg (hyC c h r hm.1), if_neg (hyC c h s hm.2)]
            exact ⟨c, .tail _ h, ha⟩
        · intro a ha
          simp only [List.zip_cons_cons, List.zip_nil_left, List.mem_singleton] at ha
          subst ha
          simp
        · intro G σ γ hl he
          refine ⟨fun r => ?_, ?_⟩
          · dsimp only; split
            · rename_i h; rw [he, h]
            · rfl
          · rintro r s ⟨c, hc, ha⟩
            rcases List.mem_cons.1 hc with rfl | h
            · rw [show P ++ x :: y2 :: Y = (P ++ [x]) ++ y2 :: Y by simp] at ha
              rcases adj_append.1 ha with h | ⟨h1, h2⟩ | h
              · exact hl r s ⟨_, .head _, h⟩
              · rw [getLast?_append_cons] at h1
                cases h1
                cases h2
                rw [hl y y2 ⟨_, .tail _ (.head _), [], Y, rfl⟩, he]
              · exact hl r s ⟨_, .tail _ (.head _), adj_cons.2 (.inr h)⟩
            · exact hl r s ⟨c, .tail _ (.tail _ h), ha⟩
      | cons x2 X =>
        -- `y` becomes part of `x`, go on below
        simp only [List.head?_cons] at hbx
        rw [hbx, hby]
        have hx2 : Root b x2 := hrt x2 (by simp)
        have hm1 : SameMap b (b.set x ((b.links x).more (b.links y).attrs)) := set_sameMap rfl
        have hl1 := (hm1.base hh.base).linksAt_root (hm1.root.2 hy2)
        have hb1y : (b.set x ((b.links x).more (b.links y).attrs)).links y = b.links y := by rw [set_links, if_neg hxy]
        have hbase : Base (absorb b x y) (((P ++ [x]) ++ x2 :: X) ++ (y2 :: Y) ++ cs.flatten) := by
          refine absorb_base hh.base ?_ hx hxy
          have e1 : (P ++ x :: x2 :: X ++ y :: y2 :: Y ++ cs.flatten) = (P ++ x :: x2 :: X) ++ y :: (y2 :: Y ++ cs.flatten) := by simp
          have e2 : ((P ++ [x]) ++ x2 :: X) ++ (y2 :: Y) ++ cs.flatten = (P ++ x :: x2 :: X) ++ (y2 :: Y ++ cs.flatten) := by simp
          rw [e1, e2]
          exact List.perm_middle
        have hl2 : (absorb b x y).linksAt x2 = some x2 := hbase.linksAt_root ((hbase.roots x2).1 (by simp))
        simp only [setAttrs_eq hx, Option.bind_some, hl1, remapTo_eq (hm1.root.2 hy), hb1y]
        rw [show ((b.set x ((b.links x).more (b.links y).attrs)).set y ((b.links y).to x)) = absorb b x y from rfl, hl2]
        simp only [Option.bind_some]
        have hlk : ∀ j, j ≠ y → ((absorb b x y).links j).above = (b.links j).above ∧
            ((absorb b x y).links j).below = (b.links j).below := by
          intro j hj
          rw [absorb_links, if_neg hj]
          split
          · rename_i he; subst he; exact ⟨rfl, rfl⟩
          · exact ⟨rfl, rfl⟩
        have hh' : Half (absorb b x y) (P ++ [x]) (x2 :: X) (y2 :: Y) cs := by
          refine ⟨hbase, ?_, ⟨?_, ?_⟩, fun c hc => (hh.segs c hc).congr fun a ha => hlk a (hyC c hc a ha)⟩
          · rw [List.append_assoc]
            exact hh.seg1.congr fun a ha => hlk a (hyX a ha)
          · rw [(hlk y2 hyy).2]
            have := hh.seg2.2.2.1
            rwa [Option.or_none] at this
          · exact hh.seg2.2.2.2.congr fun a ha => hlk a fun e => (List.nodup_cons.1 hn5).1 (e ▸ .tail _ ha)
        obtain ⟨b', φ, C, h1, h2, h3, h4⟩ := ih hh' (by simp only [List.length_cons] at hk; omega)
        have hφ : φ x2 = φ y2 := h3 (x2, y2) (by simp)
        have hold : ∀ r s, AdjS ((P ++ x :: x2 :: X) :: (y :: y2 :: Y) :: cs) r s → (r = y ∧ s = y2) ∨
            (r ≠ y ∧ s ≠ y ∧ AdjS (((P ++ [x]) ++ x2 :: X) :: (y2 :: Y) :: cs) r s) := by
          rintro r s ⟨c, hc, ha⟩
          have hm := ha.mem
          rcases mem_cons3 hc with rfl | rfl | h
          · exact .inr ⟨hyX r hm.1, hyX s hm.2, _, .head _, by rw [List.append_assoc]; exact ha⟩
          · rcases adj_cons.1 ha with ⟨rfl, h⟩ | h
            · cases h; exact .inl ⟨rfl, rfl⟩
            · have hm := h.mem
              exact .inr ⟨fun e => (List.nodup_cons.1 hn5).1 (e ▸ hm.1), fun e => (List.nodup_cons.1 hn5).1 (e ▸ hm.2),
                _, .tail _ (.head _), h⟩
          · exact .inr ⟨hyC c h r hm.1, hyC c h s hm.2, c, .tail _ (.tail _ h), ha⟩
        have hx12 : AdjS (((P ++ [x]) ++ x2 :: X) :: (y2 :: Y) :: cs) x x2 := ⟨_, .head _, P, X, by simp⟩
        refine ⟨b', fun r => φ (if r = y then x else r), C, h1, ⟨h2.rep, (absorb_ev hx hy hxy).trans h2.ev, ?_⟩, ?_, ?_⟩
        · intro r s ha
          rcases hold r s ha with ⟨rfl, rfl⟩ | ⟨hr, hs, ha⟩
          · simp only [if_true, if_neg hyy]
            rw [← hφ]
            exact h2.adj _ _ hx12
          · simp only [if_neg hr, if_neg hs]
            exact h2.adj _ _ ha
        · intro a ha
          rw [List.zip_cons_cons] at ha
          rcases List.mem_cons.1 ha with rfl | ha
          · simp
          · have h5 := List.of_mem_zip ha
            have h6 : a.1 ≠ y := hyX _ (by simp only [List.mem_append, List.mem_cons] at h5 ⊢; exact .inr (.inr h5.1))
            have h7 : a.2 ≠ y := fun e => (List.nodup_cons.1 hn5).1 (e ▸ h5.2)
            simp only [if_neg h6, if_neg h7]
            exact h3 a ha
        · intro G σ γ hl he
          have hx2' : γ x2 = σ (γ x) := hl _ _ ⟨_, .head _, P, X, rfl⟩
          have hy2' : γ y2 = σ (γ y) := hl _ _ ⟨_, .tail _ (.head _), [], Y, rfl⟩
          obtain ⟨h5, h6⟩ := h4 σ γ (fun r s ha => by
            obtain ⟨c, hc, ha⟩ := ha
            rcases mem_cons3 hc with rfl | rfl | h
            · exact hl r s ⟨_, .head _, by rw [List.append_assoc] at ha; exact ha⟩
            · exact hl r s ⟨_, .tail _ (.head _), adj_cons.2 (.inr ha)⟩
            · exact hl r s ⟨c, .tail _ (.tail _ h), ha⟩) (by rw [hx2', hy2', he])
          refine ⟨fun r => ?_, h6⟩
          dsimp only
          rw [h5]
          split
          · rename_i h; rw [he, h]
          · rfl

end Phasar.Stratified
