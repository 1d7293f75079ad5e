import Verif.Alias.StratifiedBuild

/-!
# Stratified sets: properties

C78: for every history of requests in which every request is about a value already there, the builder of the stratified sets
gives a result (no assertion fails, no loop runs on), and the result is what the requests ask for: values put together are in
one set; a value put below (above) another one is in the set below (above) it or in the same set; sets are merged only where
the requests demand it; a set has the attributes noted for its members and those of the sets above it.
-/
namespace Phasar.Stratified
open CFLAnders (Attr Node)

/-- `r` is `s` or above it. -/
inductive Up (links : Nat → Link) : Nat → Nat → Prop where
  | refl (s : Nat) : Up links s s
  | step {s t r : Nat} : (links s).above = some t → Up links t r → Up links s r

/-- A set of the result. -/
def Sets.live (s : Sets) (r : Nat) : Prop := r < s.n ∧ (s.links r).remap = none

/-- What is known of a result. -/
structure C78.Res (ops : List Op) (s : Sets) (b : Builder) (cs : List (List Nat)) : Prop where
  inv : Inv ops b cs
  run : run ops = some b
  n : s.n = b.n
  values : ∀ v r, s.values v = some r ↔ InSet b v r
  links : ∀ j, (s.links j).above = (b.links j).above ∧ (s.links j).below = (b.links j).below ∧ (s.links j).remap = (b.links j).remap
  attrs : ∀ c ∈ cs, ∀ u i w, c = u ++ i :: w → ∀ p, Hom p → (p (s.links i).attrs = true ↔ ∃ r ∈ u ++ [i], p (b.links r).attrs = true)

theorem C78.exists_res (ops : List Op) (h : Ready ops) : ∃ s b cs, result ops = some s ∧ C78.Res ops s b cs := by
  obtain ⟨b, cs, h1, h2⟩ := run_ok ops h
  obtain ⟨s, h3, h4, h5, h6, h7⟩ := build_ok h2.rep
  exact ⟨s, b, cs, by rw [result, h1]; exact h3, h2, h1, h4, h5, h6, h7⟩

theorem C78.ready_of_run : ∀ (l : List Op) (b : Builder), run l.reverse = some b → Ready l.reverse := by
  intro l
  induction l with
  | nil => intro b _ pre op post h; simp at h
  | cons op l ih =>
    intro b h
    rw [List.reverse_cons] at h ⊢
    have e : Phasar.Stratified.run (l.reverse ++ [op]) = (Phasar.Stratified.run l.reverse).bind fun b => [op].foldlM Builder.exec b :=
      List.foldlM_append
    rw [e] at h
    obtain ⟨b1, h1, h2⟩ := Option.bind_eq_some_iff.1 h
    have hr := ih b1 h1
    obtain ⟨b1', cs, h1', hinv⟩ := run_ok _ hr
    rw [h1] at h1'
    cases h1'
    intro pre o post he m hm
    rcases List.eq_nil_or_concat post with rfl | ⟨post', z, rfl⟩
    · have h3 := List.append_inj_left' he (by simp)
      have h4 : op = o := by have := List.append_inj_right' he (by simp); simpa using this
      subst h4
      rw [← h3]
      have hx : b1.exec op = some b := by
        rw [List.foldlM_cons] at h2
        obtain ⟨b2, h5, h6⟩ := Option.bind_eq_some_iff.1 h2
        rw [h5]; exact h6
      refine (hinv.has m).1 ?_
      cases hv : b1.values m with
      | some k => rfl
      | none =>
        exfalso
        cases op <;> simp_all [Op.main, Builder.exec, Builder.addAbove, Builder.addBelow, Builder.addWith, Builder.note, Builder.indexOf]
    · have he' : l.reverse = pre ++ o :: post' := by
        have : l.reverse ++ [op] = (pre ++ o :: post') ++ [z] := by rw [he]; simp
        exact List.append_inj_left' this (by simp)
      exact hr pre o post' he' m hm

theorem C78.res {ops : List Op} {s : Sets} (h : result ops = some s) : ∃ b cs, C78.Res ops s b cs := by
  unfold result at h
  obtain ⟨b, h1, h2⟩ := Option.bind_eq_some_iff.1 h
  have hr : Ready ops := by
    have := C78.ready_of_run ops.reverse b (by rw [List.reverse_reverse]; exact h1)
    rwa [List.reverse_reverse] at this
  obtain ⟨s', b', cs, h3, h4⟩ := C78.exists_res ops hr
  have : some s = some s' := by rw [← h3, ← h, result]
  cases this
  exact ⟨b', cs, h4⟩

theorem C78.Res.below {ops : List Op} {s : Sets} {b : Builder} {cs : List (List Nat)} (h : C78.Res ops s b cs) {r q : Nat}
    (ha : AdjS cs r q) : (s.links r).below = some q ∧ (s.links q).above = some r := by
  obtain ⟨c, hc, ha⟩ := ha
  have := (h.inv.rep.seg c hc).adj ha
  rw [(h.links r).2.1, (h.links q).1]
  exact this

theorem C78.Res.root {ops : List Op} {s : Sets} {b : Builder} {cs : List (List Nat)} (h : C78.Res ops s b cs) (r : Nat) :
    s.live r ↔ Root b r := by
  unfold Sets.live Root
  rw [h.n, (h.links r).2.2]

theorem C78.Res.adj {ops : List Op} {s : Sets} {b : Builder} {cs : List (List Nat)} (h : C78.Res ops s b cs) {r q : Nat}
    (hr : s.live r) (ha : (s.links r).below = some q) : AdjS cs r q := by
  obtain ⟨c, hc, hrc⟩ := h.inv.rep.chain ((h.root r).1 hr)
  rw [(h.links r).2.1] at ha
  exact ⟨c, hc, (h.inv.rep.seg c hc).of_below hrc ha⟩

theorem C78.Res.adj' {ops : List Op} {s : Sets} {b : Builder} {cs : List (List Nat)} (h : C78.Res ops s b cs) {r q : Nat}
    (hq : s.live q) (ha : (s.links q).above = some r) : AdjS cs r q := by
  obtain ⟨c, hc, hrc⟩ := h.inv.rep.chain ((h.root q).1 hq)
  rw [(h.links q).1] at ha
  exact ⟨c, hc, (h.inv.rep.seg c hc).of_above hrc ha⟩

/-! ## Examples -/

/-- Two pointers with what they point to; then the pointers are put together. -/
def C78.exOps : List Op :=
  [.add ⟨0, 0⟩, .below ⟨0, 0⟩ ⟨1, 0⟩, .note ⟨0, 0⟩ { glob := true }, .add ⟨2, 0⟩, .below ⟨2, 0⟩ ⟨3, 0⟩, .note ⟨3, 0⟩ { arg := true },
    .with_ ⟨0, 0⟩ ⟨2, 0⟩]

/-- The sets of some values, and the attributes of these sets. -/
def C78.view (o : Option Sets) (vs : List Nat) : Option (List (Option Nat × Option Attr)) :=
  o.map fun s => vs.map fun v => (s.values ⟨v, 0⟩, (s.values ⟨v, 0⟩).map fun r => (s.links r).attrs)

example : C78.view (result C78.exOps) [0, 1, 2, 3, 4] = some
    [(some 2, some { glob := true }), (some 3, some { glob := true, arg := true }), (some 2, some { glob := true }),
      (some 3, some { glob := true, arg := true }), (none, none)] := by decide +kernel

/-- The example of the comment in the source, `StratifiedSets.h:140-168`: a cycle makes everything one set. -/
example : C78.view (result [.add ⟨0, 0⟩, .below ⟨0, 0⟩ ⟨1, 0⟩, .below ⟨1, 0⟩ ⟨2, 0⟩, .note ⟨1, 0⟩ { arg := true }, .below ⟨2, 0⟩ ⟨0, 0⟩]) [0, 1, 2] = some
    [(some 0, some { arg := true }), (some 0, some { arg := true }), (some 0, some { arg := true })] := by decide +kernel

/-- The example meets the condition: every request is about a value already there. -/
example : ∃ s, result C78.exOps = some s := Option.isSome_iff_exists.1 (by decide +kernel)

/-- And one that does not: value 5 is not there. -/
example : result [.add ⟨0, 0⟩, .below ⟨5, 0⟩ ⟨1, 0⟩] = none := by decide +kernel

/-- `C78_with`, `C78_below`, `C78_chains`, `C78_congr_partial`: what is put below values put together is one set, the one below
theirs. -/
example : ((result C78.exOps).map fun s => ((s.values ⟨0, 0⟩, s.values ⟨2, 0⟩), (s.values ⟨1, 0⟩, s.values ⟨3, 0⟩), (s.links 2).below, (s.links 3).above)) =
    some ((some 2, some 2), (some 3, some 3), some 3, some 2) := by decide +kernel

/-- `C78_above`: the other way round. -/
example : ((result [.add ⟨0, 0⟩, .above ⟨0, 0⟩ ⟨1, 0⟩, .add ⟨2, 0⟩, .above ⟨2, 0⟩ ⟨3, 0⟩, .with_ ⟨0, 0⟩ ⟨2, 0⟩]).map fun s =>
    (decide (s.values ⟨1, 0⟩ = s.values ⟨3, 0⟩), decide (s.values ⟨1, 0⟩ = s.values ⟨0, 0⟩), decide ((s.values ⟨0, 0⟩).bind (fun r => (s.links r).above) = s.values ⟨1, 0⟩))) =
    some (true, false, true) := by decide +kernel

/-- `C78_compress`: set 0 of the example has been merged away. -/
example : ((run C78.exOps).bind fun b => b.linksAt 0) = some 2 := by decide +kernel

/-! ## The result exists -/

/-- **C78.** The builder gives a result exactly if every request is about a value already there: then no assertion fails, no access is
out of bounds and no loop runs on, and otherwise the first other request fails the assertion `has(Main)`. -/
theorem C78_total (ops : List Op) : (∃ s, result ops = some s) ↔
    ∀ pre op post, ops = pre ++ op :: post → ∀ m, op.main = some m → ∃ o ∈ pre, o.new = some m := by
  constructor
  · rintro ⟨s, h⟩
    unfold result at h
    obtain ⟨b, h1, _⟩ := Option.bind_eq_some_iff.1 h
    have := C78.ready_of_run ops.reverse b (by rw [List.reverse_reverse]; exact h1)
    rw [List.reverse_reverse] at this
    exact this
  · intro h
    obtain ⟨s, _, _, h1, _⟩ := C78.exists_res ops h
    exact ⟨s, h1⟩

example : (result C78.exOps).isSome = true ∧ (result [.add ⟨0, 0⟩, .below ⟨1, 0⟩ ⟨0, 0⟩]).isNone = true := by decide +kernel

/-- **C78.** A value is in a set iff a request adds it, and the set is one of the result. -/
theorem C78_values {ops : List Op} {s : Sets} (h : result ops = some s) (v : Node) :
    ((∃ r, s.values v = some r) ↔ ∃ o ∈ ops, o.new = some v) ∧ ∀ r, s.values v = some r → s.live r := by
  obtain ⟨b, cs, h⟩ := C78.res h
  refine ⟨?_, fun r hr => (h.root r).2 ((h.values v r).1 hr).root⟩
  rw [← h.inv.has]
  constructor
  · rintro ⟨r, hr⟩
    obtain ⟨k, hk, _⟩ := (h.values v r).1 hr
    simp [hk]
  · intro hv
    obtain ⟨r, hr⟩ := h.inv.rep.inSet hv
    exact ⟨r, (h.values v r).2 hr⟩

/-! ## What the requests ask for -/

/-- **C78.** Values put together are in one set, whatever was asked for before and after. -/
theorem C78_with {ops : List Op} {s : Sets} (h : result ops = some s) {m t : Node} (ho : .with_ m t ∈ ops) :
    ∃ r, s.values m = some r ∧ s.values t = some r := by
  have hv := C78_values h
  obtain ⟨b, cs, h'⟩ := C78.res h
  obtain ⟨q, hq⟩ := (hv t).1.2 ⟨_, ho, rfl⟩
  obtain ⟨pre, post, he⟩ := List.append_of_mem ho
  obtain ⟨o, ho', hn⟩ := (C78_total ops).1 ⟨s, h⟩ pre _ post he m rfl
  obtain ⟨r, hr⟩ := (hv m).1.2 ⟨o, by rw [he]; simp [ho'], hn⟩
  have := h'.inv.done _ ho r q ((h'.values m r).1 hr) ((h'.values t q).1 hq)
  subst this
  exact ⟨r, hr, hq⟩

/-- **C78.** A value put below another one is in the set below it or in the same set. -/
theorem C78_below {ops : List Op} {s : Sets} (h : result ops = some s) {m t : Node} (ho : .below m t ∈ ops) :
    ∃ r q, s.values m = some r ∧ s.values t = some q ∧ (r = q ∨ (s.links r).below = some q ∧ (s.links q).above = some r) := by
  have hv := C78_values h
  obtain ⟨b, cs, h'⟩ := C78.res h
  obtain ⟨q, hq⟩ := (hv t).1.2 ⟨_, ho, rfl⟩
  obtain ⟨pre, post, he⟩ := List.append_of_mem ho
  obtain ⟨o, ho', hn⟩ := (C78_total ops).1 ⟨s, h⟩ pre _ post he m rfl
  obtain ⟨r, hr⟩ := (hv m).1.2 ⟨o, by rw [he]; simp [ho'], hn⟩
  refine ⟨r, q, hr, hq, ?_⟩
  rcases h'.inv.done _ ho r q ((h'.values m r).1 hr) ((h'.values t q).1 hq) with h1 | h1
  · exact .inl h1
  · exact .inr (h'.below h1)

/-- **C78.** A value put above another one is in the set above it or in the same set. -/
theorem C78_above {ops : List Op} {s : Sets} (h : result ops = some s) {m t : Node} (ho : .above m t ∈ ops) :
    ∃ r q, s.values m = some r ∧ s.values t = some q ∧ (r = q ∨ (s.links q).below = some r ∧ (s.links r).above = some q) := by
  have hv := C78_values h
  obtain ⟨b, cs, h'⟩ := C78.res h
  obtain ⟨q, hq⟩ := (hv t).1.2 ⟨_, ho, rfl⟩
  obtain ⟨pre, post, he⟩ := List.append_of_mem ho
  obtain ⟨o, ho', hn⟩ := (C78_total ops).1 ⟨s, h⟩ pre _ post he m rfl
  obtain ⟨r, hr⟩ := (hv m).1.2 ⟨o, by rw [he]; simp [ho'], hn⟩
  refine ⟨r, q, hr, hq, ?_⟩
  rcases h'.inv.done _ ho r q ((h'.values m r).1 hr) ((h'.values t q).1 hq) with h1 | h1
  · exact .inl h1.symm
  · exact .inr (h'.below h1)

/-- **C78.** The sets form chains: above and below are inverse to each other, lead to sets of the result, and the way up ends. -/
theorem C78_chains {ops : List Op} {s : Sets} (h : result ops = some s) (r : Nat) (hr : s.live r) :
    (∀ q, (s.links r).below = some q → s.live q ∧ (s.links q).above = some r) ∧
    (∀ q, (s.links r).above = some q → s.live q ∧ (s.links q).below = some r) ∧
    (∃ t, Up s.links r t ∧ (s.links t).above = none) ∧
    ∀ q, (s.links r).above = some q → ¬ Up s.links q r := by
  obtain ⟨b, cs, h⟩ := C78.res h
  have hlive : ∀ {x y}, AdjS cs x y → s.live x ∧ s.live y := fun {x y} ⟨c, hc, ha⟩ =>
    ⟨(h.root x).2 ((h.inv.rep.base.roots x).1 (List.mem_flatten.2 ⟨c, hc, ha.mem.1⟩)),
      (h.root y).2 ((h.inv.rep.base.roots y).1 (List.mem_flatten.2 ⟨c, hc, ha.mem.2⟩))⟩
  obtain ⟨c, hc, hrc⟩ := h.inv.rep.chain ((h.root r).1 hr)
  have hseg : Seg s.links none c none := (h.inv.rep.seg c hc).congr fun j _ => ⟨(h.links j).1, (h.links j).2.1⟩
  have hnd := (chain_len h.inv.rep hc).2
  -- what is above a member of the chain is in its initial part
  have hup : ∀ {x y}, Up s.links x y → ∀ u w, c = u ++ x :: w → y ∈ u ++ [x] := by
    intro x y hxy
    induction hxy with
    | refl x => intro u w _; simp
    | @step x t y ht _ ih =>
      intro u w he
      have ha := (he ▸ hseg).above
      rw [ht, Option.or_none] at ha
      obtain ⟨v, rfl⟩ := List.getLast?_eq_some_iff.1 ha.symm
      have := ih v (x :: w) (by rw [he]; simp)
      simp only [List.mem_append, List.mem_singleton] at this ⊢
      exact .inl this
  obtain ⟨u, w, he⟩ := List.append_of_mem hrc
  refine ⟨fun q hq => ?_, fun q hq => ?_, ?_, fun q hq hu => ?_⟩
  · have ha := h.adj hr hq
    exact ⟨(hlive ha).2, (h.below ha).2⟩
  · have ha := h.adj' hr hq
    exact ⟨(hlive ha).1, (h.below ha).1⟩
  · have key : ∀ (u : List Nat) (x : Nat) (w : List Nat), c = u ++ x :: w → ∃ t, Up s.links x t ∧ (s.links t).above = none := by
      intro u
      induction hn : u.length generalizing u with
      | zero =>
        intro x w he
        cases u with
        | nil => exact ⟨x, .refl x, (he ▸ hseg).above⟩
        | cons _ _ => simp at hn
      | succ n ih =>
        intro x w he
        rcases List.eq_nil_or_concat u with rfl | ⟨v, z, rfl⟩
        · simp at hn
        · have ha := (he ▸ hseg).above
          simp only [List.concat_eq_append, getLast?_append_cons, Option.some_or] at ha
          obtain ⟨t, h1, h2⟩ := ih v (by simpa using hn) z (x :: w) (by rw [he]; simp)
          exact ⟨t, .step ha h1, h2⟩
    exact key u r w he
  · have ha := (he ▸ hseg).above
    rw [hq, Option.or_none] at ha
    obtain ⟨v, rfl⟩ := List.getLast?_eq_some_iff.1 ha.symm
    have h1 := hup hu v (r :: w) (by rw [he]; simp)
    rw [he] at hnd
    exact (List.nodup_append.1 hnd).2.2 r h1 r (.head _) rfl

/-! ## Nothing else is merged -/

/-- **C78.** Sets are merged only where the requests demand it: labels of values that go with every request (equal for values put
together, one step on for a value put below, one step back for a value put above; a step can be undone, and only a label that
is one step away from itself lies on a cycle) are labels of the sets, and one step on for the set below. -/
theorem C78_labels {ops : List Op} {s : Sets} (h : result ops = some s) {G : Type} (σ : G → G) (ρ : Node → G)
    (hinj : ∀ g k, σ g = σ k → g = k) (hcyc : ∀ k g, iter σ (k + 1) g = g → σ g = g)
    (hwith : ∀ m t, .with_ m t ∈ ops → ρ t = ρ m) (hbelow : ∀ m t, .below m t ∈ ops → ρ t = σ (ρ m))
    (habove : ∀ m t, .above m t ∈ ops → ρ m = σ (ρ t)) :
    ∃ γ : Nat → G, (∀ v r, s.values v = some r → γ r = ρ v) ∧ ∀ r q, s.live r → (s.links r).below = some q → γ q = σ (γ r) := by
  obtain ⟨b, cs, h'⟩ := C78.res h
  obtain ⟨γ, hl, hf⟩ := h'.inv.fits σ ρ ⟨hinj, hcyc⟩ fun o ho => by
    cases o with
    | add _ => trivial
    | note _ _ => trivial
    | with_ m t => exact hwith m t ho
    | below m t => exact hbelow m t ho
    | above m t => exact habove m t ho
  exact ⟨γ, fun v r hr => hf v r ((h'.values v r).1 hr), fun r q hr hb => hl r q (h'.adj hr hb)⟩

/-- **C78.** The same for values: they have the same label within a set, and one step on in the set below. -/
theorem C78_least {ops : List Op} {s : Sets} (h : result ops = some s) {G : Type} (σ : G → G) (ρ : Node → G)
    (hinj : ∀ g k, σ g = σ k → g = k) (hcyc : ∀ k g, iter σ (k + 1) g = g → σ g = g)
    (hwith : ∀ m t, .with_ m t ∈ ops → ρ t = ρ m) (hbelow : ∀ m t, .below m t ∈ ops → ρ t = σ (ρ m))
    (habove : ∀ m t, .above m t ∈ ops → ρ m = σ (ρ t)) {v w : Node} {r q : Nat} (hv : s.values v = some r) (hw : s.values w = some q) :
    (r = q → ρ v = ρ w) ∧ ((s.links r).below = some q → ρ w = σ (ρ v)) := by
  obtain ⟨γ, hf, hl⟩ := C78_labels h σ ρ hinj hcyc hwith hbelow habove
  rw [← hf v r hv, ← hf w q hw]
  exact ⟨fun e => by rw [e], fun hb => hl r q ((C78_values h v).2 r hv) hb⟩

/-- In the example the labels 0 and 1 go with the requests: the four values are not all in one set. -/
example (s : Sets) (h : result C78.exOps = some s) (r q : Nat) (h0 : s.values ⟨0, 0⟩ = some r) (h1 : s.values ⟨3, 0⟩ = some q) : r ≠ q := by
  intro e
  have := (C78_least h (fun g : Int => g + 1) (fun v => (v.val % 2 : Nat)) (fun g k h => by omega)
    (fun k g h => by
      have : ∀ k, iter (fun g : Int => g + 1) k g = g + k := by
        intro k; induction k with
        | zero => simp [iter]
        | succ k ih => simp only [iter, ih]; omega
      rw [this] at h; omega)
    (fun m t h => by simp [C78.exOps] at h; obtain ⟨rfl, rfl⟩ := h; rfl)
    (fun m t h => by simp [C78.exOps] at h; rcases h with ⟨rfl, rfl⟩ | ⟨rfl, rfl⟩ <;> rfl)
    (fun m t h => by simp [C78.exOps] at h) h0 h1).1 e
  simp at this

theorem C78.iter_int (k : Nat) (g : Int) : iter (fun g : Int => g + 1) k g = g + k := by
  induction k with
  | zero => simp [iter]
  | succ k ih => simp only [iter, ih]; omega

/-- **C78 (partial).** If the values have levels that go with the requests (whole numbers, one more for a value put below), then a value put below
another one is strictly below it, and values put below members of one set are in one set (so are values put above). -/
theorem C78_congr_partial {ops : List Op} {s : Sets} (h : result ops = some s) (ρ : Node → Int)
    (hwith : ∀ m t, .with_ m t ∈ ops → ρ t = ρ m) (hbelow : ∀ m t, .below m t ∈ ops → ρ t = ρ m + 1)
    (habove : ∀ m t, .above m t ∈ ops → ρ m = ρ t + 1) :
    (∀ m t r q, .below m t ∈ ops → s.values m = some r → s.values t = some q → (s.links r).below = some q) ∧
    (∀ m t m' t', .below m t ∈ ops → .below m' t' ∈ ops → s.values m = s.values m' → s.values t = s.values t') ∧
    (∀ m t r q, .above m t ∈ ops → s.values m = some r → s.values t = some q → (s.links r).above = some q) ∧
    ∀ m t m' t', .above m t ∈ ops → .above m' t' ∈ ops → s.values m = s.values m' → s.values t = s.values t' := by
  have hlab := fun {v w r q} => C78_least h (fun g : Int => g + 1) ρ (fun g k h => by omega)
    (fun k g h => by rw [C78.iter_int] at h; omega) hwith hbelow habove (v := v) (w := w) (r := r) (q := q)
  have h1 : ∀ m t r q, .below m t ∈ ops → s.values m = some r → s.values t = some q → (s.links r).below = some q := by
    intro m t r q ho hr hq
    obtain ⟨r', q', h1, h2, h3⟩ := C78_below h ho
    rw [hr] at h1
    rw [hq] at h2
    cases h1
    cases h2
    rcases h3 with h3 | h3
    · have := (hlab hr hq).1 h3
      have := hbelow m t ho
      omega
    · exact h3.1
  have h2 : ∀ m t r q, .above m t ∈ ops → s.values m = some r → s.values t = some q → (s.links r).above = some q := by
    intro m t r q ho hr hq
    obtain ⟨r', q', h1, h2, h3⟩ := C78_above h ho
    rw [hr] at h1
    rw [hq] at h2
    cases h1
    cases h2
    rcases h3 with h3 | h3
    · have := (hlab hr hq).1 h3
      have := habove m t ho
      omega
    · exact h3.2
  refine ⟨h1, fun m t m' t' ho ho' he => ?_, h2, fun m t m' t' ho ho' he => ?_⟩
  · obtain ⟨r, q, a1, a2, _⟩ := C78_below h ho
    obtain ⟨r', q', a3, a4, _⟩ := C78_below h ho'
    rw [a1, a3] at he
    cases he
    have e1 := h1 m t r q ho a1 a2
    have e2 := h1 m' t' r q' ho' a3 a4
    rw [e1] at e2
    rw [a2, a4, e2]
  · obtain ⟨r, q, a1, a2, _⟩ := C78_above h ho
    obtain ⟨r', q', a3, a4, _⟩ := C78_above h ho'
    rw [a1, a3] at he
    cases he
    have e1 := h2 m t r q ho a1 a2
    have e2 := h2 m' t' r q' ho' a3 a4
    rw [e1] at e2
    rw [a2, a4, e2]

/-- The two histories of `C78_congr_false` and `C78_order_false`: the same requests in another order. -/
def C78.bad : List Op :=
  [.add ⟨0, 0⟩, .below ⟨0, 0⟩ ⟨1, 0⟩, .with_ ⟨0, 0⟩ ⟨1, 0⟩, .add ⟨2, 0⟩, .below ⟨2, 0⟩ ⟨3, 0⟩, .with_ ⟨0, 0⟩ ⟨2, 0⟩]

/-- See `C78.bad`. -/
def C78.good : List Op :=
  [.add ⟨0, 0⟩, .below ⟨0, 0⟩ ⟨1, 0⟩, .add ⟨2, 0⟩, .below ⟨2, 0⟩ ⟨3, 0⟩, .with_ ⟨0, 0⟩ ⟨2, 0⟩, .with_ ⟨0, 0⟩ ⟨1, 0⟩]

/-- **C78 false.** Without levels this is false: once a set has been merged with the set below it, it forgets that it is its own
target.  Here 1 is put below 0 and together with 0, then 3 is put below 2, then 0 and 2 are put together: 1 and 3 stay in
different sets, although both were put below members of one set. -/
theorem C78_congr_false : ∃ ops s m t m' t', result ops = some s ∧ .below m t ∈ ops ∧ .below m' t' ∈ ops ∧
    s.values m = s.values m' ∧ s.values t ≠ s.values t' := by
  have h : (result C78.bad).isSome = true ∧ ∀ s ∈ result C78.bad, s.values ⟨0, 0⟩ = s.values ⟨2, 0⟩ ∧ s.values ⟨1, 0⟩ ≠ s.values ⟨3, 0⟩ := by
    decide +kernel
  obtain ⟨s, hs⟩ := Option.isSome_iff_exists.1 h.1
  have h2 := h.2 s hs
  exact ⟨C78.bad, s, ⟨0, 0⟩, ⟨1, 0⟩, ⟨2, 0⟩, ⟨3, 0⟩, hs, by simp [C78.bad], by simp [C78.bad], h2.1, h2.2⟩

/-- **C78 false.** The result depends on the order of the requests: with the two requests `with_` at the end, all four values are in one
set. -/
theorem C78_order_false : C78.good.Perm C78.bad ∧ ∃ s s', result C78.good = some s ∧ result C78.bad = some s' ∧
    s.values ⟨1, 0⟩ = s.values ⟨3, 0⟩ ∧ s'.values ⟨1, 0⟩ ≠ s'.values ⟨3, 0⟩ := by
  have h : (result C78.bad).isSome = true ∧ (result C78.good).isSome = true ∧ (∀ s ∈ result C78.good, s.values ⟨1, 0⟩ = s.values ⟨3, 0⟩) ∧
      ∀ s ∈ result C78.bad, s.values ⟨1, 0⟩ ≠ s.values ⟨3, 0⟩ := by decide +kernel
  obtain ⟨s', hs'⟩ := Option.isSome_iff_exists.1 h.1
  obtain ⟨s, hs⟩ := Option.isSome_iff_exists.1 h.2.1
  refine ⟨?_, s, s', hs, hs', h.2.2.1 s hs, h.2.2.2 s' hs'⟩
  refine .cons _ (.cons _ ?_)
  exact (List.perm_append_comm (l₁ := ([.add ⟨2, 0⟩, .below ⟨2, 0⟩ ⟨3, 0⟩, .with_ ⟨0, 0⟩ ⟨2, 0⟩] : List Op)) (l₂ := [.with_ ⟨0, 0⟩ ⟨1, 0⟩]))

/-! ## Attributes -/

theorem C78.hom : ∀ p ∈ [Attr.esc, Attr.unk, Attr.glob, Attr.caller, Attr.arg], Hom p := by
  intro p hp
  simp only [List.mem_cons, List.not_mem_nil, or_false] at hp
  rcases hp with rfl | rfl | rfl | rfl | rfl <;> exact ⟨rfl, fun _ _ => rfl⟩

/-- **C78.** A set has exactly the attributes noted for its members and for the members of the sets above it. -/
theorem C78_attrs {ops : List Op} {s : Sets} (h : result ops = some s) (p : Attr → Bool)
    (hp : p ∈ [Attr.esc, Attr.unk, Attr.glob, Attr.caller, Attr.arg]) (r : Nat) (hr : s.live r) :
    p (s.links r).attrs = true ↔ ∃ m a q, .note m a ∈ ops ∧ p a = true ∧ s.values m = some q ∧ Up s.links r q := by
  obtain ⟨b, cs, h⟩ := C78.res h
  have hp := C78.hom p hp
  obtain ⟨c, hc, hrc⟩ := h.inv.rep.chain ((h.root r).1 hr)
  have hseg : Seg s.links none c none := (h.inv.rep.seg c hc).congr fun j _ => ⟨(h.links j).1, (h.links j).2.1⟩
  have hup : ∀ {x y}, Up s.links x y → ∀ u w, c = u ++ x :: w → y ∈ u ++ [x] := by
    intro x y hxy
    induction hxy with
    | refl x => intro u w _; simp
    | @step x t y ht _ ih =>
      intro u w he
      have ha := (he ▸ hseg).above
      rw [ht, Option.or_none] at ha
      obtain ⟨v, rfl⟩ := List.getLast?_eq_some_iff.1 ha.symm
      have := ih v (x :: w) (by rw [he]; simp)
      simp only [List.mem_append, List.mem_singleton] at this ⊢
      exact .inl this
  have hdown : ∀ (n : Nat) (u : List Nat) (x : Nat) (w : List Nat), u.length = n → c = u ++ x :: w → ∀ y ∈ u ++ [x], Up s.links x y := by
    intro n
    induction n with
    | zero =>
      intro u x w hn _ y hy
      cases u with
      | nil => simp at hy; rw [hy]; exact .refl x
      | cons _ _ => simp at hn
    | succ n ih =>
      intro u x w hn he y hy
      rcases List.eq_nil_or_concat u with rfl | ⟨v, z, rfl⟩
      · simp at hn
      · have ha := (he ▸ hseg).above
        simp only [List.concat_eq_append, getLast?_append_cons, Option.some_or] at ha
        rcases List.mem_append.1 hy with hy | hy
        · exact .step ha (ih v z (x :: w) (by simpa using hn) (by rw [he]; simp) y (by simpa using hy))
        · rw [List.mem_singleton.1 hy]; exact .refl x
  obtain ⟨u, w, he⟩ := List.append_of_mem hrc
  have hroot : ∀ q ∈ u ++ [r], Root b q := by
    intro q hq
    refine (h.inv.rep.base.roots q).1 (List.mem_flatten.2 ⟨c, hc, ?_⟩)
    rw [he]
    simp only [List.mem_append, List.mem_singleton] at hq
    rcases hq with hq | hq <;> simp [hq]
  rw [h.attrs c hc u r w he p hp]
  constructor
  · rintro ⟨q, h1, h2⟩
    obtain ⟨o, ho, m, a, h3, h4, h5⟩ := (h.inv.attrs p hp q (hroot q h1)).1 h2
    refine ⟨m, a, q, ?_, h5, (h.values m q).2 h4, hdown _ u r w rfl he q h1⟩
    cases o <;> simp only [Op.notes, reduceCtorEq, Option.some.injEq, Prod.mk.injEq] at h3
    obtain ⟨rfl, rfl⟩ := h3
    exact ho
  · rintro ⟨m, a, q, h1, h2, h3, h4⟩
    have h5 := hup h4 u w he
    exact ⟨q, h5, (h.inv.attrs p hp q (hroot q h5)).2 ⟨_, h1, m, a, rfl, (h.values m q).1 h3, h2⟩⟩

/-! ## Shortening the ways -/

theorem C78.short {b : Builder} {i r : Nat} (hr : Root b r) (hi : (b.links i).remap.isSome) (hf : Find b i r) :
    ∀ k j x, b.findN k j = some x → (b.set i ((b.links i).to r)).findN k j = some x := by
  have hne : i ≠ r := fun e => by rw [e, hr.2] at hi; cases hi
  have hr' : Root (b.set i ((b.links i).to r)) r := ⟨hr.1, by rw [set_links, if_neg (Ne.symm hne)]; exact hr.2⟩
  intro k
  induction k with
  | zero =>
    intro j x h
    have hj := (Find.lt ⟨_, h⟩ : j < b.n)
    have h0 := h
    unfold Builder.findN at h ⊢
    rw [if_pos hj] at h
    rw [if_pos (show j < (b.set i ((b.links i).to r)).n from hj), set_links]
    by_cases he : j = i
    · subst he
      obtain ⟨z, hz⟩ := Option.isSome_iff_exists.1 hi
      rw [hz] at h
      cases h
    · rw [if_neg he]
      cases hm : (b.links j).remap with
      | none => simp only [hm] at h ⊢; exact h
      | some z => simp [hm] at h
  | succ k ih =>
    intro j x h
    have hj := (Find.lt ⟨_, h⟩ : j < b.n)
    have h0 := h
    unfold Builder.findN at h ⊢
    rw [if_pos hj] at h
    rw [if_pos (show j < (b.set i ((b.links i).to r)).n from hj), set_links]
    by_cases he : j = i
    · subst he
      rw [if_pos rfl]
      show (b.set j ((b.links j).to r)).findN k r = some x
      rw [findN_self hr', hf.det ⟨_, h0⟩]
    · rw [if_neg he]
      cases hm : (b.links j).remap with
      | none => simp only [hm] at h ⊢; exact h
      | some z => simp only [hm] at h ⊢; exact ih z x h

theorem C78.compress_find : ∀ (k : Nat) {b : Builder} {i r : Nat}, Root b r → Find b i r → ∀ m j x, b.findN m j = some x →
    (b.compress r k i).findN m j = some x := by
  intro k
  induction k with
  | zero => intro b i r _ _ m j x h; exact h
  | succ k ih =>
    intro b i r hr hf m j x h
    unfold Builder.compress
    cases hm : (b.links i).remap with
    | none => exact h
    | some z =>
      have hi : (b.links i).remap.isSome := by rw [hm]; rfl
      have hs := C78.short hr hi hf
      have hne : i ≠ r := fun e => by rw [e, hr.2] at hm; cases hm
      have hz : Find b z r := by
        obtain ⟨q, hq⟩ := hf
        unfold Builder.findN at hq
        split at hq
        · rw [hm] at hq
          cases q with
          | zero => cases hq
          | succ q => exact ⟨q, hq⟩
        · cases hq
      refine ih (b := b.set i ((b.links i).to r)) ⟨hr.1, by rw [set_links, if_neg (Ne.symm hne)]; exact hr.2⟩ ?_ m j x (hs m j x h)
      exact hz.elim fun q hq => ⟨q, hs q z r hq⟩

theorem C78.compress_links : ∀ (k : Nat) (b : Builder) (r i j : Nat), ((b.compress r k i).links j).above = (b.links j).above ∧
    ((b.compress r k i).links j).below = (b.links j).below ∧ ((b.compress r k i).links j).attrs = (b.links j).attrs ∧
    (b.compress r k i).n = b.n ∧ (b.compress r k i).values = b.values := by
  intro k
  induction k with
  | zero => intro b r i j; exact ⟨rfl, rfl, rfl, rfl, rfl⟩
  | succ k ih =>
    intro b r i j
    unfold Builder.compress
    cases (b.links i).remap with
    | none => exact ⟨rfl, rfl, rfl, rfl, rfl⟩
    | some z =>
      dsimp only
      obtain ⟨h1, h2, h3, h4, h5⟩ := ih (b.set i { b.links i with remap := some r }) r z j
      rw [h1, h2, h3, h4, h5]
      simp only [set_links]
      by_cases he : j = i
      · subst he; simp [Builder.set]
      · simp [he, Builder.set]

/-- **C78.** Shortening the ways in `linksAt` changes nothing but remaps, and not what any later look-up finds. -/
theorem C78_compress {ops : List Op} {b : Builder} (h : run ops = some b) {i r : Nat} (hi : b.linksAt i = some r) (j : Nat) :
    (b.compress r b.n i).linksAt j = b.linksAt j ∧ ((b.compress r b.n i).links j).above = (b.links j).above ∧
    ((b.compress r b.n i).links j).below = (b.links j).below ∧ ((b.compress r b.n i).links j).attrs = (b.links j).attrs ∧
    (b.compress r b.n i).n = b.n ∧ (b.compress r b.n i).values = b.values := by
  have hr : Ready ops := by
    have := C78.ready_of_run ops.reverse b (by rw [List.reverse_reverse]; exact h)
    rwa [List.reverse_reverse] at this
  obtain ⟨b', cs, h1, hinv⟩ := run_ok ops hr
  rw [h] at h1
  cases h1
  have hl := C78.compress_links b.n b r i j
  refine ⟨?_, hl⟩
  unfold Builder.linksAt
  rw [hl.2.2.2.1]
  by_cases hj : j < b.n
  · obtain ⟨x, hx⟩ := hinv.rep.base.exists hj
    have hx' := hinv.rep.base.linksAt hx
    unfold Builder.linksAt at hx'
    rw [hx']
    exact C78.compress_find _ (findN_root hi) ⟨_, hi⟩ _ _ _ hx'
  · have e : ∀ (b' : Builder) k, ¬ j < b'.n → b'.findN k j = none := by
      intro b' k hk
      unfold Builder.findN
      rw [if_neg hk]
    rw [e b _ hj, e _ _ (by rw [hl.2.2.2.1]; exact hj)]

/-- A way of two remaps becomes one of one. -/
example : ∃ b, run [.add ⟨0, 0⟩, .add ⟨1, 0⟩, .add ⟨2, 0⟩, .with_ ⟨0, 0⟩ ⟨1, 0⟩, .with_ ⟨1, 0⟩ ⟨2, 0⟩] = some b ∧
    ((List.range 3).map fun i => (b.links i).remap) = [some 1, some 2, none] ∧
    ((List.range 3).map fun i => ((b.compress 2 b.n 0).links i).remap) = [some 2, some 2, none] := by
  refine ⟨_, rfl, ?_, ?_⟩ <;> decide +kernel

end Phasar.Stratified
