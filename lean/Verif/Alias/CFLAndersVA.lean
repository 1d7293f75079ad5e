import Verif.Alias.CFLAndersLemmas
import Verif.Alias.CFLAndersSpec

/-! # The closure of the CFL-based alias analysis and the grammar -/
namespace Phasar.CFLAnders

variable {g : Graph}

/-- The place in the word a state stands for. -/
def MState.ph : MState → Ph
  | .fromRO => .fr
  | .fromMemNo | .fromMemRO => .frM
  | .toWO | .toRW => .to
  | .toMemWO | .toMemRW => .toM

theorem Der.va {x y : Node} {q : MState} (h : Der g x y q) : VA g x y q.ph := by
  induction h with
  | back0 h _ => exact .back (.refl _) (.inl rfl) h
  | fwd0 h _ => exact .fwd (.refl _) h
  | @fwd _ _ _ p _ h _ ih => cases p <;> exact .fwd ih h
  | @rev _ _ _ p q _ hq h _ ih =>
    cases p <;> simp only [MState.rev, Option.some.injEq, reduceCtorEq] at hq <;> subst hq
    · exact .back ih (.inl rfl) h
    · exact .back ih (.inr rfl) h
    · exact .back ih (.inr rfl) h
  | mem0 _ h1 h2 _ ih => exact .memF (.refl _) ih h1 h2
  | @mem _ _ _ p q _ _ hq _ h1 h2 _ ih ih' =>
    cases p <;> simp only [MState.mem, Option.some.injEq, reduceCtorEq] at hq <;> subst hq
    · exact .memF ih ih' h1 h2
    · exact .memT ih ih' h1 h2
    · exact .memT ih ih' h1 h2

/-- A state from which at least as much can follow as from a place. -/
def Good (q : MState) : Ph → Prop
  | .fr => q.ph = .fr
  | .frM => q.ph = .fr ∨ q.ph = .frM
  | .to => q.ph = .fr ∨ q.ph = .to
  | .toM => True

theorem VA.der {x y : Node} {p : Ph} (h : VA g x y p) : x = y ∨ ∃ q, Der g x y q ∧ Good q p := by
  induction h with
  | refl => exact .inl rfl
  | @back x y z p h0 hp h ih =>
    by_cases he : x = z
    · exact .inl he
    right
    rcases ih with rfl | ⟨q, hq, hg⟩
    · exact ⟨_, .back0 h he, rfl⟩
    · refine ⟨.fromRO, .rev hq ?_ h he, rfl⟩
      rcases hp with rfl | rfl <;> cases q <;> simp_all [Good, MState.ph, MState.rev]
  | @fwd x y z p h0 h ih =>
    by_cases he : x = z
    · exact .inl he
    right
    rcases ih with rfl | ⟨q, hq, hg⟩
    · exact ⟨_, .fwd0 h he, .inr rfl⟩
    · exact ⟨_, .fwd hq h he, by cases q <;> exact .inr rfl⟩
  | @memF x u v q h0 _ h1 h2 ih ih' =>
    by_cases he : x = v.below
    · exact .inl he
    right
    rcases ih' with rfl | ⟨q', hq', _⟩
    · rcases ih with rfl | ⟨q, hq, hg⟩
      · exact absurd rfl he
      · exact ⟨q, hq, .inl hg⟩
    · rcases ih with rfl | ⟨q, hq, hg⟩
      · exact ⟨_, .mem0 hq' h1 h2 he, .inr rfl⟩
      · refine ⟨.fromMemRO, .mem hq ?_ hq' h1 h2 he, .inr rfl⟩
        cases q <;> simp_all [Good, MState.ph, MState.mem]
  | @memT x u v q h0 _ h1 h2 ih ih' =>
    by_cases he : x = v.below
    · exact .inl he
    right
    rcases ih' with rfl | ⟨q', hq', _⟩
    · rcases ih with rfl | ⟨q, hq, hg⟩
      · exact absurd rfl he
      · exact ⟨q, hq, trivial⟩
    · rcases ih with rfl | ⟨q, hq, hg⟩
      · exact ⟨_, .mem0 hq' h1 h2 he, trivial⟩
      · have : ∃ r, q.mem = some r := by cases q <;> simp_all [Good, MState.ph, MState.mem]
        obtain ⟨r, hr⟩ := this
        exact ⟨r, .mem hq hr hq' h1 h2 he, trivial⟩

theorem Der.ne {x y : Node} {q : MState} (h : Der g x y q) : x ≠ y := by cases h <;> assumption

/-- The pairs of the closure are the pairs of the grammar. -/
theorem der_iff_va {x y : Node} : (∃ q, Der g x y q) ↔ x ≠ y ∧ ∃ p, VA g x y p :=
  ⟨fun ⟨_, h⟩ => ⟨h.ne, _, h.va⟩, fun ⟨hne, _, h⟩ => by
    rcases h.der with h | ⟨q, hq, _⟩
    · exact absurd h hne
    · exact ⟨q, hq⟩⟩

/-! ## Symmetry -/

/-- Two words that end at the same node, the second of which can be read backwards after the first. -/
def Compat : Ph → Ph → Prop
  | .fr, _ => True
  | .frM, r => r = .fr ∨ r = .to
  | .to, r => r = .fr ∨ r = .frM
  | .toM, r => r = .fr

theorem compat_fr (p : Ph) : Compat p .fr := by cases p <;> simp [Compat]

theorem VA.turn {x y : Node} {p : Ph} (h : VA g x y p) : ∀ z r, VA g z y r → Compat p r → ∃ q, VA g z x q := by
  induction h with
  | refl => exact fun z r h _ => ⟨r, h⟩
  | back _ hp h ih =>
    intro z r hz _
    refine ih z .to (.fwd hz h) ?_
    rcases hp with rfl | rfl
    · trivial
    · exact .inr rfl
  | @fwd _ _ _ p _ h ih =>
    intro z r hz hr
    refine ih z .fr (.back hz hr h) ?_
    cases p
    · trivial
    · exact .inl rfl
    · exact .inl rfl
    · rfl
  | memF _ _ h1 h2 ih ih' =>
    intro z r hz hr
    obtain ⟨q, hq⟩ := ih' _ .fr (.refl _) (compat_fr _)
    rcases hr with rfl | rfl
    · exact ih z .frM (.memF hz hq h2 h1) trivial
    · exact ih z .toM (.memT hz hq h2 h1) trivial
  | memT _ _ h1 h2 ih ih' =>
    intro z r hz hr
    obtain ⟨q, hq⟩ := ih' _ .fr (.refl _) (compat_fr _)
    cases hr
    exact ih z .frM (.memF hz hq h2 h1) (.inr rfl)

theorem VA.symm {x y : Node} {p : Ph} (h : VA g x y p) : ∃ q, VA g y x q :=
  h.turn y .fr (.refl _) (compat_fr _)

/-! ## Flows -/

/-- The part of a word along assignments: what `s` holds flows to `n`.  The flag: the last step is a memory alias. -/
inductive Fl (g : Graph) (s : Node) : Node → Bool → Prop
  | base : Fl g s s false
  | fwd {y z b} : Fl g s y b → (y, z) ∈ g.edges → Fl g s z false
  | mem {u v q} : Fl g s u.below false → VA g u v q → g.has u.below = true → g.has v.below = true → Fl g s v.below true

theorem VA.lvl0 {x y : Node} {p : Ph} (h : VA g x y p) (hy : y.lvl = 0) : p = .fr ∨ p = .to := by
  cases h
  · exact .inl rfl
  · exact .inl rfl
  · exact .inr rfl
  · simp [Node.below] at hy
  · simp [Node.below] at hy

theorem Fl.back {s x : Node} {b : Bool} (hs : s.lvl = 0) (h : Fl g s x b) : ∀ z r, VA g z x r →
    (r = .fr ∨ (b = false ∧ r = .frM)) → VA g z s .fr := by
  induction h with
  | base =>
    intro z r hz hr
    rcases hr with rfl | ⟨_, rfl⟩
    · exact hz
    · rcases hz.lvl0 hs with h | h <;> cases h
  | fwd _ h ih =>
    intro z r hz hr
    exact ih z .fr (.back hz (hr.imp id (·.2)) h) (.inl rfl)
  | mem _ hv h1 h2 ih =>
    intro z r hz hr
    obtain ⟨q, hq⟩ := hv.symm
    rcases hr with rfl | ⟨h, _⟩
    · exact ih z .frM (.memF hz hq h2 h1) (.inr ⟨rfl, rfl⟩)
    · cases h

theorem Fl.append {s x z : Node} {b : Bool} (h : Fl g s x b) (hz : VA g z s .fr) :
    ∃ p, VA g z x p ∧ (b = false → p = .fr ∨ p = .to) := by
  induction h with
  | base => exact ⟨_, hz, fun _ => .inl rfl⟩
  | fwd _ h ih =>
    obtain ⟨p, hp, _⟩ := ih
    exact ⟨_, .fwd hp h, fun _ => .inr rfl⟩
  | mem _ hv h1 h2 ih =>
    obtain ⟨p, hp, hq⟩ := ih
    rcases hq rfl with rfl | rfl
    · exact ⟨_, .memF hp hv h1 h2, fun h => nomatch h⟩
    · exact ⟨_, .memT hp hv h1 h2, fun h => nomatch h⟩

/-- What flows to two nodes makes them value aliases. -/
theorem Fl.alias {s x y : Node} {b b' : Bool} (hs : s.lvl = 0) (hx : Fl g s x b) (hy : Fl g s y b') : ∃ p, VA g x y p := by
  have h := hx.back hs x .fr (.refl _) (.inl rfl)
  obtain ⟨p, hp, _⟩ := hy.append h
  exact ⟨p, hp⟩

theorem Fl.va {s x : Node} {b : Bool} (h : Fl g s x b) : ∃ p, VA g s x p := by
  obtain ⟨p, hp, _⟩ := h.append (.refl s)
  exact ⟨p, hp⟩

end Phasar.CFLAnders
