/-!
# Join lattices

Models the lattice interface of phasar.
-/
namespace Phasar

/-- Models `JoinLatticeTraits<L>` / `JoinLattice<AnalysisDomainTy>`
(`include/phasar/Utils/JoinLattice.h:25-83`): `topElement()`, `bottomElement()`, `join()`.
In phasar `Top` means "no information" and is the neutral element of `join`, `Bottom` means "all
information".  The laws are the documented expectation on a join lattice; every result that needs
them takes this class as an assumption. -/
class JoinLat (L : Type) where
  join : L → L → L
  top : L
  bottom : L
  join_assoc : ∀ a b c : L, join (join a b) c = join a (join b c)
  join_comm : ∀ a b : L, join a b = join b a
  join_idem : ∀ a : L, join a a = a
  top_join : ∀ a : L, join top a = a
  bottom_join : ∀ a : L, join bottom a = bottom

namespace JoinLat
variable {L : Type} [JoinLat L]

/-- The order induced by `join`: `a ⊑ b` when joining `a` into `b` changes nothing. -/
def le (a b : L) : Prop := join a b = b

scoped infix:50 " ⊑ " => JoinLat.le

theorem le_refl (a : L) : a ⊑ a := join_idem a

theorem le_of_eq {a b : L} (h : a = b) : a ⊑ b := h ▸ le_refl a

theorem le_trans {a b c : L} (h1 : a ⊑ b) (h2 : b ⊑ c) : a ⊑ c := by
  unfold le at *
  rw [← h2, ← join_assoc, h1]

theorem le_antisymm {a b : L} (h1 : a ⊑ b) (h2 : b ⊑ a) : a = b := by
  unfold le at *
  rw [← h2, join_comm, h1]

theorem top_le (a : L) : (top : L) ⊑ a := top_join a

theorem le_bottom (a : L) : a ⊑ (bottom : L) := by
  unfold le; rw [join_comm]; exact bottom_join a

theorem le_join_left (a b : L) : a ⊑ join a b := by
  unfold le; rw [← join_assoc, join_idem]

theorem le_join_right (a b : L) : b ⊑ join a b := by
  rw [join_comm]; exact le_join_left b a

theorem join_le {a b c : L} (h1 : a ⊑ c) (h2 : b ⊑ c) : join a b ⊑ c := by
  unfold le at *
  rw [join_assoc, h2, h1]

theorem join_mono {a b c d : L} (h1 : a ⊑ c) (h2 : b ⊑ d) : join a b ⊑ join c d :=
  join_le (le_trans h1 (le_join_left c d)) (le_trans h2 (le_join_right c d))

theorem join_top (a : L) : join a top = a := by rw [join_comm]; exact top_join a

theorem eq_top_of_le_top {a : L} (h : a ⊑ (top : L)) : a = top := le_antisymm h (top_le a)

/-- Specification: `y` is the least upper bound of the set `S`. -/
def IsLub (S : L → Prop) (y : L) : Prop :=
  (∀ v, S v → v ⊑ y) ∧ ∀ u, (∀ v, S v → v ⊑ u) → y ⊑ u

theorem IsLub.unique {S : L → Prop} {y z : L} (hy : IsLub S y) (hz : IsLub S z) : y = z :=
  le_antisymm (hy.2 z hz.1) (hz.2 y hy.1)

/-- `JoinOf S y`: `y` is a non-empty finite join of elements of `S`. -/
inductive JoinOf (S : L → Prop) : L → Prop
  | one {v : L} : S v → JoinOf S v
  | join {a b : L} : JoinOf S a → JoinOf S b → JoinOf S (JoinLat.join a b)

theorem JoinOf.le_of_ub {S : L → Prop} {y u : L} (h : JoinOf S y)
    (hu : ∀ v, S v → v ⊑ u) : y ⊑ u := by
  induction h with
  | one h => exact hu _ h
  | join _ _ ih1 ih2 => exact join_le ih1 ih2

theorem JoinOf.nonempty {S : L → Prop} {y : L} (h : JoinOf S y) : ∃ v, S v := by
  induction h with
  | one h => exact ⟨_, h⟩
  | join _ _ ih1 _ => exact ih1

theorem JoinOf.map {S T : L → Prop} {y : L} {f : L → L} (h : JoinOf S y)
    (hd : ∀ a b, f (JoinLat.join a b) = JoinLat.join (f a) (f b))
    (hf : ∀ v, S v → JoinOf T (f v)) : JoinOf T (f y) := by
  induction h with
  | one h => exact hf _ h
  | join _ _ ih1 ih2 => rw [hd]; exact .join ih1 ih2

theorem JoinOf.mono {S T : L → Prop} {y : L} (h : JoinOf S y) (hf : ∀ v, S v → T v) :
    JoinOf T y := by
  induction h with
  | one h => exact .one (hf _ h)
  | join _ _ ih1 ih2 => exact .join ih1 ih2

end JoinLat
end Phasar
