import Verif.Path.FilterFlat
import Verif.Path.FilterOut
/-!
# Lemmas about the enumeration as a whole and the removal of duplicates
-/
namespace Phasar.PathFilter
open Phasar Dag
set_option linter.unusedSectionVars false

variable {N C M : Type} [DecidableEq N]

theorem flatten_ok {j : Job N C} {add : Option C} {holds : M → C → Prop} (hs : j.z.Sound holds)
    (hdis : ∀ n, j.p.isCall n = true → j.p.isExit n = false)
    (hg : InRange j.g) (hne : ∀ l ∈ j.g.nodes, l ≠ []) (hlf : Leaf j.g j.leaf) (hacc : ∀ r ∈ j.g.roots, Acc (fun t v => Succ j.g v t) r)
    (halive : ∀ r ∈ j.g.roots, ∀ u, Reach j.g r u → u = j.leaf ∨ j.g.adj[u]? ≠ some []) :
    ∃ k0, ∀ k, k0 ≤ k → ∃ ret, flatten j add k = some ret ∧
      (∀ e ∈ ret, ∃ r ∈ j.g.roots, ∃ us, Walk j.g r us j.leaf ∧ e = entry j (add.getD j.z.tt) (labelsFwd j.g us) ∧
        Accept j (add.getD j.z.tt) (labelsFwd j.g us)) ∧
      (ret.length < j.maxPaths → ∀ r ∈ j.g.roots, ∀ us, Walk j.g r us j.leaf → Accept j (add.getD j.z.tt) (labelsFwd j.g us) →
        (∃ m, holds m (add.getD j.z.tt) ∧ Feasible j.con holds m (labelsFwd j.g us)) →
        entry j (add.getD j.z.tt) (labelsFwd j.g us) ∈ ret) := by
  obtain ⟨k0, hk0⟩ := bound_all (P := fun t k0 => ∀ k, k0 ≤ k → ∀ (q : List N) (st : PSt N C), Ok j (add.getD j.z.tt) q st →
      st.cs.valid = true → ∃ st', flattenAt j k t st = some st' ∧ Post j (add.getD j.z.tt) holds q [t] st st')
      (fun t a b h hab k hk => h k (Nat.le_trans hab hk)) j.g.roots
      (fun t ht => flattenAt_ok hs hdis hg hne hlf (hacc t ht) (hg.roots t ht) (halive t ht))
  refine ⟨k0, fun k hk => ?_⟩
  have h0 : Ok j (add.getD j.z.tt) [] ⟨.new, .new (add.getD j.z.tt), [], none, [], 0⟩ :=
    ⟨rfl, rfl, ⟨rfl, fun S hS => by cases hS; exact .nil⟩, ⟨rfl, by simp [CPF.new], by simp [CPF.new], rfl⟩⟩
  obtain ⟨st, h1, h2, new, h3, h4, h5, h6⟩ := fold_ok (holds := holds) (rec := flattenAt j k) j.g.roots h0 rfl
    (fun t ht st ho hv => hk0 t ht k hk [] st ho hv)
  have h3 : st.ret = new := by simpa using h3
  have h4 : st.done = new.length := by simpa using h4
  refine ⟨new, by unfold flatten; rw [h1, Option.map_some, h3], fun e he => h5 e he, fun hl => h6 (by omega)⟩

/-! ## The number of paths -/

theorem pushAll_ret {j : Job N C} : ∀ (l : List N) {st st' : PSt N C}, l.foldlM (pushInst j) st = some st' → st'.ret = st.ret := by
  intro l
  induction l with
  | nil => intro st st' h; cases h; rfl
  | cons i l ih =>
    intro st st' h
    rw [List.foldlM_cons] at h
    obtain ⟨s, h1, h2⟩ := Option.bind_eq_some_iff.1 h
    rw [ih h2]
    unfold pushInst at h1
    split at h1
    · cases h1; rfl
    · obtain ⟨c, _, h3⟩ := Option.map_eq_some_iff.1 h1
      cases h3; rfl

theorem fold_len {rec : Nat → PSt N C → Option (PSt N C)} : ∀ (es : List Nat) (B : Nat → Nat),
    (∀ t ∈ es, ∀ st st', rec t st = some st' → st'.ret.length ≤ st.ret.length + B t) → ∀ st st', es.foldlM (fun s u => rec u s) st = some st' →
    st'.ret.length ≤ st.ret.length + (es.map B).sum := by
  intro es B
  induction es with
  | nil => intro _ st st' h; cases h; simp
  | cons t es ih =>
    intro hr st st' h
    rw [List.foldlM_cons] at h
    obtain ⟨s, h1, h2⟩ := Option.bind_eq_some_iff.1 h
    have a1 := hr t (.head _) _ _ h1
    have a2 := ih (fun t ht => hr t (.tail _ ht)) _ _ h2
    simp only [List.map_cons, List.sum_cons]
    omega

theorem leave_ret {st st' : PSt N C} {len : Nat} {prev : Option N} (h : leave st len prev = some st') : st'.ret = st.ret := by
  unfold leave at h
  split at h
  · obtain ⟨a, _, h⟩ := Option.bind_eq_some_iff.1 h
    obtain ⟨b, _, h⟩ := Option.map_eq_some_iff.1 h
    cases h; rfl
  · cases h

theorem atLeaf_len {j : Job N C} {st st' : PSt N C} (h : atLeaf j st = some st') : st'.ret.length ≤ st.ret.length + 1 := by
  unfold atLeaf at h
  obtain ⟨r, _, h⟩ := Option.bind_eq_some_iff.1 h
  split at h
  · cases h; simp
  · obtain ⟨q, _, h⟩ := Option.bind_eq_some_iff.1 h
    dsimp only at h
    split at h
    · cases h; simp
    · obtain ⟨m, _, h⟩ := Option.map_eq_some_iff.1 h
      cases h; simp

/-- The number of paths from a vertex has a bound that does not depend on the threshold. -/
theorem flattenAt_len (z : Z3 C) (con : Constr N C) (p : Prog N) (g : Adj.Graph (List N) Nat) (leaf : Nat) (final : N) {v : Nat}
    (hacc : Acc (fun t v => Succ g v t) v) : ∃ B, ∀ maxPaths k st st', flattenAt ⟨z, con, p, g, leaf, final, maxPaths⟩ k v st = some st' →
      st'.ret.length ≤ st.ret.length + B := by
  induction hacc with
  | intro v _ ih =>
    have hb : ∃ B : Nat → Nat, ∀ t, Succ g v t → ∀ maxPaths k st st', flattenAt ⟨z, con, p, g, leaf, final, maxPaths⟩ k t st = some st' →
        st'.ret.length ≤ st.ret.length + B t := by
      classical
      refine ⟨fun t => if h : Succ g v t then Classical.choose (ih t h) else 0, fun t ht => ?_⟩
      simp only [dif_pos ht]
      exact Classical.choose_spec (ih t ht)
    obtain ⟨B, hB⟩ := hb
    refine ⟨1 + (((g.adj[v]?).getD []).map B).sum, fun maxPaths k st st' h => ?_⟩
    cases k with
    | zero => cases h
    | succ k =>
      unfold flattenAt at h
      obtain ⟨l, _, h⟩ := Option.bind_eq_some_iff.1 h
      obtain ⟨cf, _, h⟩ := Option.bind_eq_some_iff.1 h
      obtain ⟨s1, h1, h⟩ := Option.bind_eq_some_iff.1 h
      obtain ⟨s2, h2, h⟩ := Option.bind_eq_some_iff.1 h
      rw [leave_ret h]
      have e1 : s1.ret = st.ret := (pushAll_ret _ h1).trans rfl
      rw [← e1]
      unfold goOn at h2
      split at h2
      · have := atLeaf_len h2; omega
      · obtain ⟨es, he, h2⟩ := Option.bind_eq_some_iff.1 h2
        have he : g.adj[v]? = some es := he
        split at h2
        · cases h2
        · split at h2
          · cases h2; omega
          · split at h2
            · cases h2; omega
            · dsimp only at h2
              split at h2
              · cases h2; dsimp only; omega
              · have := fold_len es B (fun t ht st st' h => hB t ⟨es, he, ht⟩ maxPaths k st st' h) _ _ h2
                dsimp only at this
                rw [he]
                simp only [Option.getD_some]
                omega

theorem flatten_len (z : Z3 C) (con : Constr N C) (p : Prog N) (g : Adj.Graph (List N) Nat) (leaf : Nat) (final : N)
    (hacc : ∀ r ∈ g.roots, Acc (fun t v => Succ g v t) r) : ∃ B, ∀ maxPaths add k ret,
      flatten ⟨z, con, p, g, leaf, final, maxPaths⟩ add k = some ret → ret.length ≤ B := by
  have hb : ∃ B : Nat → Nat, ∀ t ∈ g.roots, ∀ maxPaths k st st', flattenAt ⟨z, con, p, g, leaf, final, maxPaths⟩ k t st = some st' →
      st'.ret.length ≤ st.ret.length + B t := by
    refine ⟨fun t => if h : t ∈ g.roots then Classical.choose (flattenAt_len z con p g leaf final (hacc t h)) else 0, fun t ht => ?_⟩
    simp only [dif_pos ht]
    exact Classical.choose_spec (flattenAt_len z con p g leaf final (hacc t ht))
  obtain ⟨B, hB⟩ := hb
  refine ⟨(g.roots.map B).sum, fun maxPaths add k ret h => ?_⟩
  obtain ⟨st, h1, h2⟩ := Option.map_eq_some_iff.1 h
  have := fold_len g.roots B (fun t ht st st' h => hB t ht maxPaths k st st' h) _ _ h1
  rw [← h2]
  simpa using this

/-! ## Duplicates -/

section
variable {A B : Type} (f : A → B) (lt : B → B → Bool)

theorem map_insert (x : A) (l : List A) :
    (Adj.insertSorted (fun a b => lt (f a) (f b)) x l).map f = Adj.insertSorted lt (f x) (l.map f) := by
  induction l with
  | nil => rfl
  | cons y ys ih =>
    simp only [Adj.insertSorted, List.map_cons]
    split <;> simp [ih]

theorem map_sort (l : List A) : (Adj.sort (fun a b => lt (f a) (f b)) l).map f = Adj.sort lt (l.map f) := by
  induction l with
  | nil => rfl
  | cons x xs ih => simp only [Adj.sort, List.map_cons]; rw [map_insert, ih]

theorem map_unique [DecidableEq B] : ∀ (n : Nat) (l : List A), l.length ≤ n → (uniqueBy f l).map f = Adj.unique (l.map f)
  | _, [], _ => by simp [uniqueBy, Adj.unique]
  | _, [x], _ => by simp [uniqueBy, uniqueFrom, Adj.unique]
  | 0, _ :: _ :: _, h => by simp at h
  | n + 1, x :: y :: ys, h => by
    have h1 := map_unique n (x :: ys) (by simpa using h)
    have h2 := map_unique n (y :: ys) (by simpa using h)
    rw [uniqueBy, uniqueFrom]
    simp only [List.map_cons, Adj.unique, uniqueBy] at h1 h2 ⊢
    by_cases hxy : f x = f y
    · rw [if_pos hxy, if_pos hxy, h1, hxy]
    · rw [if_neg hxy, if_neg hxy, List.map_cons, h2]

theorem unique_sub [DecidableEq B] : ∀ (n : Nat) (l : List A), l.length ≤ n → ∀ x ∈ uniqueBy f l, x ∈ l
  | _, [], _ => by simp [uniqueBy]
  | _, [x], _ => by simp [uniqueBy, uniqueFrom]
  | 0, _ :: _ :: _, h => by simp at h
  | n + 1, x :: y :: ys, h => by
    intro e he
    have h1 := unique_sub n (x :: ys) (by simpa using h) e
    have h2 := unique_sub n (y :: ys) (by simpa using h) e
    rw [uniqueBy, uniqueFrom] at he
    split at he
    · rcases List.mem_cons.1 (h1 he) with rfl | h3
      · exact .head _
      · exact .tail _ (.tail _ h3)
    · rcases List.mem_cons.1 he with rfl | he
      · exact .head _
      · exact .tail _ (h2 he)

end

theorem pathLt_total {addr : N → Nat} (ha : ∀ a b, addr a = addr b → a = b) : Adj.StrictTotal (pathLt addr) := by
  have hinj : ∀ (p q : List N), p.map addr = q.map addr → p = q := by
    intro p q h
    exact (List.map_inj_right (fun a b h => ha a b h)).1 h
  refine ⟨fun a => ?_, fun a b c h1 h2 => ?_, fun a b h1 h2 => ?_⟩
  · simp [pathLt, List.lt_irrefl]
  · simp only [pathLt, Bool.or_eq_true, Bool.and_eq_true, decide_eq_true_eq] at *
    rcases h1 with h1 | ⟨h1, h1'⟩
    · left; rcases h2 with h2 | ⟨h2, _⟩ <;> omega
    · rcases h2 with h2 | ⟨h2, h2'⟩
      · left; omega
      · right; exact ⟨by omega, List.lt_trans h1' h2'⟩
  · simp only [pathLt, Bool.or_eq_false_iff, Bool.and_eq_false_iff, decide_eq_false_iff_not] at *
    have hl : a.length = b.length := by omega
    have g1 : ¬ a.map addr < b.map addr := h1.2.resolve_left (fun h => h hl)
    have g2 : ¬ b.map addr < a.map addr := h2.2.resolve_left (fun h => h hl.symm)
    exact hinj a b (List.le_antisymm (show a.map addr ≤ b.map addr from g2) g1)

theorem dedup_ok {addr : N → Nat} (ha : ∀ a b, addr a = addr b → a = b) (ps : List (List N × C × List C)) :
    (∀ e ∈ dedup addr ps, e ∈ ps) ∧ (∀ q, q ∈ (dedup addr ps).map (·.1) ↔ q ∈ ps.map (·.1)) ∧ ((dedup addr ps).map (·.1)).Nodup := by
  have hm : (dedup addr ps).map (·.1) = Adj.unique (Adj.sort (pathLt addr) (ps.map (·.1))) := by
    unfold dedup
    rw [map_unique _ _ _ (Nat.le_refl _), map_sort (fun e : List N × C × List C => e.1) (pathLt addr)]
  refine ⟨fun e he => ?_, fun q => ?_, ?_⟩
  · exact (Adj.sort_perm _ ps).mem_iff.1 (unique_sub _ _ _ (Nat.le_refl _) e he)
  · rw [hm, Adj.mem_unique]
    exact (Adj.sort_perm _ _).mem_iff
  · rw [hm]
    exact Adj.unique_nodup (pathLt_total ha) _ (Adj.sort_sorted (pathLt_total ha) _)

theorem findLeaf_ok {g : Adj.Graph (List N) Nat} : (∀ e, findLeaf g = some e → Leaf g e) ∧ ((∃ e, Leaf g e) → ∃ e, findLeaf g = some e) := by
  unfold findLeaf
  constructor
  · intro e h
    have := List.find?_some h
    exact of_decide_eq_true (p := g.adj[e]? = some []) this
  · rintro ⟨e, he⟩
    have hlt : e < g.adj.length := (List.getElem?_eq_some_iff.1 he).1
    cases hf : (List.range g.adj.length).find? (fun v => decide (g.adj[v]? = some [])) with
    | some e' => exact ⟨e', rfl⟩
    | none =>
      have he : g.adj[e]? = some [] := he
      exact absurd (decide_eq_true he) (List.find?_eq_none.1 hf e (List.mem_range.2 hlt))

end Phasar.PathFilter
