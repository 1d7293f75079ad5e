import Verif.Path.DagQuery
/-!
# The extraction of paths ends
-/
namespace Phasar.Dag
set_option linter.unusedSectionVars false

variable {V N : Type} [DecidableEq V] {lk : Links V N} {f : Filter V}

/-- No conditions. -/
theorem Params.trivial (lk : Links V N) (f : Filter V) : Params lk f (fun _ => True) (fun _ _ => True) :=
  ⟨fun _ _ _ => True.intro, fun _ _ => True.intro, fun _ _ _ => True.intro, fun _ _ => True.intro⟩

/-- The number of nodes without a cache entry. -/
def todo (all : List V) (st : St V N) : Nat := (all.filter fun v => decide (st.cache v = none)).length

theorem filter_length_le {A : Type} (p q : A → Bool) : ∀ (l : List A), (∀ a ∈ l, p a = true → q a = true) →
    (l.filter p).length ≤ (l.filter q).length := by
  intro l
  induction l with
  | nil => intro _; exact Nat.le_refl _
  | cons a l ih =>
    intro h
    have ih := ih fun b hb => h b (.tail _ hb)
    have ha := h a (.head _)
    simp only [List.filter_cons]
    cases hp : p a <;> cases hq : q a <;> simp_all <;> omega

theorem filter_length_lt {A : Type} (p q : A → Bool) : ∀ (l : List A), (∀ a ∈ l, p a = true → q a = true) →
    (∃ a ∈ l, p a = false ∧ q a = true) → (l.filter p).length < (l.filter q).length := by
  intro l
  induction l with
  | nil => rintro _ ⟨a, ha, _⟩; cases ha
  | cons a l ih =>
    rintro h ⟨b, hb, hb1, hb2⟩
    have hle := filter_length_le p q l fun b hb => h b (.tail _ hb)
    have ha := h a (.head _)
    simp only [List.filter_cons]
    rcases List.mem_cons.1 hb with rfl | hb
    · simp [hb1, hb2]; omega
    · have ih := ih (fun b hb => h b (.tail _ hb)) ⟨b, hb, hb1, hb2⟩
      cases hp : p a <;> cases hq : q a <;> simp_all <;> omega

theorem todo_le {all : List V} {st st' : St V N} (h : ∀ u x, st.cache u = some x → st'.cache u = some x) : todo all st' ≤ todo all st := by
  refine filter_length_le _ _ all fun a _ ha => ?_
  simp only [decide_eq_true_eq] at *
  cases hc : st.cache a with
  | none => rfl
  | some x => rw [h a x hc] at ha; cases ha

theorem todo_lt {all : List V} {st st' : St V N} (h : ∀ u x, st.cache u = some x → st'.cache u = some x) {v : V} (hv : v ∈ all)
    (h1 : st.cache v = none) (h2 : st'.cache v ≠ none) : todo all st' < todo all st := by
  refine filter_length_lt _ _ all (fun a _ ha => ?_) ⟨v, hv, by simpa using h2, by simpa using h1⟩
  simp only [decide_eq_true_eq] at *
  cases hc : st.cache a with
  | none => rfl
  | some x => rw [h a x hc] at ha; cases ha

abbrev T0 : V → Prop := fun _ => True

theorem addEdge_total {T : Type} {d : Adj.Graph T Nat} {v : Nat} (u : Nat) (h : v < d.adj.length) :
    ∃ d', Adj.addEdge d v u = some d' := by
  unfold Adj.addEdge
  rw [List.getElem?_eq_getElem h]
  exact ⟨_, rfl⟩

theorem traverse_total {rec : V → St V N → Option (St V N × Option Nat)} (hrec : RecOK lk f T0 (fun _ _ => True) rec) {st : St V N}
    {q : V} {ret : Nat} (hi : Inv lk f T0 st) (hret : ret < st.dag.adj.length) (ht : ∃ r, rec q st = some r) :
    ∃ st', traverse rec ret st q = some st' := by
  obtain ⟨⟨st₁, r⟩, h⟩ := ht
  have post := hrec q st st₁ r h hi (fun _ _ _ _ => True.intro)
  unfold traverse
  rw [h]
  dsimp only [Option.bind_some]
  cases r with
  | none => exact ⟨_, rfl⟩
  | some u =>
    dsimp only
    split
    · exact ⟨_, rfl⟩
    · obtain ⟨d, hd⟩ := addEdge_total u (Nat.lt_of_lt_of_le hret post.frame.len)
      rw [hd]; exact ⟨_, rfl⟩

theorem nbrs_total {all : List V} {rec : V → St V N → Option (St V N × Option Nat)} (hrec : RecOK lk f T0 (fun _ _ => True) rec) {k : Nat}
    (ht : ∀ q st, Inv lk f T0 st → todo all st < k → ∃ r, rec q st = some r) {st₀ : St V N} {v prev x : V} {ret w : Nat} {ls : List N}
    {b₁ b₂ : Bool} (hr : st₀.dag.adj.length = ret) (hi₀ : Inv lk f T0 st₀) (hw : walk lk f w v = some (ls, .at prev x b₁ b₂)) :
    ∀ (qs : List V) (st : St V N) (b : Bool) (es : List Nat), (∀ q ∈ qs, q ∈ lk.nbrs x) →
      J lk f T0 st₀ v ret ls (.at prev x b₁ b₂) es st → todo all st < k →
      ∃ s, qs.foldlM (traverseNbr f rec ret prev) (st, b) = some s := by
  intro qs
  induction qs with
  | nil => intro st b es _ _ _; exact ⟨_, rfl⟩
  | cons q qs ih =>
    intro st b es hqs hj hm
    rw [List.foldlM_cons]
    have hqs' : ∀ q ∈ qs, q ∈ lk.nbrs x := fun q hq => hqs q (.tail _ hq)
    unfold traverseNbr
    split
    · exact ih st b es hqs' hj hm
    · rename_i hc
      split
      · exact ih st true es hqs' hj hm
      · rename_i hc2
        have hret : ret < st.dag.adj.length := (List.getElem?_eq_some_iff.1 hj.adj).1
        obtain ⟨st', h'⟩ := traverse_total hrec hj.inv hret (ht q st hj.inv hm)
        rw [h']
        obtain ⟨es₁, k1, k2, k3, k4⟩ := traverse_ok (Params.trivial lk f) hrec hr hi₀ (fun _ _ _ _ => True.intro) hw hj (q := q)
          ⟨⟨x, (walk_wf hw).1, .inr (hqs q (.head _))⟩, by simpa using hc2, by simpa using hc⟩ h'
        exact ih st' b es₁ hqs' k1 (Nat.lt_of_le_of_lt (todo_le k4) hm)

theorem la_total {all : List V} (hall : ∀ v, v ∈ all) {w : Nat} (hw : ∀ v, walk lk f w v ≠ none) : ∀ (k : Nat) (v : V) (st : St V N),
    Inv lk f T0 st → todo all st < k → ∃ r, la lk f w k v st = some r := by
  intro k
  induction k with
  | zero => intro v st _ h; omega
  | succ k ih =>
    intro v st hi hm
    unfold la
    cases hv : st.cache v with
    | some x => exact ⟨_, rfl⟩
    | none =>
      dsimp only
      obtain ⟨⟨ls, stop⟩, hl⟩ := Option.ne_none_iff_exists'.1 (hw v)
      rw [hl]
      dsimp only [Option.bind_some]
      have hj := J.init (lk := lk) (f := f) (dead := T0) hi hv ls stop
      have hr : st.dag.adj.length = st.dag.nodes.length := hi.wf
      have hnotin : st.dag.nodes.length ∉ st.path := fun h => by have := hi.path _ h; omega
      suffices h : ∃ s, visit lk f (la lk f w k) (Adj.addNode st.dag ls).2
          { St.put st v (some (Adj.addNode st.dag ls).2) with dag := (Adj.addNode st.dag ls).1 } stop = some s by
        obtain ⟨s, hs⟩ := h
        rw [hs]
        exact ⟨_, rfl⟩
      cases stop with
      | ended b => exact ⟨_, rfl⟩
      | «at» prev x isEnd isErr =>
        have hwf := walk_wf hl
        have hrec := la_ok (Params.trivial lk f) w k
        have hm0 : ∀ {es s}, J lk f T0 st v st.dag.nodes.length ls (.at prev x isEnd isErr) es s → todo all s < k := by
          intro es s hj'
          have := todo_lt (all := all) hj'.cache (hall v) hv (by rw [hj'.self]; nofun)
          omega
        have hret0 : ∀ {es s}, J lk f T0 st v st.dag.nodes.length ls (.at prev x isEnd isErr) es s →
            st.dag.nodes.length < s.dag.adj.length := fun hj' => (List.getElem?_eq_some_iff.1 hj'.adj).1
        unfold visit
        dsimp only
        rw [if_neg (by exact hnotin)]
        obtain ⟨es₁, s₁, h1, j1⟩ : ∃ es₁ s₁, (if (!isEnd && !isErr) = true then
            traverse (la lk f w k) (Adj.addNode st.dag ls).2
              { St.put { st with dag := (Adj.addNode st.dag ls).1 } v (some st.dag.nodes.length) with path := st.path ++ [st.dag.nodes.length] } x
            else some { St.put { st with dag := (Adj.addNode st.dag ls).1 } v (some st.dag.nodes.length) with
              path := st.path ++ [st.dag.nodes.length] }) = some s₁ ∧
            J lk f T0 st v st.dag.nodes.length ls (.at prev x isEnd isErr) es₁ s₁ := by
          split
          · rename_i hc
            obtain ⟨hwf1, hwf2, hwf3⟩ := hwf
            simp only [Bool.and_eq_true, Bool.not_eq_true'] at hc
            rw [hc.1] at hwf2
            rw [hc.2, ← hwf2] at hwf3
            obtain ⟨s₁, h1⟩ := traverse_total hrec hj.inv (hret0 hj) (ih x _ hj.inv (hm0 hj))
            obtain ⟨es₁, j1, _⟩ := traverse_ok (Params.trivial lk f) hrec hr hi (fun _ _ _ _ => True.intro) hl hj (q := x)
              ⟨⟨x, hwf1, .inl rfl⟩, hwf2.symm, by simpa using hwf3.symm⟩ h1
            exact ⟨es₁, s₁, h1, j1⟩
          · exact ⟨[], _, rfl, hj⟩
        obtain ⟨⟨s₂, b⟩, h2⟩ := nbrs_total hrec ih hr hi hl (lk.nbrs x) s₁ isEnd es₁ (fun _ h => h) j1 (hm0 j1)
        obtain ⟨es₂, j2, _⟩ := nbrs_ok (Params.trivial lk f) hrec hr hi (fun _ _ _ _ => True.intro) hl _ _ _ _ _ _ (fun _ h => h) j1 h2
        refine Exists.imp (fun s hs => (Option.bind_eq_some_iff.2 ⟨s₁, h1, Option.bind_eq_some_iff.2 ⟨(s₂, b), h2, hs⟩⟩)) ?_
        have hd : ∃ d, Adj.dedupOutEdges natLt s₂.dag (Adj.addNode st.dag ls).2 = some d := by
          unfold Adj.dedupOutEdges
          rw [show s₂.dag.adj[(Adj.addNode st.dag ls).2]? = some es₂ from j2.adj]
          exact ⟨_, rfl⟩
        obtain ⟨d, hd⟩ := hd
        obtain ⟨e1, e2, he1, rfl, _⟩ := dedup_some hd
        dsimp only
        rw [hd]
        dsimp only [Option.bind_some]
        have : (s₂.dag.adj.set (Adj.addNode st.dag ls).2 e2)[(Adj.addNode st.dag ls).2]? = some e2 :=
          List.getElem?_set_self (hret0 j2)
        rw [show Adj.outDegree { s₂.dag with adj := s₂.dag.adj.set (Adj.addNode st.dag ls).2 e2 } (Adj.addNode st.dag ls).2 =
          some e2.length from by unfold Adj.outDegree; rw [this]; rfl]
        exact ⟨_, rfl⟩

theorem link_total {all : List V} (hall : ∀ v, v ∈ all) {w k : Nat} (hw : ∀ v, walk lk f w v ≠ none) (hk : all.length < k) {inst : N}
    {st₀ : St V N} {ret : Nat} (hr : st₀.dag.adj.length = ret) (hi₀ : Inv lk f T0 st₀) :
    ∀ (l qs : List V) (es : List Nat) (st : St V N), K lk f T0 inst st₀ ret qs es st →
      ∃ st', l.foldlM (link (la lk f w k) ret) st = some st' := by
  intro l
  induction l with
  | nil => intro qs es st _; exact ⟨_, rfl⟩
  | cons q l ih =>
    intro qs es st hK
    have hm : todo all st < k := Nat.lt_of_le_of_lt (List.length_filter_le _ _) hk
    obtain ⟨⟨st₁, r⟩, h1⟩ := la_total hall hw k q st hK.inv hm
    have post := la_ok (Params.trivial lk f) w k q st st₁ r h1 hK.inv (fun _ _ _ _ => True.intro)
    have hret : ret < st.dag.adj.length := (List.getElem?_eq_some_iff.1 hK.adj).1
    have h2 : ∃ st', link (la lk f w k) ret st q = some st' := by
      unfold link
      rw [h1]
      dsimp only [Option.bind_some]
      cases r with
      | none => exact ⟨_, rfl⟩
      | some u =>
        obtain ⟨d, hd⟩ := addEdge_total u (Nat.lt_of_lt_of_le hret post.frame.len)
        dsimp only
        rw [hd]; exact ⟨_, rfl⟩
    obtain ⟨st', h2⟩ := h2
    obtain ⟨es', hK', _⟩ := link_ok (Params.trivial lk f) hr hi₀ hK h2
    obtain ⟨s, hs⟩ := ih _ _ _ hK'
    exact ⟨s, by rw [List.foldlM_cons, h2]; exact hs⟩

theorem queryOne_total {all : List V} (hall : ∀ v, v ∈ all) {w k : Nat} (hw : ∀ v, walk lk f w v ≠ none) (hk : all.length < k) {inst : N}
    {st : St V N} {R : List (Nat × V)} (hq : QInv lk f T0 inst st R) (v : V) : ∃ st', queryOne lk f w k inst st v = some st' := by
  have hlen : st.dag.adj.length = st.dag.nodes.length := hq.inv.wf
  have hret : (Adj.addNode st.dag [inst]).2 = st.dag.adj.length := hlen.symm
  have hk0 := K.init hq
  obtain ⟨s, hs⟩ := link_total hall hw hk rfl hq.inv (lk.nbrs v ++ [v]) _ _ _ hk0
  obtain ⟨es, hK⟩ := links_ok (Params.trivial lk f) rfl hq.inv _ _ _ _ _ hk0 hs
  have hd : ∃ d, Adj.dedupOutEdges natLt s.dag st.dag.adj.length = some d := by
    unfold Adj.dedupOutEdges
    rw [hK.adj]
    exact ⟨_, rfl⟩
  obtain ⟨d, hd⟩ := hd
  have hp : pathsToImpl lk f w k inst st v = some ({ s with dag := d }, st.dag.adj.length) := by
    unfold pathsToImpl
    dsimp only
    rw [hret, hs]
    dsimp only [Option.bind_some]
    rw [hd]; rfl
  obtain ⟨e1, e2, he1, rfl, _⟩ := dedup_some hd
  have hlt := (List.getElem?_eq_some_iff.1 hK.adj).1
  unfold queryOne
  rw [hp]
  dsimp only [Option.bind_some]
  unfold Adj.addRoot
  rw [if_pos (by simpa using hlt)]
  exact ⟨_, rfl⟩

theorem query_total {all : List V} (hall : ∀ v, v ∈ all) {w k : Nat} (hw : ∀ v, walk lk f w v ≠ none) (hk : all.length < k) (inst : N) :
    ∀ (vs : List V) (st : St V N) (R : List (Nat × V)), QInv lk f T0 inst st R → ∃ st', vs.foldlM (queryOne lk f w k inst) st = some st' := by
  intro vs
  induction vs with
  | nil => intro st R _; exact ⟨_, rfl⟩
  | cons v vs ih =>
    intro st R hq
    obtain ⟨s, hs⟩ := queryOne_total hall hw hk hq v
    obtain ⟨s', hs'⟩ := ih s _ (queryOne_ok (Params.trivial lk f) hq hs).1
    exact ⟨s', by rw [List.foldlM_cons, hs]; exact hs'⟩

/-! ## The loop ends -/

theorem walk_succ : ∀ {w : Nat} {v : V} {r : List N × Stop V}, walk lk f w v = some r → walk lk f (w + 1) v = some r := by
  intro w
  induction w with
  | zero => intro v r h; cases h
  | succ w ih =>
    intro v r h
    unfold walk at h ⊢
    cases hp : lk.pred v with
    | none => rw [hp] at h; exact h
    | some x =>
      rw [hp] at h
      dsimp only at h ⊢
      split at h
      · rename_i hc; rw [if_pos hc]; exact h
      · rename_i hc; rw [if_neg hc]
        obtain ⟨r', hr', he⟩ := Option.map_eq_some_iff.1 h
        rw [ih hr']; exact congrArg some he

theorem walk_le {w w' : Nat} (h : w ≤ w') {v : V} {r : List N × Stop V} (hr : walk lk f w v = some r) : walk lk f w' v = some r := by
  induction h with
  | refl => exact hr
  | step _ ih => exact walk_succ ih

theorem walk_acc {v : V} (h : Acc (fun x v => lk.pred v = some x ∧ lk.nbrs x = []) v) : ∃ w, walk lk f w v ≠ none := by
  induction h with
  | intro v _ ih =>
    cases hp : lk.pred v with
    | none => exact ⟨1, by unfold walk; rw [hp]; nofun⟩
    | some x =>
      by_cases hn : lk.nbrs x = []
      · obtain ⟨w, hw⟩ := ih x ⟨hp, hn⟩
        refine ⟨w + 1, ?_⟩
        unfold walk
        rw [hp]
        dsimp only
        split
        · nofun
        · obtain ⟨r, hr⟩ := Option.ne_none_iff_exists'.1 hw
          rw [hr]; nofun
      · refine ⟨1, ?_⟩
        unfold walk
        rw [hp]
        dsimp only
        rw [if_pos]
        · nofun
        · have : (lk.nbrs x).isEmpty = false := by simpa using hn
          simp [this]

theorem walk_bound (h : ∀ v : V, ∃ w, walk lk f w v ≠ none) : ∀ (all : List V), ∃ w, ∀ v ∈ all, walk lk f w v ≠ none := by
  intro all
  induction all with
  | nil => exact ⟨0, by nofun⟩
  | cons v all ih =>
    obtain ⟨w, hw⟩ := ih
    obtain ⟨w', hw'⟩ := h v
    obtain ⟨r', hr'⟩ := Option.ne_none_iff_exists'.1 hw'
    refine ⟨max w w', fun u hu => ?_⟩
    rcases List.mem_cons.1 hu with rfl | hu
    · rw [walk_le (Nat.le_max_right _ _) hr']; nofun
    · obtain ⟨r, hr⟩ := Option.ne_none_iff_exists'.1 (hw u hu)
      rw [walk_le (Nat.le_max_left _ _) hr]; nofun

/-- Inside a set of nodes whose predecessors have no neighbours the loop does not end. -/
theorem walk_loops {S : V → Prop} (hS : ∀ v, S v → ∃ x, lk.pred v = some x ∧ lk.nbrs x = [] ∧ f.Passes v x ∧ S x) :
    ∀ (w : Nat) (v : V), S v → walk lk f w v = none := by
  intro w
  induction w with
  | zero => intro v _; rfl
  | succ w ih =>
    intro v hv
    obtain ⟨x, h1, h2, h3, h4⟩ := hS v hv
    unfold walk
    rw [h1]
    dsimp only
    rw [h3.1, h3.2, h2, ih x h4]
    rfl

end Phasar.Dag
