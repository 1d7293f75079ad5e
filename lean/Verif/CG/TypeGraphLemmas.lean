import Verif.CG.TypeGraph

/-!
# Lemmas about type graphs
-/

namespace Phasar.TypeGraph

theorem Reach.trans {α : Type} {R : α → α → Prop} {a b c : α} (h : Reach R a b) (h' : Reach R b c) : Reach R a c := by
  induction h' with
  | refl => exact h
  | step _ hr ih => exact .step ih hr

theorem Reach.head {α : Type} {R : α → α → Prop} {a b c : α} (h : R a b) (h' : Reach R b c) : Reach R a c :=
  Reach.trans (.step .refl h) h'

theorem Reach.mono {α : Type} {R S : α → α → Prop} (hs : ∀ a b, R a b → S a b) {a b : α} (h : Reach R a b) : Reach S a b := by
  induction h with
  | refl => exact .refl
  | step _ hr ih => exact .step ih (hs _ _ hr)

theorem Reach.flip {α : Type} {R : α → α → Prop} {a b : α} (h : Reach R a b) : Reach (fun x y => R y x) b a := by
  induction h with
  | refl => exact .refl
  | step _ hr ih => exact Reach.head hr ih

theorem Reach.map {α β : Type} {R : α → α → Prop} {S : β → β → Prop} (f : α → β) (hs : ∀ a b, R a b → S (f a) (f b)) {a b : α}
    (h : Reach R a b) : Reach S (f a) (f b) := by
  induction h with
  | refl => exact .refl
  | step _ hr ih => exact .step ih (hs _ _ hr)

/-! ## Depth-first search -/

/-- The number of white vertices. -/
def white (n : Nat) (vis : List Nat) : Nat := ((List.range n).filter fun v => decide (v ∉ vis)).length

theorem length_filter_le {α : Type} (p q : α → Bool) (l : List α) (h : ∀ a ∈ l, p a = true → q a = true) :
    (l.filter p).length ≤ (l.filter q).length := by
  induction l with
  | nil => simp
  | cons a l ih =>
    have ih := ih fun b hb => h b (List.mem_cons_of_mem _ hb)
    have ha := h a List.mem_cons_self
    cases hp : p a <;> cases hq : q a <;> simp_all
    omega

theorem length_filter_lt {α : Type} (p q : α → Bool) (l : List α) (h : ∀ a ∈ l, p a = true → q a = true) {a : α} (ha : a ∈ l)
    (hq : q a = true) (hp : p a = false) : (l.filter p).length < (l.filter q).length := by
  induction l with
  | nil => cases ha
  | cons b l ih =>
    have hle := length_filter_le p q l fun b hb => h b (List.mem_cons_of_mem _ hb)
    rcases List.mem_cons.mp ha with rfl | hm
    · simp only [List.filter_cons, hp, hq]
      simp; omega
    · have := ih (fun b hb => h b (List.mem_cons_of_mem _ hb)) hm
      have hb := h b List.mem_cons_self
      cases hp : p b <;> cases hq : q b <;> simp_all
      omega

theorem white_mono {n : Nat} {vis vis' : List Nat} (h : ∀ v ∈ vis, v ∈ vis') : white n vis' ≤ white n vis := by
  unfold white
  apply length_filter_le
  intro a _ ha
  simp only [decide_eq_true_eq] at ha ⊢
  exact fun hv => ha (h _ hv)

theorem white_lt {n v : Nat} {vis : List Nat} (hv : v < n) (hn : v ∉ vis) : white n (v :: vis) < white n vis := by
  unfold white
  apply length_filter_lt _ _ _ _ (List.mem_range.mpr hv)
  · simpa using hn
  · simp
  · intro a _ ha
    simp only [decide_eq_true_eq] at ha ⊢
    exact fun hm => ha (List.mem_cons_of_mem _ hm)

theorem white_le (n : Nat) (vis : List Nat) : white n vis ≤ n := by
  unfold white
  exact Nat.le_trans (List.length_filter_le _ _) (by simp)

section DFS

variable {σ : Type} {succ : Nat → List Nat} {ex fin : Nat → Nat → σ → σ} {n : Nat}

/-- What a search guarantees; `Pre w` holds once `w` may be visited, `Post w u` once the edge has been finished. -/
structure Rules (succ : Nat → List Nat) (ex fin : Nat → Nat → σ → σ) (n : Nat) (I : σ → Prop) (Pre : Nat → σ → Prop)
    (Post : Nat → Nat → σ → Prop) : Prop where
  bound : ∀ v, ∀ u ∈ succ v, u < n
  iex : ∀ v u s, u ∈ succ v → I s → Pre v s → I (ex v u s)
  ifin : ∀ v u s, u ∈ succ v → I s → Pre v s → I (fin v u s)
  prex : ∀ w v u s, Pre w s → Pre w (ex v u s)
  prefin : ∀ w v u s, Pre w s → Pre w (fin v u s)
  ready : ∀ v u s, u ∈ succ v → I s → Pre v s → Pre u (ex v u s)
  postex : ∀ w x v u s, Post w x s → Post w x (ex v u s)
  postfin : ∀ w x v u s, Post w x s → Post w x (fin v u s)
  now : ∀ v u s, u ∈ succ v → I s → Pre v s → Post v u (fin v u s)

/-- What has happened between two states of a search from a vertex. -/
structure Did (succ : Nat → List Nat) (I : σ → Prop) (Pre : Nat → σ → Prop) (Post : Nat → Nat → σ → Prop) (v : Nat)
    (s s' : List Nat × σ) : Prop where
  inv : I s'.2
  sub : ∀ w ∈ s.1, w ∈ s'.1
  pre : ∀ w, Pre w s.2 → Pre w s'.2
  post : ∀ w u, Post w u s.2 → Post w u s'.2
  new : ∀ w ∈ s'.1, w ∈ s.1 ∨ (Pre w s'.2 ∧ Reach (fun a b => b ∈ succ a) v w ∧ ∀ u ∈ succ w, u ∈ s'.1 ∧ Post w u s'.2)

variable {I : σ → Prop} {Pre : Nat → σ → Prop} {Post : Nat → Nat → σ → Prop}

theorem dfs_did (R : Rules succ ex fin n I Pre Post) : ∀ (f v : Nat) (s : List Nat × σ), v < n → v ∉ s.1 → white n s.1 ≤ f → I s.2 →
    Pre v s.2 → Did succ I Pre Post v s (dfs succ ex fin f v s) ∧ v ∈ (dfs succ ex fin f v s).1 := by
  intro f
  induction f with
  | zero =>
    intro v s hv hn hw
    have := white_lt hv hn
    omega
  | succ f ih =>
    intro v s hv hn hw hI hP
    have hlt := white_lt hv hn
    -- the edges, one after the other
    have key : ∀ (l : List Nat) (t : List Nat × σ), (∀ u ∈ l, u ∈ succ v) → v ∈ t.1 → white n t.1 ≤ f → I t.2 → Pre v t.2 →
        Did succ I Pre Post v t (l.foldl (fun s u =>
          let s1 := (s.1, ex v u s.2)
          let s2 := if u ∈ s1.1 then s1 else dfs succ ex fin f u s1
          (s2.1, fin v u s2.2)) t) ∧
        ∀ u ∈ l, u ∈ (l.foldl (fun s u =>
          let s1 := (s.1, ex v u s.2)
          let s2 := if u ∈ s1.1 then s1 else dfs succ ex fin f u s1
          (s2.1, fin v u s2.2)) t).1 ∧ Post v u (l.foldl (fun s u =>
          let s1 := (s.1, ex v u s.2)
          let s2 := if u ∈ s1.1 then s1 else dfs succ ex fin f u s1
          (s2.1, fin v u s2.2)) t).2 := by
      intro l
      induction l with
      | nil =>
        intro t _ _ _ hI _
        exact ⟨⟨hI, fun _ h => h, fun _ h => h, fun _ _ h => h, fun w hw => .inl hw⟩, (fun u hu => by cases hu)⟩
      | cons u l ihl =>
        intro t hl hvt hwt hI hP
        have hu : u ∈ succ v := hl u List.mem_cons_self
        have hub := R.bound v u hu
        -- after the edge `u`
        obtain ⟨t', ht'⟩ : ∃ t', t' = (if u ∈ t.1 then (t.1, ex v u t.2) else dfs succ ex fin f u (t.1, ex v u t.2)) := ⟨_, rfl⟩
        have hD : Did succ I Pre Post v (t.1, ex v u t.2) t' ∧ u ∈ t'.1 := by
          have hI1 := R.iex v u t.2 hu hI hP
          by_cases hm : u ∈ t.1
          · rw [if_pos hm] at ht'
            subst ht'
            exact ⟨⟨hI1, fun _ h => h, fun _ h => h, fun _ _ h => h, fun w hw => .inl hw⟩, hm⟩
          · rw [if_neg hm] at ht'
            have := ih u (t.1, ex v u t.2) hub hm hwt hI1 (R.ready v u t.2 hu hI hP)
            rw [← ht'] at this
            refine ⟨⟨this.1.inv, this.1.sub, this.1.pre, this.1.post, fun w hw => ?_⟩, this.2⟩
            rcases this.1.new w hw with h | ⟨h1, h2, h3⟩
            · exact .inl h
            · exact .inr ⟨h1, Reach.head hu h2, h3⟩
        obtain ⟨D, hut⟩ := hD
        have hP' : Pre v t'.2 := D.pre v (R.prex v v u t.2 hP)
        have hstep : (List.foldl (fun s u =>
            let s1 := (s.1, ex v u s.2)
            let s2 := if u ∈ s1.1 then s1 else dfs succ ex fin f u s1
            (s2.1, fin v u s2.2)) t (u :: l)) = List.foldl (fun s u =>
            let s1 := (s.1, ex v u s.2)
            let s2 := if u ∈ s1.1 then s1 else dfs succ ex fin f u s1
            (s2.1, fin v u s2.2)) (t'.1, fin v u t'.2) l := by
          rw [List.foldl_cons, ht']
        rw [hstep]
        obtain ⟨E, hE⟩ := ihl (t'.1, fin v u t'.2) (fun w hw => hl w (List.mem_cons_of_mem _ hw)) (D.sub v hvt)
          (Nat.le_trans (white_mono D.sub) hwt) (R.ifin v u t'.2 hu D.inv hP') (R.prefin v v u t'.2 hP')
        have hnow := R.now v u t'.2 hu D.inv hP'
        refine ⟨⟨E.inv, fun w hw => E.sub w (D.sub w hw), fun w hw => E.pre w (R.prefin _ _ _ _ (D.pre w (R.prex _ _ _ _ hw))),
          fun w x hw => E.post w x (R.postfin _ _ _ _ _ (D.post w x (R.postex _ _ _ _ _ hw))), fun w hw => ?_⟩, ?_⟩
        · rcases E.new w hw with h | h
          · rcases D.new w h with h | ⟨h1, h2, h3⟩
            · exact .inl h
            · refine .inr ⟨E.pre w (R.prefin _ _ _ _ h1), h2, fun x hx => ?_⟩
              exact ⟨E.sub _ (h3 x hx).1, E.post _ _ (R.postfin _ _ _ _ _ (h3 x hx).2)⟩
          · exact .inr h
        · intro x hx
          rcases List.mem_cons.mp hx with rfl | hx
          · exact ⟨E.sub _ hut, E.post _ _ hnow⟩
          · exact hE x hx
    have hk := key (succ v) (v :: s.1, s.2) (fun _ h => h) List.mem_cons_self
      (show white n (v :: s.1) ≤ f by omega) hI hP
    have hd : dfs succ ex fin (f + 1) v s = (succ v).foldl (fun s u =>
            let s1 := (s.1, ex v u s.2)
            let s2 := if u ∈ s1.1 then s1 else dfs succ ex fin f u s1
            (s2.1, fin v u s2.2)) (v :: s.1, s.2) := rfl
    rw [hd]
    obtain ⟨E, hE⟩ := hk
    refine ⟨⟨E.inv, fun w hw => E.sub w (List.mem_cons_of_mem _ hw), E.pre, E.post, fun w hw => ?_⟩, E.sub v List.mem_cons_self⟩
    rcases E.new w hw with h | h
    · rcases List.mem_cons.mp h with rfl | h
      · exact .inr ⟨E.pre _ hP, .refl, hE⟩
      · exact .inl h
    · exact .inr h

/-- A search from a vertex visits what can be reached from it. -/
theorem dfs_visits (R : Rules succ ex fin n I Pre Post) {v : Nat} {s : σ} (hv : v < n) (hI : I s) (hP : Pre v s) :
    let r := dfs succ ex fin n v ([], s)
    I r.2 ∧ (∀ w, Pre w s → Pre w r.2) ∧ (∀ w u, Post w u s → Post w u r.2) ∧
    ∀ w, Reach (fun a b => b ∈ succ a) v w → Pre w r.2 ∧ ∀ u ∈ succ w, Post w u r.2 := by
  intro r
  obtain ⟨D, hvr⟩ := dfs_did R n v ([], s) hv (by simp) (white_le _ _) hI hP
  refine ⟨D.inv, D.pre, D.post, ?_⟩
  have hall : ∀ w, Reach (fun a b => b ∈ succ a) v w → w ∈ r.1 := by
    intro w hw
    induction hw with
    | refl => exact hvr
    | step _ hr ih =>
      rcases D.new _ ih with h | ⟨_, _, h⟩
      · cases h
      · exact (h _ hr).1
  intro w hw
  rcases D.new _ (hall w hw) with h | ⟨h1, _, h⟩
  · cases h
  · exact ⟨h1, fun u hu => (h u hu).2⟩

end DFS

/-! ## Sets of types -/

theorem mem_ins {l : List SType} {t x : SType} : x ∈ ins l t ↔ x ∈ l ∨ x = t := by
  unfold ins
  split
  · constructor
    · exact .inl
    · rintro (h | rfl)
      · exact h
      · assumption
  · simp

theorem mem_foldl_ins {m l : List SType} {x : SType} : x ∈ m.foldl ins l ↔ x ∈ l ∨ x ∈ m := by
  induction m generalizing l with
  | nil => simp
  | cons a m ih => rw [List.foldl_cons, ih, mem_ins]; simp only [List.mem_cons]; grind

theorem length_addTypes {a b : Nat} {vs : List Vtx} : (addTypes a b vs).length = vs.length := by
  unfold addTypes; simp

theorem mem_addTypes {a b v : Nat} {vs : List Vtx} {x : SType} (hb : b < vs.length) :
    x ∈ types (addTypes a b vs) v ↔ x ∈ types vs v ∨ (v = b ∧ x ∈ types vs a) := by
  unfold addTypes
  conv => lhs; unfold types
  rw [List.getElem?_modify]
  by_cases hv : b = v
  · subst hv
    rw [List.getElem?_eq_getElem hb]
    simp only [if_true]
    show x ∈ (types vs a).foldl ins vs[b].types ↔ _
    rw [mem_foldl_ins]
    have : types vs b = vs[b].types := by simp [types, List.getElem?_eq_getElem hb]
    rw [this]
    simp
  · have hv' : ¬ v = b := fun h => hv h.symm
    simp only [hv, hv', if_false, false_and, or_false]
    unfold types
    cases vs[v]? <;> simp

theorem base_addTypes {a b v : Nat} {vs : List Vtx} : ((addTypes a b vs)[v]?).map Vtx.base = (vs[v]?).map Vtx.base := by
  unfold addTypes
  rw [List.getElem?_modify]
  cases vs[v]? with
  | none => simp
  | some x => by_cases h : b = v <;> simp [h]

end Phasar.TypeGraph
