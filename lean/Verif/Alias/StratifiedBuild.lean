import Verif.Alias.StratifiedRun

/-! # Lemmas about the builder of stratified sets: the result -/
namespace Phasar.Stratified
open CFLAnders (Attr Node)

variable {b : Builder} {cs : List (List Nat)} {lk lk' : Nat → Link}

theorem top_ok : ∀ (k : Nat) {u d : List Nat} {i : Nat}, Seg lk none (u ++ i :: d) none → u.length ≤ k →
    top lk k i = (u ++ [i]).head? := by
  intro k
  induction k with
  | zero =>
    intro u d i hs hk
    cases u with
    | nil => unfold top; rw [hs.above]; rfl
    | cons z u => simp at hk
  | succ k ih =>
    intro u d i hs hk
    have ha := hs.above
    rw [Option.or_none] at ha
    rcases List.eq_nil_or_concat u with rfl | ⟨u, z, rfl⟩
    · unfold top; rw [ha]; rfl
    · unfold top
      simp only [List.concat_eq_append, getLast?_append_cons] at ha
      simp only [ha]
      have e : u.concat z ++ i :: d = u ++ z :: i :: d := by simp
      rw [e] at hs
      rw [ih hs (by simp at hk; omega)]
      cases u <;> simp

theorem pushDown_ok : ∀ (k : Nat) {d : List Nat} {t : Nat} {lk : Nat → Link} {q : Option Nat}, Seg lk q (t :: d) none → (t :: d).Nodup →
    d.length < k → ∃ lk', pushDown k lk t = some lk' ∧
      (∀ j, (lk' j).above = (lk j).above ∧ (lk' j).below = (lk j).below ∧ (lk' j).remap = (lk j).remap) ∧ (∀ j, j ∉ d → lk' j = lk j) ∧
      ∀ u s w, d = u ++ s :: w → ∀ p, Hom p → (p (lk' s).attrs = true ↔ ∃ r ∈ t :: (u ++ [s]), p (lk r).attrs = true) := by
  intro k
  induction k with
  | zero => intro d t lk q _ _ h; omega
  | succ k ih =>
    intro d t lk q hs hn hk
    cases d with
    | nil =>
      refine ⟨lk, ?_, fun j => ⟨rfl, rfl, rfl⟩, fun _ _ => rfl, fun u s w h => ?_⟩
      · unfold pushDown; rw [hs.2.1]; rfl
      · simp at h
    | cons z d =>
      obtain ⟨lk1, hlk1⟩ : ∃ lk1 : Nat → Link, lk1 = fun m => if m = z then (lk z).more (lk t).attrs else lk m := ⟨_, rfl⟩
      have hl : ∀ j, (lk1 j).above = (lk j).above ∧ (lk1 j).below = (lk j).below ∧ (lk1 j).remap = (lk j).remap := by
        intro j
        rw [hlk1]
        dsimp only
        split
        · rename_i h; rw [h]; exact ⟨rfl, rfl, rfl⟩
        · exact ⟨rfl, rfl, rfl⟩
      have hn' := List.nodup_cons.1 hn
      have hn'' := List.nodup_cons.1 hn'.2
      have hs1 : Seg lk1 (some t) (z :: d) none := hs.2.2.congr fun j _ => ⟨(hl j).1, (hl j).2.1⟩
      obtain ⟨lk', h1, h2, h3, h4⟩ := ih hs1 hn'.2 (by simp at hk; omega)
      refine ⟨lk', ?_, fun j => ?_, fun j hj => ?_, fun u s w he p hp => ?_⟩
      · unfold pushDown
        rw [hs.2.1]
        subst hlk1
        exact h1
      · obtain ⟨a1, a2, a3⟩ := h2 j
        obtain ⟨c1, c2, c3⟩ := hl j
        exact ⟨a1.trans c1, a2.trans c2, a3.trans c3⟩
      · rw [h3 j (fun h => hj (.tail _ h)), hlk1]
        dsimp only
        rw [if_neg (fun (e : j = z) => hj (e ▸ .head _))]
      · have hz : p (lk1 z).attrs = true ↔ p (lk z).attrs = true ∨ p (lk t).attrs = true := by
          rw [hlk1]
          dsimp only
          rw [if_pos rfl]
          show p ((lk z).attrs.or (lk t).attrs) = true ↔ _
          rw [hp.or, Bool.or_eq_true]
        cases u with
        | nil =>
          cases he
          rw [h3 _ hn''.1, hz]
          simp only [List.nil_append, List.mem_cons, List.not_mem_nil, or_false]
          constructor
          · rintro (h | h)
            · exact ⟨_, .inr rfl, h⟩
            · exact ⟨_, .inl rfl, h⟩
          · rintro ⟨r, rfl | rfl, h⟩
            · exact .inr h
            · exact .inl h
        | cons z' u =>
          simp only [List.cons_append, List.cons.injEq] at he
          obtain ⟨rfl, rfl⟩ := he
          rw [h4 u s w rfl p hp]
          have hne : ∀ r ∈ u ++ [s], lk1 r = lk r := by
            intro r hr
            rw [hlk1]
            dsimp only
            rw [if_neg]
            rintro rfl
            apply hn''.1
            simp only [List.mem_append, List.mem_singleton] at hr
            rcases hr with h | h <;> simp [h]
          simp only [List.cons_append, List.mem_cons]
          constructor
          · rintro ⟨r, rfl | h5, h6⟩
            · rcases hz.1 h6 with h | h
              · exact ⟨_, .inr (.inl rfl), h⟩
              · exact ⟨_, .inl rfl, h⟩
            · exact ⟨r, .inr (.inr h5), by rw [← hne r h5]; exact h6⟩
          · rintro ⟨r, rfl | rfl | h5, h6⟩
            · exact ⟨z, .inl rfl, hz.2 (.inr h6)⟩
            · exact ⟨r, .inl rfl, hz.2 (.inl h6)⟩
            · exact ⟨r, .inr h5, by rw [hne r h5]; exact h6⟩

/-- The state of `propagateAttrs`. -/
structure Pushed (b : Builder) (cs : List (List Nat)) (lk : Nat → Link) (seen : List Nat) : Prop where
  same : ∀ j, (lk j).above = (b.links j).above ∧ (lk j).below = (b.links j).below ∧ (lk j).remap = (b.links j).remap
  todo : ∀ t d, t :: d ∈ cs → t ∉ seen → ∀ j ∈ t :: d, lk j = b.links j
  did : ∀ t d, t :: d ∈ cs → t ∈ seen → ∀ u s w, t :: d = u ++ s :: w → ∀ p, Hom p →
    (p (lk s).attrs = true ↔ ∃ r ∈ u ++ [s], p (b.links r).attrs = true)

theorem chains_disj (hr : Rep b cs) {c c' : List Nat} (hc : c ∈ cs) (hc' : c' ∈ cs) {j : Nat} (hj : j ∈ c) (hj' : j ∈ c') : c = c' := by
  apply Classical.byContradiction
  intro hne
  have hp : cs.Perm (c :: c' :: (cs.erase c).erase c') :=
    (List.perm_cons_erase hc).trans (.cons _ (List.perm_cons_erase ((List.mem_erase_of_ne (Ne.symm hne)).2 hc')))
  have := (hr.perm hp).base.nodup
  simp only [List.flatten_cons] at this
  exact (List.nodup_append.1 this).2.2 j hj j (by simp [hj']) rfl

theorem chain_len (hr : Rep b cs) {c : List Nat} (hc : c ∈ cs) : c.length ≤ b.n ∧ c.Nodup := by
  have hr' := hr.perm (List.perm_cons_erase hc)
  have h1 := hr'.base.len
  have h2 := hr'.base.nodup
  simp only [List.flatten_cons, List.length_append] at h1 h2
  exact ⟨by omega, (List.nodup_append.1 h2).1⟩

theorem propagateOne_ok (hr : Rep b cs) {seen : List Nat} (h : Pushed b cs lk seen) {i : Nat} (hi : Root b i) :
    ∃ lk' seen', propagateOne b.n (lk, seen) i = some (lk', seen') ∧ Pushed b cs lk' seen' ∧ (∀ t ∈ seen, t ∈ seen') ∧
      ∃ t d, t :: d ∈ cs ∧ i ∈ t :: d ∧ t ∈ seen' := by
  obtain ⟨c, hc, hic⟩ := hr.chain hi
  obtain ⟨hlen, hnd⟩ := chain_len hr hc
  have hseg : Seg lk none c none := (hr.seg c hc).congr fun j _ => ⟨(h.same j).1, (h.same j).2.1⟩
  obtain ⟨u, w, rfl⟩ := List.append_of_mem hic
  have ht := top_ok b.n hseg (by simp at hlen; omega)
  obtain ⟨t, d, htd⟩ : ∃ t d, u ++ i :: w = t :: d := by cases u <;> exact ⟨_, _, rfl⟩
  have ht' : top lk b.n i = some t := by
    rw [ht]
    cases u <;> (simp only [List.nil_append, List.cons_append, List.cons.injEq] at htd; simp [htd.1])
  rw [htd] at hc hic hlen hnd hseg
  by_cases hs : t ∈ seen
  · exact ⟨lk, seen, by simp [propagateOne, ht', hs], h, fun _ h => h, t, d, hc, hic, hs⟩
  · obtain ⟨lk', h1, h2, h3, h4⟩ := pushDown_ok (b.n + 1) hseg hnd (by simp at hlen; omega)
    refine ⟨lk', seen ++ [t], ?_, ⟨fun j => ?_, fun t' d' hc' hs' j hj => ?_, fun t' d' hc' hs' u' s w' he p hp => ?_⟩,
      fun t h => by simp [h], t, d, hc, hic, by simp⟩
    · simp only [propagateOne, ht', Option.bind_eq_bind, Option.bind_some, if_neg hs, h1]
    · obtain ⟨a1, a2, a3⟩ := h2 j
      obtain ⟨c1, c2, c3⟩ := h.same j
      exact ⟨a1.trans c1, a2.trans c2, a3.trans c3⟩
    · simp only [List.mem_append, List.mem_singleton, not_or] at hs'
      have hj' : j ∉ d := fun hj' => by
        have := chains_disj hr hc' hc hj (.tail _ hj')
        exact hs'.2 (List.cons.inj this).1
      rw [h3 j hj']
      exact h.todo t' d' hc' hs'.1 j hj
    · simp only [List.mem_append, List.mem_singleton] at hs'
      by_cases he' : t' = t
      · subst he'
        have e1 : d' = d := (List.cons.inj (chains_disj hr hc' hc (.head _) (.head _))).2
        subst e1
        have hb := h.todo t' d' hc hs
        cases u' with
        | nil =>
          simp only [List.nil_append, List.cons.injEq] at he
          obtain ⟨rfl, rfl⟩ := he
          rw [h3 _ (List.nodup_cons.1 hnd).1, hb _ (.head _)]
          simp
        | cons z u' =>
          simp only [List.cons_append, List.cons.injEq] at he
          obtain ⟨rfl, rfl⟩ := he
          rw [h4 u' s w' rfl p hp]
          constructor
          · rintro ⟨r, h5, h6⟩
            refine ⟨r, h5, ?_⟩
            rw [hb r (by simp only [List.mem_cons, List.mem_append, List.not_mem_nil, or_false] at h5 ⊢; rcases h5 with h5 | h5 | h5 <;> simp [h5])] at h6
            exact h6
          · rintro ⟨r, h5, h6⟩
            refine ⟨r, h5, ?_⟩
            rw [hb r (by simp only [List.cons_append, List.mem_cons, List.mem_append, List.not_mem_nil, or_false] at h5 ⊢; rcases h5 with h5 | h5 | h5 <;> simp [h5])]
            exact h6
      · have hs'' : t' ∈ seen := hs'.resolve_right he'
        have hsd : s ∉ d := fun hsd => by
          have := chains_disj hr hc' hc (j := s) (by rw [he]; simp) (.tail _ hsd)
          exact he' (List.cons.inj this).1
        rw [h3 s hsd]
        exact h.did t' d' hc' hs'' u' s w' he p hp

theorem linked_ok (hr : Rep b cs) {i : Nat} (hi : Root b i) {j : Nat} (hj : (b.links i).above = some j ∨ (b.links i).below = some j) :
    b.linksAt j = some j := by
  obtain ⟨c, hc, hic⟩ := hr.chain hi
  have hjc : j ∈ c := by
    rcases hj with h | h
    · exact ((hr.seg c hc).of_above hic h).mem.1
    · exact ((hr.seg c hc).of_below hic h).mem.2
  exact hr.base.linksAt_root ((hr.base.roots j).1 (List.mem_flatten.2 ⟨c, hc, hjc⟩))

theorem build_ok (hr : Rep b cs) : ∃ s, b.build = some s ∧ s.n = b.n ∧
    (∀ v r, s.values v = some r ↔ InSet b v r) ∧
    (∀ j, (s.links j).above = (b.links j).above ∧ (s.links j).below = (b.links j).below ∧ (s.links j).remap = (b.links j).remap) ∧
    ∀ c ∈ cs, ∀ u i w, c = u ++ i :: w → ∀ p, Hom p → (p (s.links i).attrs = true ↔ ∃ r ∈ u ++ [i], p (b.links r).attrs = true) := by
  have fold : ∀ (L : List Nat) (lk : Nat → Link) (seen : List Nat), (∀ i ∈ L, Root b i) → Pushed b cs lk seen →
      ∃ lk' seen', L.foldlM (propagateOne b.n) (lk, seen) = some (lk', seen') ∧ Pushed b cs lk' seen' ∧ (∀ t ∈ seen, t ∈ seen') ∧
        ∀ i ∈ L, ∃ t d, t :: d ∈ cs ∧ i ∈ t :: d ∧ t ∈ seen' := by
    intro L
    induction L with
    | nil => intro lk seen _ h; exact ⟨lk, seen, rfl, h, fun _ h => h, fun _ h => (nomatch h)⟩
    | cons i L ih =>
      intro lk seen hL h
      obtain ⟨lk1, seen1, e1, e2, e3, t, d, e4, e5, e6⟩ := propagateOne_ok hr h (hL i (.head _))
      obtain ⟨lk2, seen2, f1, f2, f3, f4⟩ := ih lk1 seen1 (fun i hi => hL i (.tail _ hi)) e2
      refine ⟨lk2, seen2, by rw [List.foldlM_cons, e1]; exact f1, f2, fun t h => f3 t (e3 t h), fun j hj => ?_⟩
      rcases List.mem_cons.1 hj with rfl | hj
      · exact ⟨t, d, e4, e5, f3 t e6⟩
      · exact f4 j hj
  have hroots : ∀ i, i ∈ b.live ↔ Root b i := by
    intro i
    simp [Root, Builder.live]
  have hlinked : b.linked = true := by
    refine List.all_eq_true.2 fun i hi => ?_
    have hi := (hroots i).1 hi
    rw [Bool.and_eq_true]
    refine ⟨?_, ?_⟩
    · cases h : (b.links i).above with
      | none => rfl
      | some j => simp [linked_ok hr hi (.inl h)]
    · cases h : (b.links i).below with
      | none => rfl
      | some j => simp [linked_ok hr hi (.inr h)]
  have hre : b.relink = b.links := by
    funext i
    unfold Builder.relink
    split
    · rename_i h
      rw [Bool.and_eq_true, decide_eq_true_eq, Option.isNone_iff_eq_none] at h
      have hi : Root b i := h
      have h1 : (b.links i).above.bind b.linksAt = (b.links i).above := by
        cases h : (b.links i).above with
        | none => rfl
        | some j => exact linked_ok hr hi (.inl h)
      have h2 : (b.links i).below.bind b.linksAt = (b.links i).below := by
        cases h : (b.links i).below with
        | none => rfl
        | some j => exact linked_ok hr hi (.inr h)
      rw [h1, h2]
    · rfl
  obtain ⟨lk', seen', e1, e2, _, e4⟩ := fold _ b.links [] (fun i hi => (hroots i).1 hi)
    ⟨fun _ => ⟨rfl, rfl, rfl⟩, fun _ _ _ _ _ _ => rfl, fun _ _ _ h => (nomatch h)⟩
  refine ⟨{ values := fun v => (b.values v).bind b.linksAt, links := lk', n := b.n }, ?_, rfl, fun v r => ?_, e2.same, fun c hc u i w he p hp => ?_⟩
  · simp only [Builder.build, hlinked, if_true, hre, e1, Option.bind_eq_bind, Option.bind_some]
  · show (b.values v).bind b.linksAt = some r ↔ _
    rw [Option.bind_eq_some_iff]
    constructor
    · rintro ⟨k, h1, h2⟩
      exact ⟨k, h1, _, h2⟩
    · rintro ⟨k, h1, h2⟩
      exact ⟨k, h1, hr.base.linksAt h2⟩
  · have hi : Root b i := (hr.base.roots i).1 (List.mem_flatten.2 ⟨c, hc, by rw [he]; simp⟩)
    obtain ⟨t, d, h1, h2, h3⟩ := e4 i ((hroots i).2 hi)
    have hce := chains_disj hr hc h1 (by rw [he]; simp) h2
    exact e2.did t d h1 h3 u i w (hce ▸ he) p hp

end Phasar.Stratified
